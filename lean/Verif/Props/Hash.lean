import Verif.Model.Hash
import Verif.Props.SampleSet
import Verif.Props.Folded

/-!
# Equality and hashing (C49)
-/

set_option linter.unusedSectionVars false

namespace Verif

variable {V X R : Type} [DecidableEq V] [DecidableEq X] [DecidableEq R]

/-- Python's contract between `==` and `hash` for one class of objects: `==` is an equivalence and equal objects have equal
hashes. -/
structure HashContract {K : Type} (eq : K → K → Bool) (hash : K → ℤ) : Prop where
  refl : ∀ a, eq a a = true
  symm : ∀ a b, eq a b = true → eq b a = true
  trans : ∀ a b c, eq a b = true → eq b c = true → eq a c = true
  hash : ∀ a b, eq a b = true → hash a = hash b

/-! ### Components -/

/-- C49, nodes, relations and edges. -/
theorem C49_components (H : Hashes V X R) :
    HashContract (fun a b : Node V X => decide (a.var = b.var ∧ a.val = b.val)) H.node ∧
    HashContract (fun a b : Rel V R => decide (a = b)) H.relation ∧
    HashContract (fun a b : Edge V X R => decide (a.endpoints = b.endpoints ∧ a.relation = b.relation)) H.edge := by
  refine ⟨⟨?_, ?_, ?_, ?_⟩, ⟨?_, ?_, ?_, ?_⟩, ⟨?_, ?_, ?_, ?_⟩⟩ <;> simp only [decide_eq_true_eq]
  · simp
  · exact fun a b h => ⟨h.1.symm, h.2.symm⟩
  · exact fun a b c h h' => ⟨h.1.trans h'.1, h.2.trans h'.2⟩
  · intro a b h; unfold Hashes.node; rw [h.1, h.2]
  · simp
  · exact fun a b h => h.symm
  · exact fun a b c h h' => h.trans h'
  · intro a b h; rw [h]
  · simp
  · exact fun a b h => ⟨h.1.symm, h.2.symm⟩
  · exact fun a b c h h' => ⟨h.1.trans h'.1, h.2.trans h'.2⟩
  · intro a b h; unfold Hashes.edge; rw [h.1, h.2]

/-! ### Samples and sample sets -/

/-- C49, sample graphs. -/
theorem C49_sample_graph (H : Hashes V X R) : HashContract (fun a b : SampleGraph V X R => a.pyEq b) H.graph := by
  refine ⟨?_, ?_, ?_, ?_⟩
  · intro a; simp [SampleGraph.pyEq]
  · intro a b h; simp only [SampleGraph.pyEq, decide_eq_true_eq] at h ⊢; exact h.symm
  · intro a b c h h'; simp only [SampleGraph.pyEq, decide_eq_true_eq] at h h' ⊢; exact h.trans h'
  · intro a b h
    simp only [SampleGraph.pyEq, decide_eq_true_eq] at h
    unfold Hashes.graph; rw [h]

theorem sortPairs_perm (l l' : List (ℤ × ℤ)) (h : l.Perm l') : Hashes.sortPairs l = Hashes.sortPairs l' := by
  unfold Hashes.sortPairs
  congr 1
  exact List.Perm.eq_of_pairwise (fun a b _ _ h1 h2 => le_antisymm h1 h2) (List.pairwise_insertionSort _ _)
    (List.pairwise_insertionSort _ _)
    ((List.perm_insertionSort _ _).trans ((h.map _).trans (List.perm_insertionSort _ _).symm))

/-- C49, sample sets: the order in which the samples were added plays no role. -/
theorem C49_sample_set (H : Hashes V X R) : HashContract (fun a b : Samples V X R => a.pyEq b) H.samples := by
  refine ⟨?_, ?_, ?_, ?_⟩
  · intro a; rw [Samples.pyEq_iff]; exact Dict.Equiv.refl _
  · intro a b; simp only [Samples.pyEq_iff]; exact Dict.Equiv.symm
  · intro a b c; simp only [Samples.pyEq_iff]; exact Dict.Equiv.trans
  · intro a b h
    rw [Samples.pyEq_iff] at h
    unfold Hashes.samples
    rw [sortPairs_perm _ _ (((Dict.equiv_iff_perm _ _).1 h).map _)]

/-- Non-vacuity: two different dictionaries that are equal sample sets. -/
example : let a : Samples ℕ ℕ ℕ := ⟨0, Dict.ofList [(⟨{⟨0, 0⟩}, ∅⟩, 1), (⟨{⟨1, 0⟩}, ∅⟩, 2)]⟩
    let b : Samples ℕ ℕ ℕ := ⟨0, Dict.ofList [(⟨{⟨1, 0⟩}, ∅⟩, 2), (⟨{⟨0, 0⟩}, ∅⟩, 1)]⟩
    a.pyEq b = true ∧ a.samples.entries ≠ b.samples.entries := by decide

/-! ### Nodes and edges of variable graphs -/

/-- When two node objects are equal. -/
def VNode.Same : VNode V X → VNode V X → Prop
  | .plain v, .plain w => v = w
  | .folded f, .folded g => f.var = g.var ∧ f.valueNodes = g.valueNodes
  | .active a, .active b => a.var = b.var ∧ a.values.entries.toFinset = b.values.entries.toFinset ∧ a.inQuery = b.inQuery
  | _, _ => False

/-- When two edge objects are equal. -/
def VEdge.Same : VEdge V X R → VEdge V X R → Prop
  | .plain v, .plain w => v = w
  | .folded f, .folded g => f.endpoints = g.endpoints ∧ f.edges.entries.toFinset = g.edges.entries.toFinset
  | .active a, .active b =>
    a.endpoints = b.endpoints ∧ a.relations.entries.toFinset = b.relations.entries.toFinset ∧ a.inQuery = b.inQuery
  | _, _ => False

theorem VNode.pyEq_iff (a b : VNode V X) : a.pyEq b = true ↔ a.Same b := by
  cases a <;> cases b <;> first | exact decide_eq_true_iff | simp [VNode.pyEq, VNode.subclass, VNode.eqMethod, VNode.Same, and_assoc]

theorem VEdge.pyEq_iff (a b : VEdge V X R) : a.pyEq b = true ↔ a.Same b := by
  cases a <;> cases b <;> first | exact decide_eq_true_iff | simp [VEdge.pyEq, VEdge.subclass, VEdge.eqMethod, VEdge.Same, and_assoc]

/-- C49, nodes of variable graphs: also for comparisons between `VariableNode`, `FoldedNode` and `ActiveNode`. -/
theorem C49_variable_node (H : Hashes V X R) : HashContract (VNode.pyEq (V := V) (X := X)) H.vnode := by
  refine ⟨?_, ?_, ?_, ?_⟩ <;> simp only [VNode.pyEq_iff]
  · rintro (v | f | a) <;> simp [VNode.Same]
  · rintro (v | f | a) (w | g | b) <;> simp only [VNode.Same, imp_self]
    · exact Eq.symm
    · exact fun h => ⟨h.1.symm, h.2.symm⟩
    · exact fun h => ⟨h.1.symm, h.2.1.symm, h.2.2.symm⟩
  · rintro (v | f | a) (w | g | b) (x | i | c) <;> simp only [VNode.Same, imp_self, false_imp_iff, imp_true_iff]
    · exact Eq.trans
    · exact fun h h' => ⟨h.1.trans h'.1, h.2.trans h'.2⟩
    · exact fun h h' => ⟨h.1.trans h'.1, h.2.1.trans h'.2.1, h.2.2.trans h'.2.2⟩
  · rintro (v | f | a) (w | g | b) <;> simp only [VNode.Same, Hashes.vnode, false_imp_iff]
    · exact fun h => by rw [h]
    · exact fun h => by unfold Hashes.foldedNode; rw [h.1, h.2]
    · exact fun h => by unfold Hashes.activeNode; rw [h.1, h.2.1]

/-- C49, edges of variable graphs. -/
theorem C49_variable_edge (H : Hashes V X R) : HashContract (VEdge.pyEq (V := V) (X := X) (R := R)) H.vedge := by
  refine ⟨?_, ?_, ?_, ?_⟩ <;> simp only [VEdge.pyEq_iff]
  · rintro (v | f | a) <;> simp [VEdge.Same]
  · rintro (v | f | a) (w | g | b) <;> simp only [VEdge.Same, imp_self]
    · exact Eq.symm
    · exact fun h => ⟨h.1.symm, h.2.symm⟩
    · exact fun h => ⟨h.1.symm, h.2.1.symm, h.2.2.symm⟩
  · rintro (v | f | a) (w | g | b) (x | i | c) <;> simp only [VEdge.Same, imp_self, false_imp_iff, imp_true_iff]
    · exact Eq.trans
    · exact fun h h' => ⟨h.1.trans h'.1, h.2.trans h'.2⟩
    · exact fun h h' => ⟨h.1.trans h'.1, h.2.1.trans h'.2.1, h.2.2.trans h'.2.2⟩
  · rintro (v | f | a) (w | g | b) <;> simp only [VEdge.Same, Hashes.vedge, false_imp_iff]
    · exact fun h => by rw [h]
    · exact fun h => by unfold Hashes.foldedEdge; rw [h.1, h.2]
    · exact fun h => by unfold Hashes.activeEdge; rw [h.1, h.2.1]

/-- C49: objects of different classes are never equal. -/
theorem C49_classes (f : FoldedNode V X) (a : ActiveNode V X) (v : V) :
    VNode.pyEq (.plain v) (.folded f) = false ∧ VNode.pyEq (.plain v) (.active a) = false ∧
    VNode.pyEq (.folded f) (.active a) = false := by
  simp [VNode.pyEq, VNode.subclass, VNode.eqMethod]

/-- C49: this rests on Python trying the method of the subclass first. The methods themselves, called directly, are not
symmetric. -/
theorem C49_methods_asymmetric (f : FoldedNode V X) :
    VNode.eqMethod (.plain f.var) (.folded f) = true ∧ VNode.eqMethod (.folded f) (.plain f.var) = false := by
  simp [VNode.eqMethod, VNode.var]

/-- C49: the same for active nodes and for edges. -/
theorem C49_methods_asymmetric_all (a : ActiveNode V X) (f : FoldedEdge V X R) (e : ActiveEdge V R) :
    (VNode.eqMethod (.plain a.var) (.active a) = true ∧ VNode.eqMethod (.active a) (.plain a.var) = false) ∧
    (VEdge.eqMethod (.plain f.endpoints : VEdge V X R) (.folded f) = true ∧ VEdge.eqMethod (.folded f) (.plain f.endpoints : VEdge V X R) = false) ∧
    VEdge.eqMethod (.plain e.endpoints : VEdge V X R) (.active e) = true ∧ VEdge.eqMethod (.active e : VEdge V X R) (.plain e.endpoints) = false := by
  simp [VNode.eqMethod, VNode.var, VEdge.eqMethod, VEdge.endpoints]

/-! ### Variable graphs -/

theorem setEq_iff {A : Type} (eq : A → A → Bool) (a b : List A) :
    setEq eq a b = true ↔ (∀ x ∈ a, ∃ y ∈ b, eq x y = true) ∧ (∀ y ∈ b, ∃ x ∈ a, eq y x = true) := by
  simp [setEq, List.all_eq_true, List.any_eq_true]

theorem setEq_equivalence {A : Type} {eq : A → A → Bool} {hash : A → ℤ} (h : HashContract eq hash) :
    (∀ a, setEq eq a a = true) ∧ (∀ a b, setEq eq a b = true → setEq eq b a = true) ∧
    (∀ a b c, setEq eq a b = true → setEq eq b c = true → setEq eq a c = true) := by
  refine ⟨?_, ?_, ?_⟩
  · intro a; rw [setEq_iff]; exact ⟨fun x hx => ⟨x, hx, h.refl x⟩, fun x hx => ⟨x, hx, h.refl x⟩⟩
  · intro a b hab; rw [setEq_iff] at hab ⊢; exact ⟨hab.2, hab.1⟩
  · intro a b c hab hbc
    rw [setEq_iff] at hab hbc ⊢
    refine ⟨fun x hx => ?_, fun x hx => ?_⟩
    · obtain ⟨y, hy, e⟩ := hab.1 x hx
      obtain ⟨z, hz, e'⟩ := hbc.1 y hy
      exact ⟨z, hz, h.trans _ _ _ e e'⟩
    · obtain ⟨y, hy, e⟩ := hbc.2 x hx
      obtain ⟨z, hz, e'⟩ := hab.2 y hy
      exact ⟨z, hz, h.trans _ _ _ e e'⟩

/-- C49: equality of variable graphs is an equivalence, and does not look at the number of outcomes. -/
theorem C49_variables_graph :
    (∀ a : VGraph V X R, a.pyEq a = true) ∧ (∀ a b : VGraph V X R, a.pyEq b = true → b.pyEq a = true) ∧
    (∀ a b c : VGraph V X R, a.pyEq b = true → b.pyEq c = true → a.pyEq c = true) ∧
    (∀ (a : VGraph V X R) (n : ℤ), a.pyEq { a with n := n } = true) := by
  let H : Hashes V X R := ⟨fun _ => 0, fun _ => 0, fun _ => 0, fun _ => 0, fun _ => 0, fun _ => 0, fun _ => 0⟩
  have hn := setEq_equivalence (C49_variable_node H)
  have he := setEq_equivalence (C49_variable_edge H)
  simp only [VGraph.pyEq, Bool.and_eq_true]
  exact ⟨fun a => ⟨hn.1 _, he.1 _⟩, fun a b h => ⟨hn.2.1 _ _ h.1, he.2.1 _ _ h.2⟩,
    fun a b c h h' => ⟨hn.2.2 _ _ _ h.1 h'.1, he.2.2 _ _ _ h.2 h'.2⟩, fun a n => ⟨hn.1 _, he.1 _⟩⟩

/-- C49: a folded graph equals an activation graph exactly when both are empty. -/
theorem C49_folded_active (f : FoldedGraph V X R) (a : ActivationGraph V X R) :
    f.toVGraph.pyEq a.toVGraph = true ↔ f.nodes = [] ∧ f.edges = [] ∧ a.nodes = [] ∧ a.edges = [] := by
  have hn : ∀ (x : FoldedNode V X) (y : ActiveNode V X), VNode.pyEq (.folded x) (.active y) = false ∧
      VNode.pyEq (.active y) (.folded x) = false := by
    intro x y; simp [VNode.pyEq, VNode.subclass, VNode.eqMethod]
  have he : ∀ (x : FoldedEdge V X R) (y : ActiveEdge V R), VEdge.pyEq (.folded x : VEdge V X R) (.active y) = false ∧
      VEdge.pyEq (.active y : VEdge V X R) (.folded x) = false := by
    intro x y; simp [VEdge.pyEq, VEdge.subclass, VEdge.eqMethod]
  simp only [VGraph.pyEq, Bool.and_eq_true, setEq_iff, FoldedGraph.toVGraph, ActivationGraph.toVGraph, List.mem_map,
    forall_exists_index, and_imp, forall_apply_eq_imp_iff₂, exists_exists_and_eq_and, (hn _ _).1, (hn _ _).2, (he _ _).1,
    (he _ _).2, Bool.false_eq_true, and_false, exists_false, List.eq_nil_iff_forall_not_mem]
  tauto

/-- Corners of the example: three variables with one value. -/
def cornerA : Node ℕ ℕ := ⟨0, 0⟩
/-- Second corner. -/
def cornerB : Node ℕ ℕ := ⟨1, 0⟩
/-- Third corner. -/
def cornerC : Node ℕ ℕ := ⟨2, 0⟩

/-- An edge of the example. -/
def side (a b : Node ℕ ℕ) : Edge ℕ ℕ ℕ := ⟨{a, b}, .plain 0⟩

/-- Three variables with one value each. -/
def cornerSchema : Schema ℕ ℕ ℕ := ⟨⟨[(0, {0}), (1, {0}), (2, {0})], by decide⟩, {0}⟩

/-- The triangle once, and each corner alone once: four outcomes. -/
def fourOutcomes : Space ℕ ℕ ℕ := ⟨cornerSchema, ⟨0, Dict.ofList
  [(⟨{cornerA, cornerB, cornerC}, {side cornerA cornerB, side cornerB cornerC, side cornerC cornerA}⟩, 1),
   (⟨{cornerA}, ∅⟩, 1), (⟨{cornerB}, ∅⟩, 1), (⟨{cornerC}, ∅⟩, 1)]⟩, none⟩

/-- Each side of the triangle once: three outcomes. -/
def threeOutcomes : Space ℕ ℕ ℕ := ⟨cornerSchema, ⟨0, Dict.ofList
  [(⟨{cornerA, cornerB}, {side cornerA cornerB}⟩, 1), (⟨{cornerB, cornerC}, {side cornerB cornerC}⟩, 1),
   (⟨{cornerC, cornerA}, {side cornerC cornerA}⟩, 1)]⟩, none⟩

/-- Listing order of the example. -/
noncomputable def cornerOrder : Order (Node ℕ ℕ) := .ofList [cornerA, cornerB, cornerC]
/-- Listing order of the example. -/
noncomputable def sideOrder : Order (Edge ℕ ℕ ℕ) := .ofList [side cornerA cornerB, side cornerB cornerC, side cornerC cornerA]
/-- Listing order of the example. -/
noncomputable def outcomeOrder : Order (SampleGraph ℕ ℕ ℕ × ℤ) := .ofList (fourOutcomes.outcomes.samples.entries ++
  threeOutcomes.outcomes.samples.entries)

/-- C49: equality of folded graphs is coarser than what they answer. Two spaces with different numbers of outcomes have equal
folded graphs, in which the same variable is unobserved twice and once. -/
theorem C49_folded_coarse : ∃ f g : FoldedGraph ℕ ℕ ℕ,
    fourOutcomes.foldedGraph outcomeOrder cornerOrder sideOrder = .ok f ∧
    threeOutcomes.foldedGraph outcomeOrder cornerOrder sideOrder = .ok g ∧
    f.toVGraph.pyEq g.toVGraph = true ∧
    (f.foldedNode 0).map FoldedNode.unobservedCount = some 2 ∧ (g.foldedNode 0).map FoldedNode.unobservedCount = some 1 := by
  have h : (match fourOutcomes.foldedGraph outcomeOrder cornerOrder sideOrder,
      threeOutcomes.foldedGraph outcomeOrder cornerOrder sideOrder with
    | .ok f, .ok g => f.toVGraph.pyEq g.toVGraph && (f.foldedNode 0).map FoldedNode.unobservedCount = some 2 &&
      (g.foldedNode 0).map FoldedNode.unobservedCount = some 1
    | _, _ => false) = true := by decide +kernel
  split at h
  · rename_i f g hf hg
    simp only [Bool.and_eq_true, decide_eq_true_eq] at h
    exact ⟨f, g, hf, hg, h.1.1, h.1.2, h.2⟩
  · simp at h

/-! ### Hash tables -/

/-- What a hash table contains: classes of keys with their values, in insertion order. -/
def HTable.view {K Q A : Type} (cls : K → Q) (t : HTable K A) : List (Q × A) := t.map fun e => (cls e.2.1, e.2.2)

/-- Every entry carries the hash of its key. -/
def HTable.Hashed {K A : Type} (hash : K → ℤ) (t : HTable K A) : Prop := ∀ e ∈ t, e.1 = hash e.2.1

section table
variable {K Q A : Type} [DecidableEq Q] (hash : K → ℤ) (eq : K → K → Bool) (cls : K → Q)

theorem hit_iff (hc : HashContract eq hash) (hq : ∀ a b, cls a = cls b ↔ eq a b = true) (k : K) (e : ℤ × K × A)
    (he : e.1 = hash e.2.1) : HTable.hit hash eq k e = true ↔ cls e.2.1 = cls k := by
  simp only [HTable.hit, Bool.and_eq_true, decide_eq_true_eq, hq]
  constructor
  · exact fun h => h.2
  · exact fun h => ⟨he ▸ hc.hash _ _ h, h⟩

theorem table_get (hc : HashContract eq hash) (hq : ∀ a b, cls a = cls b ↔ eq a b = true) (t : HTable K A)
    (ht : t.Hashed hash) (k : K) : t.get hash eq k = assoc? (t.view cls) (cls k) := by
  induction t with
  | nil => rfl
  | cons e t ih =>
    have h1 := hit_iff hash eq cls hc hq k e (ht e (by simp))
    have h2 := ih (fun x hx => ht x (by simp [hx]))
    simp only [HTable.get, HTable.view, List.map_cons, assoc?, List.find?_cons] at h2 ⊢
    by_cases h : cls e.2.1 = cls k
    · rw [if_pos h, h1.2 h]; rfl
    · rw [if_neg h, ← h2]
      cases hh : HTable.hit hash eq k e
      · rfl
      · exact absurd (h1.1 hh) h

theorem table_set (hc : HashContract eq hash) (hq : ∀ a b, cls a = cls b ↔ eq a b = true) (t : HTable K A)
    (ht : t.Hashed hash) (k : K) (a : A) :
    (HTable.set hash eq t k a).Hashed hash ∧ (HTable.set hash eq t k a).view cls = assocSet (t.view cls) (cls k) a := by
  induction t with
  | nil => exact ⟨by intro e he; simp [HTable.set] at he; simp [he], rfl⟩
  | cons e t ih =>
    have h1 := hit_iff hash eq cls hc hq k e (ht e (by simp))
    have h2 := ih (fun x hx => ht x (by simp [hx]))
    by_cases h : cls e.2.1 = cls k
    · simp only [HTable.set, h1.2 h, if_true]
      refine ⟨?_, ?_⟩
      · intro x hx
        rcases List.mem_cons.1 hx with rfl | hx
        · exact ht e (by simp)
        · exact ht x (by simp [hx])
      · simp only [HTable.view, List.map_cons, assocSet, h, if_true]
    · have h3 : HTable.hit hash eq k e = false := by
        cases hh : HTable.hit hash eq k e
        · rfl
        · exact absurd (h1.1 hh) h
      simp only [HTable.set, h3, Bool.false_eq_true, if_false]
      refine ⟨?_, ?_⟩
      · intro x hx
        rcases List.mem_cons.1 hx with rfl | hx
        · exact ht x (by simp)
        · exact h2.1 x hx
      · have h4 := h2.2
        simp only [HTable.view] at h4
        simp only [HTable.view, List.map_cons, assocSet, h, if_false, h4]

theorem table_pop (hc : HashContract eq hash) (hq : ∀ a b, cls a = cls b ↔ eq a b = true) (t : HTable K A)
    (ht : t.Hashed hash) (k : K) :
    (HTable.pop hash eq t k).Hashed hash ∧ (HTable.pop hash eq t k).view cls = assocErase (t.view cls) (cls k) := by
  induction t with
  | nil => exact ⟨ht, rfl⟩
  | cons e t ih =>
    have h1 := hit_iff hash eq cls hc hq k e (ht e (by simp))
    have h2 := ih (fun x hx => ht x (by simp [hx]))
    by_cases h : cls e.2.1 = cls k
    · simp only [HTable.pop, h1.2 h, if_true]
      exact ⟨fun x hx => ht x (by simp [hx]), by simp only [HTable.view, List.map_cons, assocErase, h, if_true]⟩
    · have h3 : HTable.hit hash eq k e = false := by
        cases hh : HTable.hit hash eq k e
        · rfl
        · exact absurd (h1.1 hh) h
      simp only [HTable.pop, h3, Bool.false_eq_true, if_false]
      refine ⟨?_, ?_⟩
      · intro x hx
        rcases List.mem_cons.1 hx with rfl | hx
        · exact ht x (by simp)
        · exact h2.1 x hx
      · have h4 := h2.2
        simp only [HTable.view] at h4
        simp only [HTable.view, List.map_cons, assocErase, h, if_false, h4]

/-- The same history on the dictionary of the model, whose keys are classes of equal objects. -/
def dictRun (cls : K → Q) (d : Dict Q A) (ops : List (DictOp K A)) : Dict Q A :=
  ops.foldl (fun d op => match op with
    | .set k a => d.set (cls k) a
    | .pop k => d.erase (cls k)) d

/-- C49, hash tables: for objects that keep the contract a hash table behaves, after any history of assignments and removals, as
the insertion ordered dictionary of the model over classes of equal objects; whatever the hash function, hence whatever the
collisions. -/
theorem C49_table (hc : HashContract eq hash) (hq : ∀ a b, cls a = cls b ↔ eq a b = true) (ops : List (DictOp K A)) :
    (HTable.run hash eq [] ops).view cls = (dictRun cls Dict.empty ops).entries ∧
    ∀ k, (HTable.run hash eq [] ops).get hash eq k = (dictRun cls Dict.empty ops).get? (cls k) := by
  have key : ∀ (ops : List (DictOp K A)) (t : HTable K A) (d : Dict Q A), t.Hashed hash → t.view cls = d.entries →
      (HTable.run hash eq t ops).Hashed hash ∧ (HTable.run hash eq t ops).view cls = (dictRun cls d ops).entries := by
    intro ops
    induction ops with
    | nil => intro t d h h'; exact ⟨h, h'⟩
    | cons op ops ih =>
      intro t d h h'
      cases op with
      | set k a =>
        have := table_set hash eq cls hc hq t h k a
        exact ih _ _ this.1 (by rw [this.2, h']; rfl)
      | pop k =>
        have := table_pop hash eq cls hc hq t h k
        exact ih _ _ this.1 (by rw [this.2, h']; rfl)
  have h := key ops [] Dict.empty (by intro e he; simp at he) rfl
  refine ⟨h.2, fun k => ?_⟩
  rw [table_get hash eq cls hc hq _ h.1, h.2]; rfl

/-- C49, hash tables: no two entries are equal, so at most one entry matches a key and the order of probing is irrelevant. -/
theorem C49_table_unique (hc : HashContract eq hash) (hq : ∀ a b, cls a = cls b ↔ eq a b = true) (ops : List (DictOp K A)) :
    (HTable.run hash eq [] ops).Pairwise fun e f => eq e.2.1 f.2.1 = false := by
  have h := (dictRun cls Dict.empty ops).nodup
  rw [← (C49_table hash eq cls hc hq ops).1] at h
  unfold HTable.view at h
  rw [List.map_map, List.nodup_iff_pairwise_ne, List.pairwise_map] at h
  refine h.imp ?_
  intro e f hne
  cases hh : eq e.2.1 f.2.1
  · rfl
  · exact absurd ((hq _ _).2 hh) hne

end table

/-- Non-vacuity of `C49_table`: sample sets as keys, with a hash function under which everything collides and with any other. -/
example (H : Hashes ℕ ℕ ℕ) (ops : List (DictOp (Samples ℕ ℕ ℕ) ℤ)) (k : Samples ℕ ℕ ℕ) :
    (HTable.run H.samples (fun a b => a.pyEq b) [] ops).get H.samples (fun a b => a.pyEq b) k =
      (dictRun Samples.items Dict.empty ops).get? k.items :=
  (C49_table H.samples _ Samples.items (C49_sample_set H) (fun a b => (pyEq_iff_items a b).symm) ops).2 k

end Verif
