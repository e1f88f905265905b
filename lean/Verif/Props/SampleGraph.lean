import Verif.Lemmas.Builder
import Verif.Props.Builder
import Verif.Spec.Distance
import Mathlib.Tactic.Linarith
import Mathlib.Tactic.FieldSimp
import Mathlib.Tactic.Positivity

/-!
# C12 – C16, C19, C48: `SampleGraph`
-/

set_option linter.unusedSectionVars false

namespace Verif
open Relation

variable {V X R : Type} [DecidableEq V] [DecidableEq X] [DecidableEq R]

/-! ### C12, C13 -/

/-- C12. Two samples compare equal exactly when they have the same nodes and the same edges (hence equality is an
equivalence, and is the equality of the model). -/
theorem C12_equality (g h : SampleGraph V X R) :
    (g.pyEq h = true ↔ g.nodes = h.nodes ∧ g.edges = h.edges) ∧ (g.pyEq h = true ↔ g = h) := by
  have key : g.pyEq h = true ↔ g.nodes = h.nodes ∧ g.edges = h.edges := by
    unfold SampleGraph.pyEq SampleGraph.hash
    rw [decide_eq_true_eq]
    constructor
    · intro he
      constructor
      · ext n
        have : Sum.inl n ∈ g.nodes.disjSum g.edges ↔ Sum.inl n ∈ h.nodes.disjSum h.edges := by rw [he]
        simpa using this
      · ext e
        have : Sum.inr e ∈ g.nodes.disjSum g.edges ↔ Sum.inr e ∈ h.nodes.disjSum h.edges := by rw [he]
        simpa using this
    · rintro ⟨h1, h2⟩; rw [h1, h2]
  refine ⟨key, key.trans ⟨fun h' => SampleGraph.ext h'.1 h'.2, fun h' => h' ▸ ⟨rfl, rfl⟩⟩⟩

/-- C13. `a.is_subgraph(b)` is containment of `a` in `b` (the receiver is the smaller one); it is a partial order up to
`==` with the empty sample as least element. -/
theorem C13_is_subgraph (a b c : SampleGraph V X R) :
    (a.isSubgraph b = true ↔ a.nodes ⊆ b.nodes ∧ a.edges ⊆ b.edges) ∧
    a.isSubgraph a = true ∧
    (a.isSubgraph b = true → b.isSubgraph c = true → a.isSubgraph c = true) ∧
    (a.isSubgraph b = true → b.isSubgraph a = true → a.pyEq b = true) ∧
    (⟨∅, ∅⟩ : SampleGraph V X R).isSubgraph a = true := by
  have key : ∀ a b : SampleGraph V X R, a.isSubgraph b = true ↔ a.nodes ⊆ b.nodes ∧ a.edges ⊆ b.edges := by
    intro a b
    unfold SampleGraph.isSubgraph SampleGraph.hash
    rw [decide_eq_true_eq]
    constructor
    · intro h
      refine ⟨fun n hn => ?_, fun e he => ?_⟩
      · simpa using h (show Sum.inl n ∈ _ by simpa using hn)
      · simpa using h (show Sum.inr e ∈ _ by simpa using he)
    · rintro ⟨h1, h2⟩ x hx
      cases x with
      | inl n => simp only [Finset.inl_mem_disjSum] at hx ⊢; exact h1 hx
      | inr e => simp only [Finset.inr_mem_disjSum] at hx ⊢; exact h2 hx
  refine ⟨key a b, (key a a).2 ⟨fun _ h => h, fun _ h => h⟩, ?_, ?_, (key _ _).2 ⟨by simp, by simp⟩⟩
  · rw [key, key, key]; rintro ⟨h1, h2⟩ ⟨h3, h4⟩; exact ⟨h1.trans h3, h2.trans h4⟩
  · rw [key, key, (C12_equality a b).1]
    rintro ⟨h1, h2⟩ ⟨h3, h4⟩
    exact ⟨Finset.Subset.antisymm h1 h3, Finset.Subset.antisymm h2 h4⟩

/-- C13: the docstring ("other is a subgraph of this") is the converse and is wrong. -/
theorem C13_docstring_refuted : ∃ g h : SampleGraph ℕ ℕ ℕ, h.nodes ⊆ g.nodes ∧ h.edges ⊆ g.edges ∧ g.isSubgraph h = false :=
  ⟨⟨{⟨0, 0⟩}, ∅⟩, ⟨∅, ∅⟩, by simp, by simp, by decide⟩

/-! ### C14 -/

theorem hash_eq_empty (g : SampleGraph V X R) : g.hash = ∅ ↔ g.nodes = ∅ ∧ g.edges = ∅ := by
  unfold SampleGraph.hash
  rw [Finset.disjSum_eq_empty]

theorem card_symmDiff {α : Type} [DecidableEq α] (A B : Finset α) :
    (symmDiff A B).card + (A ∩ B).card = (A ∪ B).card ∧ (symmDiff A B).card + 2 * (A ∩ B).card = A.card + B.card := by
  have h1 : (symmDiff A B).card = (A \ B).card + (B \ A).card := by
    rw [symmDiff_def, Finset.sup_eq_union, Finset.card_union_of_disjoint]
    exact disjoint_sdiff_sdiff
  have h2 := Finset.card_union_add_card_inter A B
  have h3 := Finset.card_sdiff_add_card_inter A B
  have h4 := Finset.card_sdiff_add_card_inter B A
  rw [Finset.inter_comm] at h4
  omega

theorem card_symmDiff_triangle {α : Type} [DecidableEq α] (A B C : Finset α) :
    (symmDiff A C).card ≤ (symmDiff A B).card + (symmDiff B C).card := by
  have : symmDiff A C ⊆ symmDiff A B ∪ symmDiff B C := symmDiff_triangle A B C
  exact (Finset.card_le_card this).trans (Finset.card_union_le _ _)

/-- The number of components two samples share and the number of components they have together. -/
def commonCount (g h : SampleGraph V X R) : ℕ := (g.nodes ∩ h.nodes).card + (g.edges ∩ h.edges).card
def totalCount (g h : SampleGraph V X R) : ℕ := (g.nodes ∪ h.nodes).card + (g.edges ∪ h.edges).card

theorem commonCount_eq (g h : SampleGraph V X R) : (g.hash ∩ h.hash).card = commonCount g h := by
  have : g.hash ∩ h.hash = (g.nodes ∩ h.nodes).disjSum (g.edges ∩ h.edges) := by
    ext x; cases x <;> simp [SampleGraph.hash]
  rw [this, Finset.card_disjSum]; rfl

theorem totalCount_eq (g h : SampleGraph V X R) : (g.hash ∪ h.hash).card = totalCount g h := by
  have : g.hash ∪ h.hash = (g.nodes ∪ h.nodes).disjSum (g.edges ∪ h.edges) := by
    ext x; cases x <;> simp [SampleGraph.hash]
  rw [this, Finset.card_disjSum]; rfl

theorem totalCount_eq_zero (g h : SampleGraph V X R) :
    totalCount g h = 0 ↔ g = ⟨∅, ∅⟩ ∧ h = ⟨∅, ∅⟩ := by
  unfold totalCount
  rw [Nat.add_eq_zero_iff, Finset.card_eq_zero, Finset.card_eq_zero, Finset.union_eq_empty, Finset.union_eq_empty]
  constructor
  · rintro ⟨⟨h1, h2⟩, h3, h4⟩; exact ⟨SampleGraph.ext h1 h3, SampleGraph.ext h2 h4⟩
  · rintro ⟨rfl, rfl⟩; simp

theorem similarity_eq (g h : SampleGraph V X R) :
    g.similarity h = if totalCount g h = 0 then .error .zeroDiv
      else .ok ((commonCount g h : ℚ) / (totalCount g h : ℚ)) := by
  unfold SampleGraph.similarity
  have h1 := (card_symmDiff g.hash h.hash).1
  have : (g.hash ∩ h.hash).card + (symmDiff g.hash h.hash).card = totalCount g h := by
    rw [← totalCount_eq]; omega
  simp only [this]
  rw [commonCount_eq]

theorem commonCount_le (g h : SampleGraph V X R) : commonCount g h ≤ totalCount g h :=
  Nat.add_le_add (Finset.card_le_card (Finset.inter_subset_left.trans Finset.subset_union_left))
    (Finset.card_le_card (Finset.inter_subset_left.trans Finset.subset_union_left))

/-- C14, value and exception: the similarity is the number of common components divided by the number of all components;
it raises exactly when both samples are empty. -/
theorem C14_value (g h : SampleGraph V X R) :
    (∀ q, g.similarity h = .ok q ↔ ¬ (g = ⟨∅, ∅⟩ ∧ h = ⟨∅, ∅⟩) ∧ q =
      (((g.nodes ∩ h.nodes).card + (g.edges ∩ h.edges).card : ℕ) : ℚ) /
      (((g.nodes ∪ h.nodes).card + (g.edges ∪ h.edges).card : ℕ) : ℚ)) ∧
    (g = ⟨∅, ∅⟩ ∧ h = ⟨∅, ∅⟩ → g.similarity h = .error .zeroDiv) := by
  rw [similarity_eq, ← totalCount_eq_zero]
  constructor
  · intro q
    split
    · rename_i h0; simp [h0]
    · rename_i h0
      simp only [h0, not_false_eq_true, true_and, Except.ok.injEq]
      exact eq_comm
  · intro h0; rw [if_pos h0]

/-- C14, algebra: symmetric, within [0, 1], 1 exactly for equal samples, 0 exactly for well formed samples without a
common node. -/
theorem C14_algebra (g h : SampleGraph V X R) :
    g.similarity h = h.similarity g ∧
    (∀ q, g.similarity h = .ok q → 0 ≤ q ∧ q ≤ 1 ∧ (q = 1 ↔ g.pyEq h = true) ∧
      (WellFormed g → WellFormed h → (q = 0 ↔ ∀ n ∈ g.nodes, n ∉ h.nodes))) := by
  have hsymm : commonCount g h = commonCount h g ∧ totalCount g h = totalCount h g := by
    unfold commonCount totalCount
    rw [Finset.inter_comm, Finset.inter_comm g.edges, Finset.union_comm, Finset.union_comm g.edges]
    exact ⟨rfl, rfl⟩
  refine ⟨by rw [similarity_eq, similarity_eq, hsymm.1, hsymm.2], ?_⟩
  intro q hq
  rw [similarity_eq] at hq
  split at hq
  · simp at hq
  · rename_i h0
    simp only [Except.ok.injEq] at hq
    subst hq
    have hpos : (0 : ℚ) < (totalCount g h : ℚ) := by exact_mod_cast Nat.pos_of_ne_zero h0
    have hle : (commonCount g h : ℚ) ≤ (totalCount g h : ℚ) := by exact_mod_cast commonCount_le g h
    refine ⟨by positivity, (div_le_one hpos).2 hle, ?_, ?_⟩
    · rw [div_eq_one_iff_eq hpos.ne', (C12_equality g h).1]
      have e1 : (commonCount g h : ℚ) = totalCount g h ↔ commonCount g h = totalCount g h := by norm_cast
      rw [e1]
      constructor
      · intro he
        have l1 := Finset.card_le_card (Finset.inter_subset_union (s := g.nodes) (t := h.nodes))
        have l2 := Finset.card_le_card (Finset.inter_subset_union (s := g.edges) (t := h.edges))
        unfold commonCount totalCount at he
        constructor
        · have : g.nodes ∩ h.nodes = g.nodes ∪ h.nodes :=
            Finset.eq_of_subset_of_card_le Finset.inter_subset_union (by omega)
          exact inf_eq_sup.1 this
        · have : g.edges ∩ h.edges = g.edges ∪ h.edges :=
            Finset.eq_of_subset_of_card_le Finset.inter_subset_union (by omega)
          exact inf_eq_sup.1 this
      · rintro ⟨h1, h2⟩; unfold commonCount totalCount; rw [h1, h2]; simp
    · intro hg hh
      rw [div_eq_zero_iff, or_iff_left hpos.ne']
      have e1 : (commonCount g h : ℚ) = 0 ↔ commonCount g h = 0 := by norm_cast
      rw [e1]
      unfold commonCount
      rw [Nat.add_eq_zero_iff, Finset.card_eq_zero, Finset.card_eq_zero]
      constructor
      · rintro ⟨h1, -⟩ n hn hn'
        have : n ∈ g.nodes ∩ h.nodes := Finset.mem_inter.2 ⟨hn, hn'⟩
        rw [h1] at this; simp at this
      · intro hn
        refine ⟨?_, ?_⟩
        · rw [Finset.eq_empty_iff_forall_notMem]
          intro n hn'
          exact hn n (Finset.mem_inter.1 hn').1 (Finset.mem_inter.1 hn').2
        · rw [Finset.eq_empty_iff_forall_notMem]
          intro e he
          obtain ⟨h1, h2⟩ := Finset.mem_inter.1 he
          obtain ⟨n, hne⟩ := (hg.good e h1).nonempty
          exact hn n (hg.closed e h1 hne) (hh.closed e h2 hne)

/-- C14, triangle inequality: `1 - similarity` is a distance. -/
theorem C14_triangle (a b c : SampleGraph V X R) (x y z : ℚ) (hx : a.similarity b = .ok x) (hy : b.similarity c = .ok y)
    (hz : a.similarity c = .ok z) : 1 - z ≤ (1 - x) + (1 - y) := by
  have conv : ∀ (g h : SampleGraph V X R) q, g.similarity h = .ok q →
      0 < g.hash.card + h.hash.card + (symmDiff g.hash h.hash).card ∧
      1 - q = 2 * ((symmDiff g.hash h.hash).card : ℚ) /
        ((g.hash.card + h.hash.card + (symmDiff g.hash h.hash).card : ℕ) : ℚ) := by
    intro g h q hq
    rw [similarity_eq] at hq
    split at hq
    · simp at hq
    · rename_i h0
      simp only [Except.ok.injEq] at hq
      obtain ⟨s1, s2⟩ := card_symmDiff g.hash h.hash
      rw [commonCount_eq, totalCount_eq] at s1
      rw [commonCount_eq] at s2
      have hT : g.hash.card + h.hash.card + (symmDiff g.hash h.hash).card = 2 * totalCount g h := by omega
      refine ⟨by omega, ?_⟩
      rw [hT, ← hq]
      have hpos : (totalCount g h : ℚ) ≠ 0 := by exact_mod_cast h0
      have hs : ((symmDiff g.hash h.hash).card : ℚ) = totalCount g h - commonCount g h := by
        have : ((symmDiff g.hash h.hash).card : ℚ) + commonCount g h = totalCount g h := by exact_mod_cast s1
        linarith
      rw [hs]; push_cast; field_simp
  obtain ⟨p1, e1⟩ := conv a b x hx
  obtain ⟨p2, e2⟩ := conv b c y hy
  obtain ⟨p3, e3⟩ := conv a c z hz
  rw [e1, e2, e3]
  have t := card_symmDiff_triangle a.hash b.hash c.hash
  have t1 := card_symmDiff_triangle b.hash c.hash ∅
  have t2 := card_symmDiff_triangle b.hash a.hash ∅
  rw [symmDiff_comm b.hash a.hash] at t2
  have hbot : ∀ s : Finset (Node V X ⊕ Edge V X R), symmDiff s ∅ = s := fun s => symmDiff_bot s
  rw [hbot, hbot] at t1 t2
  set A := a.hash.card
  set B := b.hash.card
  set C := c.hash.card
  set u := (symmDiff a.hash c.hash).card
  set v := (symmDiff a.hash b.hash).card
  set w := (symmDiff b.hash c.hash).card
  have q1 : (0 : ℚ) < ((A + B + v : ℕ) : ℚ) := by exact_mod_cast p1
  have q2 : (0 : ℚ) < ((B + C + w : ℕ) : ℚ) := by exact_mod_cast p2
  have q3 : (0 : ℚ) < ((A + C + u : ℕ) : ℚ) := by exact_mod_cast p3
  have hD : (0 : ℚ) < ((A + C + v + w : ℕ) : ℚ) := by exact_mod_cast (by omega : 0 < A + C + v + w)
  have s1 : 2 * (u : ℚ) / ((A + C + u : ℕ) : ℚ) ≤ 2 * ((v : ℚ) + w) / ((A + C + v + w : ℕ) : ℚ) := by
    rw [div_le_div_iff₀ q3 hD]
    have : (u : ℚ) ≤ v + w := by exact_mod_cast t
    push_cast
    have hA : (0 : ℚ) ≤ A := by positivity
    have hC : (0 : ℚ) ≤ C := by positivity
    nlinarith
  have s2 : 2 * (v : ℚ) / ((A + C + v + w : ℕ) : ℚ) ≤ 2 * (v : ℚ) / ((A + B + v : ℕ) : ℚ) := by
    apply div_le_div_of_nonneg_left (by positivity) q1
    exact_mod_cast (by omega : A + B + v ≤ A + C + v + w)
  have s3 : 2 * (w : ℚ) / ((A + C + v + w : ℕ) : ℚ) ≤ 2 * (w : ℚ) / ((B + C + w : ℕ) : ℚ) := by
    apply div_le_div_of_nonneg_left (by positivity) q2
    exact_mod_cast (by omega : B + C + w ≤ A + C + v + w)
  calc 2 * (u : ℚ) / ((A + C + u : ℕ) : ℚ) ≤ 2 * ((v : ℚ) + w) / ((A + C + v + w : ℕ) : ℚ) := s1
    _ = 2 * (v : ℚ) / ((A + C + v + w : ℕ) : ℚ) + 2 * (w : ℚ) / ((A + C + v + w : ℕ) : ℚ) := by rw [mul_add, add_div]
    _ ≤ _ := add_le_add s2 s3

/-- Non-vacuity of C14: three different samples with defined similarities. -/
example : (oneEdge ⟨0, 0⟩ ⟨1, 0⟩).similarity (oneEdge ⟨1, 0⟩ ⟨2, 0⟩) = .ok (1 / 5) := by
  have := (C14_value (oneEdge ⟨0, 0⟩ ⟨1, 0⟩) (oneEdge ⟨1, 0⟩ ⟨2, 0⟩)).1 (1 / 5)
  rw [this]
  refine ⟨by decide, ?_⟩
  have h1 : ((oneEdge ⟨0, 0⟩ ⟨1, 0⟩).nodes ∩ (oneEdge ⟨1, 0⟩ ⟨2, 0⟩).nodes).card +
    ((oneEdge ⟨0, 0⟩ ⟨1, 0⟩).edges ∩ (oneEdge ⟨1, 0⟩ ⟨2, 0⟩).edges).card = 1 := by decide
  have h2 : ((oneEdge ⟨0, 0⟩ ⟨1, 0⟩).nodes ∪ (oneEdge ⟨1, 0⟩ ⟨2, 0⟩).nodes).card +
    ((oneEdge ⟨0, 0⟩ ⟨1, 0⟩).edges ∪ (oneEdge ⟨1, 0⟩ ⟨2, 0⟩).edges).card = 5 := by decide
  rw [h1, h2]; norm_num

/-! ### C15 -/

/-- C15. On a sample with at most one value per variable all value lookups agree, whatever the orders. -/
theorem C15_lookups (g : SampleGraph V X R) (hs : SingleValued g.nodes) (o o' : Order (Node V X)) (v : V) (x : X) :
    (g.valueForVariable o v = some x ↔ (⟨v, x⟩ : Node V X) ∈ g.nodes) ∧
    (g.haveValue o v x = true ↔ (⟨v, x⟩ : Node V X) ∈ g.nodes) ∧
    ((v, x) ∈ g.values ↔ (⟨v, x⟩ : Node V X) ∈ g.nodes) ∧
    (g.haveVariable o v = true ↔ ∃ y, (⟨v, y⟩ : Node V X) ∈ g.nodes) ∧
    (v ∈ g.includedVariables ↔ ∃ y, (⟨v, y⟩ : Node V X) ∈ g.nodes) ∧
    (g.valueForVariable o v = none ↔ v ∉ g.includedVariables) ∧
    g.valueForVariable o v = g.valueForVariable o' v := by
  have hval : ∀ (o : Order (Node V X)) x, g.valueForVariable o v = some x ↔ (⟨v, x⟩ : Node V X) ∈ g.nodes := by
    intro o x
    unfold SampleGraph.valueForVariable
    rw [Option.map_eq_some_iff]
    constructor
    · rintro ⟨n, hn, rfl⟩
      have h1 := List.mem_of_find?_eq_some hn
      have h2 := List.find?_some hn
      simp only [decide_eq_true_eq] at h2
      rw [o.mem] at h1
      subst h2; exact h1
    · intro h
      cases hf : (o.run g.nodes).find? (fun n => n.var = v) with
      | none =>
        rw [List.find?_eq_none] at hf
        have := hf _ ((o.mem _ _).2 h)
        simp at this
      | some n =>
        have h1 := List.mem_of_find?_eq_some hf
        have h2 := List.find?_some hf
        simp only [decide_eq_true_eq] at h2
        rw [o.mem] at h1
        have := hs n h1 _ h h2
        exact ⟨n, rfl, by rw [this]⟩
  have hincl : v ∈ g.includedVariables ↔ ∃ y, (⟨v, y⟩ : Node V X) ∈ g.nodes := by
    unfold SampleGraph.includedVariables
    rw [Finset.mem_image]
    constructor
    · rintro ⟨n, hn, rfl⟩; exact ⟨n.val, hn⟩
    · rintro ⟨y, hy⟩; exact ⟨_, hy, rfl⟩
  refine ⟨hval o x, ?_, ?_, ?_, hincl, ?_, ?_⟩
  · unfold SampleGraph.haveValue
    rw [o.any_run]
    simp only [decide_eq_true_eq, Prod.mk.injEq]
    constructor
    · rintro ⟨n, hn, rfl, rfl⟩; exact hn
    · intro h; exact ⟨_, h, rfl, rfl⟩
  · unfold SampleGraph.values
    simp only [Finset.mem_image, Prod.mk.injEq]
    constructor
    · rintro ⟨n, hn, rfl, rfl⟩; exact hn
    · intro h; exact ⟨_, h, rfl, rfl⟩
  · unfold SampleGraph.haveVariable
    rw [o.any_run]
    simp only [decide_eq_true_eq]
    constructor
    · rintro ⟨n, hn, rfl⟩; exact ⟨n.val, hn⟩
    · rintro ⟨y, h⟩; exact ⟨_, h, rfl⟩
  · rw [hincl]
    cases hf : g.valueForVariable o v with
    | none =>
      simp only [true_iff, not_exists]
      intro y hy
      rw [(hval o y).2 hy] at hf; simp at hf
    | some y =>
      simp only [reduceCtorEq, false_iff, not_not]
      exact ⟨y, (hval o y).1 hf⟩
  · apply Option.ext
    intro y
    rw [hval, hval]

/-- C15, order dependence: for every sample and every one of its nodes there is an iteration order under which
`value_for_variable` returns that node's value. So on a sample with two values the answer depends on the order. -/
theorem C15_order_dependent (g : SampleGraph V X R) (n : Node V X) (hn : n ∈ g.nodes) :
    ∃ o : Order (Node V X), g.valueForVariable o n.var = some n.val := by
  refine ⟨Order.first n, ?_⟩
  unfold SampleGraph.valueForVariable Order.first
  simp [hn]

/-- Non-vacuity of C15: a single-valued sample with two nodes; and a sample with two values of one variable. -/
example : SingleValued (oneEdge ⟨0, 0⟩ ⟨1, 0⟩).nodes ∧
    ∃ g : SampleGraph ℕ ℕ ℕ, ∃ o o', g.valueForVariable o 0 ≠ g.valueForVariable o' 0 := by
  refine ⟨by unfold SingleValued; decide, ⟨{⟨0, 0⟩, ⟨0, 1⟩}, ∅⟩, ?_⟩
  obtain ⟨o, ho⟩ := C15_order_dependent (⟨{⟨0, 0⟩, ⟨0, 1⟩}, ∅⟩ : SampleGraph ℕ ℕ ℕ) ⟨0, 0⟩ (by simp)
  obtain ⟨o', ho'⟩ := C15_order_dependent (⟨{⟨0, 0⟩, ⟨0, 1⟩}, ∅⟩ : SampleGraph ℕ ℕ ℕ) ⟨0, 1⟩ (by simp)
  refine ⟨o, o', ?_⟩
  simp only at ho ho'
  rw [ho, ho']; simp

/-! ### C16 -/

/-- The node after replacement. -/
def replaceNode (rep : Dict V X) (n : Node V X) : Node V X :=
  match rep.get? n.var with
  | some x => ⟨n.var, x⟩
  | none => n

/-- The graph after replacement. -/
def replaceGraph (rep : Dict V X) (g : SampleGraph V X R) : SampleGraph V X R :=
  ⟨g.nodes.image (replaceNode rep), g.edges.image fun e => ⟨e.endpoints.image (replaceNode rep), e.relation⟩⟩

theorem replaceNode_var (rep : Dict V X) (n : Node V X) : (replaceNode rep n).var = n.var := by
  unfold replaceNode; split <;> rfl

/-- C16, result and acceptance: on a well formed declared sample, `transform_with_replaced_values` returns exactly when
every replacement of a present variable is a declared value, and the result is the sample with the values substituted;
otherwise it raises `AssertionError`. -/
theorem C16_transform (s : Schema V X R) (oN : Order (Node V X)) (oE : Order (Edge V X R)) (rep : Dict V X)
    (g : SampleGraph V X R) (hw : WellFormed g) (hd : DeclaredIn s g) :
    ((∀ n ∈ g.nodes, ∀ x, rep.get? n.var = some x → s.declared n.var x = true) →
      g.transform s oN oE rep = .ok (replaceGraph rep g)) ∧
    ((∃ n ∈ g.nodes, ∃ x, rep.get? n.var = some x ∧ s.declared n.var x = false) →
      g.transform s oN oE rep = .error .assertion) := by
  let f : Node V X → Py (Node V X) := fun n =>
    match rep.get? n.var with
    | some x => s.getNode n.var x
    | none => .ok n
  have hnodes : ∀ ns : Finset (Node V X), (∀ n ∈ ns, ∀ x, rep.get? n.var = some x → s.declared n.var x = true) →
      SampleGraph.transformNodes s oN rep ns = .ok (ns.image (replaceNode rep)) := by
    intro ns hns
    unfold SampleGraph.transformNodes
    have := mapM_ok f (replaceNode rep) (oN.run ns) (by
      intro n hn
      rw [oN.mem] at hn
      simp only [f, replaceNode]
      cases hr : rep.get? n.var with
      | none => rfl
      | some x => simp [Schema.getNode, hns n hn x hr])
    change (List.mapM f (oN.run ns) >>= fun l => pure l.toFinset) = _
    rw [this]
    show Except.ok _ = _
    congr 1
    ext n
    simp [oN.mem]
  constructor
  · intro hall
    unfold SampleGraph.transform
    rw [hnodes _ hall]
    have hedges : ∀ e ∈ oE.run g.edges, (if e.vars.filter (fun v => rep.has v) ≠ ∅ then
        (do let eps ← SampleGraph.transformNodes s oN rep e.endpoints; s.getEdge eps e.relation) else .ok e) =
        .ok (⟨e.endpoints.image (replaceNode rep), e.relation⟩ : Edge V X R) := by
      intro e he
      rw [oE.mem] at he
      have hsub := hw.closed e he
      split
      · rw [hnodes _ (fun n hn => hall n (hsub hn))]
        show s.getEdge _ _ = _
        unfold Schema.getEdge
        have hvars : (e.endpoints.image (replaceNode rep)).image Node.var = e.endpoints.image Node.var := by
          rw [Finset.image_image]; congr 1; funext n; exact replaceNode_var rep n
        have hrel : s.relOk (e.endpoints.image (replaceNode rep)) e.relation = true := by
          have := hd.edges e he
          unfold Schema.relOk at this ⊢
          rw [Bool.and_eq_true] at this ⊢
          refine ⟨this.1, ?_⟩
          have h2 := this.2
          cases hr : e.relation with
          | plain l => rfl
          | directed a b l => rw [hr] at h2; unfold Schema.dirOk at h2 ⊢; rw [hvars]; exact h2
        rw [if_pos hrel, if_neg]
        obtain ⟨a, b, hab, heq⟩ := hw.good e he
        rw [heq, Finset.image_insert, Finset.image_singleton, Finset.card_pair]
        · omega
        · intro h
          apply hab
          rw [← replaceNode_var rep a, ← replaceNode_var rep b, h]
      · rename_i hf
        rw [not_not] at hf
        congr 1
        have hid : e.endpoints.image (replaceNode rep) = e.endpoints := by
          conv_rhs => rw [← Finset.image_id (s := e.endpoints)]
          apply Finset.image_congr
          intro n hn
          have hnv : n.var ∈ e.vars := Finset.mem_image_of_mem _ hn
          have : rep.get? n.var = none := by
            rw [← Dict.has_eq_false]
            by_contra hc
            rw [Bool.not_eq_false] at hc
            have hm : n.var ∈ e.vars.filter (fun v => rep.has v) := Finset.mem_filter.2 ⟨hnv, hc⟩
            rw [hf] at hm; simp at hm
          simp [replaceNode, this]
        rw [hid]
    have hm := mapM_ok _ _ _ hedges
    simp only [bind, Except.bind] at hm ⊢
    rw [hm]
    show Except.ok _ = _
    congr 1
    apply SampleGraph.ext
    · rfl
    · ext e; simp [replaceGraph, oE.mem]
  · rintro ⟨n, hn, x, hx, hnd⟩
    have herr := mapM_error f .assertion (oN.run g.nodes) (by
      intro m _ e he
      simp only [f] at he
      split at he
      · unfold Schema.getNode at he
        split at he <;> simp at he
        exact he.symm
      · simp at he) ⟨n, (oN.mem _ _).2 hn, by
        simp [f, hx, Schema.getNode, hnd, Returns]⟩
    have hn : SampleGraph.transformNodes s oN rep g.nodes = .error .assertion := by
      change (List.mapM f (oN.run g.nodes) >>= fun l => pure l.toFinset) = _
      rw [herr]; rfl
    unfold SampleGraph.transform
    rw [hn]; rfl

/-- C16, what is kept: variables, connectivity, closedness and edge shape; at most one value per variable and at most
one edge per pair when the sample had one value per variable. -/
theorem C16_preserves (rep : Dict V X) (g : SampleGraph V X R) (hw : WellFormed g) :
    (replaceGraph rep g).includedVariables = g.includedVariables ∧
    ConnectedBy Edge.endpoints (replaceGraph rep g).edges ((replaceGraph rep g).nodes : Set (Node V X)) ∧
    (SingleValued g.nodes → SingleValued (replaceGraph rep g).nodes ∧ WellFormed (replaceGraph rep g)) := by
  have hvars : (replaceGraph rep g).includedVariables = g.includedVariables := by
    unfold SampleGraph.includedVariables replaceGraph
    rw [Finset.image_image]; congr 1; funext n; exact replaceNode_var rep n
  have hconn : ConnectedBy Edge.endpoints (replaceGraph rep g).edges ((replaceGraph rep g).nodes : Set (Node V X)) := by
    have lift : ∀ a b, ReflTransGen (Linked Edge.endpoints g.edges) a b →
        ReflTransGen (Linked Edge.endpoints (replaceGraph rep g).edges) (replaceNode rep a) (replaceNode rep b) := by
      intro a b h
      induction h with
      | refl => exact .refl
      | tail _ hl ih =>
        obtain ⟨e, he, h1, h2⟩ := hl
        exact ih.tail ⟨_, Finset.mem_image_of_mem _ he, Finset.mem_image_of_mem _ h1, Finset.mem_image_of_mem _ h2⟩
    intro a ha b hb
    obtain ⟨a', ha', rfl⟩ := Finset.mem_image.1 ha
    obtain ⟨b', hb', rfl⟩ := Finset.mem_image.1 hb
    exact lift _ _ (hw.conn a' ha' b' hb')
  refine ⟨hvars, hconn, fun hs => ?_⟩
  have hinj : ∀ a ∈ g.nodes, ∀ b ∈ g.nodes, replaceNode rep a = replaceNode rep b → a = b := by
    intro a ha b hb h
    exact hs a ha b hb (by rw [← replaceNode_var rep a, ← replaceNode_var rep b, h])
  have hs' : SingleValued (replaceGraph rep g).nodes := by
    intro a ha b hb hv
    obtain ⟨a', ha', rfl⟩ := Finset.mem_image.1 ha
    obtain ⟨b', hb', rfl⟩ := Finset.mem_image.1 hb
    rw [replaceNode_var, replaceNode_var] at hv
    rw [hs a' ha' b' hb' hv]
  refine ⟨hs', ⟨?_, ?_, ?_, hconn⟩⟩
  · intro e he
    obtain ⟨e', he', rfl⟩ := Finset.mem_image.1 he
    exact Finset.image_subset_image (hw.closed e' he')
  · intro e he
    obtain ⟨e', he', rfl⟩ := Finset.mem_image.1 he
    obtain ⟨a, b, hab, heq⟩ := hw.good e' he'
    exact ⟨replaceNode rep a, replaceNode rep b, by rwa [replaceNode_var, replaceNode_var], by simp [heq]⟩
  · intro e1 h1 e2 h2 heq
    obtain ⟨f1, hf1, rfl⟩ := Finset.mem_image.1 h1
    obtain ⟨f2, hf2, rfl⟩ := Finset.mem_image.1 h2
    simp only at heq
    have : f1.endpoints = f2.endpoints := by
      ext n
      constructor
      · intro hn
        have : replaceNode rep n ∈ f2.endpoints.image (replaceNode rep) := by
          rw [← heq]; exact Finset.mem_image_of_mem _ hn
        obtain ⟨m, hm, hmn⟩ := Finset.mem_image.1 this
        rw [← hinj m (hw.closed f2 hf2 hm) n (hw.closed f1 hf1 hn) hmn]; exact hm
      · intro hn
        have : replaceNode rep n ∈ f1.endpoints.image (replaceNode rep) := by
          rw [heq]; exact Finset.mem_image_of_mem _ hn
        obtain ⟨m, hm, hmn⟩ := Finset.mem_image.1 this
        rw [← hinj m (hw.closed f1 hf1 hm) n (hw.closed f2 hf2 hn) hmn]; exact hm
    rw [hw.onePer f1 hf1 f2 hf2 this]

/-- C16, algebra: replacing by the present values is the identity; a later replacement covering the variables of an
earlier one makes the earlier one irrelevant. -/
theorem C16_algebra (rep rep' : Dict V X) (g : SampleGraph V X R) :
    ((∀ e ∈ g.edges, e.endpoints ⊆ g.nodes) → (∀ n ∈ g.nodes, ∀ x, rep.get? n.var = some x → x = n.val) →
      replaceGraph rep g = g) ∧
    ((∀ v, rep.has v = true → rep'.has v = true) → replaceGraph rep' (replaceGraph rep g) = replaceGraph rep' g) := by
  constructor
  · intro hcl h
    have hid : ∀ n ∈ g.nodes, replaceNode rep n = n := by
      intro n hn
      unfold replaceNode
      split
      · rename_i x hx; rw [h n hn x hx]
      · rfl
    apply SampleGraph.ext
    · show g.nodes.image (replaceNode rep) = g.nodes
      conv_rhs => rw [← Finset.image_id (s := g.nodes)]
      exact Finset.image_congr hid
    · show (g.edges.image fun e => (⟨e.endpoints.image (replaceNode rep), e.relation⟩ : Edge V X R)) = g.edges
      conv_rhs => rw [← Finset.image_id (s := g.edges)]
      apply Finset.image_congr
      intro e he
      have : e.endpoints.image (replaceNode rep) = e.endpoints := by
        conv_rhs => rw [← Finset.image_id (s := e.endpoints)]
        exact Finset.image_congr fun n hn => hid n (hcl e he hn)
      simp [this]
  · intro h
    have hcomp : ∀ n, replaceNode rep' (replaceNode rep n) = replaceNode rep' n := by
      intro n
      have hv := replaceNode_var rep n
      cases h1 : rep'.get? n.var with
      | some x =>
        have e1 : replaceNode rep' n = ⟨n.var, x⟩ := by simp [replaceNode, h1]
        have e2 : replaceNode rep' (replaceNode rep n) = ⟨(replaceNode rep n).var, x⟩ := by
          unfold replaceNode at hv ⊢
          rw [hv, h1]
        rw [e1, e2, hv]
      | none =>
        have h2 : rep.get? n.var = none := by
          rw [← Dict.has_eq_false]
          by_contra hc
          rw [Bool.not_eq_false] at hc
          have := h _ hc
          rw [(Dict.has_eq_false _ _).2 h1] at this
          simp at this
        simp [replaceNode, h1, h2]
    apply SampleGraph.ext
    · simp only [replaceGraph, Finset.image_image]
      congr 1; funext n; exact hcomp n
    · simp only [replaceGraph, Finset.image_image]
      congr 1; funext e
      simp only [Function.comp, Finset.image_image]
      congr 2
      funext n; exact hcomp n

/-- Non-vacuity of C16. -/
example : ∃ (s : Schema ℕ ℕ ℕ) (g : SampleGraph ℕ ℕ ℕ) (rep : Dict ℕ ℕ), WellFormed g ∧ DeclaredIn s g ∧
    SingleValued g.nodes ∧ (∀ n ∈ g.nodes, ∀ x, rep.get? n.var = some x → s.declared n.var x = true) ∧
    replaceGraph rep g ≠ g := by
  refine ⟨⟨⟨[(0, {0, 1}), (1, {0})], by decide⟩, {0}⟩, oneEdge ⟨0, 0⟩ ⟨1, 0⟩, ⟨[(0, 1)], by decide⟩,
    oneEdge_wf _ _ (by simp), ⟨by decide, by decide⟩, by unfold SingleValued; decide, ?_, by decide⟩
  intro n hn x hx
  simp only [oneEdge, Finset.mem_insert, Finset.mem_singleton] at hn
  rcases hn with rfl | rfl
  · simp only [Dict.get?, assoc?, if_true, Option.some.injEq] at hx; subst hx; decide
  · simp [Dict.get?, assoc?] at hx

/-! ### C19 -/

theorem relAllowed_iff (f : Option (Finset (Rel V R))) (r : Rel V R) : relAllowed f r = true ↔ Allowed f r := by
  cases f <;> simp [relAllowed, Allowed]

theorem oppositeEndpoint_good (o : Order (Node V X)) (e : Edge V X R) (hg : GoodEdge e) (n : Node V X)
    (hn : n ∈ e.endpoints) : ∃ m, e.oppositeEndpoint o n = .ok m ∧ m ∈ e.endpoints ∧ m ≠ n ∧
      ∀ k ∈ e.endpoints, k ≠ n → k = m := by
  obtain ⟨a, b, hl⟩ := List.length_eq_two.1 ((o.length_run e.endpoints).trans hg.card)
  have hnd := o.nodup e.endpoints
  have hab : a ≠ b := by rw [hl] at hnd; simpa using hnd
  have hmem : ∀ m, m ∈ e.endpoints ↔ m = a ∨ m = b := by
    intro m; rw [← o.mem, hl]; simp
  have hop : ∀ m, e.oppositeEndpoint o m =
      if a = m then .ok b else if b = m then .ok a else .error .assertion := by
    intro m; unfold Edge.oppositeEndpoint Edge.ab; rw [hl]
  rcases (hmem n).1 hn with rfl | rfl
  · refine ⟨b, by simp [hop], (hmem b).2 (Or.inr rfl), hab.symm, fun k hk hkn => ?_⟩
    exact ((hmem k).1 hk).resolve_left hkn
  · refine ⟨a, by simp [hop, hab], (hmem a).2 (Or.inl rfl), hab, fun k hk hkn => ?_⟩
    exact ((hmem k).1 hk).resolve_right hkn

/-- C19. `neighboring_values` returns a dictionary whose keys are exactly the nodes joined to the centre by an allowed
edge, each mapped to such an edge (the only one if no pair is linked twice). -/
theorem C19_neighboring_values (oN : Order (Node V X)) (oE : Order (Edge V X R)) (g : SampleGraph V X R)
    (hg : ∀ e ∈ g.edges, GoodEdge e) (c : Node V X) (f : Option (Finset (Rel V R))) :
    ∃ d, g.neighboringValues oN oE c f = .ok d ∧
      (∀ n, n ∈ d.keys ↔ ∃ e ∈ g.edges, Allowed f e.relation ∧ c ∈ e.endpoints ∧ n ∈ e.endpoints ∧ n ≠ c) ∧
      (∀ n e, d.get? n = some e → e ∈ g.edges ∧ Allowed f e.relation ∧ c ∈ e.endpoints ∧ n ∈ e.endpoints ∧ n ≠ c) ∧
      (OnePerPair g.edges → ∀ n e, d.get? n = some e ↔
        e ∈ g.edges ∧ Allowed f e.relation ∧ c ∈ e.endpoints ∧ n ∈ e.endpoints ∧ n ≠ c) := by
  have key : ∀ (l : List (Edge V X R)) (d0 : Dict (Node V X) (Edge V X R)), (∀ e ∈ l, e ∈ g.edges) →
      ∃ d, l.foldlM (init := d0) (fun d e =>
        if e.isEndpoint c && relAllowed f e.relation then do
          let n ← e.oppositeEndpoint oN c
          return d.set n e
        else return d) = (.ok d : Py _) ∧
      (∀ n, n ∈ d.keys ↔ n ∈ d0.keys ∨ ∃ e ∈ l, Allowed f e.relation ∧ c ∈ e.endpoints ∧ n ∈ e.endpoints ∧ n ≠ c) ∧
      (∀ n e, d.get? n = some e → d0.get? n = some e ∨
        (e ∈ l ∧ Allowed f e.relation ∧ c ∈ e.endpoints ∧ n ∈ e.endpoints ∧ n ≠ c)) := by
    intro l
    induction l with
    | nil => intro d0 _; exact ⟨d0, rfl, by simp, fun n e h => Or.inl h⟩
    | cons e t ih =>
      intro d0 hl
      have hl' : ∀ e ∈ t, e ∈ g.edges := fun x hx => hl x (by simp [hx])
      by_cases hc : (e.isEndpoint c && relAllowed f e.relation) = true
      · rw [Bool.and_eq_true, relAllowed_iff] at hc
        have hce : c ∈ e.endpoints := by simpa [Edge.isEndpoint] using hc.1
        obtain ⟨m, hm, hm1, hm2, hm3⟩ := oppositeEndpoint_good oN e (hg e (hl e (by simp))) c hce
        obtain ⟨d, h1, h2, h3⟩ := ih (d0.set m e) hl'
        refine ⟨d, ?_, ?_, ?_⟩
        · rw [List.foldlM_cons]
          have : (e.isEndpoint c && relAllowed f e.relation) = true := by
            rw [Bool.and_eq_true, relAllowed_iff]; exact hc
          rw [if_pos this, hm]
          exact h1
        · intro n
          rw [h2, Dict.mem_keys_set]
          constructor
          · rintro ((rfl | h) | ⟨e', he', h⟩)
            · exact Or.inr ⟨e, by simp, hc.2, hce, hm1, hm2⟩
            · exact Or.inl h
            · exact Or.inr ⟨e', by simp [he'], h⟩
          · rintro (h | ⟨e', he', h⟩)
            · exact Or.inl (Or.inr h)
            · rcases List.mem_cons.1 he' with rfl | he'
              · exact Or.inl (Or.inl (hm3 n h.2.2.1 h.2.2.2))
              · exact Or.inr ⟨e', he', h⟩
        · intro n e' h
          rcases h3 n e' h with h | ⟨he', h⟩
          · rw [Dict.get?_set] at h
            split at h
            · rename_i hmn
              simp only [Option.some.injEq] at h
              subst h; subst hmn
              exact Or.inr ⟨by simp, hc.2, hce, hm1, hm2⟩
            · exact Or.inl h
          · exact Or.inr ⟨by simp [he'], h⟩
      · obtain ⟨d, h1, h2, h3⟩ := ih d0 hl'
        have hno : ¬ (c ∈ e.endpoints ∧ Allowed f e.relation) := by
          rw [← relAllowed_iff]
          intro h; apply hc; rw [Bool.and_eq_true]; exact ⟨by simpa [Edge.isEndpoint] using h.1, h.2⟩
        refine ⟨d, ?_, ?_, ?_⟩
        · rw [List.foldlM_cons, if_neg hc]; exact h1
        · intro n
          rw [h2]
          constructor
          · rintro (h | ⟨e', he', h⟩)
            · exact Or.inl h
            · exact Or.inr ⟨e', by simp [he'], h⟩
          · rintro (h | ⟨e', he', h⟩)
            · exact Or.inl h
            · rcases List.mem_cons.1 he' with rfl | he'
              · exact absurd ⟨h.2.1, h.1⟩ hno
              · exact Or.inr ⟨e', he', h⟩
        · intro n e' h
          rcases h3 n e' h with h | ⟨he', h⟩
          · exact Or.inl h
          · exact Or.inr ⟨by simp [he'], h⟩
  obtain ⟨d, h1, h2, h3⟩ := key (oE.run g.edges) Dict.empty (fun e he => (oE.mem _ _).1 he)
  have hkeys : ∀ n, n ∈ d.keys ↔ ∃ e ∈ g.edges, Allowed f e.relation ∧ c ∈ e.endpoints ∧ n ∈ e.endpoints ∧ n ≠ c := by
    intro n; rw [h2]; simp [oE.mem]
  have hget : ∀ n e, d.get? n = some e →
      e ∈ g.edges ∧ Allowed f e.relation ∧ c ∈ e.endpoints ∧ n ∈ e.endpoints ∧ n ≠ c := by
    intro n e h
    rcases h3 n e h with h | ⟨he, h⟩
    · simp at h
    · exact ⟨(oE.mem _ _).1 he, h⟩
  refine ⟨d, h1, hkeys, hget, ?_⟩
  intro hone n e
  refine ⟨hget n e, fun h => ?_⟩
  obtain ⟨e', he'⟩ := (d.mem_keys n).1 ((hkeys n).2 ⟨e, h⟩)
  have h' := hget n e' he'
  rw [he']
  congr 1
  apply hone e' h'.1 e h.1
  have two : ∀ e ∈ g.edges, c ∈ e.endpoints → n ∈ e.endpoints → n ≠ c → e.endpoints = {c, n} := by
    intro e he hc hn hne
    symm
    apply Finset.eq_of_subset_of_card_le
    · intro x hx
      simp only [Finset.mem_insert, Finset.mem_singleton] at hx
      rcases hx with rfl | rfl
      · exact hc
      · exact hn
    · rw [(hg e he).card, Finset.card_pair hne.symm]
  rw [two e' h'.1 h'.2.2.1 h'.2.2.2.1 h'.2.2.2.2, two e h.1 h.2.2.1 h.2.2.2.1 h.2.2.2.2]

/-- Non-vacuity of C19: a sample in which the centre has a neighbour. -/
example : ∃ (g : SampleGraph ℕ ℕ ℕ), (∀ e ∈ g.edges, GoodEdge e) ∧ OnePerPair g.edges ∧
    ∃ e ∈ g.edges, Allowed (some ∅) e.relation ∧ ⟨0, 0⟩ ∈ e.endpoints ∧ ⟨1, 0⟩ ∈ e.endpoints := by
  have := oneEdge_wf ⟨0, 0⟩ ⟨1, 0⟩ (by simp)
  exact ⟨_, this.good, this.onePer, ⟨{⟨0, 0⟩, ⟨1, 0⟩}, .plain 0⟩, by simp [oneEdge], Or.inl rfl, by simp, by simp⟩

/-! ### C48 -/

/-- The subgraph induced by a set of variables. -/
def inducedSubgraph (vs : Finset V) (g : SampleGraph V X R) : SampleGraph V X R :=
  ⟨g.nodes.filter fun n => n.var ∈ vs, g.edges.filter fun e => ∀ n ∈ e.endpoints, n.var ∈ vs⟩

/-- C48, `variables_subgraph_hash`: it is the component set of the induced subgraph; monotone; everything when the
variables contain all of the sample's; equal for two samples exactly when their induced subgraphs are equal. -/
theorem C48_variables_subgraph (g h : SampleGraph V X R) (vs ws : Finset V) :
    g.variablesSubgraphHash vs = (inducedSubgraph vs g).hash ∧
    (vs ⊆ ws → g.variablesSubgraphHash vs ⊆ g.variablesSubgraphHash ws) ∧
    ((∀ e ∈ g.edges, e.endpoints ⊆ g.nodes) → g.includedVariables ⊆ vs → g.variablesSubgraphHash vs = g.hash) ∧
    (g.variablesSubgraphHash vs = h.variablesSubgraphHash vs ↔ inducedSubgraph vs g = inducedSubgraph vs h) := by
  have key : ∀ (g : SampleGraph V X R) vs, g.variablesSubgraphHash vs = (inducedSubgraph vs g).hash := by
    intro g vs
    unfold SampleGraph.variablesSubgraphHash inducedSubgraph SampleGraph.hash
    congr 1
    apply Finset.filter_congr
    intro e _
    simp [Edge.vars, Finset.subset_iff]
  refine ⟨key g vs, ?_, ?_, ?_⟩
  · intro hs x
    unfold SampleGraph.variablesSubgraphHash
    cases x with
    | inl n => simp only [Finset.inl_mem_disjSum, Finset.mem_filter]; exact fun h => ⟨h.1, hs h.2⟩
    | inr e => simp only [Finset.inr_mem_disjSum, Finset.mem_filter]; exact fun h => ⟨h.1, h.2.trans hs⟩
  · intro hcl hv
    unfold SampleGraph.variablesSubgraphHash SampleGraph.hash
    congr 1
    · rw [Finset.filter_eq_self]
      intro n hn; exact hv (Finset.mem_image_of_mem _ hn)
    · rw [Finset.filter_eq_self]
      intro e he
      exact (Finset.image_subset_image (hcl e he)).trans hv
  · rw [key, key]
    have := (C12_equality (inducedSubgraph vs g) (inducedSubgraph vs h))
    rw [← this.2]
    unfold SampleGraph.pyEq
    rw [decide_eq_true_eq]

/-- C48, `edges_endpoint_variables`: exactly the variable pairs linked by some edge; for single-valued samples variable
pairs correspond one to one to linked node pairs. -/
theorem C48_edges_endpoint_variables (g : SampleGraph V X R) (hw : WellFormed g) :
    (∀ p, p ∈ g.edgesEndpointVariables ↔ ∃ e ∈ g.edges, ∃ a b : Node V X, e.endpoints = {a, b} ∧ p = {a.var, b.var}) ∧
    (SingleValued g.nodes → ∀ e ∈ g.edges, ∀ e' ∈ g.edges, e.vars = e'.vars → e.endpoints = e'.endpoints) ∧
    (SingleValued g.nodes → g.edgesEndpointVariables.card = g.edges.card) := by
  have hsv : SingleValued g.nodes → ∀ e ∈ g.edges, ∀ e' ∈ g.edges, e.vars = e'.vars → e.endpoints = e'.endpoints := by
    intro hs
    have half : ∀ e ∈ g.edges, ∀ e' ∈ g.edges, e.vars = e'.vars → e.endpoints ⊆ e'.endpoints := by
      intro e he e' he' hv n hn
      have : n.var ∈ e'.vars := by rw [← hv]; exact Finset.mem_image_of_mem _ hn
      obtain ⟨m, hm, hmv⟩ := Finset.mem_image.1 this
      rw [← hs m (hw.closed e' he' hm) n (hw.closed e he hn) hmv]; exact hm
    intro e he e' he' hv
    exact Finset.Subset.antisymm (half e he e' he' hv) (half e' he' e he hv.symm)
  refine ⟨?_, hsv, ?_⟩
  · intro p
    unfold SampleGraph.edgesEndpointVariables
    rw [Finset.mem_image]
    constructor
    · rintro ⟨e, he, rfl⟩
      obtain ⟨a, b, hab, heq⟩ := hw.good e he
      exact ⟨e, he, a, b, heq, by simp [Edge.vars, heq]⟩
    · rintro ⟨e, he, a, b, heq, rfl⟩
      exact ⟨e, he, by simp [Edge.vars, heq]⟩
  · intro hs
    unfold SampleGraph.edgesEndpointVariables
    apply Finset.card_image_of_injOn
    intro e he e' he' hv
    exact hw.onePer e he e' he' (hsv hs e he e' he' hv)

/-- C48, `single_node_variable`: returns the variable of a single node sample and raises for a sample with edges
(`AssertionError`) or without nodes (`IndexError`). -/
theorem C48_single_node_variable (o : Order (Node V X)) (g : SampleGraph V X R) :
    (g.edges ≠ ∅ → g.singleNodeVariable o = .error .assertion) ∧
    (g.edges = ∅ → g.nodes = ∅ → g.singleNodeVariable o = .error .indexError) ∧
    (∀ n, g.edges = ∅ → g.nodes = {n} → g.singleNodeVariable o = .ok n.var) := by
  refine ⟨fun h => ?_, fun h h' => ?_, fun n h h' => ?_⟩
  · simp [SampleGraph.singleNodeVariable, SampleGraph.isSingleNode, h]
  · simp [SampleGraph.singleNodeVariable, SampleGraph.isSingleNode, h, h']
  · simp [SampleGraph.singleNodeVariable, SampleGraph.isSingleNode, h, h']

/-- Non-vacuity of C48. -/
example : ∃ g : SampleGraph ℕ ℕ ℕ, WellFormed g ∧ SingleValued g.nodes ∧ g.edges ≠ ∅ :=
  ⟨_, oneEdge_wf ⟨0, 0⟩ ⟨1, 0⟩ (by simp), by unfold SingleValued; decide, by decide⟩

end Verif
