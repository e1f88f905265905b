import Verif.Model.VarText
import Verif.Props.Text
import Verif.Props.Folded

/-! C100: texts of nodes and edges of variables, folded and activation graphs. They do not depend on orders of iteration when variables
can be ordered, and they tell objects of a class apart, except folded edges. -/

set_option linter.unusedSectionVars false

namespace Verif

section
variable {V X R : Type} [DecidableEq V] [DecidableEq X] [DecidableEq R]

/-! ### Specification -/

/-- Texts can be told apart inside the texts of nodes and edges. -/
structure VarTexts (t : Texts V X R) (num : ℚ → Str) : Prop where
  varInj : Function.Injective t.var
  valInj : Function.Injective t.val
  relInj : Function.Injective (Rel.repr t)
  numInj : Function.Injective num
  var : ∀ v, ∀ c ∈ ['(', ')', ':'], c ∉ t.var v
  val : ∀ x, ',' ∉ t.val x
  rel : ∀ r : Rel V R, ',' ∉ r.repr t
  num : ∀ q, ∀ c ∈ ['(', ','], c ∉ num q

/-- The variables of a set are ordered by `<`. -/
def Ordered (lt : V → V → Option Bool) (s : Finset V) : Prop :=
  ∀ a ∈ s, ∀ b ∈ s, a ≠ b → (lt a b = some true ∧ lt b a = some false) ∨ (lt a b = some false ∧ lt b a = some true)

/-- Objects of the same class. -/
def VNode.SameClass : VNode V X → VNode V X → Prop
  | .plain _, .plain _ => True
  | .folded _, .folded _ => True
  | .active _, .active _ => True
  | _, _ => False

/-- Objects of the same class. -/
def VEdge.SameClass : VEdge V X R → VEdge V X R → Prop
  | .plain _, .plain _ => True
  | .folded _, .folded _ => True
  | .active _, .active _ => True
  | _, _ => False

/-- A folded node counts values of its own variable. -/
def VNode.Own : VNode V X → Prop
  | .folded f => ∀ p ∈ f.valueNodes, p.1.var = f.var
  | _ => True

/-! ### Rows -/

theorem coe_run {A : Type} (o : Order A) (s : Finset A) : ((o.run s : List A) : Multiset A) = s.val :=
  (Multiset.Nodup.ext (Multiset.coe_nodup.2 (o.nodup s)) s.nodup).2 fun a => by simp [o.mem]

theorem commaRow_iff {l l' : List Str} (h : ∀ s ∈ l ++ l', ',' ∉ s ∧ s ≠ []) : commaRow l = commaRow l' ↔ l.Perm l' := by
  refine ⟨fun e => ?_, fun e => by unfold commaRow; rw [sortStr_perm e]⟩
  have hne : ∀ m : List Str, m ≠ [] → sortStr m ≠ [] := by
    intro m hm h0
    have := (perm_sortStr m).length_eq
    rw [h0] at this
    exact hm (List.length_eq_zero_iff.1 (by simpa using this.symm))
  have hrow : ∀ m : List Str, m ≠ [] → (∀ s ∈ m, s ≠ []) → commaRow m ≠ [] := by
    intro m hm hs
    unfold commaRow
    obtain ⟨a, r, har⟩ := List.exists_cons_of_ne_nil (hne m hm)
    rw [har]
    obtain ⟨u, hu⟩ := joinStr_head [','] a r
    rw [hu]
    have : a ∈ m := (perm_sortStr m).mem_iff.1 (by rw [har]; simp)
    simp [hs a this]
  by_cases hl : l = []
  · by_cases hl' : l' = []
    · rw [hl, hl']
    · exact absurd (e.symm.trans (by rw [hl]; rfl)) (hrow l' hl' fun s hs => (h s (by simp [hs])).2)
  · by_cases hl' : l' = []
    · exact absurd (e.trans (by rw [hl']; rfl)) (hrow l hl fun s hs => (h s (by simp [hs])).2)
    · have := joinStr_inj (hne l hl) (hne l' hl')
        (fun s hs => (h s (by simp [(perm_sortStr l).mem_iff.1 hs])).1)
        (fun s hs => (h s (by simp [(perm_sortStr l').mem_iff.1 hs])).1) e
      exact (perm_sortStr l).symm.trans (this ▸ perm_sortStr l')

theorem withCount_inj {a b a' b' : Str} (hb : '(' ∉ b) (hb' : '(' ∉ b') (e : withCount a b = withCount a' b') : a = a' ∧ b = b' := by
  unfold withCount at e
  simp only [List.append_assoc, List.cons_append] at e
  have hx : ∀ u : Str, '(' ∉ u → '(' ∉ u ++ [')'] := by
    intro u hu h
    rcases List.mem_append.1 h with h | h
    · exact hu h
    · exact absurd h (by decide)
  obtain ⟨h1, h2⟩ := split_at_last (hx b hb) (hx b' hb') e
  exact ⟨h1, List.append_cancel_right h2⟩

theorem withCount_good {a b : Str} (ha : ',' ∉ a) (hb : ',' ∉ b) : ',' ∉ withCount a b ∧ withCount a b ≠ [] := by
  unfold withCount
  refine ⟨fun h => ?_, by simp⟩
  simp only [List.append_assoc, List.cons_append, List.mem_append, List.mem_cons, List.not_mem_nil, or_false] at h
  rcases h with h | h | h | h
  · exact ha h
  · exact absurd h (by decide)
  · exact hb h
  · exact absurd h (by decide)

theorem intStr_no {c : ℤ} {x : Char} (h1 : x ≠ '-') (h2 : x.isDigit = false) : x ∉ intStr c := fun h => by
  rcases intStr_chars c h with h | h
  · exact h1 h
  · rw [h2] at h; cases h

/-- Rows made of a text per member of a set: equal exactly when the members agree, as far as the text shows them. -/
theorem row_iff {A B : Type} (line : B → Str) (f : A → B) (hinj : Function.Injective line) (hgood : ∀ b, ',' ∉ line b ∧ line b ≠ [])
    (o o' : Order A) (s s' : Finset A) :
    commaRow ((o.run s).map fun a => line (f a)) = commaRow ((o'.run s').map fun a => line (f a)) ↔
      s.val.map f = s'.val.map f := by
  rw [commaRow_iff (by
    intro x hx
    rcases List.mem_append.1 hx with hx | hx <;> obtain ⟨a, -, rfl⟩ := List.mem_map.1 hx <;> exact hgood _)]
  rw [← Multiset.coe_eq_coe, ← coe_run o s, ← coe_run o' s', Multiset.map_coe, Multiset.map_coe]
  have h1 : ∀ l : List A, ((l.map fun a => line (f a) : List Str) : Multiset Str) = ((l.map f : List B) : Multiset B).map line := by
    intro l; rw [Multiset.map_coe, List.map_map]; rfl
  rw [h1, h1]
  exact ⟨fun e => Multiset.map_injective hinj e, fun e => by rw [e]⟩

theorem row_set_iff {A : Type} (line : A → Str) (hinj : Function.Injective line) (hgood : ∀ b, ',' ∉ line b ∧ line b ≠ [])
    (o o' : Order A) (s s' : Finset A) :
    commaRow ((o.run s).map line) = commaRow ((o'.run s').map line) ↔ s = s' := by
  have := row_iff line id hinj hgood o o' s s'
  rw [Multiset.map_id, Multiset.map_id] at this
  exact this.trans Finset.val_inj

/-! ### Nodes -/

/-- **C100.** The text of a node does not depend on the order in which sets are visited, and two nodes of the same class have the same
text exactly when they are equal. -/
theorem C100_node (t : Texts V X R) (num : ℚ → Str) (ht : VarTexts t num) (oI oI' : Order (Node V X × ℤ)) (oW oW' : Order (X × ℚ))
    (a b : VNode V X) (hc : a.SameClass b) (ha : a.Own) (hb : b.Own) :
    a.repr t num oI oW = b.repr t num oI' oW' ↔ a.pyEq b = true := by
  cases a with
  | plain v =>
    cases b with
    | plain w =>
      simp only [VNode.repr, VNode.pyEq, VNode.subclass, VNode.eqMethod, VNode.var]
      simp [ht.varInj.eq_iff]
      exact decide_eq_true_iff.symm
    | _ => cases hc
  | folded f =>
    cases b with
    | folded g =>
      simp only [VNode.repr, VNode.pyEq, VNode.subclass, VNode.eqMethod]
      have hrow := row_iff (fun q : X × ℤ => withCount (t.val q.1) (intStr q.2)) (fun p : Node V X × ℤ => (p.1.val, p.2))
        (by
          rintro ⟨x, c⟩ ⟨x', c'⟩ e
          obtain ⟨h1, h2⟩ := withCount_inj (intStr_no (by decide) (by decide)) (intStr_no (by decide) (by decide)) e
          exact Prod.ext (ht.valInj h1) (intStr_inj h2))
        (fun q => withCount_good (ht.val _) (intStr_no (by decide) (by decide))) oI oI' f.valueNodes g.valueNodes
      simp only [Bool.false_eq_true, if_false, Bool.and_eq_true, decide_eq_true_eq]
      constructor
      · intro e
        simp only [List.cons_append, List.append_assoc, List.cons.injEq, true_and] at e
        obtain ⟨e1, e2⟩ := split_at (ht.var _ ':' (by simp)) (ht.var _ ':' (by simp)) e
        have hv := ht.varInj e1
        refine ⟨hv, ?_⟩
        have e3 := hrow.1 (List.append_cancel_right (List.cons.inj e2).2)
        have hmap : ∀ (k : FoldedNode V X), (∀ p ∈ k.valueNodes, p.1.var = k.var) →
            (k.valueNodes.val.map fun p : Node V X × ℤ => (p.1.val, p.2)).map (fun q : X × ℤ => ((⟨k.var, q.1⟩ : Node V X), q.2)) =
              k.valueNodes.val := by
          intro k hk
          rw [Multiset.map_map]
          conv_rhs => rw [← Multiset.map_id k.valueNodes.val]
          refine Multiset.map_congr rfl fun p hp => ?_
          have := hk p hp
          obtain ⟨⟨v, x⟩, c⟩ := p
          simp only at this
          simp [this]
        have h1 := hmap f ha
        have h2 := hmap g hb
        rw [e3, hv, h2] at h1
        exact (Finset.val_inj.1 h1).symm
      · rintro ⟨h1, h2⟩
        rw [hrow.2 (by rw [h2]), h1]
    | _ => cases hc
  | active f =>
    cases b with
    | active g =>
      simp only [VNode.repr, VNode.pyEq, VNode.subclass, VNode.eqMethod]
      have hrow := row_set_iff (fun q : X × ℚ => withCount (t.val q.1) (num q.2))
        (by
          rintro ⟨x, c⟩ ⟨x', c'⟩ e
          obtain ⟨h1, h2⟩ := withCount_inj (ht.num _ '(' (by simp)) (ht.num _ '(' (by simp)) e
          exact Prod.ext (ht.valInj h1) (ht.numInj h2))
        (fun q => withCount_good (ht.val _) (ht.num _ ',' (by simp))) oW oW' f.values.entries.toFinset g.values.entries.toFinset
      simp only [Bool.false_eq_true, if_false, Bool.and_eq_true, decide_eq_true_eq]
      constructor
      · intro e
        have hq : f.inQuery = g.inQuery := by
          cases h1 : f.inQuery <;> cases h2 : g.inQuery <;> rw [h1, h2] at e <;> first | rfl | simp at e
        rw [hq] at e
        simp only [List.append_assoc] at e
        have e := List.append_cancel_left e
        simp only [List.cons_append, List.append_assoc, List.cons.injEq, true_and] at e
        obtain ⟨e1, e2⟩ := split_at (ht.var _ ':' (by simp)) (ht.var _ ':' (by simp)) e
        exact ⟨⟨ht.varInj e1, hrow.1 (List.append_cancel_right (List.cons.inj e2).2)⟩, hq⟩
      · rintro ⟨⟨h1, h2⟩, h3⟩
        rw [hrow.2 h2, h1, h3]
    | _ => cases hc

/-! ### Edges -/

theorem sortTwo_ordered (lt : V → V → Option Bool) (s : Finset V) (h : s.card = 2) (hs : Ordered lt s) (o : Order V) :
    ∃ a b, a ≠ b ∧ s = {a, b} ∧ lt a b = some true ∧ sortTwo lt (o.run s) = .ok (a, b) := by
  have hl := o.length_run s
  have hnd := o.nodup s
  have hm := o.mem s
  rw [h] at hl
  match hr : o.run s, hl with
  | [a, b], _ =>
    rw [hr] at hnd hm
    have hne : a ≠ b := by simpa using hnd
    have hE : s = {a, b} := by ext z; rw [← hm]; simp
    rcases hs a ((hm a).1 (by simp)) b ((hm b).1 (by simp)) hne with ⟨h1, h2⟩ | ⟨h1, h2⟩
    · exact ⟨a, b, hne, hE, h1, by simp [sortTwo, h2]⟩
    · exact ⟨b, a, hne.symm, by rw [hE, Finset.pair_comm], h2, by simp [sortTwo, h2]⟩

theorem pair_order_unique (lt : V → V → Option Bool) (s : Finset V) (hs : Ordered lt s) {a b a' b' : V} (hne : a ≠ b) (h : s = {a, b}) (h' : s = {a', b'})
    (hl : lt a b = some true) (hl' : lt a' b' = some true) : a = a' ∧ b = b' := by
  have ha : a' ∈ s := by rw [h']; simp
  have hb : b' ∈ s := by rw [h']; simp
  have ha1 : a ∈ s := by rw [h]; simp
  have hb1 : b ∈ s := by rw [h]; simp
  have e1 : a ∈ ({a', b'} : Finset V) := h' ▸ ha1
  have e2 : b ∈ ({a', b'} : Finset V) := h' ▸ hb1
  simp only [Finset.mem_insert, Finset.mem_singleton] at e1 e2
  rcases e1 with rfl | rfl
  · rcases e2 with rfl | rfl
    · exact absurd rfl hne
    · exact ⟨rfl, rfl⟩
  · rcases e2 with rfl | rfl
    · rcases hs a ha1 b hb1 hne with ⟨-, h2⟩ | ⟨h1, -⟩
      · rw [h2] at hl'; cases hl'
      · rw [h1] at hl; cases hl
    · exact absurd rfl hne

/-- What a text of an edge is made of: the two variables, and what is between them. -/
theorem edge_frame {va vb va' vb' m m' : Str} (ha : ')' ∉ va) (ha' : ')' ∉ va') (hb : '(' ∉ vb) (hb' : '(' ∉ vb')
    (e : '(' :: va ++ [')'] ++ m ++ ['('] ++ vb ++ [')'] = '(' :: va' ++ [')'] ++ m' ++ ['('] ++ vb' ++ [')']) :
    va = va' ∧ m = m' ∧ vb = vb' := by
  have e := List.append_cancel_right e
  simp only [List.cons_append, List.append_assoc, List.cons.injEq, true_and, List.nil_append] at e
  obtain ⟨e1, e2⟩ := split_at ha ha' e
  obtain ⟨e3, e4⟩ := split_at_last hb hb' e2
  exact ⟨e1, e3, e4⟩

/-- The middle part of the text of an edge. -/
def VEdge.middle (t : Texts V X R) (oE : Order (Edge V X R × ℤ)) (oR : Order (Rel V R × ℤ)) : VEdge V X R → Str
  | .plain _ => ['-', '-']
  | .folded f => ['-', '-', '{'] ++
      commaRow ((oE.run f.edges.entries.toFinset).map fun q => withCount (q.1.relation.repr t) (intStr q.2)) ++ ['}', '-', '-']
  | .active a => ['-', '-'] ++ (if a.inQuery then ['Q'] else []) ++ '{' ::
      commaRow ((oR.run a.relations.entries.toFinset).map fun q => withCount (q.1.repr t) (intStr q.2)) ++ ['}', '-', '-']

theorem repr_eq (t : Texts V X R) (lt : V → V → Option Bool) (oV : Order V) (oE : Order (Edge V X R × ℤ)) (oR : Order (Rel V R × ℤ))
    (e : VEdge V X R) : e.repr t lt oV oE oR =
      (sortTwo lt (oV.run e.endpoints)).map fun p => '(' :: t.var p.1 ++ [')'] ++ e.middle t oE oR ++ ['('] ++ t.var p.2 ++ [')'] := by
  cases e <;> simp only [VEdge.repr, VEdge.endpoints, VEdge.middle] <;> congr 1 <;> funext p <;> simp

/-- What of an edge is shown between the endpoints: nothing, the relations with their counts (each as often as there are relation edges
with it), or these and the query flag. -/
def VEdge.Shown : VEdge V X R → VEdge V X R → Prop
  | .plain _, .plain _ => True
  | .folded f, .folded g => f.edges.entries.toFinset.val.map (fun p => (p.1.relation, p.2)) =
      g.edges.entries.toFinset.val.map (fun p => (p.1.relation, p.2))
  | .active a, .active b => a.relations.entries.toFinset = b.relations.entries.toFinset ∧ a.inQuery = b.inQuery
  | _, _ => False

theorem relLine_inj (t : Texts V X R) (num : ℚ → Str) (ht : VarTexts t num) :
    Function.Injective fun q : Rel V R × ℤ => withCount (q.1.repr t) (intStr q.2) := by
  rintro ⟨x, c⟩ ⟨x', c'⟩ e
  obtain ⟨h1, h2⟩ := withCount_inj (intStr_no (by decide) (by decide)) (intStr_no (by decide) (by decide)) e
  exact Prod.ext (ht.relInj h1) (intStr_inj h2)

theorem middle_iff (t : Texts V X R) (num : ℚ → Str) (ht : VarTexts t num) (oE oE' : Order (Edge V X R × ℤ)) (oR oR' : Order (Rel V R × ℤ))
    (a b : VEdge V X R) (hc : a.SameClass b) : a.middle t oE oR = b.middle t oE' oR' ↔ a.Shown b := by
  have hgood : ∀ q : Rel V R × ℤ, ',' ∉ withCount (q.1.repr t) (intStr q.2) ∧ withCount (q.1.repr t) (intStr q.2) ≠ [] :=
    fun q => withCount_good (ht.rel _) (intStr_no (by decide) (by decide))
  cases a with
  | plain e => cases b with
    | plain e' => exact ⟨fun _ => trivial, fun _ => rfl⟩
    | _ => cases hc
  | folded f => cases b with
    | folded g =>
      simp only [VEdge.middle, VEdge.Shown]
      rw [← row_iff _ (fun p : Edge V X R × ℤ => (p.1.relation, p.2)) (relLine_inj t num ht) hgood oE oE']
      constructor
      · intro e
        exact List.append_cancel_left (List.append_cancel_right e)
      · intro e; rw [e]
    | _ => cases hc
  | active f => cases b with
    | active g =>
      simp only [VEdge.middle, VEdge.Shown]
      rw [← row_set_iff _ (relLine_inj t num ht) hgood oR oR']
      constructor
      · intro e
        have hq : f.inQuery = g.inQuery := by
          cases h1 : f.inQuery <;> cases h2 : g.inQuery <;> rw [h1, h2] at e <;> first | rfl | simp at e
        rw [hq] at e
        simp only [List.append_assoc] at e
        have e := List.append_cancel_left (List.append_cancel_left e)
        simp only [List.cons_append, List.cons.injEq, true_and] at e
        exact ⟨List.append_cancel_right e, hq⟩
      · rintro ⟨h1, h2⟩; rw [h1, h2]
    | _ => cases hc

/-- **C100.** When variables are ordered, an edge has a text, with the lesser variable first, whatever the order in which sets are visited;
two edges of the same class have the same text exactly when they have the same endpoints and show the same between them. -/
theorem C100_edge (t : Texts V X R) (num : ℚ → Str) (ht : VarTexts t num) (lt : V → V → Option Bool) (oV oV' : Order V)
    (oE oE' : Order (Edge V X R × ℤ)) (oR oR' : Order (Rel V R × ℤ)) (a b : VEdge V X R) (hc : a.SameClass b)
    (ha : a.endpoints.card = 2) (hb : b.endpoints.card = 2) (hoa : Ordered lt a.endpoints) (hob : Ordered lt b.endpoints) :
    (∃ u v m, a.endpoints = {u, v} ∧ lt u v = some true ∧
      a.repr t lt oV oE oR = .ok ('(' :: t.var u ++ [')'] ++ m ++ ['('] ++ t.var v ++ [')'])) ∧
    (a.repr t lt oV oE oR = b.repr t lt oV' oE' oR' ↔ a.endpoints = b.endpoints ∧ a.Shown b) := by
  obtain ⟨u, v, hne, huv, hlt, hs⟩ := sortTwo_ordered lt _ ha hoa oV
  obtain ⟨u', v', hne', huv', hlt', hs'⟩ := sortTwo_ordered lt _ hb hob oV'
  rw [repr_eq, repr_eq, hs, hs']
  refine ⟨⟨u, v, a.middle t oE oR, huv, hlt, rfl⟩, ?_⟩
  rw [← middle_iff t num ht oE oE' oR oR' a b hc]
  simp only [Except.map, Except.ok.injEq]
  constructor
  · intro e
    obtain ⟨e1, e2, e3⟩ := edge_frame (ht.var _ ')' (by simp)) (ht.var _ ')' (by simp)) (ht.var _ '(' (by simp)) (ht.var _ '(' (by simp)) e
    exact ⟨by rw [huv, huv', ht.varInj e1, ht.varInj e3], e2⟩
  · rintro ⟨h1, h2⟩
    obtain ⟨e1, e2⟩ := pair_order_unique lt a.endpoints hoa hne huv (h1.trans huv') hlt hlt'
    rw [h2, e1, e2]

/-- **C100.** So the text tells edges of variables graphs and of activation graphs apart, and equal edges have equal texts; folded edges
that are equal have equal texts too. -/
theorem C100_edge_equal (t : Texts V X R) (num : ℚ → Str) (ht : VarTexts t num) (lt : V → V → Option Bool) (oV oV' : Order V)
    (oE oE' : Order (Edge V X R × ℤ)) (oR oR' : Order (Rel V R × ℤ)) (a b : VEdge V X R) (hc : a.SameClass b)
    (ha : a.endpoints.card = 2) (hb : b.endpoints.card = 2) (hoa : Ordered lt a.endpoints) (hob : Ordered lt b.endpoints) :
    (a.pyEq b = true → a.repr t lt oV oE oR = b.repr t lt oV' oE' oR') ∧
    ((∀ f, a ≠ .folded f) → a.repr t lt oV oE oR = b.repr t lt oV' oE' oR' → a.pyEq b = true) := by
  have h := (C100_edge t num ht lt oV oV' oE oE' oR oR' a b hc ha hb hoa hob).2
  rw [h]
  cases a with
  | plain e => cases b with
    | plain e' =>
      simp only [VEdge.pyEq, VEdge.subclass, VEdge.eqMethod, VEdge.endpoints, VEdge.Shown]
      simp only [Bool.false_eq_true, if_false, and_true]
      exact ⟨decide_eq_true_iff.1, fun _ => decide_eq_true_iff.2⟩
    | _ => cases hc
  | folded f => cases b with
    | folded g =>
      simp only [VEdge.pyEq, VEdge.subclass, VEdge.eqMethod, VEdge.endpoints, VEdge.Shown]
      refine ⟨fun e => ?_, fun e => absurd rfl (e f)⟩
      simp only [Bool.false_eq_true, if_false, Bool.and_eq_true, decide_eq_true_eq] at e
      exact ⟨e.1, by rw [e.2]⟩
    | _ => cases hc
  | active f => cases b with
    | active g =>
      simp only [VEdge.pyEq, VEdge.subclass, VEdge.eqMethod, VEdge.endpoints, VEdge.Shown]
      simp [and_assoc]
    | _ => cases hc

/-- **C100.** When a comparison of the two variables raises, so does the text of any edge between them. -/
theorem C100_edge_raises (t : Texts V X R) (lt : V → V → Option Bool) (oV : Order V) (oE : Order (Edge V X R × ℤ)) (oR : Order (Rel V R × ℤ))
    (a : VEdge V X R) {u v : V} (hne : u ≠ v) (ha : a.endpoints = {u, v}) (h1 : lt u v = none) (h2 : lt v u = none) :
    a.repr t lt oV oE oR = .error .typeError := by
  rw [repr_eq]
  have hl := oV.length_run a.endpoints
  have hnd := oV.nodup a.endpoints
  have hm := oV.mem a.endpoints
  rw [ha, Finset.card_pair hne] at hl
  rw [ha] at hnd hm ⊢
  match hr : oV.run {u, v}, hl with
  | [x, y], _ =>
    rw [hr] at hnd hm
    have hx := (hm x).1 (by simp)
    have hy := (hm y).1 (by simp)
    have hxy : x ≠ y := by simpa using hnd
    simp only [Finset.mem_insert, Finset.mem_singleton] at hx hy
    have : lt y x = none := by
      rcases hx with rfl | rfl <;> rcases hy with rfl | rfl
      · exact absurd rfl hxy
      · exact h2
      · exact h1
      · exact absurd rfl hxy
    simp [sortTwo, this, Except.map]

/-- **C100.** When neither of the two variables is less than the other, as with frozensets, the text of an edge shows the order in which its
endpoints are visited: there are orders that give different texts. -/
theorem C100_edge_unordered (t : Texts V X R) (num : ℚ → Str) (ht : VarTexts t num) (lt : V → V → Option Bool) (oE : Order (Edge V X R × ℤ))
    (oR : Order (Rel V R × ℤ)) (a : VEdge V X R) {u v : V} (hne : u ≠ v) (ha : a.endpoints = {u, v}) (h1 : lt u v = some false)
    (h2 : lt v u = some false) : ∃ oV oV' : Order V, a.repr t lt oV oE oR ≠ a.repr t lt oV' oE oR := by
  have hord : ∀ x y : V, x ≠ y → ({u, v} : Finset V) = {x, y} → ∃ o : Order V, o.run {u, v} = [x, y] := by
    intro x y hxy he
    refine ⟨⟨fun s => if s = {u, v} then [x, y] else s.toList, fun s => ?_, fun s z => ?_⟩, by simp⟩
    · by_cases hs : s = {u, v}
      · simp [hs, hxy]
      · simp [hs, s.nodup_toList]
    · by_cases hs : s = {u, v}
      · subst hs; rw [if_pos rfl, he]; simp
      · simp [hs]
  obtain ⟨o, ho⟩ := hord u v hne rfl
  obtain ⟨o', ho'⟩ := hord v u hne.symm (Finset.pair_comm u v)
  refine ⟨o, o', fun e => hne ?_⟩
  rw [repr_eq, repr_eq, ha, ho, ho'] at e
  simp only [sortTwo, h1, h2, Except.map, Except.ok.injEq] at e
  exact ht.varInj (edge_frame (ht.var _ ')' (by simp)) (ht.var _ ')' (by simp)) (ht.var _ '(' (by simp)) (ht.var _ '(' (by simp)) e).1

/-- **C100.** In the folded graph of a space all nodes have different texts, and so have all edges when variables are ordered. -/
theorem C100_folded_graph (t : Texts V X R) (num : ℚ → Str) (ht : VarTexts t num) (lt : V → V → Option Bool) (hlt : ∀ s, Ordered lt s)
    (sp : Space V X R) (hs : Sound sp) (oS : Order (SampleGraph V X R × ℤ)) (oN : Order (Node V X)) (oG : Order (Edge V X R))
    (oI : Order (Node V X × ℤ)) (oW : Order (X × ℚ)) (oV : Order V) (oE : Order (Edge V X R × ℤ)) (oR : Order (Rel V R × ℤ)) :
    ∃ f, sp.foldedGraph oS oN oG = .ok f ∧ (f.nodes.map fun N => (VNode.folded N).repr t num oI oW).Nodup ∧
      (f.edges.map fun E => (VEdge.folded E).repr t lt oV oE oR).Nodup := by
  obtain ⟨f, hf, -, hn, he, -, -, hN, hE, -⟩ := C31_folded_graph sp oS oN oG hs
  refine ⟨f, hf, ?_, ?_⟩
  · have hown : ∀ N ∈ f.nodes, (VNode.folded N).Own := by
      intro N hNm p hp
      have := (Dict.mem_entries _ _ _).1 (List.mem_toFinset.1 hp)
      exact (((hN N hNm).2.2 p.1 p.2).1 this).1
    refine List.Nodup.map_on ?_ (List.Nodup.of_map _ hn)
    intro N h1 M h2 e
    have := (C100_node t num ht oI oI oW oW (.folded N) (.folded M) trivial (hown N h1) (hown M h2)).1 e
    simp only [VNode.pyEq, VNode.subclass, VNode.eqMethod, Bool.false_eq_true, if_false, Bool.and_eq_true, decide_eq_true_eq] at this
    exact List.inj_on_of_nodup_map hn h1 h2 this.1
  · refine List.Nodup.map_on ?_ (List.Nodup.of_map _ he)
    intro N h1 M h2 e
    have := ((C100_edge t num ht lt oV oV oE oE oR oR (.folded N) (.folded M) trivial (hE N h1).1 (hE M h2).1 (hlt _) (hlt _)).2.1 e).1
    exact List.inj_on_of_nodup_map he h1 h2 this

end

/-- **C100.** Folded edges that are not equal can have the same text, since values are not shown. -/
theorem C100_folded_edge_collision : ∃ f g : FoldedEdge ℕ ℕ ℕ, (VEdge.folded f).pyEq (.folded g) = false ∧
    ∀ (t : Texts ℕ ℕ ℕ) (lt : ℕ → ℕ → Option Bool) (oV : Order ℕ) (oE oE' : Order (Edge ℕ ℕ ℕ × ℤ)) (oR : Order (Rel ℕ ℕ × ℤ)),
      (VEdge.folded f).repr t lt oV oE oR = (VEdge.folded g).repr t lt oV oE' oR := by
  refine ⟨⟨{0, 1}, Dict.ofList [(⟨{⟨0, 0⟩, ⟨1, 0⟩}, .plain 0⟩, 1)]⟩, ⟨{0, 1}, Dict.ofList [(⟨{⟨0, 0⟩, ⟨1, 1⟩}, .plain 0⟩, 1)]⟩, by decide, ?_⟩
  intro t lt oV oE oE' oR
  have hone : ∀ (o : Order (Edge ℕ ℕ ℕ × ℤ)) (x : Edge ℕ ℕ ℕ × ℤ), o.run {x} = [x] := by
    intro o x
    have h := coe_run o {x}
    exact List.perm_singleton.1 (Multiset.coe_eq_coe.1 (h.trans rfl))
  have h1 : ∀ x : Edge ℕ ℕ ℕ × ℤ, (Dict.ofList [x]).entries.toFinset = {x} := fun x => rfl
  simp only [VEdge.repr, h1, hone]
  rfl

/-- **C100.** The text of a builder of a sample set shows its length and nothing else. -/
theorem C100_set_builder {V X R : Type} [DecidableEq V] [DecidableEq X] [DecidableEq R] (a b : Samples V X R) :
    a.builderRepr = b.builderRepr ↔ a.length = b.length := by
  unfold Samples.builderRepr
  constructor
  · intro e
    exact intStr_inj (List.append_cancel_left (List.append_cancel_right e))
  · intro e; rw [e]

/-! ### Non-vacuity -/

/-- `str` of rationals for the example: numerator and denominator. -/
def numDemo (q : ℚ) : Str := intStr q.num ++ '/' :: intStr q.den

theorem varTexts_demo : VarTexts unaryTexts numDemo := by
  have hrep : ∀ (c d : Char) (n : ℕ), d ≠ c → d ∉ List.replicate n c := by
    intro c d n h hm
    exact h (List.eq_of_mem_replicate hm)
  refine ⟨unaryTexts_clean.varInj, unaryTexts_clean.valInj, fun a b h => rel_repr_inj _ unaryTexts_clean a b h, ?_, ?_, ?_, ?_, ?_⟩
  · intro p q h
    obtain ⟨h1, h2⟩ := split_at (intStr_no (by decide) (by decide)) (intStr_no (by decide) (by decide)) h
    exact Rat.ext (intStr_inj h1) (by exact_mod_cast intStr_inj h2)
  · intro v c hc
    refine hrep 'a' c v ?_
    rintro rfl
    revert hc; decide
  · intro x; exact hrep 'b' ',' x (by decide)
  · intro r
    cases r with
    | plain r => exact hrep 'r' ',' r (by decide)
    | directed a b r =>
      have h1 := hrep 'r' ',' r (by decide)
      have h2 := hrep 'a' ',' a (by decide)
      have h3 := hrep 'a' ',' b (by decide)
      intro h
      simp only [Rel.repr, unaryTexts, List.cons_append, List.append_assoc, List.mem_append, List.mem_cons, List.not_mem_nil, or_false] at h
      rcases h with h | h | h | h | h | h | h | h
      · exact h1 h
      · exact absurd h (by decide)
      · exact h2 h
      · exact absurd h (by decide)
      · exact absurd h (by decide)
      · exact h
      · exact h3 h
      · exact absurd h (by decide)
  · intro q c hc h
    simp only [numDemo, List.mem_append, List.mem_cons] at h
    have hc' : c = '(' ∨ c = ',' := by simpa using hc
    rcases h with h | h | h
    · rcases hc' with rfl | rfl <;> exact intStr_no (by decide) (by decide) h
    · rcases hc' with rfl | rfl <;> exact absurd h (by decide)
    · rcases hc' with rfl | rfl <;> exact intStr_no (by decide) (by decide) h

/-- Non-vacuity of `C100_node`, `C100_edge`: an active node, and an edge between ordered variables. -/
theorem varText_demo (oW : Order (ℕ × ℚ)) (oI : Order (Node ℕ ℕ × ℤ)) (oV : Order ℕ) (oE : Order (Edge ℕ ℕ ℕ × ℤ)) (oR : Order (Rel ℕ ℕ × ℤ)) :
    VNode.repr unaryTexts numDemo oI oW (.active ⟨1, Dict.ofList [(2, 1 / 2)], true⟩) = "Q(a:{bb(1/2)})".toList ∧
    Ordered (fun a b : ℕ => some (decide (a < b))) {1, 2} ∧
    VEdge.repr unaryTexts (fun a b => some (decide (a < b))) oV oE oR (.active ⟨{2, 1}, Dict.ofList [(.plain 1, 3)], false⟩) =
      .ok "(a)--{r(3)}--(aa)".toList := by
  have hord : Ordered (fun a b : ℕ => some (decide (a < b))) {1, 2} := by
    intro a ha b hb hab
    simp only [Finset.mem_insert, Finset.mem_singleton] at ha hb
    rcases ha with rfl | rfl <;> rcases hb with rfl | rfl
    · exact absurd rfl hab
    · exact Or.inl ⟨rfl, rfl⟩
    · exact Or.inr ⟨rfl, rfl⟩
    · exact absurd rfl hab
  have hone : ∀ {A : Type} (o : Order A) (x : A), o.run {x} = [x] := by
    intro A o x
    have h := coe_run o {x}
    exact List.perm_singleton.1 (Multiset.coe_eq_coe.1 (h.trans rfl))
  refine ⟨?_, hord, ?_⟩
  · have h1 : (Dict.ofList [((2 : ℕ), (1 / 2 : ℚ))]).entries.toFinset = {(2, 1 / 2)} := rfl
    simp only [VNode.repr, h1, hone]
    have h2 : numDemo (1 / 2) = "1/2".toList := by
      have : (1 / 2 : ℚ).num = 1 ∧ (1 / 2 : ℚ).den = 2 := by
        have e : (1 / 2 : ℚ) = mkRat 1 2 := by norm_num [Rat.mkRat_eq_div]
        rw [e]; exact ⟨rfl, rfl⟩
      unfold numDemo; rw [this.1, this.2]; decide
    simp only [List.map_cons, List.map_nil, h2]
    decide
  · obtain ⟨a, b, hne, hab, hlt, hs⟩ := sortTwo_ordered (fun a b : ℕ => some (decide (a < b))) {2, 1} rfl (by rw [Finset.pair_comm]; exact hord) oV
    obtain ⟨rfl, rfl⟩ := pair_order_unique (fun a b : ℕ => some (decide (a < b))) {2, 1} (by rw [Finset.pair_comm]; exact hord) hne hab
      (Finset.pair_comm 2 1) hlt (by decide)
    have h1 : (Dict.ofList [((.plain 1 : Rel ℕ ℕ), (3 : ℤ))]).entries.toFinset = {(.plain 1, 3)} := rfl
    simp only [VEdge.repr, h1, hone, hs, Except.map]
    decide

end Verif
