import Verif.Lemmas.Builder

/-! Helper lemmas on `add_relation` and `build_from_edges`. -/

set_option linter.unusedSectionVars false

namespace Verif
open Relation

variable {V X R : Type} [DecidableEq V] [DecidableEq X] [DecidableEq R]

theorem toNodes_inj {a b : Finset (V × X)} (h : toNodes a = toNodes b) : a = b := by
  unfold toNodes at h
  refine Finset.image_injective (f := fun p : V × X => (⟨p.1, p.2⟩ : Node V X)) ?_ h
  rintro ⟨a, b⟩ ⟨c, d⟩ h
  simpa using h

theorem mem_toNodes (eps : Finset (V × X)) (n : Node V X) : n ∈ toNodes eps ↔ (n.var, n.val) ∈ eps := by
  unfold toNodes
  rw [Finset.mem_image]
  constructor
  · rintro ⟨p, hp, rfl⟩; exact hp
  · intro h; exact ⟨_, h, rfl⟩

theorem validate_ok {eps : Finset (V × X)} (h : TwoVars eps) : validateEndpoints eps = .ok () := by
  obtain ⟨a, b, hne, rfl⟩ := h
  have hab : a ≠ b := by rintro rfl; exact hne rfl
  unfold validateEndpoints
  rw [Finset.card_pair hab, Finset.image_insert, Finset.image_singleton, Finset.card_pair hne]
  simp

theorem validate_error {eps : Finset (V × X)} (h : ¬ TwoVars eps) : validateEndpoints eps = .error .assertion := by
  unfold validateEndpoints
  split
  · rfl
  · rename_i h1
    split
    · rfl
    · rename_i h2
      exfalso
      rw [not_not] at h1 h2
      obtain ⟨a, b, hab, rfl⟩ := Finset.card_eq_two.1 h1
      refine h ⟨a, b, ?_, rfl⟩
      intro he
      rw [Finset.image_insert, Finset.image_singleton, he] at h2
      simp at h2

theorem goodEdge_of_twoVars {eps : Finset (V × X)} (h : TwoVars eps) (r : Rel V R) : GoodEdge ⟨toNodes eps, r⟩ := by
  obtain ⟨a, b, hne, rfl⟩ := h
  exact ⟨⟨a.1, a.2⟩, ⟨b.1, b.2⟩, hne, by simp [toNodes]⟩

theorem declared_iff (s : Schema V X R) (v : V) (x : X) :
    s.declared v x = true ↔ ∃ xs, s.vars.get? v = some xs ∧ x ∈ xs := by
  unfold Schema.declared
  cases s.vars.get? v <;> simp

theorem relOk_iff (s : Schema V X R) (eps : Finset (V × X)) (r : Rel V R) :
    s.relOk (toNodes eps) r = true ↔ (match r with
      | .plain l => l ∈ s.rels
      | .directed a b l => l ∈ s.rels ∧ (∃ p ∈ eps, p.1 = a) ∧ (∃ p ∈ eps, p.1 = b)) := by
  have : ∀ v, v ∈ (toNodes eps).image Node.var ↔ ∃ p ∈ eps, p.1 = v := by
    intro v
    simp only [Finset.mem_image, mem_toNodes]
    constructor
    · rintro ⟨n, hn, rfl⟩; exact ⟨_, hn, rfl⟩
    · rintro ⟨p, hp, rfl⟩; exact ⟨⟨p.1, p.2⟩, hp, rfl⟩
  unfold Schema.relOk
  rw [Bool.and_eq_true, decide_eq_true_eq]
  cases r with
  | plain l => simp [Schema.dirOk, Rel.label]
  | directed a b l =>
    simp only [Schema.dirOk, Bool.and_eq_true, decide_eq_true_eq, this]
    exact Iff.rfl

theorem rawDeclared_iff (s : Schema V X R) (eps : Finset (V × X)) (r : Rel V R) :
    RawDeclared s eps r ↔ (∀ p ∈ eps, s.declared p.1 p.2 = true) ∧ s.relOk (toNodes eps) r = true := by
  unfold RawDeclared
  rw [relOk_iff]
  simp only [declared_iff]
  cases r <;> exact Iff.rfl

theorem getNodes_ok {s : Schema V X R} {eps : Finset (V × X)} (h : ∀ p ∈ eps, s.declared p.1 p.2 = true) :
    s.getNodes eps = .ok (toNodes eps) := by
  unfold Schema.getNodes; rw [if_pos h]; rfl

theorem getNodes_error {s : Schema V X R} {eps : Finset (V × X)} (h : ¬ ∀ p ∈ eps, s.declared p.1 p.2 = true) :
    s.getNodes eps = .error .assertion := by
  unfold Schema.getNodes; rw [if_neg h]

theorem getEdge_ok {s : Schema V X R} {eps : Finset (V × X)} {r : Rel V R} (h2 : TwoVars eps)
    (h : s.relOk (toNodes eps) r = true) : s.getEdge (toNodes eps) r = .ok ⟨toNodes eps, r⟩ := by
  unfold Schema.getEdge
  rw [if_pos h, if_neg]
  have := (goodEdge_of_twoVars h2 r).card
  simp only at this
  omega

theorem getEdge_error {s : Schema V X R} {eps : Finset (V × X)} {r : Rel V R}
    (h : ¬ s.relOk (toNodes eps) r = true) : s.getEdge (toNodes eps) r = .error .assertion := by
  unfold Schema.getEdge; rw [if_neg h]

namespace Builder

/-- The complete behaviour of `add_relation` on a builder satisfying the invariant. -/
theorem addRelation_eq (s : Schema V X R) (b : Builder V X R) (hb : b.Inv) (eps : Finset (V × X)) (r : Rel V R) :
    (TwoVars eps ∧ RawDeclared s eps r ∧ (b.nodes = ∅ ∨ ¬ Disjoint (toNodes eps) b.nodes) ∧
        (∀ e ∈ b.edges, e.endpoints ≠ toNodes eps) ∧
        b.addRelation s eps r = (b.insertEdge ⟨toNodes eps, r⟩, none)) ∨
    (¬ (TwoVars eps ∧ RawDeclared s eps r ∧ (b.nodes = ∅ ∨ ¬ Disjoint (toNodes eps) b.nodes) ∧
        (∀ e ∈ b.edges, e.endpoints ≠ toNodes eps)) ∧
        b.addRelation s eps r = (b, some .assertion)) := by
  have hhas : b.eps.has (toNodes eps) = true ↔ ∃ e ∈ b.edges, e.endpoints = toNodes eps := by
    rw [Dict.has_iff, Dict.mem_keys]
    constructor
    · rintro ⟨e, he⟩; exact ⟨e, (hb.index _ _).1 he⟩
    · rintro ⟨e, he⟩; exact ⟨e, (hb.index _ _).2 he⟩
  rw [rawDeclared_iff]
  unfold addRelation
  by_cases h1 : TwoVars eps
  · rw [validate_ok h1]
    by_cases h2 : ∀ p ∈ eps, s.declared p.1 p.2 = true
    · rw [getNodes_ok h2]
      by_cases h3 : s.relOk (toNodes eps) r = true
      · simp only [getEdge_ok h1 h3]
        by_cases h4 : ¬ Disjoint (toNodes eps) b.nodes ∨ b.nodes = ∅
        · rw [if_neg (not_not.2 h4)]
          by_cases h5 : b.eps.has (toNodes eps) = true
          · rw [if_pos h5]
            right
            refine ⟨?_, rfl⟩
            rintro ⟨-, -, -, h⟩
            obtain ⟨e, he, hee⟩ := hhas.1 h5
            exact h e he hee
          · rw [if_neg h5]
            left
            refine ⟨h1, ⟨h2, h3⟩, h4.symm, ?_, rfl⟩
            intro e he hee
            exact h5 (hhas.2 ⟨e, he, hee⟩)
        · rw [if_pos h4]
          exact Or.inr ⟨fun h => h4 h.2.2.1.symm, rfl⟩
      · simp only [getEdge_error h3]
        exact Or.inr ⟨fun h => h3 h.2.1.2, by trivial⟩
    · rw [getNodes_error h2]
      exact Or.inr ⟨fun h => h2 h.2.1.1, by trivial⟩
  · rw [validate_error h1]
    exact Or.inr ⟨fun h => h1 h.1, by trivial⟩

/-- `add_relation` never changes the builder when it raises (no invariant needed). -/
theorem addRelation_atomic (s : Schema V X R) (b : Builder V X R) (eps : Finset (V × X)) (r : Rel V R)
    (h : (b.addRelation s eps r).2 ≠ none) : (b.addRelation s eps r).1 = b := by
  revert h
  unfold addRelation
  split
  · intro _; rfl
  · split
    · intro _; rfl
    · split
      · intro _; rfl
      · split
        · intro _; rfl
        · split
          · intro _; rfl
          · intro h; exact absurd rfl h

theorem inv_addRelation (s : Schema V X R) (b : Builder V X R) (hb : b.Inv) (eps : Finset (V × X)) (r : Rel V R) :
    (b.addRelation s eps r).1.Inv := by
  rcases b.addRelation_eq s hb eps r with ⟨h1, h2, h3, h4, h⟩ | ⟨-, h⟩
  · rw [h]
    refine inv_insertEdge b hb _ (goodEdge_of_twoVars h1 r) h3.symm ?_
    intro e' he' hee
    exact absurd hee (h4 e' he')
  · rw [h]; exact hb

theorem declaredIn_addRelation (s : Schema V X R) (b : Builder V X R) (hb : b.Inv) (hd : DeclaredIn s b.graph)
    (eps : Finset (V × X)) (r : Rel V R) : DeclaredIn s (b.addRelation s eps r).1.graph := by
  rcases b.addRelation_eq s hb eps r with ⟨h1, h2, h3, h4, h⟩ | ⟨-, h⟩
  · rw [h]
    rw [rawDeclared_iff] at h2
    constructor
    · intro n hn
      simp only [graph, insertEdge, Finset.mem_union, mem_toNodes] at hn
      rcases hn with hn | hn
      · exact hd.nodes n hn
      · exact h2.1 _ hn
    · intro e he
      simp only [graph, insertEdge, Finset.mem_insert] at he
      rcases he with rfl | he
      · exact h2.2
      · exact hd.edges e he
  · rw [h]; exact hd

/-- An edge given by the user is acceptable on its own. -/
def RawOk (s : Schema V X R) (e : RawEdge V X R) : Prop := TwoVars e.1 ∧ RawDeclared s e.1 e.2

/-- The loop of `build_from_edges` when all edges are acceptable. -/
theorem addRawEdges_ok (s : Schema V X R) (l : List (RawEdge V X R)) (hl : ∀ e ∈ l, RawOk s e) (b : Builder V X R) :
    ∃ b', addRawEdges s l b = (b', none) ∧ b'.prov = b.prov ∧
      b'.edges = b.edges ∪ l.toFinset.image (fun e => ⟨toNodes e.1, e.2⟩) ∧
      b'.nodes = b.nodes ∪ l.toFinset.biUnion (fun e => toNodes e.1) := by
  induction l generalizing b with
  | nil => exact ⟨b, rfl, rfl, by simp, by simp⟩
  | cons x t ih =>
    obtain ⟨eps, r⟩ := x
    obtain ⟨h1, h2⟩ := hl (eps, r) (by simp)
    rw [rawDeclared_iff] at h2
    obtain ⟨b', e1, e2, e3, e4⟩ := ih (fun e he => hl e (by simp [he])) (b.insertEdge ⟨toNodes eps, r⟩)
    refine ⟨b', ?_, e2, ?_, ?_⟩
    · unfold addRawEdges
      rw [validate_ok h1, getNodes_ok h2.1]
      simp only [getEdge_ok h1 h2.2]
      exact e1
    · rw [e3]
      ext e
      simp only [insertEdge, Finset.mem_union, Finset.mem_insert, Finset.mem_image, List.mem_toFinset, List.mem_cons]
      constructor
      · rintro ((rfl | h) | ⟨a, h, rfl⟩)
        · exact Or.inr ⟨_, Or.inl rfl, rfl⟩
        · exact Or.inl h
        · exact Or.inr ⟨a, Or.inr h, rfl⟩
      · rintro (h | ⟨a, rfl | h, rfl⟩)
        · exact Or.inl (Or.inr h)
        · exact Or.inl (Or.inl rfl)
        · exact Or.inr ⟨a, h, rfl⟩
    · rw [e4]
      ext n
      simp only [insertEdge, Finset.mem_union, Finset.mem_biUnion, List.mem_toFinset, List.mem_cons]
      constructor
      · rintro ((h | h) | ⟨a, h, h'⟩)
        · exact Or.inl h
        · exact Or.inr ⟨_, Or.inl rfl, h⟩
        · exact Or.inr ⟨a, Or.inr h, h'⟩
      · rintro (h | ⟨a, rfl | h, h'⟩)
        · exact Or.inl (Or.inl h)
        · exact Or.inl (Or.inr h')
        · exact Or.inr ⟨a, h, h'⟩

theorem addRawEdges_error (s : Schema V X R) (l : List (RawEdge V X R)) (hl : ∃ e ∈ l, ¬ RawOk s e) (b : Builder V X R) :
    (addRawEdges s l b).2 = some .assertion := by
  induction l generalizing b with
  | nil => simp at hl
  | cons x t ih =>
    obtain ⟨eps, r⟩ := x
    unfold addRawEdges
    by_cases h1 : TwoVars eps
    · rw [validate_ok h1]
      by_cases h2 : ∀ p ∈ eps, s.declared p.1 p.2 = true
      · rw [getNodes_ok h2]
        by_cases h3 : s.relOk (toNodes eps) r = true
        · simp only [getEdge_ok h1 h3]
          apply ih
          obtain ⟨e, he, hn⟩ := hl
          rcases List.mem_cons.1 he with rfl | he
          · exact absurd ⟨h1, (rawDeclared_iff s eps r).2 ⟨h2, h3⟩⟩ hn
          · exact ⟨e, he, hn⟩
        · simp only [getEdge_error h3]
      · rw [getNodes_error h2]
    · rw [validate_error h1]

end Builder
end Verif
