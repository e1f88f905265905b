import Verif.Lemmas.Tables

/-!
# Inference with tables

Observing values, one after the other, in outcomes given by tables, and the sums over assignments that come out.
-/

set_option linter.unusedSectionVars false

namespace Verif

variable {V X R : Type} [DecidableEq V] [DecidableEq X] [DecidableEq R] {ι : Type} [DecidableEq ι]

theorem allVars_unit (S : Finset V) : allVars ({()} : Finset Unit) (fun _ => S) = S := by simp [allVars]

namespace Tables
variable {s : Samples V X R} {dom : V → Finset ℕ} {val : V → ℕ → X} {I : Finset ι} {scope : ι → Finset V}
  {pairs : ι → Finset (Finset V)} {G : ι → (V → ℕ) → SampleGraph V X R} {φ : ι → (V → ℕ) → ℤ}

/-- Tables whose scopes form a tree are joined, whatever the orders. -/
theorem joins {sp : Space V X R} (h : Tables sp.outcomes dom val I scope pairs G φ) (o : Orders V X R) (L : List (Finset V))
    (hL : (L : Multiset (Finset V)) = I.val.map scope) (ht : TreeShape L) : ∃ sp', sp.makeJoined o = .ok sp' :=
  C42_tree o sp h.good h.factorizable h.complete _ h.areFactors L (hL.trans h.scopes.symm) ht

/-- Joining a joined graph changes nothing. -/
theorem rejoined {S : Finset V} {pairs : Unit → Finset (Finset V)} {G : Unit → (V → ℕ) → SampleGraph V X R} {φ : Unit → (V → ℕ) → ℤ}
    {sp : Space V X R} (h : Tables sp.outcomes dom val ({()} : Finset Unit) (fun _ => S) pairs G φ) (o : Orders V X R) :
    ∃ sp', sp.makeJoined o = .ok sp' ∧ sp'.schema = sp.schema ∧ sp'.outcomes.prov = sp.outcomes.prov ∧
      Tables sp'.outcomes dom val ({()} : Finset Unit) (fun _ => S) pairs G φ := by
  obtain ⟨sp', hj⟩ := h.joins o [S] (by simp) (.one S (h.ne () (by simp)))
  have hk := (C42_make_joined o sp h.good h.complete).2 sp' hj
  refine ⟨sp', hj, hk.1, hk.2.1, ?_, h.inj, h.dom_ne, h.nodes, h.locG, h.locφ, h.wf, h.ne, h.links, h.disj, h.single⟩
  intro g c
  rw [(h.joined (by simp) o hj).get, allVars_unit]
  have hG : ∀ a, joinedGraph val ({()} : Finset Unit) (fun _ => S) G a = G () a := by
    intro a
    refine SampleGraph.ext ?_ ?_
    · rw [h.nodes () (by simp)]; simp [joinedGraph, allVars_unit]
    · simp [joinedGraph]
  simp only [hG, Finset.prod_singleton]

/-- Observing a value in a graph given by tables and joining. -/
theorem observed {sp cs sp' : Space V X R} (h : Tables sp.outcomes dom val I scope pairs G φ) (hI : I.Nonempty) (oI : Order (SampleGraph V X R × ℤ))
    (o : Orders V X R) {v : V} {j : ℕ} (hj : j ∈ dom v) {ev : Sample V X R} (hev : ev.graph = valueEvidence v (val v j))
    (hc : sp.conditionalGraph oI ev = .ok cs) (hm : cs.relationGraph.makeJoined o = .ok sp') :
    Tables sp'.outcomes (Function.update dom v {j}) val ({()} : Finset Unit) (fun _ => allVars I scope) (fun _ => I.biUnion pairs)
      (fun _ => joinedGraph val I scope G) (fun _ a => ∏ i ∈ I, φ i a) := by
  have h2 := h.conditioned oI hj hev hc
  exact Tables.joined (sp := cs.relationGraph) h2 hI o hm

end Tables

/-! ### Sums over assignments -/

theorem assigns_congr {dom dom' : V → Finset ℕ} {S : Finset V} (h : ∀ v ∈ S, dom v = dom' v) : assigns dom S = assigns dom' S := by
  ext a
  simp only [mem_assigns, InDom]
  refine and_congr_left fun _ => forall₂_congr fun v hv => ?_
  rw [h v hv]

/-- The domains after observing the value 0 of some variables. -/
def obsDom (dom : V → Finset ℕ) (vs : List V) (v : V) : Finset ℕ := if v ∈ vs then {0} else dom v

theorem obsDom_nil (dom : V → Finset ℕ) : obsDom dom [] = dom := by funext v; simp [obsDom]

theorem obsDom_snoc (dom : V → Finset ℕ) (vs : List V) (v : V) : Function.update (obsDom dom vs) v {0} = obsDom dom (vs ++ [v]) := by
  funext w
  by_cases h : w = v
  · subst h; simp [obsDom]
  · rw [Function.update_of_ne h]; simp [obsDom, h]

theorem assigns_obsDom {dom : V → Finset ℕ} {S : Finset V} {vs : List V} (hvs : ∀ v ∈ vs, v ∈ S ∧ 0 ∈ dom v) :
    assigns (obsDom dom vs) S = (assigns dom S).filter fun a => ∀ v ∈ vs, a v = 0 := by
  ext a
  rw [Finset.mem_filter, mem_assigns, mem_assigns]
  unfold InDom obsDom
  constructor
  · rintro ⟨h1, h2⟩
    have h3 : ∀ v ∈ vs, a v = 0 := by
      intro v hv
      have := h1 v (hvs v hv).1
      rw [if_pos hv] at this
      simpa using this
    refine ⟨⟨fun v hv => ?_, h2⟩, h3⟩
    by_cases hm : v ∈ vs
    · rw [h3 v hm]; exact (hvs v hm).2
    · have := h1 v hv; rwa [if_neg hm] at this
  · rintro ⟨⟨h1, h2⟩, h3⟩
    refine ⟨fun v hv => ?_, h2⟩
    split
    · rw [Finset.mem_singleton]; exact h3 v ‹_›
    · exact h1 v hv

/-- Two disjoint sets of variables: a sum over both is the sum over one of the sums over the other. -/
theorem sum_assigns_union {M : Type} [AddCommMonoid M] {dom : V → Finset ℕ} {S T : Finset V} (h : Disjoint S T) (f : (V → ℕ) → M) :
    ∑ a ∈ assigns dom (S ∪ T), f a = ∑ a ∈ assigns dom S, ∑ b ∈ assigns dom T, f fun v => if v ∈ T then b v else a v := by
  induction T using Finset.induction_on generalizing f with
  | empty =>
    rw [Finset.union_empty]
    refine Finset.sum_congr rfl fun a _ => ?_
    have : assigns dom (∅ : Finset V) = {fun _ => 0} := by
      ext b
      rw [mem_assigns, Finset.mem_singleton]
      simp only [InDom, Finset.notMem_empty, false_imp_iff, implies_true, true_and, not_false_eq_true, true_imp_iff]
      exact ⟨fun h => funext h, fun h v => by rw [h]⟩
    rw [this, Finset.sum_singleton]
    simp
  | insert v T hv ih =>
    rw [Finset.disjoint_insert_right] at h
    rw [Finset.union_insert, sum_assigns_insert (by simp [h.1, hv]), ih h.2]
    refine Finset.sum_congr rfl fun a _ => ?_
    rw [sum_assigns_insert hv]
    refine Finset.sum_congr rfl fun b _ => Finset.sum_congr rfl fun j _ => ?_
    congr 1
    funext w
    by_cases hw : w = v
    · subst hw; simp
    · simp [Function.update_of_ne hw, hw]

theorem card_assigns (dom : V → Finset ℕ) (S : Finset V) : (assigns dom S).card = ∏ v ∈ S, (dom v).card := by
  unfold assigns
  rw [Finset.card_map]
  exact Multiset.card_pi _ _

end Verif
