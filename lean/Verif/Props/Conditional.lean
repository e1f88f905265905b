import Verif.Model.Conditional
import Verif.Props.SampleSpace

/-!
# Conditioning (relation_graph.py 219-239): C34
-/

set_option linter.unusedSectionVars false

namespace Verif

section
variable {V X R : Type} [DecidableEq V] [DecidableEq X] [DecidableEq R]

/-- The sample contains all nodes and edges of the evidence. -/
def ContainsGraph (ev g : SampleGraph V X R) : Prop := ev.nodes ⊆ g.nodes ∧ ev.edges ⊆ g.edges

instance (ev g : SampleGraph V X R) : Decidable (ContainsGraph ev g) := by unfold ContainsGraph; infer_instance

/-- No variable has a value in both. -/
def NoCommonVariable (ev g : SampleGraph V X R) : Prop := ∀ n ∈ ev.nodes, ∀ m ∈ g.nodes, n.var ≠ m.var

/-- The outcomes kept by conditioning. -/
def KeptBy (ev g : SampleGraph V X R) : Prop := ContainsGraph ev g ∨ NoCommonVariable ev g

theorem isSubgraph_iff (ev g : SampleGraph V X R) : ev.isSubgraph g = true ↔ ContainsGraph ev g := by
  unfold SampleGraph.isSubgraph SampleGraph.hash ContainsGraph
  rw [decide_eq_true_eq]
  constructor
  · intro h
    constructor
    · intro n hn
      have := h (Finset.inl_mem_disjSum.2 hn)
      rwa [Finset.inl_mem_disjSum] at this
    · intro e he
      have := h (Finset.inr_mem_disjSum.2 he)
      rwa [Finset.inr_mem_disjSum] at this
  · rintro ⟨h1, h2⟩ x hx
    cases x with
    | inl n => rw [Finset.inl_mem_disjSum] at hx ⊢; exact h1 hx
    | inr e => rw [Finset.inr_mem_disjSum] at hx ⊢; exact h2 hx

theorem keptBy_iff (ev g : SampleGraph V X R) :
    (ev.isSubgraph g || decide (Disjoint ev.includedVariables g.includedVariables)) = true ↔ KeptBy ev g := by
  rw [Bool.or_eq_true, isSubgraph_iff, decide_eq_true_eq, Finset.disjoint_left]
  unfold KeptBy NoCommonVariable SampleGraph.includedVariables
  refine or_congr Iff.rfl ?_
  constructor
  · intro h n hn m hm he
    exact h (Finset.mem_image_of_mem _ hn) (he ▸ Finset.mem_image_of_mem _ hm)
  · intro h v hv hv'
    obtain ⟨n, hn, rfl⟩ := Finset.mem_image.1 hv
    obtain ⟨m, hm, he⟩ := Finset.mem_image.1 hv'
    exact h n hn m hm he.symm

/-- **C34.** Conditioning keeps, with unchanged counts, exactly the outcomes containing the evidence or sharing no variable
with it; it raises (`AssertionError`) exactly for evidence of another provider. -/
theorem C34_conditional_graph (sp : Space V X R) (oI : Order (SampleGraph V X R × ℤ)) (ev : Sample V X R) :
    (ev.prov = sp.outcomes.prov → ∃ cs, sp.conditionalGraph oI ev = .ok cs ∧ cs.schema = sp.schema ∧
      cs.evidence = some ev ∧ cs.outcomes.prov = sp.outcomes.prov ∧
      ∀ g c, cs.outcomes.samples.get? g = some c ↔ sp.outcomes.samples.get? g = some c ∧ KeptBy ev.graph g) ∧
    (ev.prov ≠ sp.outcomes.prov → sp.conditionalGraph oI ev = .error .assertion) := by
  constructor
  · intro h
    unfold Space.conditionalGraph
    rw [if_neg (not_not.2 h)]
    refine ⟨_, rfl, rfl, rfl, rfl, ?_⟩
    intro g c
    have hnd : (((oI.run sp.outcomes.items).filter fun p => ev.graph.isSubgraph p.1 ||
        decide (Disjoint ev.graph.includedVariables p.1.includedVariables)).map Prod.fst).Nodup :=
      ((((sp.outcomes.run_items_perm oI).map Prod.fst).nodup_iff).2 sp.outcomes.samples.nodup).sublist
        (List.filter_sublist.map _)
    simp only
    rw [Dict.get?_ofList _ hnd, List.mem_filter, oI.mem, Samples.mem_items, keptBy_iff]
  · intro h
    unfold Space.conditionalGraph
    rw [if_pos h]

/-- **C34.** Conditioning a second time on the same evidence changes nothing. -/
theorem C34_idempotent (sp : Space V X R) (oI oI' : Order (SampleGraph V X R × ℤ)) (ev : Sample V X R) (cs : Space V X R)
    (h : sp.conditionalGraph oI ev = .ok cs) :
    ∃ cs', cs.relationGraph.conditionalGraph oI' ev = .ok cs' ∧ cs'.outcomes.pyEq cs.outcomes = true := by
  obtain ⟨h1, h2⟩ := C34_conditional_graph sp oI ev
  by_cases hp : ev.prov = sp.outcomes.prov
  · obtain ⟨cs0, hc, -, -, hpr, hg⟩ := h1 hp
    rw [h] at hc
    cases hc
    obtain ⟨cs', hc', -, -, -, hg'⟩ := (C34_conditional_graph cs.relationGraph oI' ev).1 (hp.trans hpr.symm)
    refine ⟨cs', hc', ?_⟩
    rw [Samples.pyEq_iff]
    intro g
    ext c
    rw [hg' g c]
    show cs.outcomes.samples.get? g = some c ∧ _ ↔ cs.outcomes.samples.get? g = some c
    rw [hg g c]
    tauto
  · rw [h2 hp] at h; cases h

/-- **C34.** The order of two pieces of evidence does not matter. -/
theorem C34_commute (sp : Space V X R) (o1 o2 o3 o4 : Order (SampleGraph V X R × ℤ)) (e1 e2 : Sample V X R)
    (h1 : e1.prov = sp.outcomes.prov) (h2 : e2.prov = sp.outcomes.prov) :
    ∃ a ab b ba, sp.conditionalGraph o1 e1 = .ok a ∧ a.relationGraph.conditionalGraph o2 e2 = .ok ab ∧
      sp.conditionalGraph o3 e2 = .ok b ∧ b.relationGraph.conditionalGraph o4 e1 = .ok ba ∧
      ab.outcomes.pyEq ba.outcomes = true := by
  obtain ⟨a, ha, -, -, hpa, hga⟩ := (C34_conditional_graph sp o1 e1).1 h1
  obtain ⟨b, hb, -, -, hpb, hgb⟩ := (C34_conditional_graph sp o3 e2).1 h2
  obtain ⟨ab, hab, -, -, -, hgab⟩ := (C34_conditional_graph a.relationGraph o2 e2).1 (h2.trans hpa.symm)
  obtain ⟨ba, hba, -, -, -, hgba⟩ := (C34_conditional_graph b.relationGraph o4 e1).1 (h1.trans hpb.symm)
  refine ⟨a, ab, b, ba, ha, hab, hb, hba, ?_⟩
  rw [Samples.pyEq_iff]
  intro g
  ext c
  rw [hgab, hgba]
  show a.outcomes.samples.get? g = some c ∧ _ ↔ b.outcomes.samples.get? g = some c ∧ _
  rw [hga, hgb]
  tauto

/-- Non-vacuity of C34: the evidence "variable 1 has value 0" keeps the outcome containing it and the one without the variable
1, and the evidence "variable 0 has value 0" drops the second outcome. -/
example : demoSpace.outcomes.Occurs (oneEdge ⟨0, 0⟩ ⟨1, 0⟩) ∧ demoSpace.outcomes.Occurs (oneEdge ⟨0, 1⟩ ⟨2, 0⟩) ∧
    ContainsGraph ⟨{⟨1, 0⟩}, ∅⟩ (oneEdge ⟨0, 0⟩ ⟨1, 0⟩) ∧ ¬ ContainsGraph ⟨{⟨1, 0⟩}, ∅⟩ (oneEdge ⟨0, 1⟩ ⟨2, 0⟩) ∧
    KeptBy ⟨{⟨1, 0⟩}, ∅⟩ (oneEdge ⟨0, 1⟩ ⟨2, 0⟩) ∧ KeptBy ⟨{⟨0, 0⟩}, ∅⟩ (oneEdge ⟨0, 0⟩ ⟨1, 0⟩) ∧
    ¬ KeptBy ⟨{⟨0, 0⟩}, ∅⟩ (oneEdge ⟨0, 1⟩ ⟨2, 0⟩) := by
  refine ⟨(demoSpace_occurs _).2 (Or.inl rfl), (demoSpace_occurs _).2 (Or.inr rfl), ?_, ?_, ?_, ?_, ?_⟩ <;>
    simp [ContainsGraph, KeptBy, NoCommonVariable, oneEdge]

end
end Verif
