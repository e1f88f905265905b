import Verif.Props.MarkovFloat

/-!
# Normalising twice: a network for which the comparison fails, and the network of the experiment (C76)
-/

set_option linter.unusedSectionVars false

namespace Verif.Markov

open Verif.Bayes

/-! ### One edge with the values 8, 9, 9, 9 -/

/-- Two variables and one edge. -/
def pairEdges : List MEdge := [((['A'], ['B']), [8, 9, 9, 9])]

theorem pair_net : MNet [['A'], ['B']] pairEdges := ⟨by decide, by decide, by decide, by decide, by decide, by decide⟩

theorem pair_positive : PositiveNet pairEdges := by unfold PositiveNet; decide

theorem pair_connected : ChainOrCycle pairEdges := by
  refine ⟨fun w => ?_, ?_⟩
  · simp only [pairEdges, List.map_cons, List.map_nil, List.countP_cons, List.countP_nil]
    split <;> simp
  · intro P hP ⟨s, hs, hsP⟩
    simp only [pairEdges, List.map_cons, List.map_nil, List.mem_singleton] at hs
    subst hs
    intro t ht
    simp only [pairEdges, List.map_cons, List.map_nil, List.mem_singleton] at ht
    subst ht
    exact hsP

/-- What `a` times `8 / 35` and `b` times `9 / 35`, rounded, add up to. -/
def pairSum (a b : ℕ) : ℚ :=
  match a, b with
  | 1, 0 => 8235153604334621 / 2 ^ 55
  | 0, 1 => 289517118902389 / 2 ^ 50
  | 0, 2 => 289517118902389 / 2 ^ 49
  | 1, 1 => 4374925352302767 / 2 ^ 53
  | 0, 3 => 868551356707167 / 2 ^ 50
  | 1, 2 => 6691062303521879 / 2 ^ 53
  | 1, 3 => 9007199254740991 / 2 ^ 53
  | _, _ => 0

theorem pairSum_add : ∀ a ∈ List.range 2, ∀ b ∈ List.range 4, ∀ c ∈ List.range 2, ∀ d ∈ List.range 4, a + c ≤ 1 → b + d ≤ 3 →
    fl (pairSum a b + pairSum c d) = pairSum (a + c) (b + d) := by decide +kernel

theorem pairSum_ne : pairSum 1 0 ≠ pairSum 0 1 := by decide +kernel

theorem pair_adds {l : List ℚ} {s : ℚ} (h : AddsTo l s) : (∀ z ∈ l, z = pairSum 1 0 ∨ z = pairSum 0 1) → l.count (pairSum 1 0) ≤ 1 →
    l.count (pairSum 0 1) ≤ 3 → s = pairSum (l.count (pairSum 1 0)) (l.count (pairSum 0 1)) := by
  induction h with
  | none => intros; rfl
  | one x =>
    intro h _ _
    rcases h x (by simp) with rfl | rfl
    · rw [List.count_singleton_self, List.count_singleton]
      simp [pairSum_ne]
    · rw [List.count_singleton_self, List.count_singleton]
      simp [pairSum_ne.symm]
  | perm _ hp ih =>
    intro h1 h2 h3
    rw [← hp.count_eq] at h2 h3 ⊢
    rw [← hp.count_eq]
    exact ih (fun z hz => h1 z (hp.subset hz)) h2 h3
  | add _ _ ih1 ih2 =>
    intro h1 h2 h3
    rw [List.count_append] at h2 h3 ⊢
    rw [List.count_append]
    rw [ih1 (fun z hz => h1 z (List.mem_append_left _ hz)) (by omega) (by omega), ih2 (fun z hz => h1 z (List.mem_append_right _ hz)) (by omega) (by omega)]
    exact pairSum_add _ (List.mem_range.2 (by omega)) _ (List.mem_range.2 (by omega)) _ (List.mem_range.2 (by omega)) _ (List.mem_range.2 (by omega)) h2 h3

theorem pair_nearest : ((joinedValues 2).map fun js => nearest pairEdges (kw [['A'], ['B']] js)) =
    [pairSum 1 0, pairSum 0 1, pairSum 0 1, pairSum 0 1] := by decide +kernel

/-- **C76.** The graph and the network have the same distribution, and `comparing_variable_joint_probability` fails all the same: with the values 8, 9, 9, 9, in whatever order the
numbers are added. -/
theorem C76_markov_joint_fails (prov : ℕ) (ver : PyVer) (np : NpSum) (e : Env) : ∃ sp, makeRelationGraph prov [['A'], ['B']] pairEdges = .ok sp ∧
    comparingJoint e [['A'], ['B']] pairEdges sp = .ok () ∧ comparingJointFl ver np e [['A'], ['B']] pairEdges sp = .error .assertion := by
  obtain ⟨sp, hsp, -⟩ := (C60_make_relation_graph pair_net prov).2 pair_positive
  have hnd : [['A'], ['B']].Nodup := by decide
  have hvars : [['A'], ['B']].toFinset = mVars pairEdges := by decide
  obtain ⟨sp', hj⟩ := (C60_joint pair_net hsp e.o).2.2.1 pair_connected
  have hb : totalWeight pairEdges ≤ 2 ^ 53 := by decide +kernel
  refine ⟨sp, hsp, (C60_comparing_joint pair_net hsp hnd hvars e).2 sp' hj, ?_⟩
  obtain ⟨h1, h2⟩ := C76_markov_joint pair_net hsp hb hnd hvars ver np e hj
  refine h2.resolve_left fun h => ?_
  have h3 := h1.1 h [0, 0] (by decide)
  have hrun : np.run ((joinedValues 2).map fun js => nearest pairEdges (kw [['A'], ['B']] js)) = pairSum 1 3 := by
    have h4 := np.adds ((joinedValues 2).map fun js => nearest pairEdges (kw [['A'], ['B']] js))
    rw [pair_nearest] at h4 ⊢
    have := pair_adds h4 (by simp) (by decide +kernel) (by decide +kernel)
    rw [this]
    decide +kernel
  rw [show [['A'], ['B']].length = 2 from rfl, hrun] at h3
  revert h3
  decide +kernel

/-! ### The network of the experiment -/

theorem example_total : totalWeight exampleEdges = 7201840 := by decide +kernel

/-- **C76.** In floating point all comparisons of the experiment but the first succeed on its network, in whatever order `numpy` adds; the first one succeeds if the numbers are
added from left to right, and fails if they are added from right to left. -/
theorem C76_markov_experiment (prov : ℕ) (ver : PyVer) (e : Env) : ∃ sp, makeRelationGraph prov exampleNodes exampleEdges = .ok sp ∧
    (∀ np, comparingInferenceFl ver np e exampleNodes exampleEdges ['A'] sp = .ok () ∧
      markovSeparationFl np exampleNodes exampleEdges [['A'], ['C']] ['D'] ['B'] = .ok ()) ∧
    separationFl ver e [['A'], ['C']] ['D'] ['B'] sp = .ok () ∧
    comparingJointFl ver plainNp e exampleNodes exampleEdges sp = .ok () ∧
    comparingJointFl ver reverseNp e exampleNodes exampleEdges sp = .error .assertion := by
  obtain ⟨sp, hsp, -⟩ := (C60_make_relation_graph example_net prov).2 example_positive
  have hnd : exampleNodes.Nodup := by decide
  have hvars : exampleNodes.toFinset = mVars exampleEdges := by decide
  have hsep : Separates exampleEdges [['A'], ['C']] {['B']} {['D']} := by unfold Separates; decide
  obtain ⟨sp', hj⟩ := (C60_joint example_net hsp e.o).2.2.1 example_cycle
  have hb : totalWeight exampleEdges ≤ 2 ^ 53 := by rw [example_total]; norm_num
  refine ⟨sp, hsp, fun np => ⟨?_, ?_⟩, ?_, ?_, ?_⟩
  · obtain ⟨cs, -, -, -, h⟩ := C76_markov_inference example_net hsp hb hnd hvars (v := ['A']) (by decide) ver np e
    exact h example_cycle
  · exact C76_markov_separation example_net example_positive hb hnd hvars hsep (by simp) (by simp) np
  · exact (C76_graph_separation example_net hsp (hb.trans (pow_le_pow_right₀ (by norm_num) (by norm_num))) hsep (by simp) (by simp) ver e).2 example_cycle
  · refine C76_markov_joint_ok example_net hsp hb hnd hvars ver plainNp e hj (Or.inl ?_)
    decide +kernel
  · obtain ⟨h1, h2⟩ := C76_markov_joint example_net hsp hb hnd hvars ver reverseNp e hj
    refine h2.resolve_left fun h => ?_
    have h3 := h1.1 h [0, 0, 0, 0] (by decide)
    revert h3
    decide +kernel

/-- A network whose weights add up to a power of two: the comparison succeeds in every order. -/
example (prov : ℕ) (ver : PyVer) (np : NpSum) (e : Env) : ∃ sp, makeRelationGraph prov [['A'], ['B']] [((['A'], ['B']), [1, 2, 4, 9])] = .ok sp ∧
    comparingJointFl ver np e [['A'], ['B']] [((['A'], ['B']), [1, 2, 4, 9])] sp = .ok () := by
  have hN : MNet [['A'], ['B']] [((['A'], ['B']), [1, 2, 4, 9])] := ⟨by decide, by decide, by decide, by decide, by decide, by decide⟩
  obtain ⟨sp, hsp, -⟩ := (C60_make_relation_graph hN prov).2 (by unfold PositiveNet; decide)
  have hC : ChainOrCycle [((['A'], ['B']), [1, 2, 4, 9])] := pair_connected
  obtain ⟨sp', hj⟩ := (C60_joint hN hsp e.o).2.2.1 hC
  exact ⟨sp, hsp, C76_markov_joint_ok hN hsp (by decide +kernel) (by decide) (by decide) ver np e hj (Or.inr ⟨4, by decide +kernel⟩)⟩

end Verif.Markov
