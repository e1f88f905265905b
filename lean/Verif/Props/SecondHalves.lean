import Verif.Props.ProviderCalls
import Verif.Props.Describe
import Verif.Props.RelationGraphBuilder
import Verif.Props.PacFloat
import Verif.Props.PacCounter
import Verif.Props.MarkovFloat
import Verif.Props.ChecksDecide

/-!
# Second halves of some properties (C02, C68, C70, C76)

What builders leave in the provider, the identifiers of builders made from graphs, normalisation of counters of floats, and when the float version of
`markov_separation` fails.
-/

namespace Verif

section
variable {V X R : Type} [DecidableEq V] [DecidableEq X] [DecidableEq R]

namespace Provider

theorem runCalls_append (o : Order (Node V X)) (p : Provider V X R) (a b : List (Call V X R)) :
    p.runCalls o (a ++ b) = ((p.runCalls o a).1 ++ ((p.runCalls o a).2.runCalls o b).1, ((p.runCalls o a).2.runCalls o b).2) := by
  induction a generalizing p with
  | nil => rfl
  | cons c a ih => simp only [List.cons_append, runCalls, ih]

theorem getNodes_calls (o : Order (Node V X)) (p : Provider V X R) (l : List (V × X)) :
    (∀ ns q, p.getNodes l = (.ok ns, q) → p.runCalls o (l.map fun e => .node e.1 e.2) = (ns.map fun n => .ok (.node n), q)) ∧
    (∀ er q, p.getNodes l = (.error er, q) → ∃ k, k < l.length ∧ (p.runCalls o ((l.take (k + 1)).map fun e => .node e.1 e.2)).2 = q ∧
      (p.runCalls o ((l.take (k + 1)).map fun e => .node e.1 e.2)).1[k]? = some (.error er)) := by
  induction l generalizing p with
  | nil =>
    refine ⟨fun ns q h => ?_, fun er q h => ?_⟩
    · unfold getNodes at h; cases h; rfl
    · unfold getNodes at h; cases h
  | cons e l ih =>
    unfold getNodes
    cases hg : p.getNode e.1 e.2 with
    | mk res q1 =>
      have hst : p.step o (.node e.1 e.2) = (res.map Obj.node, q1) := by
        unfold step
        dsimp only
        rw [hg]
        cases res <;> rfl
      obtain ⟨i1, i2⟩ := ih q1
      cases res with
      | error er0 =>
        refine ⟨fun ns q h => (nomatch h), fun er q h => ?_⟩
        cases h
        refine ⟨0, by simp, ?_, ?_⟩ <;> simp only [Nat.zero_add, List.take_succ_cons, List.take_zero, List.map_cons, List.map_nil, runCalls, hst]
        rfl
      | ok n =>
        dsimp only
        cases hl : q1.getNodes l with
        | mk res2 q2 =>
          cases res2 with
          | error er0 =>
            refine ⟨fun ns q h => (nomatch h), fun er q h => ?_⟩
            cases h
            obtain ⟨k, k1, k2, k3⟩ := i2 _ _ hl
            refine ⟨k + 1, by simpa using k1, ?_, ?_⟩
            · simp only [List.take_succ_cons, List.map_cons, runCalls, hst]; exact k2
            · simp only [List.take_succ_cons, List.map_cons, runCalls, hst, List.getElem?_cons_succ]; exact k3
          | ok ns0 =>
            refine ⟨fun ns q h => ?_, fun er q h => (nomatch h)⟩
            cases h
            simp only [List.map_cons, runCalls, hst, i1 _ _ hl]
            rfl

end Provider

/-- **C02.** What a builder does to the provider for two endpoint pairs is the history of the calls `get_node` for the pairs in the order of iteration and then
`get_edge`: it gets what these calls answer and leaves the provider as they do; so the nodes and the edge stay cached, and asking again gives the same objects. If it
is refused the calls up to the refused one were made, and no other. -/
theorem C02_builder_history (oP : Order (V × X)) (o : Order (Node V X)) (s : Schema V X R) (cs : List (Provider.Call V X R))
    (eps : Finset (V × X)) (r : Rel V R) :
    let out := (Reached o s cs).nodesEdge oP o eps r
    let calls : List (Provider.Call V X R) := (oP.run eps).map fun e => .node e.1 e.2
    let edge : Provider.Call V X R := .edge (eps.image fun e => ⟨e.1, e.2⟩) r
    (∀ ns e, out.1 = .ok (ns, e) → (Reached o s cs).runCalls o (calls ++ [edge]) = ((ns.map fun n => .ok (.node n)) ++ [.ok (.edge e)], out.2) ∧
      out.2 = Reached o s (cs ++ calls ++ [edge])) ∧
    (∀ er, out.1 = .error er → ∃ k, k < calls.length + 1 ∧ out.2 = Reached o s (cs ++ (calls ++ [edge]).take (k + 1)) ∧
      ((Reached o s cs).runCalls o ((calls ++ [edge]).take (k + 1))).1[k]? = some (.error er)) := by
  intro out calls edge
  have hre : ∀ l, Reached o s (cs ++ l) = ((Reached o s cs).runCalls o l).2 := by
    intro l
    unfold Reached
    rw [Provider.runCalls_append]
  have hlen : calls.length = (oP.run eps).length := List.length_map _
  obtain ⟨n1, n2⟩ := Provider.getNodes_calls o (Reached o s cs) (oP.run eps)
  obtain ⟨-, -, -, hval⟩ := Provider.getNodes_spec (Reached o s cs) (Provider.runCalls_spec o _ (Provider.inv_init s) cs).1 (oP.run eps)
  have hout : out = (Reached o s cs).nodesEdge oP o eps r := rfl
  unfold Provider.nodesEdge at hout
  cases hg : (Reached o s cs).getNodes (oP.run eps) with
  | mk res q =>
    rw [hg] at hout hval
    cases res with
    | error er0 =>
      dsimp only at hout
      rw [hout]
      refine ⟨fun ns e h => (nomatch h), fun er h => ?_⟩
      cases h
      obtain ⟨k, k1, k2, k3⟩ := n2 _ _ hg
      have ht : (calls ++ [edge]).take (k + 1) = ((oP.run eps).take (k + 1)).map fun e => .node e.1 e.2 := by
        rw [List.take_append_of_le_length (by omega), List.map_take]
      refine ⟨k, by omega, ?_, ?_⟩
      · rw [ht, hre, k2]
      · rw [ht]; exact k3
    | ok ns =>
      have hc := n1 _ _ hg
      have hset : (ns.map NodeObj.node).toFinset = eps.image fun e => (⟨e.1, e.2⟩ : Node V X) := by
        split at hval
        · obtain ⟨ns', h1, h2, -⟩ := hval
          cases h1
          ext n
          rw [List.mem_toFinset, h2, List.mem_map, Finset.mem_image]
          exact ⟨fun ⟨e, he, h⟩ => ⟨e, (oP.mem eps e).1 he, h⟩, fun ⟨e, he, h⟩ => ⟨e, (oP.mem eps e).2 he, h⟩⟩
        · cases hval
      dsimp only at hout
      rw [hset] at hout
      cases he : q.getEdge o (eps.image fun e => (⟨e.1, e.2⟩ : Node V X)) r with
      | mk res2 q2 =>
        have hst : q.step o edge = (res2.map Provider.Obj.edge, q2) := by
          unfold Provider.step
          dsimp only [edge]
          rw [he]
          cases res2 <;> rfl
        have hrun : (Reached o s cs).runCalls o (calls ++ [edge]) = ((ns.map fun n => .ok (.node n)) ++ [res2.map Provider.Obj.edge], q2) := by
          rw [Provider.runCalls_append, hc]
          simp only [Provider.runCalls, hst]
        rw [he] at hout
        cases res2 with
        | error er0 =>
          dsimp only at hout
          rw [hout]
          refine ⟨fun ns e h => (nomatch h), fun er h => ?_⟩
          cases h
          have ht : (calls ++ [edge]).take (calls.length + 1) = calls ++ [edge] := List.take_of_length_le (by simp)
          refine ⟨calls.length, by omega, ?_, ?_⟩
          · rw [ht, hre, hrun]
          · have hl : (ns.map fun n => (.ok (.node n) : Py (Provider.Obj V X R))).length = calls.length := by
              have h1 : ((Reached o s cs).runCalls o calls).1.length = calls.length := by
                have : ∀ (p : Provider V X R) (l : List (Provider.Call V X R)), (p.runCalls o l).1.length = l.length := by
                  intro p l
                  induction l generalizing p with
                  | nil => rfl
                  | cons c l ih => simp only [Provider.runCalls, List.length_cons, ih]
                exact this _ _
              rw [hc] at h1
              exact h1
            rw [ht, hrun, List.getElem?_append_right (by omega), hl, Nat.sub_self]
            rfl
        | ok e0 =>
          dsimp only at hout
          rw [hout]
          refine ⟨fun ns' e h => ?_, fun er h => (nomatch h)⟩
          cases h
          refine ⟨hrun, ?_⟩
          rw [List.append_assoc, hre, hrun]

/-- **C68.** The builder of a graph counts its identifiers from 1, whatever was done before. -/
theorem C68_builder_ids (g : NamedSpace V X R) (ops : List (RGOp V X R)) :
    (runRGOps g.builder.builder ops).2 = (List.range (runRGOps g.builder.builder ops).2.length).map (· + 1) := by
  have h : g.builder.builder.Coherent := by
    unfold RGBuilder.Coherent NamedSpace.builder
    dsimp only
    split <;> rfl
  exact (runRGOps_spec ops _ h).2.2.2.2

end

namespace Pac

/-- **C70.** `Counter.normalize` with floats: if the computed sum is not zero every value is divided by it, with one rounding, and the keys stay; if it is zero — which can be
with values that are not zero — nothing is changed. -/
theorem C70_normalize {K : Type} [DecidableEq K] (ver : PyVer) (c : Counter K) :
    (pySum ver c.vals ≠ 0 → (∀ x ∈ c.keys, (c.normalizeFl ver).at x = fl (c.at x / pySum ver c.vals)) ∧ (c.normalizeFl ver).keys = c.keys) ∧
    (pySum ver c.vals = 0 → c.normalizeFl ver = c) := by
  unfold Counter.normalizeFl
  refine ⟨fun h => ?_, fun h => by rw [if_pos h]⟩
  rw [if_neg h]
  have hk := keys_foldl_upd (fun _ v => fl (v / pySum ver c.vals)) c.keys c (fun k hk => hk)
  refine ⟨fun x hx => ?_, hk⟩
  have := get?_foldl_upd (fun _ v => fl (v / pySum ver c.vals)) c.keys c.nodup_keys c x
  rw [if_pos hx] at this
  show ((c.keys.foldl (fun d k => d.set k (fl (Counter.at d k / pySum ver c.vals))) c).get? x).getD 0 = _
  rw [this]
  rfl

/-- Values that are not zero with sum zero. -/
example (ver : PyVer) : pySum ver [1, -1] = 0 := by cases ver <;> decide +kernel

end Pac

namespace Markov

/-- **C76.** `markov_separation` in floating point on any network with small weights: it succeeds exactly if observing `d` besides `vs` does not change the nearest floats of the
distribution of `t`, and raises `AssertionError` otherwise. -/
theorem C76_markov_separation_decides {nodes : List Str} {edges : List MEdge} (hN : MNet nodes edges) (hp : PositiveNet edges) (hb : totalWeight edges ≤ 2 ^ 53)
    {vars : List Str} (hnd : vars.Nodup) (hvars : vars.toFinset = mVars edges) {vs : List Str} (hvs : ∀ v ∈ vs, v ∈ mVars edges) {d t : Str}
    (hd : d ∈ mVars edges) (ht : t ∈ mVars edges) (np : NpSum) :
    (markovSeparationFl np vars edges vs d t = .ok () ↔ ∀ j ∈ two t, fl (posteriorM edges vs t j) = fl (posteriorM edges (vs ++ [d]) t j)) ∧
    (markovSeparationFl np vars edges vs d t = .ok () ∨ markovSeparationFl np vars edges vs d t = .error .assertion) := by
  have hvs' : ∀ v ∈ vs ++ [d], v ∈ mVars edges := by
    intro v hv
    rcases List.mem_append.1 hv with h | h
    · exact hvs v h
    · rw [List.mem_singleton.1 h]; exact hd
  unfold markovSeparationFl
  refine ⟨?_, (pyAssert_decides _).2⟩
  rw [(pyAssert_decides _).1, List.all_eq_true]
  refine ⟨fun h j hj => ?_, fun h j hj => ?_⟩
  · have := h j (by simpa [two] using hj)
    rwa [decide_eq_true_eq, factorMarginalFl_eq hN hp hb hvs hnd hvars np ht, factorMarginalFl_eq hN hp hb hvs' hnd hvars np ht] at this
  · rw [decide_eq_true_eq, factorMarginalFl_eq hN hp hb hvs hnd hvars np ht, factorMarginalFl_eq hN hp hb hvs' hnd hvars np ht]
    exact h j (by simpa [two] using hj)

end Markov

end Verif
