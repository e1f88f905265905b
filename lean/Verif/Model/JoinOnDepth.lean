import Verif.Model.Joined
import Verif.Model.Depth

/-!
# `joined_on_variables` with a limit on nested calls

Python raises `RecursionError` when the calls nest too deeply. `cross_join` (relation_graph.py 251-261) calls itself once for each group and `join_edges` (sample_graph.py 213-238) within the innermost
`cross_join`; `group` (sample_set.py 153-159) nests before. Here `d` is the number of nested calls of these functions that are still possible, and the error `fuel` stands for `RecursionError`. The frames of
other functions (a fixed number) are not counted. The rest is as in `Joined.lean`.
-/

namespace Verif

variable {V X R : Type} [DecidableEq V] [DecidableEq X] [DecidableEq R]

namespace Samples

/-- The loop of `make_joined_sample` (sample_set.py 190-192). -/
def joinListD (d : ℕ) (oE : Order (Edge V X R)) (prov : Nat) : List (SampleGraph V X R) → Builder V X R → Builder V X R × Option Err
  | [], sgb => (sgb, none)
  | g :: t, sgb =>
    match sgb.joinSampleD d oE ⟨prov, g⟩ with
    | (sgb', some e) => (sgb', some e)
    | (sgb', none) => joinListD d oE prov t sgb'

/-- `make_joined_sample` (sample_set.py 183-193). -/
def makeJoinedSampleD (d : ℕ) (oE : Order (Edge V X R)) (b : Samples V X R) : Py (Sample V X R × List ℤ) :=
  match joinListD d oE b.prov b.samples.keys (Builder.new b.prov) with
  | (_, some e) => .error e
  | (sgb, none) =>
    match sgb.build with
    | .error e => .error e
    | .ok s => .ok (s, b.samples.vals)

/-- The branch of `cross_join` without groups (relation_graph.py 253-257). -/
def crossLeafD (d : ℕ) (oN : Order (Node V X)) (oE : Order (Edge V X R)) (joints : Samples V X R) : Py (Samples V X R) :=
  if joints.bool && joints.isAllValuesMatch oN then
    match joints.makeJoinedSampleD d oE with
    | .error e => .error e
    | .ok (s, cs) => toPy ((Samples.empty joints.prov).add s cs.prod)
  else .ok (Samples.empty joints.prov)

/-- `cross_join` (relation_graph.py 251-261). -/
def crossJoinD (oI : Order (SampleGraph V X R × ℤ)) (oN : Order (Node V X)) (oE : Order (Edge V X R)) :
    ℕ → List (Samples V X R) → Samples V X R → Py (Samples V X R)
  | 0, _, _ => .error .fuel
  | d + 1, [], joints => crossLeafD d oN oE joints
  | d + 1, grp :: rest, joints =>
    (oI.run grp.items).foldlM (init := Samples.empty joints.prov) fun ssb p =>
      match toPy (joints.add ⟨grp.prov, p.1⟩ p.2) with
      | .error e => .error e
      | .ok joints' =>
        match crossJoinD oI oN oE d rest joints' with
        | .error e => .error e
        | .ok r => toPy (ssb.addAll oI r)

/-- One round of the loop over the join variables (relation_graph.py 263-268). -/
def joinOnD (d : ℕ) (iter : V → Option (Finset V)) (oI : Order (SampleGraph V X R × ℤ)) (oG : Order (SampleGraph V X R))
    (oN : Order (Node V X)) (oE : Order (Edge V X R)) (acc : Samples V X R) (v : V) : Py (Samples V X R) :=
  let joinOutcomes := acc.filterSamples fun g => v ∈ g.includedVariables
  match joinOutcomes.groupIntersectingD d iter with
  | .error e => .error e
  | .ok grouped =>
    match crossJoinD oI oN oE d grouped.vals (Samples.empty acc.prov) with
    | .error e => .error e
    | .ok joined =>
      match toPy (acc.removeAll oG joinOutcomes) with
      | .error e => .error e
      | .ok acc' => toPy (acc'.addAll oI joined)

end Samples

/-- `joined_on_variables` (relation_graph.py 241-273). -/
def Space.joinedOnVariablesD (sp : Space V X R) (d : ℕ) (iter : V → Option (Finset V)) (o : Orders V X R) (vars : Option (Finset V)) : Py (Space V X R) :=
  let joinVars : Finset V := match vars with
    | some vs => vs
    | none => (sp.includedVariables o.graphs o.nodes).image Prod.fst
  match (o.vars.run joinVars).foldlM (Samples.joinOnD d iter o.items o.graphs o.nodes o.edges) sp.outcomes with
  | .error e => .error e
  | .ok acc => .ok ⟨sp.schema, acc, none⟩

end Verif
