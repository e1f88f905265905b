import Verif.Model.Bayes
import Verif.Model.SampleSpace

/-!
# Model of `experiments/comparing_with_markov_network.py`

All line numbers are those of `/repo/Python/research/scripts/experiments/comparing_with_markov_network.py`. The nodes and edges of the file
(29-35) are parameters. Floats are rationals. Of `pgmpy` the contracts of `DiscreteFactor` used here are taken over: the value of a factor over two
variables of two values at `(i, j)` is `values[2 * i + j]`, `*` multiplies, `set_value` replaces one value, `normalize` divides by the sum, and
`get_value` reads, `marginalize` sums out. Printing is left out.
-/

namespace Verif.Markov

open Verif.Bayes

/-- One entry of `edges` (30-35): two variables and the values of the factor. -/
abbrev MEdge := (Str × Str) × List ℤ

/-- `{n: {f"{n}(0)", f"{n}(1)"} for n in nodes}` (69). -/
def nodeValues (nodes : List Str) : Dict Str (Finset Str) := Dict.ofList (nodes.map fun n => (n, {valName n 0, valName n 1}))

/-- `[(0, 0, 0), (0, 1, 1), (1, 0, 2), (1, 1, 3)]` (72). -/
def quad : List (ℕ × ℕ × ℕ) := [(0, 0, 0), (0, 1, 1), (1, 0, 2), (1, 1, 3)]

/-- The body of the inner loop (73-79). -/
def addPair (b : RGBuilder Str Str Str) (t : MEdge × ℕ × ℕ × ℕ) : Py (RGBuilder Str Str Str) :=
  match toPy ((Builder.new b.prov).addRelation b.schema {(t.1.1.1, valName t.1.1.1 t.2.1), (t.1.1.2, valName t.1.1.2 t.2.2.1)} (.plain ['r'])) with
  | .error e => .error e
  | .ok sb => match sb.build with
    | .error e => .error e
    | .ok smp => match t.1.2[t.2.2.2]? with
      | none => .error .indexError
      | some c => toPy (b.addOutcome smp c)

/-- The rounds of the two loops (71-79) in their order. -/
def rounds (edges : List MEdge) : List (MEdge × ℕ × ℕ × ℕ) := edges.flatMap fun e => quad.map fun q => (e, q)

/-- `make_relation_graph` (67-82). -/
def makeRelationGraph (prov : ℕ) (nodes : List Str) (edges : List MEdge) : Py (Space Str Str Str) :=
  match RGBuilder.init prov (nodeValues nodes) {['r']} none with
  | .error e => .error e
  | .ok b => match (rounds edges).foldlM addPair b with
    | .error e => .error e
    | .ok b' => b'.build

/-- `joined_values` (37-53), for any number of variables. -/
def joinedValues : ℕ → List (List ℕ)
  | 0 => [[]]
  | n + 1 => [0, 1].flatMap fun j => (joinedValues n).map fun js => j :: js

/-- The keywords `A=a, B=b, C=c, D=d` as an assignment (94). -/
def kw : List Str → List ℕ → Str → ℕ
  | v :: vs, j :: js => Function.update (kw vs js) v j
  | _, _ => fun _ => 0

/-- A factor of the network (60, contract of `pgmpy`). -/
def edgeFactor (e : MEdge) (a : Str → ℕ) : ℚ := ((e.2[2 * a e.1.1 + a e.1.2]?).getD 0 : ℤ)

/-- `ab_factor * bc_factor * cd_factor * da_factor` (116, 151, 195, 216). -/
def productFactor (fs : List ((Str → ℕ) → ℚ)) (a : Str → ℕ) : ℚ := (fs.map fun f => f a).prod

/-- `set_value(0, A=1, ..)` for all values of the other variable, for the variables `vs` (143-144, 181-188, 207-210). -/
def setZero (vs : List Str) (e : MEdge) (a : Str → ℕ) : ℚ :=
  if ∃ v ∈ vs, (v = e.1.1 ∨ v = e.1.2) ∧ a v = 1 then 0 else edgeFactor e a

/-- `_get_markov_prop` (90-96). -/
def markovProp (vars : List Str) (f : (Str → ℕ) → ℚ) : Dict (List ℕ) ℚ :=
  Dict.ofList (((joinedValues vars.length).filter fun js => decide (0 < f (kw vars js))).map fun js =>
    (js, f (kw vars js) / ((joinedValues vars.length).map fun js => f (kw vars js)).sum))

/-- `{("A", f"A({a})"), ..}` (101). -/
def queryValues (vars : List Str) (js : List ℕ) : Finset (Str × Str) := ((vars.zip js).map fun p => (p.1, valName p.1 p.2)).toFinset

/-- `float(c.items().pop()[1])` (103): `pop` takes the first element in the order of the set. -/
def popCount (oI : Order (SampleGraph Str Str Str × ℤ)) (c : Samples Str Str Str) : Py ℚ :=
  match oI.run c.items with
  | [] => .error .keyError
  | p :: _ => .ok (p.2 : ℚ)

/-- One entry of the two comprehensions (100-103); `none` if the outcome does not occur. -/
def graphItem (e : Env) (vars : List Str) (sp : Space Str Str Str) (js : List ℕ) : Py (Option (List ℕ × ℚ)) := do
  let c ← sp.findForValues e.o.items (queryValues vars js)
  if c.bool then
    let q ← popCount e.o.items c
    pure (some (js, q))
  else pure none

/-- `_get_relation_graph_prop` (99-103) with `_normalize` (85-87). -/
def graphProp (e : Env) (vars : List Str) (sp : Space Str Str Str) : Py (Dict (List ℕ) ℚ) := do
  let l ← (joinedValues vars.length).mapM (graphItem e vars sp)
  normalize (Dict.ofList (l.filterMap id))

/-- `a == b` for dictionaries (131, 172). -/
def sameDict {K : Type} [DecidableEq K] (a b : Dict K ℚ) : Bool :=
  decide (a.keys.toFinset = b.keys.toFinset) && a.keys.all fun k => decide (a.get? k = b.get? k)

/-- `comparing_variable_joint_probability` (110-131). -/
def comparingJoint (e : Env) (vars : List Str) (edges : List MEdge) (sp : Space Str Str Str) : Py Unit := do
  let joint ← sp.makeJoined e.o
  let p ← graphProp e vars joint
  pyAssert (sameDict (markovProp vars (productFactor (edges.map edgeFactor))) p)

/-- `conditional_graph(rel_graph.sample_builder().build_single_node(v, f"{v}(0)"))` with `relation_graph()` (155-156, 161, 234-237, 242, 247-248, 253). -/
def condition (e : Env) (sp0 sp : Space Str Str Str) (v : Str) : Py (Space Str Str Str) := do
  let ev ← (Builder.new sp0.outcomes.prov).buildSingleNode sp0.schema v (valName v 0)
  let cs ← sp.conditionalGraph e.o.items ev
  pure cs.relationGraph

/-- `comparing_inference` (134-172); the variable `A` is a parameter. -/
def comparingInference (e : Env) (vars : List Str) (edges : List MEdge) (v : Str) (sp : Space Str Str Str) : Py Unit := do
  let cs ← condition e sp sp v
  let joint ← cs.makeJoined e.o
  let p ← graphProp e vars joint.relationGraph
  pyAssert (sameDict (markovProp vars (productFactor (edges.map (setZero [v])))) p)

/-- `relation_graph_separation` (233-264); `vs` are the variables `A`, `C`, `d` is `D` and `t` is `B`. -/
def separation (e : Env) (vs : List Str) (d t : Str) (sp : Space Str Str Str) : Py Unit := do
  let cs ← vs.foldlM (condition e sp) sp
  let joint ← cs.makeJoined e.o
  let cs' ← condition e sp cs d
  let joint' ← cs'.makeJoined e.o
  let m ← e.marginals joint
  let m' ← e.marginals joint'
  pyAssert (← sameAt m m' t)

/-- The distribution of one variable by a factor: `marginalize` all others and `normalize` (199-202, 219-220, 224-225). -/
def factorMarginal (vars : List Str) (f : (Str → ℕ) → ℚ) (t : Str) (j : ℕ) : ℚ :=
  (((joinedValues vars.length).filter fun js => decide (kw vars js t = j)).map fun js => f (kw vars js)).sum /
    ((joinedValues vars.length).map fun js => f (kw vars js)).sum

/-- `markov_separation` (175-230). -/
def markovSeparation (vars : List Str) (edges : List MEdge) (vs : List Str) (d t : Str) : Py Unit :=
  pyAssert ([0, 1].all fun j => decide (factorMarginal vars (productFactor (edges.map (setZero vs))) t j =
    factorMarginal vars (productFactor (edges.map (setZero (vs ++ [d])))) t j))

/-- `nodes` (29). -/
def exampleNodes : List Str := [['A'], ['B'], ['C'], ['D']]

/-- `edges` (30-35). -/
def exampleEdges : List MEdge := [
  ((['A'], ['B']), [30, 5, 1, 10]),
  ((['B'], ['C']), [100, 1, 1, 100]),
  ((['C'], ['D']), [1, 100, 100, 1]),
  ((['D'], ['A']), [100, 1, 1, 100])]

end Verif.Markov
