import Verif.Model.Markov
import Verif.Model.FloatProb

/-!
# Model of `experiments/comparing_with_markov_network.py` with rounding

All line numbers are those of `/repo/Python/research/scripts/experiments/comparing_with_markov_network.py`. The functions of `Markov.lean` that compute with floats, once more,
with the operations of `PyFloat.lean`. The order in which `numpy` adds the numbers of an array is not fixed: any sum obtained by adding, in any order and with any brackets, and
rounding after each addition is allowed.
-/

namespace Verif

/-- The results that adding the numbers of a list can have: in any order, with any brackets, rounded after each addition
(numpy inside of `normalize`, 92, 123, 224). -/
inductive AddsTo : List ℚ → ℚ → Prop
  | none : AddsTo [] 0
  | one (x : ℚ) : AddsTo [x] x
  | add {l m : List ℚ} {s t : ℚ} : AddsTo l s → AddsTo m t → AddsTo (l ++ m) (fl (s + t))
  | perm {l m : List ℚ} {s : ℚ} : AddsTo l s → l.Perm m → AddsTo m s

/-- `numpy.sum` (inside of `normalize`, 92, 123, 224). -/
structure NpSum where
  run : List ℚ → ℚ
  adds : ∀ l, AddsTo l (run l)

end Verif

namespace Verif.Markov

open Verif.Bayes

/-- `float(c.items().pop()[1])` (103). -/
def popCountFl (oI : Order (SampleGraph Str Str Str × ℤ)) (c : Samples Str Str Str) : Py ℚ :=
  match oI.run c.items with
  | [] => .error .keyError
  | p :: _ => .ok (fl (p.2 : ℚ))

/-- One entry of the two comprehensions (100-103). -/
def graphItemFl (e : Env) (vars : List Str) (sp : Space Str Str Str) (js : List ℕ) : Py (Option (List ℕ × ℚ)) := do
  let c ← sp.findForValues e.o.items (queryValues vars js)
  if c.bool then
    let q ← popCountFl e.o.items c
    pure (some (js, q))
  else pure none

/-- `_normalize` (85-87) of floats: `total` is the sum of floats, `v / total` is rounded. -/
def normalizeFl {K : Type} [DecidableEq K] (ver : PyVer) (d : Dict K ℚ) : Py (Dict K ℚ) :=
  let total := pySum ver d.vals
  if d.entries ≠ [] ∧ total = 0 then .error .zeroDiv else .ok (d.mapVals fun v => fl (v / total))

/-- `_get_relation_graph_prop` (99-103). -/
def graphPropFl (ver : PyVer) (e : Env) (vars : List Str) (sp : Space Str Str Str) : Py (Dict (List ℕ) ℚ) := do
  let l ← (joinedValues vars.length).mapM (graphItemFl e vars sp)
  normalizeFl ver (Dict.ofList (l.filterMap id))

/-- `ab_factor * bc_factor * cd_factor * da_factor` (116, 151, 195, 216): the values of the factors are floats, every product is rounded. -/
def productFl (fs : List ((Str → ℕ) → ℚ)) (a : Str → ℕ) : ℚ := fs.foldl (fun x f => fl (x * fl (f a))) 1

/-- `factor.normalize()` (92, 124): every value is divided by the sum of all (contract of `pgmpy`). -/
def normalizedFl (np : NpSum) (vars : List Str) (f : (Str → ℕ) → ℚ) (a : Str → ℕ) : ℚ :=
  fl (f a / np.run ((joinedValues vars.length).map fun js => f (kw vars js)))

/-- `_get_markov_prop` (90-96): the normalised values, where those of the factor itself are positive. -/
def markovPropFl (np : NpSum) (vars : List Str) (f : (Str → ℕ) → ℚ) : Dict (List ℕ) ℚ :=
  Dict.ofList (((joinedValues vars.length).filter fun js => decide (0 < f (kw vars js))).map fun js => (js, normalizedFl np vars f (kw vars js)))

/-- `comparing_variable_joint_probability` (110-131): `joint_markov` is normalised in line 124 and, as a copy, once more in `_get_markov_prop`. -/
def comparingJointFl (ver : PyVer) (np : NpSum) (e : Env) (vars : List Str) (edges : List MEdge) (sp : Space Str Str Str) : Py Unit := do
  let joint ← sp.makeJoined e.o
  let jointMarkov := normalizedFl np vars (productFl (edges.map edgeFactor))
  let p ← graphPropFl ver e vars joint
  pyAssert (sameDict (markovPropFl np vars jointMarkov) p)

/-- `comparing_inference` (134-172): here the product of the factors is normalised only in `_get_markov_prop`. -/
def comparingInferenceFl (ver : PyVer) (np : NpSum) (e : Env) (vars : List Str) (edges : List MEdge) (v : Str) (sp : Space Str Str Str) : Py Unit := do
  let cs ← condition e sp sp v
  let joint ← cs.makeJoined e.o
  let p ← graphPropFl ver e vars joint.relationGraph
  pyAssert (sameDict (markovPropFl np vars (productFl (edges.map (setZero [v])))) p)

/-- `relation_graph_separation` (233-264). -/
def separationFl (ver : PyVer) (e : Env) (vs : List Str) (d t : Str) (sp : Space Str Str Str) : Py Unit := do
  let cs ← vs.foldlM (condition e sp) sp
  let joint ← cs.makeJoined e.o
  let cs' ← condition e sp cs d
  let joint' ← cs'.makeJoined e.o
  let m ← joint.marginalsFl ver e.u e.o.items e.o.vars e.o.nodes none false
  let m' ← joint'.marginalsFl ver e.u e.o.items e.o.vars e.o.nodes none false
  pyAssert (← sameAt m m' t)

/-- `marginalize` all variables but `t`, with `numpy.sum` (199-202, 219-220). -/
def marginalizedFl (np : NpSum) (vars : List Str) (f : (Str → ℕ) → ℚ) (t : Str) (j : ℕ) : ℚ :=
  np.run (((joinedValues vars.length).filter fun js => decide (kw vars js t = j)).map fun js => f (kw vars js))

/-- The distribution of one variable by a factor: `marginalize` all others and `normalize` (199-202, 219-220, 224-225). -/
def factorMarginalFl (np : NpSum) (vars : List Str) (f : (Str → ℕ) → ℚ) (t : Str) (j : ℕ) : ℚ :=
  fl (marginalizedFl np vars f t j / np.run ([0, 1].map (marginalizedFl np vars f t)))

/-- `markov_separation` (175-230); that `==` of `pgmpy` allows a tolerance is left out. -/
def markovSeparationFl (np : NpSum) (vars : List Str) (edges : List MEdge) (vs : List Str) (d t : Str) : Py Unit :=
  pyAssert ([0, 1].all fun j => decide (factorMarginalFl np vars (productFl (edges.map (setZero vs))) t j =
    factorMarginalFl np vars (productFl (edges.map (setZero (vs ++ [d])))) t j))

end Verif.Markov
