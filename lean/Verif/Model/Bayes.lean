import Verif.Model.Text
import Verif.Model.Conditional
import Verif.Model.Joined
import Verif.Model.RelationGraphBuilder
import Mathlib.Algebra.BigOperators.Group.Finset.Basic
import Mathlib.Algebra.Order.Floor.Ring
import Mathlib.Data.Rat.Floor

/-!
# Model of `experiments/comparing_with_bayes_network.py`

All line numbers are those of `/repo/Python/research/scripts/experiments/comparing_with_bayes_network.py`. Texts are `List Char`, floats
are rationals (so `isclose` is equality). The objects of `pgmpy` are not modelled: a factor is given by its variables and its values, and
what `VariableElimination.query` returns is a parameter. Printing is left out.
-/

namespace Verif.Bayes

/-- One entry of `net_config` (36-47): number of values, table, parents and their numbers of values; `None` is `[]` (both are false). -/
structure Cpd where
  card : ℕ
  rows : List (List ℚ)
  parents : List Str
  pCards : List ℕ

/-- `net_config` (36-47). -/
abbrev Config := Dict Str Cpd

/-- `f"{var}({j})"` (69, 71, 81, 85, 105). -/
def valName (v : Str) (j : ℕ) : Str := v ++ ['('] ++ Nat.toDigits 10 j ++ [')']

/-- The recursion of `_value_combination` (66-71); the empty list is not reached by it. -/
def combos : List (Str × ℕ) → List (List Str)
  | [] => []
  | [(v, c)] => (List.range c).map fun j => [valName v j]
  | (v, c) :: w :: t => (List.range c).flatMap fun j => (combos (w :: t)).map fun vs => valName v j :: vs

/-- `_value_combination` (66-71): `variables[0]` raises for the empty list. -/
def valueCombination (l : List (Str × ℕ)) : Py (List (List Str)) := if l = [] then .error .indexError else .ok (combos l)

/-- One round of the loop of `_value_map_from_cpd` (79-85). -/
def valueMapRow (v : Str) (c : Cpd) (d : Dict (Finset Str) ℚ) (i : ℕ) : Py (Dict (Finset Str) ℚ) :=
  if c.parents ≠ [] ∧ c.pCards ≠ [] then
    match valueCombination (c.parents.zip c.pCards), c.rows[i]? with
    | .error e, _ => .error e
    | .ok _, none => .error .indexError
    | .ok cs, some row => .ok (((cs.map fun vs => valName v i :: vs).zip row).foldl (fun d p => d.set p.1.toFinset p.2) d)
  else match c.rows[i]? with
    | none => .error .indexError
    | some [] => .error .indexError
    | some (p :: _) => .ok (d.set {valName v i} p)

/-- `_value_map_from_cpd` (74-87). -/
def valueMap (v : Str) (c : Cpd) : Py (Dict (Finset Str) ℚ) := (List.range c.card).foldlM (valueMapRow v c) Dict.empty

/-- `next(v for v in vs if name in v)` (95): `in` is the substring test. -/
def pick (vs : List Str) (name : Str) : Py Str :=
  match vs.find? fun v => decide (name <:+: v) with
  | none => .error .stopIteration
  | some v => .ok v

/-- One round of the loop of `_build_outcome` (93-96). -/
def addParent (s : Schema Str Str Str) (v : Str) (vs : List Str) (b : Builder Str Str Str) (p : Str) : Py (Builder Str Str Str) :=
  match pick vs p with
  | .error e => .error e
  | .ok x => match pick vs v with
    | .error e => .error e
    | .ok y => toPy (b.addRelation s {(p, x), (v, y)} (.directed p v ['r']))

/-- `_build_outcome` (90-100); `vs` is `list(vs)` of line 110. -/
def buildOutcome (s : Schema Str Str Str) (prov : ℕ) (v : Str) (parents : List Str) (vs : List Str) : Py (Sample Str Str Str) :=
  if parents ≠ [] then
    match parents.foldlM (addParent s v vs) (Builder.new prov) with
    | .error e => .error e
    | .ok b => b.build
  else match vs with
    | [x] => (Builder.new prov).buildSingleNode s v x
    | _ => .error .assertion

/-- `int(x)` for a float (111, 125). -/
def pyInt (x : ℚ) : ℤ := if 0 ≤ x then ⌊x⌋ else ⌈x⌉

/-- The body of the inner loop of `make_relation_graph` (109-114); `k` is `prop_factor`. -/
def addEntry (k : ℚ) (o : Order Str) (v : Str) (parents : List Str) (b : RGBuilder Str Str Str) (e : Finset Str × ℚ) : Py (RGBuilder Str Str Str) :=
  match buildOutcome b.schema b.prov v parents (o.run e.1) with
  | .error er => .error er
  | .ok smp =>
    if (pyInt (e.2 * k) : ℚ) = e.2 * k then toPy (b.addOutcome smp (pyInt (e.2 * k))) else .error .assertion

/-- The body of the outer loop (108-114). -/
def addVariable (k : ℚ) (o : Order Str) (b : RGBuilder Str Str Str) (e : Str × Cpd) : Py (RGBuilder Str Str Str) :=
  match valueMap e.1 e.2 with
  | .error er => .error er
  | .ok d => d.entries.foldlM (addEntry k o e.1 e.2.parents) b

/-- The declared variables (105). -/
def declared (cfg : Config) : Dict Str (Finset Str) := 
  Dict.ofList (cfg.entries.map fun e => (e.1, ((List.range e.2.card).map (valName e.1)).toFinset))

/-- `make_relation_graph` (103-121). -/
def makeRelationGraph (k : ℚ) (o : Order Str) (prov : ℕ) (cfg : Config) : Py (Space Str Str Str) :=
  match RGBuilder.init prov (declared cfg) {['r']} none with
  | .error e => .error e
  | .ok b => match cfg.entries.foldlM (addVariable k o) b with
    | .error e => .error e
    | .ok b' => b'.build

/-! ### Comparing -/

/-- A `DiscreteFactor` of `pgmpy`: its variables with their cardinalities, in its order, and its values (as returned by
`query`, 188, 214). -/
structure Factor where
  vars : List (Str × ℕ)
  value : (Str → ℕ) → ℚ

/-- `factor.get_value(**kw)` (contract of `pgmpy`: exactly the variables of the factor, with indices of values, are given; otherwise it
raises, here `KeyError`) (125, 146). -/
def Factor.getValue (f : Factor) (kw : Dict Str ℕ) : Py ℚ :=
  if kw.keys.toFinset = (f.vars.map Prod.fst).toFinset ∧ ∀ p ∈ f.vars, (kw.get? p.1).getD 0 < p.2 then
    .ok (f.value fun v => (kw.get? v).getD 0)
  else .error .keyError

/-- `v[0]: int(v[2])` (125); `int` of something else than a digit raises (`ValueError`, here `TypeError`). -/
def parseName : Str → Py (Str × ℕ)
  | c :: _ :: d :: _ => if d.isDigit then .ok ([c], d.toNat - '0'.toNat) else .error .typeError
  | _ => .error .indexError

/-- One item of the comprehension of `_value_map_from_factor` (125). -/
def factorItem (f : Factor) (vs : List Str) : Py (Finset Str × ℚ) :=
  match vs.mapM parseName with
  | .error e => .error e
  | .ok kw => match f.getValue (Dict.ofList kw) with
    | .error e => .error e
    | .ok q => .ok (vs.toFinset, q)

/-- `_value_map_from_factor` (124-126). -/
def valueMapFromFactor (f : Factor) : Py (Dict (Finset Str) ℚ) :=
  match valueCombination f.vars with
  | .error e => .error e
  | .ok cs => match cs.mapM (factorItem f) with
    | .error e => .error e
    | .ok l => .ok (Dict.ofList l)

/-- `_value_map_from_graph` (129-130). -/
def valueMapFromGraph (oI : Order (SampleGraph Str Str Str × ℤ)) (sp : Space Str Str Str) : Dict (Finset Str) ℚ :=
  Dict.ofList ((oI.run sp.outcomes.items).map fun p => (p.1.values.image Prod.snd, (p.2 : ℚ)))

/-- `_normalize` (133-135). -/
def normalize {K : Type} [DecidableEq K] (d : Dict K ℚ) : Py (Dict K ℚ) :=
  if d.entries ≠ [] ∧ d.vals.sum = 0 then .error .zeroDiv else .ok (d.mapVals fun v => v / d.vals.sum)

/-- Summing the variables of the list out (`factor.marginalize`, contract of `pgmpy`) (144). -/
def sumOut (f : (Str → ℕ) → ℚ) : List (Str × ℕ) → (Str → ℕ) → ℚ
  | [], a => f a
  | (v, c) :: t, a => ∑ j ∈ Finset.range c, sumOut f t (Function.update a v j)

/-- `_marginals_from_factor` (138-148). -/
def marginalsFromFactor (f : Factor) : Dict Str (Dict Str ℚ) :=
  Dict.ofList ((List.range f.vars.length).filterMap fun i => match f.vars[i]? with
    | none => none
    | some (v, c) => some (v, Dict.ofList ((List.range c).map fun j =>
        (valName v j, sumOut f.value (f.vars.eraseIdx i) (Function.update (fun _ => 0) v j)))))

/-- The comparison of one pair of dictionaries (162-169, 173-184): same keys and (up to rounding) same values; the order of the loop over
`sorted(..)` does not matter as all exceptions are the same. -/
def compareMaps {K : Type} [DecidableEq K] (a b : Dict K ℚ) : Py Unit :=
  if a.keys.toFinset ≠ b.keys.toFinset then .error .assertion
  else if a.keys.all fun k => decide (a.get? k = b.get? k) then .ok () else .error .assertion

/-- `_compare_margin_map` (151-169). -/
def compareMargins (a b : Dict Str (Dict Str ℚ)) : Py Unit :=
  if a.keys.toFinset ≠ b.keys.toFinset then .error .assertion
  else a.keys.forM fun k => match a.get? k, b.get? k with
    | some x, some y => compareMaps x y
    | _, _ => .error .keyError

/-- The orders and the placeholder of unobserved values used by the calls of the library (206, 226, 250). -/
structure Env where
  o : Orders Str Str Str
  u : Str

/-- `marginal_variables_probability()` as called here (206, 226, 250). -/
def Env.marginals (e : Env) (sp : Space Str Str Str) : Py (Dict Str (Dict Str ℚ)) := sp.marginals e.u e.o.items e.o.vars e.o.nodes none false

/-- `comparing_joint_probability` (187-208); `jf` is the result of the query (188). -/
def comparingJoint (e : Env) (jf : Factor) (sp : Space Str Str Str) : Py Unit := do
  let joint ← sp.makeJoined e.o
  pyAssert (decide ((jf.vars.map Prod.snd).prod = joint.outcomes.items.card))
  let factorValues ← valueMapFromFactor jf
  let graphValues ← normalize (valueMapFromGraph e.o.items joint)
  compareMaps factorValues graphValues
  let graphMarginals ← e.marginals joint
  compareMargins (marginalsFromFactor jf) graphMarginals

/-- `conditional_graph(rel_graph.sample_builder().build_single_node(v, f"{v}(0)")).relation_graph().make_joined()` (222-224, 255-257,
267-269, 274-277, 285-287, 292-295). `sp0` is `rel_graph`, whose provider the evidence is built with. -/
def observe (e : Env) (sp0 sp : Space Str Str Str) (v : Str) : Py (Space Str Str Str) := do
  let ev ← (Builder.new sp0.outcomes.prov).buildSingleNode sp0.schema v (valName v 0)
  let cs ← sp.conditionalGraph e.o.items ev
  cs.relationGraph.makeJoined e.o

/-- The graph part of `_run_inference_on` (211-226). The result of `make_joined` is never a `ConditionalGraph`, so 220-221 do nothing. -/
def runInference (e : Env) (sp0 : Space Str Str Str) (vs : List Str) : Py (Dict Str (Dict Str ℚ)) := do
  let sp ← vs.foldlM (observe e sp0) sp0
  e.marginals sp

/-- `d.pop(k)` (235, 243-244). -/
def popKey {A : Type} (d : Dict Str A) (k : Str) : Py (Dict Str A) := if d.has k then .ok (d.erase k) else .error .keyError

/-- One of the two comparisons of `comparing_inference` (230-236, 238-245): `f` is the result of the query with the evidence `vs`. -/
def comparingInference (e : Env) (f : Factor) (vs : List Str) (sp0 : Space Str Str Str) : Py Unit := do
  let m ← runInference e sp0 vs
  let m ← vs.foldlM popKey m
  compareMargins (marginalsFromFactor f) m

/-- `a[k] == b[k]` for dictionaries of dictionaries (262). -/
def sameAt (a b : Dict Str (Dict Str ℚ)) (k : Str) : Py Bool :=
  match a.get? k, b.get? k with
  | some x, some y => .ok (decide (x.keys.toFinset = y.keys.toFinset) && x.keys.all fun q => decide (x.get? q = y.get? q))
  | _, _ => .error .keyError

/-- `comparing_d_separation` (248-301). -/
def comparingDSeparation (e : Env) (sp : Space Str Str Str) : Py Unit := do
  let joint ← sp.makeJoined e.o
  let m ← e.marginals joint
  let spI ← observe e sp sp ['I']
  let mI ← e.marginals spI
  pyAssert (← sameAt m mI ['D'])
  pyAssert (!(← sameAt m mI ['S']))
  let spG ← observe e sp sp ['G']
  let mG ← e.marginals spG
  let spGI ← observe e sp spG.relationGraph ['I']
  let mGI ← e.marginals spGI
  pyAssert (!(← sameAt mG mGI ['D']))
  let spL ← observe e sp sp ['L']
  let mL ← e.marginals spL
  let spLI ← observe e sp spL.relationGraph ['I']
  let mLI ← e.marginals spLI
  pyAssert (!(← sameAt mL mLI ['D']))

/-- `net_config` (36-47). -/
def studentConfig : Config := Dict.ofList [
  (['D'], ⟨2, [[6/10], [4/10]], [], []⟩),
  (['I'], ⟨2, [[7/10], [3/10]], [], []⟩),
  (['G'], ⟨3, [[3/10, 5/100, 9/10, 5/10], [4/10, 25/100, 8/100, 3/10], [3/10, 7/10, 2/100, 2/10]], [['I'], ['D']], [2, 2]⟩),
  (['S'], ⟨2, [[95/100, 2/10], [5/100, 8/10]], [['I']], [2]⟩),
  (['L'], ⟨2, [[1/10, 4/10, 99/100], [9/10, 6/10, 1/100]], [['G']], [3]⟩)]

/-- `prop_factor` (49). -/
def propFactor : ℚ := 100

end Verif.Bayes
