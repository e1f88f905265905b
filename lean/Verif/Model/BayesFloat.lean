import Verif.Model.MarkovFloat

/-!
# Model of `experiments/comparing_with_bayes_network.py` with rounding

All line numbers are those of `/repo/Python/research/scripts/experiments/comparing_with_bayes_network.py`. The functions of `Bayes.lean` that compute with floats, once more, with
the operations of `PyFloat.lean`. The values of the factor that a query returns are any floats.
-/

namespace Verif.Bayes

/-- The body of the inner loop of `make_relation_graph` (109-114); `prop * prop_factor` is rounded, `prop_factor` is converted to `float` before. -/
def addEntryFl (k : ℚ) (o : Order Str) (v : Str) (parents : List Str) (b : RGBuilder Str Str Str) (e : Finset Str × ℚ) : Py (RGBuilder Str Str Str) :=
  match buildOutcome b.schema b.prov v parents (o.run e.1) with
  | .error er => .error er
  | .ok smp =>
    if (pyInt (fl (e.2 * fl k)) : ℚ) = fl (e.2 * fl k) then toPy (b.addOutcome smp (pyInt (fl (e.2 * fl k)))) else .error .assertion

/-- The body of the outer loop (108-114). -/
def addVariableFl (k : ℚ) (o : Order Str) (b : RGBuilder Str Str Str) (e : Str × Cpd) : Py (RGBuilder Str Str Str) :=
  match valueMap e.1 e.2 with
  | .error er => .error er
  | .ok d => d.entries.foldlM (addEntryFl k o e.1 e.2.parents) b

/-- `make_relation_graph` (103-121). -/
def makeRelationGraphFl (k : ℚ) (o : Order Str) (prov : ℕ) (cfg : Config) : Py (Space Str Str Str) :=
  match RGBuilder.init prov (declared cfg) {['r']} none with
  | .error e => .error e
  | .ok b => match cfg.entries.foldlM (addVariableFl k o) b with
    | .error e => .error e
    | .ok b' => b'.build

/-- `_normalize` (133-135) of whole numbers: they are added exactly, the sum is converted to `float`, and so is every dividend. -/
def normalizeFl {K : Type} [DecidableEq K] (d : Dict K ℚ) : Py (Dict K ℚ) :=
  let total := fl d.vals.sum
  if d.entries ≠ [] ∧ total = 0 then .error .zeroDiv else .ok (d.mapVals fun v => fl (fl v / total))

/-- The values that `factor.marginalize` adds up for one value of the remaining variable (144). -/
def summands (f : (Str → ℕ) → ℚ) : List (Str × ℕ) → (Str → ℕ) → List ℚ
  | [], a => [f a]
  | (v, c) :: t, a => (List.range c).flatMap fun j => summands f t (Function.update a v j)

/-- `_marginals_from_factor` (138-148). -/
def marginalsFromFactorFl (np : NpSum) (f : Factor) : Dict Str (Dict Str ℚ) :=
  Dict.ofList ((List.range f.vars.length).filterMap fun i => match f.vars[i]? with
    | none => none
    | some (v, c) => some (v, Dict.ofList ((List.range c).map fun j =>
        (valName v j, np.run (summands f.value (f.vars.eraseIdx i) (Function.update (fun _ => 0) v j))))))

/-- `isclose(a, b, rel_tol=1e-15, abs_tol=0.0)` (167, 183). -/
def closeFl (a b : ℚ) : Bool := isclose a b (fl (1 / 10 ^ 15)) 0

/-- The comparison of one pair of dictionaries (162-169, 173-184): all exceptions are the same, so the order of the loop does not matter. -/
def compareMapsFl {K : Type} [DecidableEq K] (a b : Dict K ℚ) : Py Unit :=
  if a.keys.toFinset ≠ b.keys.toFinset then .error .assertion
  else if a.keys.all fun k => closeFl ((a.get? k).getD 0) ((b.get? k).getD 0) then .ok () else .error .assertion

/-- `_compare_margin_map` (151-169). -/
def compareMarginsFl (a b : Dict Str (Dict Str ℚ)) : Py Unit :=
  if a.keys.toFinset ≠ b.keys.toFinset then .error .assertion
  else a.keys.forM fun k => match a.get? k, b.get? k with
    | some x, some y => compareMapsFl x y
    | _, _ => .error .keyError

/-- `marginal_variables_probability()` as called here (206, 226, 250). -/
def Env.marginalsFl (ver : PyVer) (e : Env) (sp : Space Str Str Str) : Py (Dict Str (Dict Str ℚ)) :=
  sp.marginalsFl ver e.u e.o.items e.o.vars e.o.nodes none false

/-- `comparing_joint_probability` (187-208); `jf` is the result of the query (188). -/
def comparingJointFl (ver : PyVer) (np : NpSum) (e : Env) (jf : Factor) (sp : Space Str Str Str) : Py Unit := do
  let joint ← sp.makeJoined e.o
  pyAssert (decide ((jf.vars.map Prod.snd).prod = joint.outcomes.items.card))
  let factorValues ← valueMapFromFactor jf
  let graphValues ← normalizeFl (valueMapFromGraph e.o.items joint)
  compareMapsFl factorValues graphValues
  let graphMarginals ← e.marginalsFl ver joint
  compareMarginsFl (marginalsFromFactorFl np jf) graphMarginals

/-- The graph part of `_run_inference_on` (211-226). -/
def runInferenceFl (ver : PyVer) (e : Env) (sp0 : Space Str Str Str) (vs : List Str) : Py (Dict Str (Dict Str ℚ)) := do
  let sp ← vs.foldlM (observe e sp0) sp0
  e.marginalsFl ver sp

/-- One of the two comparisons of `comparing_inference` (230-236, 238-245): `f` is the result of the query with the evidence `vs`. -/
def comparingInferenceFl (ver : PyVer) (np : NpSum) (e : Env) (f : Factor) (vs : List Str) (sp0 : Space Str Str Str) : Py Unit := do
  let m ← runInferenceFl ver e sp0 vs
  let m ← vs.foldlM popKey m
  compareMarginsFl (marginalsFromFactorFl np f) m

/-- `comparing_d_separation` (248-301). -/
def comparingDSeparationFl (ver : PyVer) (e : Env) (sp : Space Str Str Str) : Py Unit := do
  let joint ← sp.makeJoined e.o
  let m ← e.marginalsFl ver joint
  let spI ← observe e sp sp ['I']
  let mI ← e.marginalsFl ver spI
  pyAssert (← sameAt m mI ['D'])
  pyAssert (!(← sameAt m mI ['S']))
  let spG ← observe e sp sp ['G']
  let mG ← e.marginalsFl ver spG
  let spGI ← observe e sp spG.relationGraph ['I']
  let mGI ← e.marginalsFl ver spGI
  pyAssert (!(← sameAt mG mGI ['D']))
  let spL ← observe e sp sp ['L']
  let mL ← e.marginalsFl ver spL
  let spLI ← observe e sp spL.relationGraph ['I']
  let mLI ← e.marginalsFl ver spLI
  pyAssert (!(← sameAt mL mLI ['D']))

/-- `net_config` (36-47): the literals are rounded. -/
def studentConfigFl : Config := studentConfig.mapVals fun c => { c with rows := c.rows.map (List.map fl) }

end Verif.Bayes
