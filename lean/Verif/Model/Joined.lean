import Verif.Model.Conditional

/-!
# Model of the joins of `relnet/relation_graph.py`

`joined_on_variables` (241-273), `is_joined` (275-285) and `make_joined` (304-341). Names of graphs are left out. As in
`Verif.Model.SampleSpace` a `SampleSet` that is a member of a `frozenset` is represented by its `items()`; the order of its
dictionary is the order in which these are listed.
-/

namespace Verif

variable {V X R : Type} [DecidableEq V] [DecidableEq X] [DecidableEq R]

namespace Samples

/-! ### `joined_on_variables` -/

/-- The branch of `cross_join` without groups (relation_graph.py 253-257). -/
def crossLeaf (oN : Order (Node V X)) (oE : Order (Edge V X R)) (joints : Samples V X R) : Py (Samples V X R) :=
  if joints.bool && joints.isAllValuesMatch oN then
    match joints.makeJoinedSample oE with
    | .error e => .error e
    | .ok (s, cs) => toPy ((Samples.empty joints.prov).add s cs.prod)
  else .ok (Samples.empty joints.prov)

/-- `cross_join` (relation_graph.py 251-261). -/
def crossJoin (oI : Order (SampleGraph V X R × ℤ)) (oN : Order (Node V X)) (oE : Order (Edge V X R)) :
    List (Samples V X R) → Samples V X R → Py (Samples V X R)
  | [], joints => crossLeaf oN oE joints
  | grp :: rest, joints =>
    (oI.run grp.items).foldlM (init := Samples.empty joints.prov) fun ssb p =>
      match toPy (joints.add ⟨grp.prov, p.1⟩ p.2) with
      | .error e => .error e
      | .ok joints' =>
        match crossJoin oI oN oE rest joints' with
        | .error e => .error e
        | .ok r => toPy (ssb.addAll oI r)

/-- One round of the loop over the join variables (relation_graph.py 263-268). -/
def joinOn (iter : V → Option (Finset V)) (oI : Order (SampleGraph V X R × ℤ)) (oG : Order (SampleGraph V X R))
    (oN : Order (Node V X)) (oE : Order (Edge V X R)) (acc : Samples V X R) (v : V) : Py (Samples V X R) :=
  let joinOutcomes := acc.filterSamples fun g => v ∈ g.includedVariables
  match joinOutcomes.groupIntersecting iter with
  | .error e => .error e
  | .ok grouped =>
    match crossJoin oI oN oE grouped.vals (Samples.empty acc.prov) with
    | .error e => .error e
    | .ok joined =>
      match toPy (acc.removeAll oG joinOutcomes) with
      | .error e => .error e
      | .ok acc' => toPy (acc'.addAll oI joined)

/-! ### `make_joined` -/

/-- The branch of `join_factors` without outcomes (relation_graph.py 315-321). -/
def factorLeaf (oN : Order (Node V X)) (oE : Order (Edge V X R)) (acc : Samples V X R) : Py (Samples V X R) :=
  match acc.canJoinSamples oN with
  | .error e => .error e
  | .ok false => .ok (Samples.empty acc.prov)
  | .ok true =>
    match acc.makeJoinedSample oE with
    | .error e => .error e
    | .ok (s, cs) => .ok ⟨acc.prov, Dict.empty.set s.graph cs.prod⟩

/-- `join_factors` (relation_graph.py 310-321). -/
def joinFactors (oI : Order (SampleGraph V X R × ℤ)) (oN : Order (Node V X)) (oE : Order (Edge V X R)) :
    List (List (SampleGraph V X R × ℤ)) → Samples V X R → Py (Samples V X R)
  | [], acc => factorLeaf oN oE acc
  | os :: rest, acc =>
    os.mapM (fun p => toPy (acc.add ⟨acc.prov, p.1⟩ p.2) >>= joinFactors oI oN oE rest) >>= joinSampleSet oI

end Samples

/-- The iteration orders of all the kinds of sets that the joins go through (relation_graph.py 241-341). -/
structure Orders (V X R : Type) where
  items : Order (SampleGraph V X R × ℤ)
  graphs : Order (SampleGraph V X R)
  nodes : Order (Node V X)
  edges : Order (Edge V X R)
  vars : Order V
  vals : Order X
  incl : Order (V × Finset X)
  factors : Order (Finset (SampleGraph V X R × ℤ))

namespace Space
variable (sp : Space V X R)

/-- `joined_on_variables` (relation_graph.py 241-273). -/
def joinedOnVariables (iter : V → Option (Finset V)) (o : Orders V X R) (vars : Option (Finset V)) :
    Py (Space V X R) :=
  let joinVars : Finset V := match vars with
    | some vs => vs
    | none => (sp.includedVariables o.graphs o.nodes).image Prod.fst
  match (o.vars.run joinVars).foldlM (Samples.joinOn iter o.items o.graphs o.nodes o.edges) sp.outcomes with
  | .error e => .error e
  | .ok acc => .ok ⟨sp.schema, acc, none⟩

/-- `is_joined` (relation_graph.py 275-285). -/
def isJoined (oG : Order (SampleGraph V X R)) : Bool :=
  let vs : Finset V := match oG.run sp.outcomes.graphs with
    | g :: _ => if sp.outcomes.bool then g.includedVariables else ∅
    | [] => ∅
  (oG.run sp.outcomes.graphs).all fun g => vs = g.includedVariables

/-- `{o: c for o, c in f.items() if o.have_value(var, val)}` (relation_graph.py 329). -/
def outcomesForVal (o : Orders V X R) (v : V) (x : X) (f : Finset (SampleGraph V X R × ℤ)) :
    List (SampleGraph V X R × ℤ) :=
  (o.items.run f).filter fun p => p.1.haveValue o.nodes v x

/-- Body of the loop over the values (relation_graph.py 329-332). -/
def joinValue (o : Orders V X R) (prov : ℕ) (v : V) (ffv : List (Finset (SampleGraph V X R × ℤ)))
    (jf : Samples V X R) (x : X) : Py (Samples V X R) :=
  match Samples.joinFactors o.items o.nodes o.edges ((ffv.map (outcomesForVal o v x)).filter (· ≠ [])) (Samples.empty prov) with
  | .error e => .error e
  | .ok r => toPy (jf.addAll o.items r)

/-- `factors_for_var` (relation_graph.py 326). -/
def factorsForVar (o : Orders V X R) (v : V) (factors : Finset (Finset (SampleGraph V X R × ℤ))) :
    List (Finset (SampleGraph V X R × ℤ)) :=
  (o.factors.run factors).filter fun f => (o.items.run f).any fun p => p.1.haveVariable o.nodes v

/-- Body of the loop over the variables (relation_graph.py 325-334). -/
def eliminate (o : Orders V X R) (prov : ℕ) (factors : Finset (Finset (SampleGraph V X R × ℤ))) (q : V × Finset X) :
    Py (Finset (Finset (SampleGraph V X R × ℤ))) :=
  let ffv := factorsForVar o q.1 factors
  match (o.vals.run q.2).foldlM (joinValue o prov q.1 ffv) (Samples.empty prov) with
  | .error e => .error e
  | .ok jf => .ok ((factors \ ffv.toFinset) ∪ {jf.items})

/-- `make_joined` (relation_graph.py 304-341). -/
def makeJoined (o : Orders V X R) : Py (Space V X R) :=
  match sp.factorized o.items o.nodes with
  | .error e => .error e
  | .ok factors =>
    match (o.incl.run (sp.includedVariables o.graphs o.nodes)).foldlM (eliminate o sp.outcomes.prov) factors with
    | .error e => .error e
    | .ok fs =>
      if fs.card ≤ 1 then
        .ok ⟨sp.schema, match o.factors.run fs with
          | f :: _ => ⟨sp.outcomes.prov, Dict.ofList (o.items.run f)⟩
          | [] => Samples.empty sp.outcomes.prov, none⟩
      else .error .assertion

end Space

end Verif
