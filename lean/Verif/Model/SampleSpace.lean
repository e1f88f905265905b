import Verif.Model.SampleSet

/-!
# Model of `relnet/sample_space.py`, `relnet/folded_graph.py` and the parts of `relnet/variables_graph.py` they use

A `SampleSpace` is kept as the declared schema of its provider, its outcomes and the evidence (only for conditional
graphs). `outcomes.items()` and `outcomes.samples()` are frozensets, so all loops over them take an iteration order.
A `SampleSet` that becomes a member of a `frozenset` is represented by its `items()` (equality of sample sets is equality of
these, `Verif.pyEq_iff_items`).
-/

namespace Verif

/-- `{k: f(v) for k, v in d.items()}` (sample_space.py 132, 134). -/
def Dict.mapVals {K A B : Type} [DecidableEq K] (d : Dict K A) (f : A → B) : Dict K B :=
  ⟨d.entries.map fun p => (p.1, f p.2), by
    have : (d.entries.map fun p => (p.1, f p.2)).map Prod.fst = d.entries.map Prod.fst := by
      rw [List.map_map]; rfl
    rw [this]; exact d.nodup⟩

/-- The counting idiom used in sample_space.py 120-123, 178-181 and 184-187:
`if k in acc: acc[k][a] = acc[k].get(a, 0) + c else: acc[k] = {a: c}`. -/
def bump {K A : Type} [DecidableEq K] [DecidableEq A] (acc : Dict K (Dict A ℤ)) (k : K) (a : A) (c : ℤ) :
    Dict K (Dict A ℤ) :=
  match acc.get? k with
  | some m => acc.set k (m.set a ((m.get? a).getD 0 + c))
  | none => acc.set k (Dict.empty.set a c)

/-- `SampleSpace` (sample_space.py 34-49). -/
structure Space (V X R : Type) where
  schema : Schema V X R
  outcomes : Samples V X R
  evidence : Option (Sample V X R)

/-- `FoldedNode` (folded_graph.py 28-50); `nodes` is `_value_nodes_dict`. -/
structure FoldedNode (V X : Type) where
  var : V
  values : Finset X
  nodes : Dict (Node V X) ℤ
  n : ℤ

/-- `FoldedEdge` (folded_graph.py 84-105); `edges` is `_relation_edges_dict`. -/
structure FoldedEdge (V X R : Type) where
  endpoints : Finset V
  edges : Dict (Edge V X R) ℤ

/-- `FoldedGraph` (folded_graph.py 108-125). The sets of nodes and edges are kept as lists in creation order: their
members have different variables (endpoints), so no two of them are equal. -/
structure FoldedGraph (V X R : Type) where
  n : ℤ
  nodes : List (FoldedNode V X)
  edges : List (FoldedEdge V X R)

section
variable {V X R : Type} [DecidableEq V] [DecidableEq X] [DecidableEq R]

namespace FoldedNode

/-- `value_nodes` (folded_graph.py 36). -/
def valueNodes (f : FoldedNode V X) : Finset (Node V X × ℤ) := f.nodes.entries.toFinset

/-- `unobserved_count` (folded_graph.py 52-57). -/
def unobservedCount (f : FoldedNode V X) : ℤ := f.n - f.nodes.vals.sum

/-- Loop of `marginal_distribution` (folded_graph.py 69-73): the accumulator and the running total. -/
def distLoop : List (Node V X × ℤ) → Dict X ℚ × ℤ → Py (Dict X ℚ × ℤ)
  | [], st => .ok st
  | (n, c) :: t, (acc, total) =>
    match acc.get? n.val with
    | none => .error .assertion
    | some a => distLoop t (acc.set n.val (a + c), total + c)

/-- `marginal_distribution` (folded_graph.py 59-81); `unobs` is the string `'unobserved'` seen as a value. -/
def marginalDistribution (unobs : X) (oX : Order X) (oN : Order (Node V X × ℤ)) (f : FoldedNode V X) : Py (Dict X ℚ) :=
  match distLoop (oN.run f.valueNodes) (Dict.ofList ((oX.run f.values).map fun x => (x, 0)), 0) with
  | .error e => .error e
  | .ok (acc, total) =>
    if f.n < total then .error .assertion
    else if f.n = 0 then .error .zeroDiv
    else .ok ((acc.set unobs ((f.n - total : ℤ) : ℚ)).mapVals fun c => c / (f.n : ℚ))

end FoldedNode

/-- `folded_node` (folded_graph.py 126-132): lookup by variable. -/
def FoldedGraph.foldedNode (f : FoldedGraph V X R) (v : V) : Option (FoldedNode V X) := f.nodes.find? fun n => n.var = v

namespace Space
variable (sp : Space V X R)

/-- `variables if variables else {v for v, _ in self._components_provider.variables()}` (sample_space.py 112). -/
def toCheck : Option (Finset V) → Finset V
  | some s => if s = ∅ then sp.schema.vars.keys.toFinset else s
  | none => sp.schema.vars.keys.toFinset

/-- Inner loop over the variables of one outcome (sample_space.py 117-123). `value_for_variable` of an included variable
is never `None` (`Verif.valueForVariable_included`). -/
def groupVars (oN : Order (Node V X)) (vs : Finset V) (g : SampleGraph V X R) (c : ℤ) (acc : Dict V (Dict X ℤ)) (v : V) :
    Dict V (Dict X ℤ) :=
  if v ∈ vs then
    match g.valueForVariable oN v with
    | some x => bump acc v x c
    | none => acc
  else acc

/-- `group_acc` (sample_space.py 113-123). -/
def groupAcc (oI : Order (SampleGraph V X R × ℤ)) (oV : Order V) (oN : Order (Node V X)) (vs : Finset V) :
    Dict V (Dict X ℤ) :=
  (oI.run sp.outcomes.items).foldl (init := Dict.empty) fun acc p =>
    (oV.run p.1.includedVariables).foldl (groupVars oN vs p.1 p.2) acc

/-- `{v: p / n for v, p in values.items()}` (sample_space.py 133, 135). -/
def divide (d : Dict X ℤ) (n : ℤ) : Py (Dict X ℚ) :=
  if d.entries ≠ [] ∧ n = 0 then .error .zeroDiv else .ok (d.mapVals fun c => (c : ℚ) / (n : ℚ))

/-- Body of the normalisation loop (sample_space.py 126-135); `u` is the string `'u'` seen as a value. -/
def normValues (u : X) (unobserved : Bool) (len : ℤ) (values : Dict X ℤ) : Py (Dict X ℚ) :=
  let s := values.vals.sum
  if ¬ (0 ≤ s ∧ s ≤ len) then .error .assertion
  else if unobserved then divide (values.set u (len - s)) len
  else divide values s

/-- `marginal_variables_probability` (sample_space.py 102-143). -/
def marginals (u : X) (oI : Order (SampleGraph V X R × ℤ)) (oV : Order V) (oN : Order (Node V X))
    (req : Option (Finset V)) (unobserved : Bool) : Py (Dict V (Dict X ℚ)) :=
  match (sp.groupAcc oI oV oN (sp.toCheck req)).entries.mapM
      (fun p => do return (p.1, ← normValues u unobserved sp.outcomes.length p.2)) with
  | .error e => .error e
  | .ok l =>
    let norm := Dict.ofList l
    if norm.entries.all (fun p => p.2.vals.sum = 1) then .ok norm else .error .assertion

/-- `included_variables` (sample_space.py 145-156). -/
def includedVariables (oG : Order (SampleGraph V X R)) (oN : Order (Node V X)) : Finset (V × Finset X) :=
  let d : Dict V (Finset X) := (oG.run sp.outcomes.graphs).foldl (init := Dict.empty) fun acc g =>
    (oN.run g.nodes).foldl (fun acc n => acc.set n.var (((acc.get? n.var).getD ∅) ∪ {n.val})) acc
  d.entries.toFinset

/-- `included_relations` (sample_space.py 158-163). -/
def includedRelations : Finset (Rel V R) := sp.outcomes.graphs.biUnion fun g => g.edges.image Edge.relation

/-- `node_acc` (sample_space.py 170, 175-181). -/
def nodeAcc (oI : Order (SampleGraph V X R × ℤ)) (oN : Order (Node V X)) : Dict V (Dict (Node V X) ℤ) :=
  (oI.run sp.outcomes.items).foldl (init := Dict.empty) fun acc p =>
    (oN.run p.1.nodes).foldl (fun acc n => bump acc n.var n p.2) acc

/-- `edge_acc` (sample_space.py 171, 175, 182-187). -/
def edgeAcc (oI : Order (SampleGraph V X R × ℤ)) (oE : Order (Edge V X R)) : Dict (Finset V) (Dict (Edge V X R) ℤ) :=
  (oI.run sp.outcomes.items).foldl (init := Dict.empty) fun acc p =>
    (oE.run p.1.edges).foldl (fun acc e => bump acc e.vars e p.2) acc

/-- `folded_graph` (sample_space.py 165-193): `variables[variable]` may raise `KeyError`, an edge between other than two
variables fails the assertion of `VariableEdge.__init__` (variables_graph.py 57). -/
def foldedGraph (oI : Order (SampleGraph V X R × ℤ)) (oN : Order (Node V X)) (oE : Order (Edge V X R)) :
    Py (FoldedGraph V X R) :=
  let n := sp.outcomes.length
  match (sp.nodeAcc oI oN).entries.mapM (fun p =>
      match sp.schema.vars.get? p.1 with
      | none => (.error .keyError : Py (FoldedNode V X))
      | some xs => .ok ⟨p.1, xs, p.2, n⟩) with
  | .error e => .error e
  | .ok ns =>
    match (sp.edgeAcc oI oE).entries.mapM (fun p =>
        if p.1.card = 2 then (.ok ⟨p.1, p.2⟩ : Py (FoldedEdge V X R)) else .error .assertion) with
    | .error e => .error e
    | .ok es => .ok ⟨n, ns, es⟩

/-- Loop of `find_for_values` (sample_space.py 244-246). -/
def findLoop (values : Finset (V × X)) (prov : ℕ) : List (SampleGraph V X R × ℤ) → Samples V X R →
    Samples V X R × Option Err
  | [], b => (b, none)
  | (g, c) :: t, b =>
    if values ⊆ g.values then
      match b.add ⟨prov, g⟩ c with
      | (b', some e) => (b', some e)
      | (b', none) => findLoop values prov t b'
    else findLoop values prov t b

/-- `find_for_values` (sample_space.py 236-248). -/
def findForValues (oI : Order (SampleGraph V X R × ℤ)) (values : Finset (V × X)) : Py (Samples V X R) :=
  toPy (findLoop values sp.outcomes.prov (oI.run sp.outcomes.items) (Samples.empty sp.outcomes.prov))

/-- The key of an outcome in `factorized` (sample_space.py 260): variables of single nodes and sets of variables are kept
apart (`inl`, `inr`). -/
def factorKey (oN : Order (Node V X)) (g : SampleGraph V X R) : Py (GKey V) :=
  if g.isSingleNode then
    match g.singleNodeVariable oN with
    | .error e => .error e
    | .ok v => .ok {.inl v}
  else .ok (g.edgesEndpointVariables.image .inr)

/-- One round of the loop of `factorized` (sample_space.py 257-267). -/
def factorStep (oN : Order (Node V X)) (prov : ℕ) (acc : Dict (GKey V) (Samples V X R)) (p : SampleGraph V X R × ℤ) :
    Py (Dict (GKey V) (Samples V X R)) :=
  if p.1.isK0 then .error .assertion
  else match factorKey oN p.1 with
    | .error e => .error e
    | .ok evs =>
      match acc.get? evs with
      | none =>
        if acc.keys.all (fun k => Disjoint k evs) then .ok (acc.set evs ⟨prov, Dict.empty.set p.1 p.2⟩)
        else .error .assertion
      | some b =>
        match b.add ⟨prov, p.1⟩ p.2 with
        | (_, some e) => .error e
        | (b', none) => .ok (acc.set evs b')

/-- `factorized` (sample_space.py 250-269); each factor is given by its items. -/
def factorized (oI : Order (SampleGraph V X R × ℤ)) (oN : Order (Node V X)) :
    Py (Finset (Finset (SampleGraph V X R × ℤ))) := do
  let acc ← (oI.run sp.outcomes.items).foldlM (factorStep oN sp.outcomes.prov) Dict.empty
  return (acc.vals.map Samples.items).toFinset

/-- Loop of `is_factorized` (relation_graph.py 293-301). -/
def isFactorizedLoop : List (SampleGraph V X R) → Finset (Finset (Finset V)) → Bool
  | [], _ => true
  | g :: t, acc =>
    if g.isK0 then false
    else
      let ep := g.edgesEndpointVariables
      if ep ∈ acc then isFactorizedLoop t acc
      else if ∃ k ∈ acc, ¬ Disjoint k ep then false
      else isFactorizedLoop t (insert ep acc)

/-- `is_factorized` (relation_graph.py 287-302). -/
def isFactorized (oG : Order (SampleGraph V X R)) : Bool := isFactorizedLoop (oG.run sp.outcomes.graphs) ∅

end Space
end

end Verif
