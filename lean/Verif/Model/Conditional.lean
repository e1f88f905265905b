import Verif.Model.SampleSpace

/-!
# Model of `conditional_graph` (relnet/relation_graph.py 219-239), `relnet/conditional_graph.py` and the data of
`relnet/activation_graph.py`

Weights are rationals instead of floats.
-/

namespace Verif

/-- `ActiveNode` (activation_graph.py 27-50); `values` is `_values_dict`. -/
structure ActiveNode (V X : Type) where
  var : V
  values : Dict X ℚ
  inQuery : Bool

/-- `ActiveEdge` (activation_graph.py 53-80); `relations` is `_relation_edges_dict`. -/
structure ActiveEdge (V R : Type) where
  endpoints : Finset V
  relations : Dict (Rel V R) ℤ
  inQuery : Bool

/-- `ActivationGraph` (activation_graph.py 83-98). The sets of nodes and edges are kept as lists: their members have different
variables (endpoints), so no two of them are equal. -/
structure ActivationGraph (V X R : Type) where
  n : ℤ
  nodes : List (ActiveNode V X)
  edges : List (ActiveEdge V R)

section
variable {V X R : Type} [DecidableEq V] [DecidableEq X] [DecidableEq R]

namespace Space
variable (sp : Space V X R)

/-- `relation_graph` (sample_space.py 75-85): same outcomes, no evidence. -/
def relationGraph : Space V X R := ⟨sp.schema, sp.outcomes, none⟩

/-- `RelationGraph.conditional_graph` (relation_graph.py 219-239). -/
def conditionalGraph (oI : Order (SampleGraph V X R × ℤ)) (ev : Sample V X R) : Py (Space V X R) :=
  if ev.prov ≠ sp.outcomes.prov then .error .assertion
  else .ok ⟨sp.schema, ⟨sp.outcomes.prov, Dict.ofList ((oI.run sp.outcomes.items).filter fun p =>
    ev.graph.isSubgraph p.1 || decide (Disjoint ev.graph.includedVariables p.1.includedVariables))⟩, some ev⟩

/-- `grouped_values` before the loop (conditional_graph.py 69-71). The order in which the variables are listed only
determines the order of this dictionary, which is turned into a set at the end. -/
def activationInit (oX : Order X) (ev : SampleGraph V X R) : Dict V (Dict X ℚ × Bool) :=
  Dict.ofList (sp.schema.vars.entries.map fun p =>
    (p.1, (Dict.ofList ((oX.run p.2).map fun x => (x, 0)), decide (p.1 ∈ ev.includedVariables))))

/-- Loop over the nodes of one outcome (conditional_graph.py 88-93); `values` is updated in place. -/
def activationNode (acc : Dict V (Dict X ℚ × Bool)) (t : Node V X × ℚ × Bool) : Py (Dict V (Dict X ℚ × Bool)) :=
  match acc.get? t.1.var with
  | none => .error .keyError
  | some (values, inQuery) =>
    if t.2.2 ≠ inQuery then .error .assertion
    else match values.get? t.1.val with
      | none => .error .keyError
      | some w => .ok (acc.set t.1.var (values.set t.1.val (w + t.2.1), inQuery))

/-- Loop over the edges of one outcome (conditional_graph.py 95-104); `relations` is updated in place. -/
def activationEdge (acc : Dict (Finset V) (Dict (Rel V R) ℤ × Bool)) (t : (Edge V X R × Bool) × ℤ) :
    Py (Dict (Finset V) (Dict (Rel V R) ℤ × Bool)) :=
  match acc.get? t.1.1.vars with
  | some (relations, inQuery) =>
    if t.1.2 ≠ inQuery then .error .assertion
    else .ok (acc.set t.1.1.vars (relations.set t.1.1.relation ((relations.get? t.1.1.relation).getD 0 + t.2), inQuery))
  | none => .ok (acc.set t.1.1.vars (Dict.empty.set t.1.1.relation t.2, t.1.2))

/-- Body of the loop over the outcomes (conditional_graph.py 75-104). The union of the two dictionaries at line 88 lists
their entries one after the other since their keys are disjoint (asserted at 83). -/
def activationStep (oN : Order (Node V X)) (oE : Order (Edge V X R)) (oQ : Order (Edge V X R × Bool))
    (f : Option (Finset (Rel V R))) (ev : SampleGraph V X R)
    (st : Dict V (Dict X ℚ × Bool) × Dict (Finset V) (Dict (Rel V R) ℤ × Bool)) (p : SampleGraph V X R × ℤ) :
    Py (Dict V (Dict X ℚ × Bool) × Dict (Finset V) (Dict (Rel V R) ℤ × Bool)) :=
  match p.1.similarity ev with
  | .error e => .error e
  | .ok sim =>
    match p.1.externalNodes oN oE ev.nodes f with
    | .error e => .error e
    | .ok ext =>
      let outNodes : List (Node V X × ℚ × Bool) := ext.keys.map fun n => (n, sim * (p.2 : ℚ), false)
      let inNodes : List (Node V X × ℚ × Bool) := (oN.run (ev.nodes ∩ p.1.nodes)).map fun n => (n, 1 * (p.2 : ℚ), true)
      let outEdges : Finset (Edge V X R × Bool) := (ext.vals.toFinset.biUnion id).image fun e => (e, false)
      let inEdges : Finset (Edge V X R × Bool) := ev.edges.image fun e => (e, true)
      if ¬ Disjoint ext.keys.toFinset (ev.nodes ∩ p.1.nodes) then .error .assertion
      else if ¬ Disjoint outEdges inEdges then .error .assertion
      else match (outNodes ++ inNodes).foldlM activationNode st.1 with
        | .error e => .error e
        | .ok gv =>
          match ((oQ.run (outEdges ∪ inEdges)).map fun q => (q, p.2)).foldlM activationEdge st.2 with
          | .error e => .error e
          | .ok gr => .ok (gv, gr)

/-- The construction of the result (conditional_graph.py 106-113): dividing by the number of outcomes may raise
`ZeroDivisionError`; `VariableEdge.__init__` (variables_graph.py 57) asserts two endpoints. -/
def activationResult (st : Dict V (Dict X ℚ × Bool) × Dict (Finset V) (Dict (Rel V R) ℤ × Bool)) :
    Py (ActivationGraph V X R) :=
  let n := sp.outcomes.length
  if n = 0 ∧ ∃ p ∈ st.1.entries, p.2.1.entries ≠ [] then .error .zeroDiv
  else if ∃ p ∈ st.2.entries, p.1.card ≠ 2 then .error .assertion
  else .ok ⟨n, st.1.entries.map fun p => ⟨p.1, p.2.1.mapVals fun w => w / (n : ℚ), p.2.2⟩,
    st.2.entries.map fun p => ⟨p.1, p.2.1, p.2.2⟩⟩

/-- `ConditionalGraph.activation_graph` (conditional_graph.py 59-113) for a graph with evidence `ev`. -/
def activationGraph (oI : Order (SampleGraph V X R × ℤ)) (oN : Order (Node V X)) (oE : Order (Edge V X R))
    (oQ : Order (Edge V X R × Bool)) (oX : Order X) (f : Option (Finset (Rel V R))) (ev : SampleGraph V X R) :
    Py (ActivationGraph V X R) :=
  match (oI.run sp.outcomes.items).foldlM (activationStep oN oE oQ f ev) (sp.activationInit oX ev, Dict.empty) with
  | .error e => .error e
  | .ok st => sp.activationResult st

end Space
end

end Verif
