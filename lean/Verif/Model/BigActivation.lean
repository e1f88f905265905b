import Verif.Model.BigCounts

/-!
# `ConditionalGraph.activation_graph` with counts of any size

As in `Verif/Model/BigCounts.lean` the upper limit of a `float` is kept. Weights are not negative, so an infinity (`none`) is positive and `nan` does not arise.
-/

set_option exponentiation.threshold 1100

namespace Verif

/-- The `float` for the result of an operation on floats: infinite if it is too large. -/
def finite (q : ℚ) : Option ℚ := if huge q then none else some (fl q)

/-- `a + b` for floats. -/
def addFloats : Option ℚ → Option ℚ → Option ℚ
  | some a, some b => finite (a + b)
  | _, _ => none

/-- An exception of the exact model. -/
def liftPy {A : Type} : Py A → Except OvErr A
  | .error e => .error (.py e)
  | .ok a => .ok a

/-- `ActivationGraph` (activation_graph.py 83-98) whose nodes have finite or infinite weights. -/
structure ActivationGraphOv (V X R : Type) where
  n : ℤ
  nodes : List (V × Dict X (Option ℚ) × Bool)
  edges : List (ActiveEdge V R)

section
variable {V X R : Type} [DecidableEq V] [DecidableEq X] [DecidableEq R]

/-- `{node: (s * count, flag) for node in …}` (conditional_graph.py 78, 79): the `int` is converted once per node, so not at all without nodes. -/
def weighNodes (s : ℚ) (c : ℤ) (flag : Bool) (l : List (Node V X)) : Except OvErr (List (Node V X × Option ℚ × Bool)) :=
  if l ≠ [] ∧ huge (c : ℚ) then .error .overflow else .ok (l.map fun n => (n, finite (s * fl (c : ℚ)), flag))

namespace Space
variable (sp : Space V X R)

/-- Loop over the nodes of one outcome (conditional_graph.py 88-93). -/
def activationNodeOv (acc : Dict V (Dict X (Option ℚ) × Bool)) (t : Node V X × Option ℚ × Bool) : Except OvErr (Dict V (Dict X (Option ℚ) × Bool)) :=
  match acc.get? t.1.var with
  | none => .error (.py .keyError)
  | some (values, inQuery) =>
    if t.2.2 ≠ inQuery then .error (.py .assertion)
    else match values.get? t.1.val with
      | none => .error (.py .keyError)
      | some w => .ok (acc.set t.1.var (values.set t.1.val (addFloats w t.2.1), inQuery))

/-- Body of the loop over the outcomes (conditional_graph.py 75-104). -/
def activationStepOv (oN : Order (Node V X)) (oE : Order (Edge V X R)) (oQ : Order (Edge V X R × Bool))
    (f : Option (Finset (Rel V R))) (ev : SampleGraph V X R)
    (st : Dict V (Dict X (Option ℚ) × Bool) × Dict (Finset V) (Dict (Rel V R) ℤ × Bool)) (p : SampleGraph V X R × ℤ) :
    Except OvErr (Dict V (Dict X (Option ℚ) × Bool) × Dict (Finset V) (Dict (Rel V R) ℤ × Bool)) :=
  match p.1.similarityFl ev with
  | .error e => .error (.py e)
  | .ok sim =>
    match p.1.externalNodes oN oE ev.nodes f with
    | .error e => .error (.py e)
    | .ok ext =>
      match weighNodes sim p.2 false ext.keys with
      | .error e => .error e
      | .ok outNodes =>
        match weighNodes 1 p.2 true (oN.run (ev.nodes ∩ p.1.nodes)) with
        | .error e => .error e
        | .ok inNodes =>
          let outEdges : Finset (Edge V X R × Bool) := (ext.vals.toFinset.biUnion id).image fun e => (e, false)
          let inEdges : Finset (Edge V X R × Bool) := ev.edges.image fun e => (e, true)
          if ¬ Disjoint ext.keys.toFinset (ev.nodes ∩ p.1.nodes) then .error (.py .assertion)
          else if ¬ Disjoint outEdges inEdges then .error (.py .assertion)
          else match (outNodes ++ inNodes).foldlM activationNodeOv st.1 with
            | .error e => .error e
            | .ok gv =>
              match liftPy (((oQ.run (outEdges ∪ inEdges)).map fun q => (q, p.2)).foldlM activationEdge st.2) with
              | .error e => .error e
              | .ok gr => .ok (gv, gr)

/-- The weights of the nodes are divided (conditional_graph.py 109, 110). -/
def divideNodesOv (n : ℤ) : List (V × Dict X (Option ℚ) × Bool) → Except OvErr (List (V × Dict X (Option ℚ) × Bool))
  | [] => .ok []
  | (v, d, b) :: t =>
    match FoldedNode.divideOv n (d.mapVals AccNum.float).entries with
    | .error e => .error e
    | .ok l =>
      match divideNodesOv n t with
      | .error e => .error e
      | .ok r => .ok ((v, Dict.ofList l, b) :: r)

/-- The construction of the result (conditional_graph.py 106-113): first the nodes, then the edges. -/
def activationResultOv (st : Dict V (Dict X (Option ℚ) × Bool) × Dict (Finset V) (Dict (Rel V R) ℤ × Bool)) :
    Except OvErr (ActivationGraphOv V X R) :=
  match divideNodesOv sp.outcomes.length st.1.entries with
  | .error e => .error e
  | .ok nodes =>
    if ∃ p ∈ st.2.entries, p.1.card ≠ 2 then .error (.py .assertion)
    else .ok ⟨sp.outcomes.length, nodes, st.2.entries.map fun p => ⟨p.1, p.2.1, p.2.2⟩⟩

/-- `ConditionalGraph.activation_graph` (conditional_graph.py 59-113). -/
def activationGraphOv (oI : Order (SampleGraph V X R × ℤ)) (oN : Order (Node V X)) (oE : Order (Edge V X R))
    (oQ : Order (Edge V X R × Bool)) (oX : Order X) (f : Option (Finset (Rel V R))) (ev : SampleGraph V X R) :
    Except OvErr (ActivationGraphOv V X R) :=
  match (oI.run sp.outcomes.items).foldlM (activationStepOv oN oE oQ f ev)
      ((sp.activationInit oX ev).mapVals fun p => (p.1.mapVals some, p.2), Dict.empty) with
  | .error e => .error e
  | .ok st => sp.activationResultOv st

end Space
end
end Verif
