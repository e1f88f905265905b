import Verif.Model.SampleSpace

/-!
# Model of `RelationGraphBuilder` (`relnet/relation_graph.py` 29-186)

The name of the graph under construction is modelled in `Model/Describe`. The provider is represented by its identity `prov` and by what
was declared to it (`schema`). Exceptions inside `generate_all_possible_outcomes` lose the partially filled builder (the
method is proved not to raise on a builder without outcomes).
-/

namespace Verif

/-- `RelationGraphBuilder` (relation_graph.py 34-53). -/
structure RGBuilder (V X R : Type) where
  schema : Schema V X R
  prov : Nat
  outcomes : Samples V X R
  idCounter : Nat

/-- The iteration orders of the sets met by `generate_all_possible_outcomes` (relation_graph.py 117-173). -/
structure GenOrders (V X R : Type) [DecidableEq V] [DecidableEq X] [DecidableEq R] where
  /-- `self.variables` (relation_graph.py 126) -/
  oV : Order (V × Finset X)
  /-- the values of a variable (126) -/
  oX : Order X
  /-- `self.relations` (127) -/
  oR : Order R
  /-- the set of endpoint pairs (133-135) -/
  oP : Order (Finset (V × X))
  /-- raw edges (153-158) -/
  oE : Order (RawEdge V X R)
  oN : Order (V × X)
  /-- `self._outcomes.samples()` (165) -/
  oG : Order (SampleGraph V X R)
  /-- nodes and edges of an outcome (164) -/
  oNode : Order (Node V X)
  oEdge : Order (Edge V X R)

section
variable {V X R : Type} [DecidableEq V] [DecidableEq X] [DecidableEq R]

/-- One pass of the inner loop and the increment (relation_graph.py 141-145): moving over the leading entries that
reached the last relation, setting them to -1, then incrementing the next one. Running past the end is `IndexError`. -/
def odoStep (r : ℤ) : List ℤ → Py (List ℤ)
  | [] => .error .indexError
  | a :: t =>
    if a ≥ r - 1 then
      match odoStep r t with
      | .error e => .error e
      | .ok t' => .ok ((-1) :: t')
    else .ok ((a + 1) :: t)

/-- The outer loop (relation_graph.py 140-146) with loop fuel: the list `edges_indices`. -/
def odoLoop (r : ℤ) : Nat → List ℤ → Py (List (List ℤ))
  | 0, _ => .error .fuel
  | fuel + 1, idx =>
    if (idx.map fun i => decide (i < r - 1)).toFinset ≠ {false} ∧ idx.length ≠ 0 then
      match odoStep r idx with
      | .error e => .error e
      | .ok idx' =>
        match odoLoop r fuel idx' with
        | .error e => .error e
        | .ok l => .ok (idx' :: l)
    else .ok []

/-- One element of `active_edges` (relation_graph.py 153): endpoints and the relation with the given index. -/
def activeEdge (rels : List R) (p : Finset (V × X) × ℤ) : Py (RawEdge V X R) :=
  match rels[p.2.toNat]? with
  | none => .error .indexError
  | some r => .ok (p.1, .plain r)

/-- `active_edges` (relation_graph.py 152-155). -/
def activeEdges (eps : List (Finset (V × X))) (rels : List R) (idx : List ℤ) : Py (Finset (RawEdge V X R)) :=
  match ((eps.zip idx).filter fun p => decide (p.2 ≥ 0)).mapM (activeEdge rels) with
  | .error e => .error e
  | .ok l => .ok l.toFinset

/-- `(var, values[0])` (relation_graph.py 130). -/
def firstNode (p : V × List X) : Py (V × X) :=
  match p.2 with
  | [] => .error .indexError
  | x :: _ => .ok (p.1, x)

namespace RGBuilder

/-- `__init__` with `variables` and `relations` (relation_graph.py 36-53); `outcomes` is used only if truthy (49). -/
def init (prov : Nat) (vars : Dict V (Finset X)) (rels : Finset R) (outcomes : Option (Samples V X R)) :
    Py (RGBuilder V X R) :=
  if vars.entries = [] ∨ rels = ∅ then .error .assertion
  else match Schema.check vars rels with
    | .error e => .error e
    | .ok s =>
      match outcomes with
      | some o => if o.bool then .ok ⟨s, prov, o, 0⟩ else .ok ⟨s, prov, Samples.empty prov, 0⟩
      | none => .ok ⟨s, prov, Samples.empty prov, 0⟩

/-- A builder over an existing provider, without outcomes (relation_graph.py 36-53). -/
def fresh (s : Schema V X R) (prov : Nat) : RGBuilder V X R := ⟨s, prov, Samples.empty prov, 0⟩

variable (b : RGBuilder V X R)

/-- `next_id` (relation_graph.py 67-73). -/
def nextId : Nat × RGBuilder V X R := (b.idCounter + 1, { b with idCounter := b.idCounter + 1 })

/-- `add_outcome` (relation_graph.py 75-89). -/
def addOutcome (s : Sample V X R) (c : ℤ) : RGBuilder V X R × Option Err :=
  if s.prov ≠ b.prov then (b, some .assertion)
  else if ¬ c ≥ 1 then (b, some .assertion)
  else ({ b with outcomes := (b.outcomes.add s c).1 }, (b.outcomes.add s c).2)

/-- `add_outcomes` (relation_graph.py 91-100). -/
def addOutcomes (c : ℤ) : List (Sample V X R) → RGBuilder V X R → RGBuilder V X R × Option Err
  | [], b => (b, none)
  | s :: t, b =>
    match b.addOutcome s c with
    | (b', some e) => (b', some e)
    | (b', none) => addOutcomes c t b'

/-- `build_sample` (relation_graph.py 109-115): the callback gets a new `SampleGraphBuilder`. -/
def buildSample (f : Builder V X R → Py (Sample V X R)) : RGBuilder V X R × Option Err :=
  match f (Builder.new b.prov) with
  | .error e => (b, some e)
  | .ok s => b.addOutcome s 1

/-- First loop (relation_graph.py 148-149): single node outcomes. -/
def genSingles : List (V × X) → RGBuilder V X R → Py (RGBuilder V X R)
  | [], b => .ok b
  | p :: t, b =>
    match toPy (b.nextId.2.buildSample fun sb => sb.buildSingleNode b.schema p.1 p.2) with
    | .error e => .error e
    | .ok b' => genSingles t b'

/-- Second loop (relation_graph.py 151-160): outcomes with edges. -/
def genEdges (o : GenOrders V X R) (eps : List (Finset (V × X))) (rels : List R) :
    List (List ℤ) → RGBuilder V X R → Py (RGBuilder V X R)
  | [], b => .ok b
  | idx :: t, b =>
    match activeEdges eps rels idx with
    | .error e => .error e
    | .ok E =>
      match isEdgesConnected o.oE o.oN E with
      | .error e => .error e
      | .ok false => genEdges o eps rels t b
      | .ok true =>
        match ((Builder.new b.prov).buildFromEdges b.schema o.oE o.oN E false).2 with
        | .error e => .error e
        | .ok smp =>
          match toPy (b.nextId.2.addOutcome smp 1) with
          | .error e => .error e
          | .ok b' => genEdges o eps rels t b'

/-- The pairs (outcome, value) of the comprehension (relation_graph.py 165-167). -/
def substPairs (gs : List (SampleGraph V X R)) (v : V) (rest : List X) : List (SampleGraph V X R × X) :=
  gs.flatMap fun g => (rest.filter fun _ => decide (v ∈ g.includedVariables)).map fun x => (g, x)

/-- Third loop (relation_graph.py 162-167): other values are substituted for the first one. -/
def genSubst (o : GenOrders V X R) : List (V × List X) → RGBuilder V X R → Py (RGBuilder V X R)
  | [], b => .ok b
  | (v, xs) :: t, b =>
    match (substPairs (o.oG.run b.outcomes.graphs) v xs.tail).mapM fun p =>
      p.1.transform b.schema o.oNode o.oEdge (Dict.empty.set v p.2) with
    | .error e => .error e
    | .ok news =>
      match toPy (addOutcomes 1 (news.map fun g => ⟨b.prov, g⟩) { b with idCounter := b.idCounter + news.length }) with
      | .error e => .error e
      | .ok b' => genSubst o t b'

/-- The endpoint pairs (relation_graph.py 133-135). -/
def endpointPairs (nodes : List (V × X)) : Finset (Finset (V × X)) :=
  (((nodes.product nodes).filter fun p => decide (p.2 ≠ p.1)).map fun p => ({p.2, p.1} : Finset (V × X))).toFinset

/-- `generate_all_possible_outcomes` (relation_graph.py 117-173). -/
def generate (o : GenOrders V X R) : Py (RGBuilder V X R) :=
  if b.outcomes.bool then .error .assertion
  else
    let indexedVariables := (o.oV.run b.schema.vars.entries.toFinset).map fun p => (p.1, o.oX.run p.2)
    let indexedRelations := o.oR.run b.schema.rels
    match indexedVariables.mapM firstNode with
    | .error e => .error e
    | .ok allNodes =>
      let allEndpoints := o.oP.run (endpointPairs allNodes)
      match odoLoop indexedRelations.length ((indexedRelations.length + 1) ^ allEndpoints.length)
          (List.replicate allEndpoints.length (-1)) with
      | .error e => .error e
      | .ok indices =>
        match genSingles allNodes b with
        | .error e => .error e
        | .ok b1 =>
          match genEdges o allEndpoints indexedRelations indices b1 with
          | .error e => .error e
          | .ok b2 =>
            match genSubst o indexedVariables b2 with
            | .error e => .error e
            | .ok b3 => if ∀ p ∈ b3.outcomes.items, p.2 = 1 then .ok b3 else .error .assertion

/-- `build` (relation_graph.py 175-186). -/
def build : Py (Space V X R) :=
  if b.outcomes.bool then .ok ⟨b.schema, b.outcomes, none⟩ else .error .assertion

end RGBuilder
end
end Verif
