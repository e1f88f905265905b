import Verif.Model.SampleGraph

/-!
# Model of `relnet/sample_graph.py`, class `SampleGraphBuilder` (lines 29-258)

Mutating methods return the state they leave behind together with the optional exception, so that partial
updates before an exception are visible.
-/

namespace Verif

/-- An edge as passed by users: `(frozenset[(variable, value)], relation)` (sample_graph.py 60-69). -/
abbrev RawEdge (V X R : Type) := Finset (V × X) × Rel V R

/-- `SampleGraphBuilder` state (sample_graph.py 71-82): provider identity, `_nodes`, `_edges`, `_endpoints`. -/
structure Builder (V X R : Type) where
  prov : Nat
  nodes : Finset (Node V X)
  edges : Finset (Edge V X R)
  eps : Dict (Finset (Node V X)) (Edge V X R)

section
variable {V X R : Type} [DecidableEq V] [DecidableEq X] [DecidableEq R]

/-! ### `is_edges_connected` (sample_graph.py 34-57) -/

/-- `tracing_map[a].add(b)` on a `defaultdict(set)` (sample_graph.py 47-48). -/
def traceAdd {N : Type} [DecidableEq N] (m : Dict N (Finset N)) (a b : N) : Dict N (Finset N) :=
  m.set a (insert b ((m.get? a).getD ∅))

/-- Construction of `tracing_map` (sample_graph.py 44-48). -/
def tracingMap {N : Type} [DecidableEq N] : List (List N) → Dict N (Finset N) → Py (Dict N (Finset N))
  | [], m => .ok m
  | [a, b] :: t, m => tracingMap t (traceAdd (traceAdd m a b) b a)
  | _ :: _, _ => .error .assertion

/-- `trace` (sample_graph.py 50-54) with recursion fuel; `adj n` lists `tracing_map[n]`. -/
def trace {N : Type} [DecidableEq N] (adj : N → List N) : Nat → N → Finset N → Finset N
  | 0, _, t => t
  | fuel + 1, n, t =>
    if n ∈ t then t else (adj n).foldl (fun t m => trace adj fuel m t) (insert n t)

/-- `is_edges_connected` (sample_graph.py 34-57). `oE` orders the edge set (44), `oN` orders endpoint sets (44) and the
neighbour sets (53). The fuel is the number of keys plus one. -/
def isEdgesConnected (oE : Order (RawEdge V X R)) (oN : Order (V × X)) (edges : Finset (RawEdge V X R)) : Py Bool :=
  match tracingMap ((oE.run edges).map fun e => oN.run e.1) Dict.empty with
  | .error e => .error e
  | .ok m =>
    match m.keys with
    | [] => .error .stopIteration
    | start :: _ =>
      let traced := trace (fun n => oN.run ((m.get? n).getD ∅)) (m.keys.length + 1) start ∅
      .ok (m.keys.length = traced.card)

/-- `validate_endpoints` (sample_graph.py 59-69). -/
def validateEndpoints (eps : Finset (V × X)) : Py Unit :=
  if eps.card ≠ 2 then .error .assertion
  else if (eps.image Prod.fst).card ≠ 2 then .error .assertion
  else .ok ()

namespace Builder

/-- A builder made from `SampleGraphBuilder(provider)` (sample_graph.py 71-82). -/
def new (prov : Nat) : Builder V X R := ⟨prov, ∅, ∅, Dict.empty⟩

/-- `SampleGraphBuilder(provider, name, nodes, edges)` (sample_graph.py 71-82): the endpoints index is built by
iterating the edge set. -/
def ofSets (oE : Order (Edge V X R)) (prov : Nat) (nodes : Finset (Node V X)) (edges : Finset (Edge V X R)) :
    Builder V X R :=
  ⟨prov, nodes, edges, Dict.ofList ((oE.run edges).map fun e => (e.endpoints, e))⟩

/-- `build` (sample_graph.py 250-258). -/
def build (b : Builder V X R) : Py (Sample V X R) :=
  if b.nodes = ∅ then .error .assertion else .ok ⟨b.prov, ⟨b.nodes, b.edges⟩⟩

/-- `build_empty` (sample_graph.py 100-109). -/
def buildEmpty (b : Builder V X R) : Sample V X R := ⟨b.prov, ⟨∅, ∅⟩⟩

/-- `build_single_node` (sample_graph.py 111-122). -/
def buildSingleNode (s : Schema V X R) (b : Builder V X R) (v : V) (x : X) : Py (Sample V X R) :=
  match s.getNode v x with
  | .error e => .error e
  | .ok n => .ok ⟨b.prov, ⟨{n}, ∅⟩⟩

/-- `self._edges.add(edge); self._endpoints[edge.endpoints] = edge; self._nodes.update(nodes)`
(sample_graph.py 144-146, 167-169, 227-229; `nodes` is the endpoint set of the edge in all three places). -/
def insertEdge (b : Builder V X R) (e : Edge V X R) : Builder V X R :=
  { b with edges := insert e b.edges, eps := b.eps.set e.endpoints e, nodes := b.nodes ∪ e.endpoints }

/-- Loop of `build_from_edges` (sample_graph.py 140-146). -/
def addRawEdges (s : Schema V X R) : List (RawEdge V X R) → Builder V X R → Builder V X R × Option Err
  | [], b => (b, none)
  | (eps, r) :: t, b =>
    match validateEndpoints eps with
    | .error e => (b, some e)
    | .ok () =>
      match s.getNodes eps with
      | .error e => (b, some e)
      | .ok nodes =>
        match s.getEdge nodes r with
        | .error e => (b, some e)
        | .ok edge => addRawEdges s t (b.insertEdge edge)

/-- `build_from_edges` (sample_graph.py 124-148). -/
def buildFromEdges (s : Schema V X R) (oE : Order (RawEdge V X R)) (oN : Order (V × X)) (b : Builder V X R)
    (edges : Finset (RawEdge V X R)) (validate : Bool) : Builder V X R × Py (Sample V X R) :=
  let go : Builder V X R × Py (Sample V X R) :=
    match addRawEdges s (oE.run edges) b with
    | (b', some e) => (b', .error e)
    | (b', none) => (b', b'.build)
  if validate then
    match isEdgesConnected oE oN edges with
    | .error e => (b, .error e)
    | .ok false => (b, .error .assertion)
    | .ok true => go
  else go

/-- `add_relation` (sample_graph.py 150-170). -/
def addRelation (s : Schema V X R) (b : Builder V X R) (eps : Finset (V × X)) (r : Rel V R) :
    Builder V X R × Option Err :=
  match validateEndpoints eps with
  | .error e => (b, some e)
  | .ok () =>
    match s.getNodes eps with
    | .error e => (b, some e)
    | .ok nodes =>
      match s.getEdge nodes r with
      | .error e => (b, some e)
      | .ok edge =>
        if ¬ (¬ Disjoint nodes b.nodes ∨ b.nodes = ∅) then (b, some .assertion)
        else if b.eps.has edge.endpoints then (b, some .assertion)
        else (b.insertEdge edge, none)

/-- `add_directed_relation` (sample_graph.py 172-185). -/
def addDirectedRelation (s : Schema V X R) (b : Builder V X R) (source target : V × X) (r : R) :
    Builder V X R × Option Err :=
  b.addRelation s {source, target} (.directed source.1 target.1 r)

/-- `can_sample_be_joined` (sample_graph.py 187-199). -/
def canSampleBeJoined (oE : Order (Edge V X R)) (b : Builder V X R) (s : Sample V X R) : Py Bool :=
  if s.prov ≠ b.prov then .error .assertion
  else .ok ((oE.run s.graph.edges).all fun e =>
    match b.eps.get? e.endpoints with
    | some e' => e.relation = e'.relation
    | none => true)

/-- `is_connected` inside `join_sample` (sample_graph.py 210-211). -/
def touches (b : Builder V X R) (e : Edge V X R) : Bool := ¬ Disjoint e.endpoints b.nodes ∨ b.nodes = ∅

/-- The two assertions of the loop of `join_edges` for a connected edge (sample_graph.py 218-226). -/
def joinOk (b : Builder V X R) (e : Edge V X R) : Bool :=
  (match b.eps.get? e.endpoints with
    | some e' => e.relation = e'.relation
    | none => true) &&
  decide (∀ ep ∈ e.endpoints, ep.var ∉ b.nodes.image Node.var ∨ ep ∈ b.nodes)

/-- The `for` loop of `join_edges` (sample_graph.py 216-231); the second component accumulates `not_connected`. -/
def joinRound : List (Edge V X R) → Builder V X R → Finset (Edge V X R) →
    Builder V X R × Finset (Edge V X R) × Option Err
  | [], b, nc => (b, nc, none)
  | e :: t, b, nc =>
    if b.touches e then
      if b.joinOk e then joinRound t (b.insertEdge e) nc else (b, nc, some .assertion)
    else joinRound t b (insert e nc)

/-- `join_edges` (sample_graph.py 213-238) with recursion fuel. -/
def joinEdges (oE : Order (Edge V X R)) : Nat → Finset (Edge V X R) → Builder V X R → Builder V X R × Option Err
  | 0, _, b => (b, some .fuel)
  | fuel + 1, edges, b =>
    match joinRound (oE.run edges) b ∅ with
    | (b', _, some e) => (b', some e)
    | (b', nc, none) =>
      if edges = nc then (b', some .assertion)
      else if nc ≠ ∅ then joinEdges oE fuel nc b'
      else (b', none)

/-- `join_sample` (sample_graph.py 201-248). -/
def joinSample (oE : Order (Edge V X R)) (b : Builder V X R) (s : Sample V X R) : Builder V X R × Option Err :=
  if s.prov ≠ b.prov then (b, some .assertion)
  else if s.graph.edges ≠ ∅ then joinEdges oE s.graph.edges.card s.graph.edges b
  else if s.graph.nodes.card = 1 ∧ (s.graph.nodes ⊆ b.nodes ∨ b.nodes = ∅) then
    (if b.nodes = ∅ then { b with nodes := b.nodes ∪ s.graph.nodes } else b, none)
  else (b, some .assertion)

end Builder

/-- `SampleGraph.builder` (sample_graph.py 352-361). -/
def Sample.builder (oE : Order (Edge V X R)) (s : Sample V X R) : Builder V X R :=
  Builder.ofSets oE s.prov s.graph.nodes s.graph.edges

end

end Verif
