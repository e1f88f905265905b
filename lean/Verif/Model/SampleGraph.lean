import Verif.Model.Components
import Mathlib.Data.Finset.Sum
import Mathlib.Data.Finset.SymmDiff
import Mathlib.Algebra.Order.Field.Rat

/-!
# Model of `relnet/sample_graph.py`, class `SampleGraph` (lines 261-547)

The display name is not part of the model (it does not take part in `__eq__`/`__hash__`); the components provider
is kept as an identity `prov` in the wrapper `Sample` where compatibility is checked.
-/

namespace Verif

/-- `SampleGraph` (sample_graph.py 261-282): the sets `nodes` and `edges`. -/
structure SampleGraph (V X R : Type) where
  nodes : Finset (Node V X)
  edges : Finset (Edge V X R)

@[ext] theorem SampleGraph.ext {V X R : Type} {g h : SampleGraph V X R} (h1 : g.nodes = h.nodes) (h2 : g.edges = h.edges) :
    g = h := by cases g; cases h; simp_all

/-- Structural equality of the two sets; that it is what `__eq__` computes is `Verif.C12_equality`. -/
instance {V X R : Type} [DecidableEq V] [DecidableEq X] [DecidableEq R] : DecidableEq (SampleGraph V X R) := fun g h =>
  decidable_of_iff (g.nodes = h.nodes ∧ g.edges = h.edges)
    ⟨fun e => SampleGraph.ext e.1 e.2, fun e => e ▸ ⟨rfl, rfl⟩⟩

/-- A sample together with the identity of the provider that made it (sample_graph.py 282, 300-306). -/
structure Sample (V X R : Type) where
  prov : Nat
  graph : SampleGraph V X R

@[ext] theorem Sample.ext {V X R : Type} {g h : Sample V X R} (h1 : g.prov = h.prov) (h2 : g.graph = h.graph) :
    g = h := by cases g; cases h; simp_all

instance {V X R : Type} [DecidableEq V] [DecidableEq X] [DecidableEq R] : DecidableEq (Sample V X R) := fun g h =>
  decidable_of_iff (g.prov = h.prov ∧ g.graph = h.graph)
    ⟨fun e => Sample.ext e.1 e.2, fun e => e ▸ ⟨rfl, rfl⟩⟩

/-- The two shapes returned by `edges_set_view` (sample_graph.py 320-333) plus `None`. -/
inductive EdgesView (V X R : Type) where
  | edges (es : Finset (Finset (V × X) × Rel V R))
  | single (v : V) (x : X)
  | nothing
  deriving DecidableEq

section
variable {V X R : Type} [DecidableEq V] [DecidableEq X] [DecidableEq R]

/-- `not relation_filter or relation in relation_filter` (sample_graph.py 424, 452): `None` and the empty set
both mean "no filter". -/
def relAllowed (f : Option (Finset (Rel V R))) (r : Rel V R) : Bool :=
  match f with
  | none => true
  | some s => s = ∅ || r ∈ s

namespace SampleGraph
variable (g : SampleGraph V X R)

/-- `hash` field: nodes and edges in one set (sample_graph.py 275). -/
def hash : Finset (Node V X ⊕ Edge V X R) := g.nodes.disjSum g.edges

/-- `__eq__` (sample_graph.py 295-298). -/
def pyEq (h : SampleGraph V X R) : Bool := g.hash = h.hash

/-- `included_variables` (sample_graph.py 279). -/
def includedVariables : Finset V := g.nodes.image Node.var

/-- `is_single_node` (sample_graph.py 280): no edges. -/
def isSingleNode : Bool := g.edges = ∅

/-- `is_k_0` (sample_graph.py 281): no nodes and no edges. -/
def isK0 : Bool := g.nodes = ∅ && g.edges = ∅

/-- `edges_set_view` (sample_graph.py 320-333); `o` orders `list(self.nodes)` at line 330. -/
def edgesSetView (o : Order (Node V X)) : EdgesView V X R :=
  if g.edges ≠ ∅ then
    .edges (g.edges.image fun e => (e.endpoints.image fun n => (n.var, n.val), e.relation))
  else match o.run g.nodes with
    | n :: _ => .single n.var n.val
    | [] => .nothing

/-- `is_subgraph` (sample_graph.py 363-369): `self.hash.issubset(other.hash)`. -/
def isSubgraph (other : SampleGraph V X R) : Bool := g.hash ⊆ other.hash

/-- `value_for_variable` (sample_graph.py 371-380); `none` is Python `None`. -/
def valueForVariable (o : Order (Node V X)) (v : V) : Option X :=
  ((o.run g.nodes).find? fun n => n.var = v).map Node.val

/-- `transform_nodes` inside `transform_with_replaced_values` (sample_graph.py 393-396). -/
def transformNodes (s : Schema V X R) (o : Order (Node V X)) (rep : Dict V X) (ns : Finset (Node V X)) :
    Py (Finset (Node V X)) := do
  let l ← (o.run ns).mapM fun n =>
    match rep.get? n.var with
    | some x => s.getNode n.var x
    | none => .ok n
  return l.toFinset

/-- `transform_with_replaced_values` (sample_graph.py 382-407). Returning `self` when nothing changed (406) gives an
equal graph, so the model always returns the transformed pair of sets. -/
def transform (s : Schema V X R) (oN : Order (Node V X)) (oE : Order (Edge V X R)) (rep : Dict V X) :
    Py (SampleGraph V X R) := do
  let ns ← transformNodes s oN rep g.nodes
  let es ← (oE.run g.edges).mapM fun e =>
    if e.vars.filter (fun v => rep.has v) ≠ ∅ then do
      let eps ← transformNodes s oN rep e.endpoints
      s.getEdge eps e.relation
    else .ok e
  return ⟨ns, es.toFinset⟩

/-- `neighboring_values` (sample_graph.py 409-424): a dict comprehension over the edges; a later edge leading to the
same neighbour replaces an earlier one. -/
def neighboringValues (oN : Order (Node V X)) (oE : Order (Edge V X R)) (center : Node V X)
    (f : Option (Finset (Rel V R))) : Py (Dict (Node V X) (Edge V X R)) :=
  (oE.run g.edges).foldlM (init := Dict.empty) fun d e =>
    if e.isEndpoint center && relAllowed f e.relation then do
      let n ← e.oppositeEndpoint oN center
      return d.set n e
    else return d

/-- `similarity` (sample_graph.py 426-434). -/
def similarity (other : SampleGraph V X R) : Py ℚ :=
  let inter := (g.hash ∩ other.hash).card
  let differ := (symmDiff g.hash other.hash).card
  if inter + differ = 0 then .error .zeroDiv else .ok ((inter : ℚ) / ((inter + differ : ℕ) : ℚ))

/-- Loop body of `belt_nodes` (sample_graph.py 451-461). -/
def beltStep (oN : Order (Node V X)) (center : Finset (Node V X)) (f : Option (Finset (Rel V R)))
    (acc : Dict (Node V X) (Finset (Edge V X R))) (e : Edge V X R) : Py (Dict (Node V X) (Finset (Edge V X R))) :=
  if relAllowed f e.relation then
    let dif := e.endpoints \ center
    if dif.card = 1 then
      match oN.run dif with
      | [] => .error .stopIteration
      | node :: _ =>
        match acc.get? node with
        | some es => if e ∈ es then .error .assertion else .ok (acc.set node (insert e es))
        | none => .ok (acc.set node {e})
    else .ok acc
  else .ok acc

/-- `belt_nodes` (sample_graph.py 436-462). -/
def beltNodes (oN : Order (Node V X)) (oE : Order (Edge V X R)) (center : Finset (Node V X))
    (f : Option (Finset (Rel V R))) : Py (Dict (Node V X) (Finset (Edge V X R))) :=
  if center = ∅ then .error .assertion
  else (oE.run g.edges).foldlM (beltStep oN center f) Dict.empty

/-- Merge loop of `external_nodes` (sample_graph.py 478-485). -/
def mergeStep (acc : Dict (Node V X) (Finset (Edge V X R))) (p : Node V X × Finset (Edge V X R)) :
    Py (Dict (Node V X) (Finset (Edge V X R))) :=
  match acc.get? p.1 with
  | some es => if Disjoint es p.2 then .ok (acc.set p.1 (es ∪ p.2)) else .error .assertion
  | none => .ok (acc.set p.1 p.2)

/-- `external_nodes` (sample_graph.py 464-488) with recursion fuel. -/
def externalNodesFuel (oN : Order (Node V X)) (oE : Order (Edge V X R)) (f : Option (Finset (Rel V R))) :
    Nat → Finset (Node V X) → Py (Dict (Node V X) (Finset (Edge V X R)))
  | 0, _ => .error .fuel
  | fuel + 1, internal =>
    match g.beltNodes oN oE internal f with
    | .error e => .error e
    | .ok acc =>
      if acc.entries ≠ [] then
        match externalNodesFuel oN oE f fuel (internal ∪ acc.keys.toFinset) with
        | .error e => .error e
        | .ok rest => rest.entries.foldlM mergeStep acc
      else .ok Dict.empty

/-- `external_nodes` (sample_graph.py 464-488). Fuel: each level adds at least one endpoint of an edge. -/
def externalNodes (oN : Order (Node V X)) (oE : Order (Edge V X R)) (internal : Finset (Node V X))
    (f : Option (Finset (Rel V R))) : Py (Dict (Node V X) (Finset (Edge V X R))) :=
  g.externalNodesFuel oN oE f ((g.edges.biUnion Edge.endpoints).card + 1) internal

/-- `variables_subgraph_hash` (sample_graph.py 490-499). -/
def variablesSubgraphHash (vs : Finset V) : Finset (Node V X ⊕ Edge V X R) :=
  (g.nodes.filter fun n => n.var ∈ vs).disjSum (g.edges.filter fun e => e.vars ⊆ vs)

/-- `edges_endpoint_variables` (sample_graph.py 501-507). -/
def edgesEndpointVariables : Finset (Finset V) := g.edges.image Edge.vars

/-- `single_node_variable` (sample_graph.py 509-517). -/
def singleNodeVariable (o : Order (Node V X)) : Py V :=
  if g.isSingleNode then
    match o.run g.nodes with
    | n :: _ => .ok n.var
    | [] => .error .indexError
  else .error .assertion

/-- `values` (sample_graph.py 519-524). -/
def values : Finset (V × X) := g.nodes.image fun n => (n.var, n.val)

/-- `have_value` (sample_graph.py 526-536). -/
def haveValue (o : Order (Node V X)) (v : V) (x : X) : Bool :=
  (o.run g.nodes).any fun n => (n.var, n.val) = (v, x)

/-- `have_variable` (sample_graph.py 538-547). -/
def haveVariable (o : Order (Node V X)) (v : V) : Bool :=
  (o.run g.nodes).any fun n => n.var = v

end SampleGraph
end

end Verif
