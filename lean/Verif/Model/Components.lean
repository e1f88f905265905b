import Verif.Base.Dict

/-!
# Model of `relnet/graph_components.py`

Nodes, relations, edges and the components provider (`BuilderComponentsProvider`).
All file references are relative to `/repo/Python/research/scripts/relnet/`.
-/

namespace Verif

/-- `ValueNode` (graph_components.py 25-56). Equality is by `(variable, value)` (46-49).
The derived field `string_id` is treated in `Verif.Model.Text`. -/
structure Node (V X : Type) where
  var : V
  val : X
  deriving DecidableEq

/-- A relation attached to an edge: either a plain label or a `DirectedRelation`
(graph_components.py 109-133); equality is structural (129-133). -/
inductive Rel (V R : Type) where
  | plain (r : R)
  | directed (src tgt : V) (r : R)
  deriving DecidableEq

/-- The declared label inside a relation: `relation.relation if isinstance(relation, DirectedRelation)
else relation` (graph_components.py 200). -/
def Rel.label {V R : Type} : Rel V R → R
  | .plain r => r
  | .directed _ _ r => r

/-- `RelationEdge` (graph_components.py 59-106). Equality is by `(endpoints, relation)` (83-86);
the fields `a`, `b` are derived from an iteration of `endpoints`, see `Edge.ab`. -/
structure Edge (V X R : Type) where
  endpoints : Finset (Node V X)
  relation : Rel V R

@[ext] theorem Edge.ext {V X R : Type} {e f : Edge V X R} (h : e.endpoints = f.endpoints) (h' : e.relation = f.relation) :
    e = f := by cases e; cases f; simp_all

/-- `RelationEdge.__eq__` (graph_components.py 83-86). -/
instance {V X R : Type} [DecidableEq V] [DecidableEq X] [DecidableEq R] : DecidableEq (Edge V X R) := fun e f =>
  decidable_of_iff (e.endpoints = f.endpoints ∧ e.relation = f.relation)
    ⟨fun h => Edge.ext h.1 h.2, fun h => h ▸ ⟨rfl, rfl⟩⟩

section
variable {V X R : Type} [DecidableEq V] [DecidableEq X] [DecidableEq R]

/-- The set of endpoint variables `{ep.variable for ep in e.endpoints}` (graph_components.py 204). -/
def Edge.vars (e : Edge V X R) : Finset V := e.endpoints.image Node.var

/-- `RelationEdge.__init__` (graph_components.py 64-69): `a`, `b` are the first two elements of
`list(endpoints)`; fewer than two elements raise `IndexError`. -/
def Edge.ab (o : Order (Node V X)) (e : Edge V X R) : Py (Node V X × Node V X) :=
  match o.run e.endpoints with
  | a :: b :: _ => .ok (a, b)
  | _ => .error .indexError

/-- `RelationEdge.is_endpoint` (graph_components.py 88-94). -/
def Edge.isEndpoint (e : Edge V X R) (n : Node V X) : Bool := n ∈ e.endpoints

/-- `RelationEdge.opposite_endpoint` (graph_components.py 96-106); `o` is the iteration order that was
used when the edge object was created. -/
def Edge.oppositeEndpoint (o : Order (Node V X)) (e : Edge V X R) (n : Node V X) : Py (Node V X) :=
  match e.ab o with
  | .error er => .error er
  | .ok (a, b) => if a = n then .ok b else if b = n then .ok a else .error .assertion

/-- What is declared to a provider: variables with their values, and relation labels
(graph_components.py 172-173). -/
structure Schema (V X R : Type) where
  vars : Dict V (Finset X)
  rels : Finset R

namespace Schema

/-- The three assertions of `BuilderComponentsProvider.__init__` (graph_components.py 164-170). -/
def check (vars : Dict V (Finset X)) (rels : Finset R) : Py (Schema V X R) :=
  if vars.entries = [] then .error .assertion
  else if vars.entries.any (fun p => p.2 = ∅) then .error .assertion
  else if rels = ∅ then .error .assertion
  else .ok ⟨vars, rels⟩

/-- `variable in self._variables and value in self._variables[variable]` (graph_components.py 184-187). -/
def declared (s : Schema V X R) (v : V) (x : X) : Bool :=
  match s.vars.get? v with
  | none => false
  | some xs => x ∈ xs

/-- For a directed relation, source and target are among the endpoint variables (graph_components.py 203-210). -/
def dirOk (endpoints : Finset (Node V X)) : Rel V R → Bool
  | .plain _ => true
  | .directed src tgt _ => src ∈ endpoints.image Node.var && tgt ∈ endpoints.image Node.var

/-- The assertions of `get_edge` about the relation (graph_components.py 200-210): declared label and, if
directed, source and target among the endpoint variables. -/
def relOk (s : Schema V X R) (endpoints : Finset (Node V X)) (r : Rel V R) : Bool :=
  r.label ∈ s.rels && dirOk endpoints r

/-- `get_node` seen as a function of the schema only (graph_components.py 183-194). That the cache does not
matter for the value is `Verif.Provider.getNode_value`. -/
def getNode (s : Schema V X R) (v : V) (x : X) : Py (Node V X) :=
  if s.declared v x then .ok ⟨v, x⟩ else .error .assertion

/-- `get_edge` for endpoints all of which were already obtained from the provider, seen as a function of the
schema only (graph_components.py 196-217, 64-69). The first assertion (endpoints cached) always holds
at the call sites: the endpoints come from `get_node` on the same provider just before. -/
def getEdge (s : Schema V X R) (endpoints : Finset (Node V X)) (r : Rel V R) : Py (Edge V X R) :=
  if s.relOk endpoints r then
    if endpoints.card < 2 then .error .indexError else .ok ⟨endpoints, r⟩
  else .error .assertion

/-- `{get_node(var, val) for var, val in endpoints}` (sample_graph.py 142, 158). -/
def getNodes (s : Schema V X R) (eps : Finset (V × X)) : Py (Finset (Node V X)) :=
  if ∀ p ∈ eps, s.declared p.1 p.2 = true then .ok (eps.image fun p => ⟨p.1, p.2⟩) else .error .assertion

end Schema

/-! ### The provider as a state machine with object identity -/

/-- A node object: identity and content (graph_components.py 25-33, 192). -/
structure NodeObj (V X : Type) where
  oid : Nat
  node : Node V X
  deriving DecidableEq

/-- An edge object: identity, content and the derived fields `a`, `b` (graph_components.py 59-69, 215). -/
structure EdgeObj (V X R : Type) where
  oid : Nat
  edge : Edge V X R
  a : Node V X
  b : Node V X
  deriving DecidableEq

/-- `BuilderComponentsProvider` (graph_components.py 158-217): declared schema and the two caches.
`next` is the allocation counter of fresh objects (`id`). -/
structure Provider (V X R : Type) where
  schema : Schema V X R
  nodes : Dict (V × X) (NodeObj V X)
  edges : Dict (Finset (Node V X) × Rel V R) (EdgeObj V X R)
  next : Nat

namespace Provider

/-- A fresh provider (graph_components.py 172-175). -/
def init (s : Schema V X R) : Provider V X R := ⟨s, Dict.empty, Dict.empty, 0⟩

/-- `get_node` (graph_components.py 183-194). -/
def getNode (p : Provider V X R) (v : V) (x : X) : Py (NodeObj V X) × Provider V X R :=
  if (p.schema.vars.get? v).isNone then (.error .assertion, p)
  else if !p.schema.declared v x then (.error .assertion, p)
  else match p.nodes.get? (v, x) with
    | some n => (.ok n, p)
    | none =>
      let n : NodeObj V X := ⟨p.next, ⟨v, x⟩⟩
      (.ok n, { p with nodes := p.nodes.set (v, x) n, next := p.next + 1 })

/-- The contents of cached nodes, `self.nodes.values()` (graph_components.py 197). -/
def cached (p : Provider V X R) : Finset (Node V X) := (p.nodes.vals.map NodeObj.node).toFinset

/-- `get_edge` (graph_components.py 196-217); `o` is the order used by `list(endpoints)` at line 65. -/
def getEdge (o : Order (Node V X)) (p : Provider V X R) (endpoints : Finset (Node V X)) (r : Rel V R) :
    Py (EdgeObj V X R) × Provider V X R :=
  if ¬ endpoints ⊆ p.cached then (.error .assertion, p)
  else if ¬ r.label ∈ p.schema.rels then (.error .assertion, p)
  else if ¬ Schema.dirOk endpoints r then (.error .assertion, p)
  else match p.edges.get? (endpoints, r) with
    | some e => (.ok e, p)
    | none =>
      match (⟨endpoints, r⟩ : Edge V X R).ab o with
      | .error er => (.error er, p)
      | .ok (a, b) =>
        let e : EdgeObj V X R := ⟨p.next, ⟨endpoints, r⟩, a, b⟩
        (.ok e, { p with edges := p.edges.set (endpoints, r) e, next := p.next + 1 })

/-- A call to the provider (graph_components.py 183, 196). -/
inductive Call (V X R : Type) where
  | node (v : V) (x : X)
  | edge (endpoints : Finset (Node V X)) (r : Rel V R)
  deriving DecidableEq

/-- The object a call returned (graph_components.py 190-194, 213-217). -/
inductive Obj (V X R : Type) where
  | node (n : NodeObj V X)
  | edge (e : EdgeObj V X R)
  deriving DecidableEq

/-- Identity of an object (`id(obj)`) (the interning of graph_components.py 189-194, 212-217). -/
def Obj.oid : Obj V X R → Nat
  | .node n => n.oid
  | .edge e => e.oid

/-- One call (graph_components.py 183-217). -/
def step (o : Order (Node V X)) (p : Provider V X R) : Call V X R → Py (Obj V X R) × Provider V X R
  | .node v x => match p.getNode v x with
    | (.ok n, p') => (.ok (.node n), p')
    | (.error e, p') => (.error e, p')
  | .edge es r => match p.getEdge o es r with
    | (.ok n, p') => (.ok (.edge n), p')
    | (.error e, p') => (.error e, p')

/-- A history of calls; returns all results and the final provider (of the methods at graph_components.py 183-217). -/
def runCalls (o : Order (Node V X)) : Provider V X R → List (Call V X R) → List (Py (Obj V X R)) × Provider V X R
  | p, [] => ([], p)
  | p, c :: cs =>
    let r := p.step o c
    let rs := runCalls o r.2 cs
    (r.1 :: rs.1, rs.2)

end Provider

end

end Verif
