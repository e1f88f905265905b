import Verif.Model.Conditional
import Mathlib.Data.Multiset.Sort
import Mathlib.Data.Prod.Lex
import Mathlib.Data.Int.Order.Basic

/-!
# Model of `__eq__` and `__hash__` of the classes of `relnet`

`hash` of the user's variables, values and relations, of tuples, frozensets, ints and floats is whatever the interpreter computes
(`Hashes`); all that is built in is Python's contract: the hash of a tuple is a function of the list of hashes of its members, the
hash of a frozenset is a function of the multiset of hashes of its members. File references are relative to
`/repo/Python/research/scripts/relnet/`.
-/

namespace Verif

/-- The hash functions of the interpreter and of the user's objects (called by the `__hash__` methods, e.g.
graph_components.py 35-36, sample_graph.py 284-285). -/
structure Hashes (V X R : Type) where
  var : V → ℤ
  val : X → ℤ
  rel : R → ℤ
  int : ℤ → ℤ
  float : ℚ → ℤ
  tuple : List ℤ → ℤ
  fset : Multiset ℤ → ℤ

section
variable {V X R : Type} [DecidableEq V] [DecidableEq X] [DecidableEq R]

namespace Hashes
variable (H : Hashes V X R)

/-- `ValueNode.__hash__` (graph_components.py 35-36). -/
def node (n : Node V X) : ℤ := H.tuple [H.var n.var, H.val n.val]

/-- `hash(relation)`: of the label, or `DirectedRelation.__hash__` (graph_components.py 119-120). -/
def relation : Rel V R → ℤ
  | .plain r => H.rel r
  | .directed a b r => H.tuple [H.var a, H.var b, H.rel r]

/-- `RelationEdge.__hash__` (graph_components.py 71-72). -/
def edge (e : Edge V X R) : ℤ := H.tuple [H.fset (e.endpoints.val.map H.node), H.relation e.relation]

/-- `SampleGraph.__hash__` (sample_graph.py 275, 284-285): the hash of the frozenset of nodes and edges. -/
def graph (g : SampleGraph V X R) : ℤ := H.fset (g.hash.val.map (Sum.elim H.node H.edge))

/-- `sorted` on pairs of ints: lexicographic (sample_set.py 88). -/
def sortPairs (l : List (ℤ × ℤ)) : List (ℤ × ℤ) :=
  (l.map toLex).insertionSort (· ≤ ·) |>.map ofLex

/-- `SampleSet._hash` (sample_set.py 88). -/
def samples (s : Samples V X R) : ℤ :=
  H.tuple ((sortPairs (s.samples.entries.map fun p => (H.graph p.1, H.int p.2))).map fun q => H.tuple [H.int q.1, H.int q.2])

/-- `FoldedNode.__hash__` (folded_graph.py 44-45). -/
def foldedNode (f : FoldedNode V X) : ℤ :=
  H.tuple [H.var f.var, H.fset (f.valueNodes.val.map fun p => H.tuple [H.node p.1, H.int p.2])]

/-- `FoldedEdge.__hash__` (folded_graph.py 99-100). -/
def foldedEdge (f : FoldedEdge V X R) : ℤ :=
  H.tuple [H.fset (f.endpoints.val.map H.var), H.fset (f.edges.entries.toFinset.val.map fun p => H.tuple [H.edge p.1, H.int p.2])]

/-- `ActiveNode.__hash__` (activation_graph.py 44-45). -/
def activeNode (a : ActiveNode V X) : ℤ :=
  H.tuple [H.var a.var, H.fset (a.values.entries.toFinset.val.map fun p => H.tuple [H.val p.1, H.float p.2])]

/-- `ActiveEdge.__hash__` (activation_graph.py 70-71). -/
def activeEdge (a : ActiveEdge V R) : ℤ :=
  H.tuple [H.fset (a.endpoints.val.map H.var),
    H.fset (a.relations.entries.toFinset.val.map fun p => H.tuple [H.relation p.1, H.int p.2])]

end Hashes

/-- Objects of the class `VariableNode` (variables_graph.py 26-49) and of its subclasses `FoldedNode`, `ActiveNode`. -/
inductive VNode (V X : Type) where
  | plain (v : V)
  | folded (f : FoldedNode V X)
  | active (a : ActiveNode V X)

/-- Objects of the class `VariableEdge` (variables_graph.py 52-74) and of its subclasses `FoldedEdge`, `ActiveEdge`. -/
inductive VEdge (V X R : Type) where
  | plain (endpoints : Finset V)
  | folded (f : FoldedEdge V X R)
  | active (a : ActiveEdge V R)

/-- The variable of a node object (variables_graph.py 33-34). -/
def VNode.var : VNode V X → V
  | .plain v => v
  | .folded f => f.var
  | .active a => a.var

/-- The endpoints of an edge object (variables_graph.py 56-58). -/
def VEdge.endpoints : VEdge V X R → Finset V
  | .plain e => e
  | .folded f => f.endpoints
  | .active a => a.endpoints

/-- The call `a.__eq__(b)`: `VariableNode.__eq__` (variables_graph.py 45-48), `FoldedNode.__eq__` (folded_graph.py 47-50),
`ActiveNode.__eq__` (activation_graph.py 47-50). -/
def VNode.eqMethod : VNode V X → VNode V X → Bool
  | .plain v, b => v = b.var
  | .folded f, .folded g => f.var = g.var && f.valueNodes = g.valueNodes
  | .active a, .active b => a.var = b.var && a.values.entries.toFinset = b.values.entries.toFinset && a.inQuery = b.inQuery
  | _, _ => false

/-- The call `a.__eq__(b)`: `VariableEdge.__eq__` (variables_graph.py 70-73), `FoldedEdge.__eq__` (folded_graph.py 102-105),
`ActiveEdge.__eq__` (activation_graph.py 73-78). -/
def VEdge.eqMethod : VEdge V X R → VEdge V X R → Bool
  | .plain e, b => e = b.endpoints
  | .folded f, .folded g => f.endpoints = g.endpoints && f.edges.entries.toFinset = g.edges.entries.toFinset
  | .active a, .active b =>
    a.endpoints = b.endpoints && a.relations.entries.toFinset = b.relations.entries.toFinset && a.inQuery = b.inQuery
  | _, _ => false

/-- `type(b)` is a proper subclass of `type(a)` (activation_graph.py 28, folded_graph.py 28). -/
def VNode.subclass : VNode V X → VNode V X → Bool
  | .plain _, .folded _ => true
  | .plain _, .active _ => true
  | _, _ => false

/-- `type(b)` is a proper subclass of `type(a)` (activation_graph.py 53, folded_graph.py 84). -/
def VEdge.subclass : VEdge V X R → VEdge V X R → Bool
  | .plain _, .folded _ => true
  | .plain _, .active _ => true
  | _, _ => false

/-- `a == b`: the method of the right operand comes first if its class is a proper subclass that overrides `__eq__`
(variables_graph.py 45-48, activation_graph.py 47-50, folded_graph.py 47-50). -/
def VNode.pyEq (a b : VNode V X) : Bool := if a.subclass b then b.eqMethod a else a.eqMethod b

/-- `a == b` on edges (variables_graph.py 70-73 and the overriding methods). -/
def VEdge.pyEq (a b : VEdge V X R) : Bool := if a.subclass b then b.eqMethod a else a.eqMethod b

/-- `hash(node)`: `VariableNode.__hash__` (variables_graph.py 42-43) or the one of the subclass. -/
def Hashes.vnode (H : Hashes V X R) : VNode V X → ℤ
  | .plain v => H.var v
  | .folded f => H.foldedNode f
  | .active a => H.activeNode a

/-- `hash(edge)`: `VariableEdge.__hash__` (variables_graph.py 67-68) or the one of the subclass. -/
def Hashes.vedge (H : Hashes V X R) : VEdge V X R → ℤ
  | .plain e => H.fset (e.val.map H.var)
  | .folded f => H.foldedEdge f
  | .active a => H.activeEdge a

/-- `VariablesGraph` (variables_graph.py 76-95) with its subclasses: the sets of nodes and edges as lists, the number of outcomes. -/
structure VGraph (V X R : Type) where
  n : ℤ
  nodes : List (VNode V X)
  edges : List (VEdge V X R)

/-- `a == b` for frozensets of objects compared with `eq` (variables_graph.py 102-105). -/
def setEq {A : Type} (eq : A → A → Bool) (a b : List A) : Bool :=
  a.all (fun x => b.any (eq x)) && b.all (fun y => a.any (eq y))

/-- `VariablesGraph.__eq__` (variables_graph.py 102-105), not overridden by `FoldedGraph` and `ActivationGraph`. -/
def VGraph.pyEq (a b : VGraph V X R) : Bool := setEq VNode.pyEq a.nodes b.nodes && setEq VEdge.pyEq a.edges b.edges

/-- A `FoldedGraph` as a `VariablesGraph` (folded_graph.py 108-124). -/
def FoldedGraph.toVGraph (f : FoldedGraph V X R) : VGraph V X R := ⟨f.n, f.nodes.map .folded, f.edges.map .folded⟩

/-- An `ActivationGraph` as a `VariablesGraph` (activation_graph.py 81-96). -/
def ActivationGraph.toVGraph (f : ActivationGraph V X R) : VGraph V X R := ⟨f.n, f.nodes.map .active, f.edges.map .active⟩

end

/-! ### Hash tables

The dictionaries and sets of CPython, as far as results depend on `__hash__` and `__eq__`: entries in insertion order, each with the
hash of its key. A key is found at the first entry with the same hash which compares equal. (Probing only restricts which
entries with equal hash are visited first; by `C49_table_unique` there is at most one that matches.) -/

/-- Entries `(hash, key, value)` (the dictionaries of sample_set.py 39, graph_components.py 174-175). -/
abbrev HTable (K A : Type) := List (ℤ × K × A)

namespace HTable
variable {K A : Type} (hash : K → ℤ) (eq : K → K → Bool)

/-- Does the entry belong to the key? (every lookup in the dictionaries of sample_set.py 39, graph_components.py 174-175) -/
def hit (k : K) (e : ℤ × K × A) : Bool := e.1 = hash k && eq e.2.1 k

/-- `d.get(k)` (sample_set.py 72-74). -/
def get (t : HTable K A) (k : K) : Option A := (t.find? (hit hash eq k)).map fun e => e.2.2

/-- `d[k] = a`: an existing entry keeps its key object (sample_set.py 304-307). -/
def set : HTable K A → K → A → HTable K A
  | [], k, a => [(hash k, k, a)]
  | e :: t, k, a => if hit hash eq k e then (e.1, e.2.1, a) :: t else e :: set t k a

/-- `d.pop(k)` (sample_set.py 329). -/
def pop : HTable K A → K → HTable K A
  | [], _ => []
  | e :: t, k => if hit hash eq k e then t else e :: pop t k

end HTable

/-- An operation on a dictionary (used by sample_set.py 293-339). -/
inductive DictOp (K A : Type) where
  | set (k : K) (a : A)
  | pop (k : K)

/-- A history of operations on a hash table (sample_set.py 293-339). -/
def HTable.run {K A : Type} (hash : K → ℤ) (eq : K → K → Bool) (t : HTable K A) (ops : List (DictOp K A)) : HTable K A :=
  ops.foldl (fun t op => match op with
    | .set k a => t.set hash eq k a
    | .pop k => t.pop hash eq k) t

end Verif
