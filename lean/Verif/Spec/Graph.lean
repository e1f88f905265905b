import Verif.Model.SampleGraphBuilder
import Mathlib.Logic.Relation

/-!
# Specifications about graphs, independent of the algorithms of the model
-/

namespace Verif

/-- Two nodes are linked by one of the edges `E`, where `ep` gives the endpoint set of an edge. -/
def Linked {N ε : Type} (ep : ε → Finset N) (E : Finset ε) (a b : N) : Prop := ∃ e ∈ E, a ∈ ep e ∧ b ∈ ep e

/-- Path-connectivity of a node set over an edge set: any two nodes are joined by a chain of linked nodes. -/
def ConnectedBy {N ε : Type} (ep : ε → Finset N) (E : Finset ε) (ns : Set N) : Prop :=
  ∀ a ∈ ns, ∀ b ∈ ns, Relation.ReflTransGen (Linked ep E) a b

section
variable {V X R : Type}

/-- At most one value per variable. -/
def SingleValued (ns : Finset (Node V X)) : Prop := ∀ a ∈ ns, ∀ b ∈ ns, a.var = b.var → a = b

/-- The edge joins two nodes of different variables. -/
def GoodEdge [DecidableEq V] [DecidableEq X] (e : Edge V X R) : Prop :=
  ∃ a b : Node V X, a.var ≠ b.var ∧ e.endpoints = {a, b}

/-- No two edges on the same endpoints. -/
def OnePerPair (es : Finset (Edge V X R)) : Prop :=
  ∀ e ∈ es, ∀ e' ∈ es, e.endpoints = e'.endpoints → e = e'

/-- A well formed sample graph: edges join present nodes of different variables, at most one edge per
pair, connected. -/
structure WellFormed [DecidableEq V] [DecidableEq X] (g : SampleGraph V X R) : Prop where
  closed : ∀ e ∈ g.edges, e.endpoints ⊆ g.nodes
  good : ∀ e ∈ g.edges, GoodEdge e
  onePer : OnePerPair g.edges
  conn : ConnectedBy Edge.endpoints g.edges (g.nodes : Set (Node V X))

/-- Everything in the graph was declared in the schema. -/
structure DeclaredIn [DecidableEq V] [DecidableEq X] [DecidableEq R] (s : Schema V X R) (g : SampleGraph V X R) :
    Prop where
  nodes : ∀ n ∈ g.nodes, s.declared n.var n.val = true
  edges : ∀ e ∈ g.edges, s.relOk e.endpoints e.relation = true

end

end Verif

namespace Verif
section
variable {V X R : Type} [DecidableEq V] [DecidableEq X] [DecidableEq R]

/-- The user's endpoints as nodes. -/
def toNodes (eps : Finset (V × X)) : Finset (Node V X) := eps.image fun p => ⟨p.1, p.2⟩

/-- The user's endpoints are two nodes of different variables. -/
def TwoVars (eps : Finset (V × X)) : Prop := ∃ a b : V × X, a.1 ≠ b.1 ∧ eps = {a, b}

/-- The endpoints and relation given by the user were declared: values of declared variables, declared label, and for
a directed relation source and target are variables of the endpoints. -/
def RawDeclared (s : Schema V X R) (eps : Finset (V × X)) (r : Rel V R) : Prop :=
  (∀ p ∈ eps, ∃ xs, s.vars.get? p.1 = some xs ∧ p.2 ∈ xs) ∧
  match r with
  | .plain l => l ∈ s.rels
  | .directed a b l => l ∈ s.rels ∧ (∃ p ∈ eps, p.1 = a) ∧ (∃ p ∈ eps, p.1 = b)

end
end Verif

namespace Verif
namespace Builder
variable {V X R : Type} [DecidableEq V] [DecidableEq X] [DecidableEq R]

/-- The graph currently held. -/
def graph (b : Builder V X R) : SampleGraph V X R := ⟨b.nodes, b.edges⟩

/-- Builder invariant: well formed graph and exact endpoints index. -/
structure Inv (b : Builder V X R) : Prop where
  wf : WellFormed b.graph
  index : ∀ k e, b.eps.get? k = some e ↔ e ∈ b.edges ∧ e.endpoints = k

end Builder
end Verif
