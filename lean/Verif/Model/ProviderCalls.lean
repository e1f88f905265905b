import Verif.Model.Components

/-! The calls a builder makes on the components provider, with the provider as a state machine. -/

namespace Verif
namespace Provider

variable {V X R : Type} [DecidableEq V] [DecidableEq X] [DecidableEq R]

/-- `{get_node(var, val) for var, val in endpoints}` (sample_graph.py 142, 158) on the real provider: the pairs are visited in the
order `l`, the first exception ends the comprehension, and the nodes cached before it stay cached. -/
def getNodes (p : Provider V X R) : List (V × X) → Py (List (NodeObj V X)) × Provider V X R
  | [] => (.ok [], p)
  | e :: l =>
    match p.getNode e.1 e.2 with
    | (.error er, q) => (.error er, q)
    | (.ok n, q) =>
      match getNodes q l with
      | (.error er, q') => (.error er, q')
      | (.ok ns, q') => (.ok (n :: ns), q')

/-- The first part of `add_relation` (sample_graph.py 158-159) and of a turn of the loop of `build_from_edges` (142-143): the nodes,
then the edge between them. `oP` is the order of iteration over the set of pairs, `o` the one of `list(endpoints)` in the edge. -/
def nodesEdge (oP : Order (V × X)) (o : Order (Node V X)) (p : Provider V X R) (eps : Finset (V × X)) (r : Rel V R) :
    Py (List (NodeObj V X) × EdgeObj V X R) × Provider V X R :=
  match p.getNodes (oP.run eps) with
  | (.error er, q) => (.error er, q)
  | (.ok ns, q) =>
    match q.getEdge o (ns.map NodeObj.node).toFinset r with
    | (.error er, q') => (.error er, q')
    | (.ok e, q') => (.ok (ns, e), q')

end Provider
end Verif
