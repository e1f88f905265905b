import Verif.Model.Text
import Verif.Model.Hash

/-!
# Model of the texts of nodes and edges of variables, folded and activation graphs

`str` of variables, values and relations is the one of `Model/Text`; `num` is `str` of a float. `lt a b` is the comparison `a < b` of
two variables, `none` when it raises `TypeError`. File references are relative to `/repo/Python/research/scripts/relnet/`.
-/

namespace Verif

variable {V X R : Type} [DecidableEq V] [DecidableEq X] [DecidableEq R]

/-- `sorted(endpoints)` followed by `ep[0]` and `ep[1]` (variables_graph.py 64-65). The list of the endpoints is given in the order of
iteration. `sorted` of two elements asks once, whether the second one is less than the first. Constructors demand two endpoints
(variables_graph.py 57), other lengths are not looked at. -/
def sortTwo (lt : V → V → Option Bool) : List V → Py (V × V)
  | [a, b] => match lt b a with
    | none => .error .typeError
    | some true => .ok (b, a)
    | some false => .ok (a, b)
  | _ => .error .indexError

/-- `f"{a}({b})"` (folded_graph.py 41, 96; activation_graph.py 40, 66). -/
def withCount (a b : Str) : Str := a ++ '(' :: b ++ [')']

/-- `",".join(sorted(l))` (folded_graph.py 41, 96; activation_graph.py 40, 66). -/
def commaRow (l : List Str) : Str := joinStr [','] (sortStr l)

/-- `__repr__` of nodes: `VariableNode` (variables_graph.py 39-40), `FoldedNode` (folded_graph.py 40-42), `ActiveNode`
(activation_graph.py 39-42). `oI`, `oW` are the orders of iteration over `value_nodes` and `values`. -/
def VNode.repr (t : Texts V X R) (num : ℚ → Str) (oI : Order (Node V X × ℤ)) (oW : Order (X × ℚ)) : VNode V X → Str
  | .plain v => '(' :: t.var v ++ [')']
  | .folded f => '(' :: t.var f.var ++ [':', '{'] ++
      commaRow ((oI.run f.valueNodes).map fun p => withCount (t.val p.1.val) (intStr p.2)) ++ ['}', ')']
  | .active a => (if a.inQuery then ['Q'] else []) ++ '(' :: t.var a.var ++ [':', '{'] ++
      commaRow ((oW.run a.values.entries.toFinset).map fun p => withCount (t.val p.1) (num p.2)) ++ ['}', ')']

/-- `__repr__` of edges: `VariableEdge` (variables_graph.py 63-65), `FoldedEdge` (folded_graph.py 94-97), `ActiveEdge`
(activation_graph.py 64-68). `oV`, `oE`, `oR` are the orders of iteration over the endpoints, `relation_edges` and `relations`. -/
def VEdge.repr (t : Texts V X R) (lt : V → V → Option Bool) (oV : Order V) (oE : Order (Edge V X R × ℤ)) (oR : Order (Rel V R × ℤ)) :
    VEdge V X R → Py Str
  | .plain e => (sortTwo lt (oV.run e)).map fun p => '(' :: t.var p.1 ++ [')', '-', '-', '('] ++ t.var p.2 ++ [')']
  | .folded f => (sortTwo lt (oV.run f.endpoints)).map fun p => '(' :: t.var p.1 ++ [')', '-', '-', '{'] ++
      commaRow ((oE.run f.edges.entries.toFinset).map fun q => withCount (q.1.relation.repr t) (intStr q.2)) ++
      ['}', '-', '-', '('] ++ t.var p.2 ++ [')']
  | .active a => (sortTwo lt (oV.run a.endpoints)).map fun p => '(' :: t.var p.1 ++ [')', '-', '-'] ++
      (if a.inQuery then ['Q'] else []) ++ '{' ::
      commaRow ((oR.run a.relations.entries.toFinset).map fun q => withCount (q.1.repr t) (intStr q.2)) ++
      ['}', '-', '-', '('] ++ t.var p.2 ++ [')']

/-- `SampleSetBuilder.__repr__` (sample_set.py 283-284). -/
def Samples.builderRepr (a : Samples V X R) : Str := "SampleSetBuilder(length = ".toList ++ intStr a.length ++ [')']

end Verif
