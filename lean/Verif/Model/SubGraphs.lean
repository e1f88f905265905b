import Verif.Model.RelationGraphBuilder
import Verif.Model.Drawing
import Verif.Base.Float

/-!
# Model of `make_all_sub_graphs` (`playaround/number_of_subgraphs.py` 24-102)

Printing is left out. `makeAllSubGraphs` keeps the calls of `add_node` and `add_edge` as lists, with the pair `(nid, i)` for the identifier
`f"N{nid}_{i}"`; `drawAllSubGraphs` makes the calls on a `pyvis` network (`Net`, see `Verif/Model/Drawing.lean`) with the identifiers as texts.

`3 ** ((n * (n - 1)) / 2)` is a power of floats. It is a parameter `pw`, from the exponent to the result; `none` is `OverflowError`. The exponent is a whole
number; that it is rounded when it is `2 ^ 53` or more is left out (the power overflows long before). The sum is rounded with `fl`, and the
comparison of an `int` with a `float` is exact in Python.
-/

namespace Verif

/-- `types` (number_of_subgraphs.py 45). -/
def subTypes : List String := ["AB", "BA"]

/-- The body of the loops that make `edges` (number_of_subgraphs.py 37-38). -/
def subPair (n1 : ℕ) (edges : List (ℕ × ℕ)) (n2 : ℕ) : List (ℕ × ℕ) :=
  if n1 ≠ n2 ∧ (n2, n1) ∉ edges then edges ++ [(n1, n2)] else edges

/-- `node_ids` (number_of_subgraphs.py 28). -/
def subIds (n : ℕ) : List ℕ := List.range' 1 n

/-- `edges` (number_of_subgraphs.py 34-38). -/
def subPairs (n : ℕ) : List (ℕ × ℕ) := (subIds n).foldl (fun edges n1 => (subIds n).foldl (subPair n1) edges) []

/-- The loop over index vectors (number_of_subgraphs.py 51-59) with loop fuel. Unlike the one of
`generate_all_possible_outcomes` it does not test whether there are any edges. -/
def subLoop (r : ℤ) : Nat → List ℤ → Py (List (List ℤ))
  | 0, _ => .error .fuel
  | fuel + 1, idx =>
    if (idx.map fun i => decide (i < r - 1)).toFinset ≠ {false} then
      match odoStep r idx with
      | .error e => .error e
      | .ok idx' =>
        match subLoop r fuel idx' with
        | .error e => .error e
        | .ok l => .ok (idx' :: l)
    else .ok []

/-- The network: nodes and edges with their titles in the order of the calls (number_of_subgraphs.py 79-103). -/
structure SubNet where
  nodes : List (ℕ × ℕ) := []
  edges : List ((ℕ × ℕ) × (ℕ × ℕ) × String) := []

/-- The type of one selected edge: `types[index[j]]` (number_of_subgraphs.py 98). -/
def subType (p : (ℕ × ℕ) × ℤ) : Py ((ℕ × ℕ) × String) :=
  match subTypes[p.2.toNat]? with
  | none => .error .indexError
  | some t => .ok (p.1, t)

/-- The edges of one graph (number_of_subgraphs.py 96-99). -/
def subChosen (edges : List (ℕ × ℕ)) (index : List ℤ) : Py (List ((ℕ × ℕ) × String)) :=
  ((edges.zip index).filter fun p => decide (p.2 ≥ 0)).mapM subType

/-- The nodes of one graph before removing repetitions (number_of_subgraphs.py 87-90). -/
def subEnds (edges : List (ℕ × ℕ)) (index : List ℤ) : List ℕ :=
  ((edges.zip index).filter fun p => decide (p.2 ≥ 0)).flatMap fun p => [p.1.1, p.1.2]

/-- Body of the loop that builds the graphs (number_of_subgraphs.py 83-100); `o` orders `list(set(nodes))`. -/
def subAdd (o : Order ℕ) (edges : List (ℕ × ℕ)) (net : SubNet) (p : List ℤ × ℕ) : Py SubNet :=
  match subChosen edges p.1 with
  | .error e => .error e
  | .ok es => .ok ⟨net.nodes ++ (o.run (subEnds edges p.1).toFinset).map (fun nid => (nid, p.2)),
      net.edges ++ es.map fun e => ((e.1.1, p.2), (e.1.2, p.2), e.2)⟩

/-- The exceptions of `make_all_sub_graphs`: `OverflowError` or another one (number_of_subgraphs.py 67, 71-75). -/
inductive SubErr
  | overflow
  | py (e : Err)
  deriving DecidableEq

/-- `edges`, `indices` and the assertions of `make_all_sub_graphs` (number_of_subgraphs.py 24-74). -/
def subIndices (pw : ℕ → Option ℚ) (n : ℕ) : Except SubErr (List (List ℤ)) :=
  let edges := subPairs n
  if edges.toFinset.card ≠ edges.length then .error (.py .assertion)
  else match subLoop subTypes.length ((subTypes.length + 1) ^ edges.length) (List.replicate edges.length (-1)) with
    | .error e => .error (.py e)
    | .ok indices =>
      match pw (n * (n - 1) / 2) with
      | none => .error .overflow
      | some p =>
        if indices.toFinset.card ≠ indices.length then .error (.py .assertion)
        else if ((indices.length + (subIds n).length + 1 : ℕ) : ℚ) ≠ fl (p + n) then .error (.py .assertion)
        else .ok indices

/-- `make_all_sub_graphs` (number_of_subgraphs.py 24-102). -/
def makeAllSubGraphs (pw : ℕ → Option ℚ) (o : Order ℕ) (n : ℕ) : Except SubErr SubNet :=
  match subIndices pw n with
  | .error e => .error e
  | .ok indices =>
    match (indices.zipIdx 1).foldlM (subAdd o (subPairs n)) ⟨(subIds n).map fun nid => (nid, 0), []⟩ with
    | .error e => .error (.py e)
    | .ok net => .ok net

/-- `f"N{nid}_{i}"` (number_of_subgraphs.py 81, 93, 99). -/
def subText (p : ℕ × ℕ) : Str := 'N' :: natStr p.1 ++ '_' :: natStr p.2

/-- `net.add_node(f"N{nid}_{i}")`; the label is the identifier (number_of_subgraphs.py 82, 95). -/
def subNode (p : ℕ × ℕ) : DrawnNode Str := ⟨subText p, subText p, none⟩

/-- `net.add_edge(f"N{sid}_{i}", f"N{tid}_{i}", title=t)`; the title is kept as the label (number_of_subgraphs.py 101). -/
def subEdge (e : (ℕ × ℕ) × (ℕ × ℕ) × String) : DrawnEdge Str := ⟨subText e.1, subText e.2.1, e.2.2.toList, none⟩

/-- The body of the loop that builds the graphs (number_of_subgraphs.py 83-100), on the network. -/
def subDraw (o : Order ℕ) (edges : List (ℕ × ℕ)) (net : Net Str) (p : List ℤ × ℕ) : Py (Net Str) :=
  match subChosen edges p.1 with
  | .error e => .error e
  | .ok es => net.run ((o.run (subEnds edges p.1).toFinset).map (fun nid => .node (subNode (nid, p.2))) ++
      es.map fun e => .edge (subEdge ((e.1.1, p.2), (e.1.2, p.2), e.2)))

/-- `make_all_sub_graphs` (number_of_subgraphs.py 24-102), with the network it returns. -/
def drawAllSubGraphs (pw : ℕ → Option ℚ) (o : Order ℕ) (n : ℕ) : Except SubErr (Net Str) :=
  match subIndices pw n with
  | .error e => .error e
  | .ok indices =>
    match (do
      let net ← Net.empty.run ((subIds n).map fun nid => .node (subNode (nid, 0)))
      (indices.zipIdx 1).foldlM (subDraw o (subPairs n)) net) with
    | .error e => .error (.py e)
    | .ok net => .ok net

end Verif
