import Verif.Model.Text
import Verif.Model.Conditional
import Mathlib.Algebra.Order.Floor.Ring
import Mathlib.Data.Rat.Floor

/-!
# Model of the drawing functions of relnet

`SampleGraph.visualize` (sample_graph.py 335-350), `SampleSpace.visualize_outcomes` (sample_space.py 195-227),
`FoldedGraph.visualize` (folded_graph.py 134-163) and `ActivationGraph.visualize` (activation_graph.py 98-126).

They fill a `pyvis` `Network` (undirected, as it is created everywhere without `directed`) and write it to a file. `pyvis` is not
part of the repository; the two methods that are used are kept here as this library documents them: `add_node` does nothing when
the identifier is already present, `add_edge` asserts that both identifiers are present and does nothing when the two are already
joined. Writing the file (`net.show`), the file name and the window size are left out, and so is the assertion of `add_node` that the
identifier is a `str` or an `int`. Paths are relative to `/repo/Python/research/scripts/relnet/`.
-/

namespace Verif

/-- A node of the network; colour `none` is the default (sample_graph.py 346, activation_graph.py 118). -/
structure DrawnNode (I : Type) where
  id : I
  label : Str
  color : Option Str
  deriving DecidableEq

/-- An edge of the network (sample_graph.py 348, activation_graph.py 124). -/
structure DrawnEdge (I : Type) where
  src : I
  dst : I
  label : Str
  color : Option Str
  deriving DecidableEq

/-- `pyvis.network.Network` (imported at sample_graph.py 24). -/
structure Net (I : Type) where
  nodes : List (DrawnNode I)
  edges : List (DrawnEdge I)
  deriving DecidableEq

/-- One call: `add_node` or `add_edge` (sample_graph.py 346, 348). -/
inductive DrawOp (I : Type)
  | node (n : DrawnNode I)
  | edge (e : DrawnEdge I)

namespace Net
variable {I : Type} [DecidableEq I]

/-- `Network(height=height, width=width)` (sample_graph.py 343). -/
def empty : Net I := ⟨[], []⟩

/-- `Network.node_ids` (checked by the calls at sample_graph.py 346, 348). -/
def ids (net : Net I) : List I := net.nodes.map DrawnNode.id

/-- `Network.add_node` (called at sample_graph.py 346). -/
def addNode (net : Net I) (n : DrawnNode I) : Net I := if n.id ∈ net.ids then net else { net with nodes := net.nodes ++ [n] }

/-- `Network.add_edge` of an undirected network (called at sample_graph.py 348). -/
def addEdge (net : Net I) (e : DrawnEdge I) : Py (Net I) :=
  if e.src ∉ net.ids ∨ e.dst ∉ net.ids then .error .assertion
  else if ∃ d ∈ net.edges, (e.src = d.dst ∧ e.dst = d.src) ∨ (e.src = d.src ∧ e.dst = d.dst) then .ok net
  else .ok { net with edges := net.edges ++ [e] }

/-- One call (sample_graph.py 346, 348). -/
def step (net : Net I) : DrawOp I → Py (Net I)
  | .node n => .ok (net.addNode n)
  | .edge e => net.addEdge e

/-- A sequence of calls (sample_graph.py 345-348). -/
def run (net : Net I) (ops : List (DrawOp I)) : Py (Net I) := ops.foldlM step net

end Net

section
variable {V X R : Type} [DecidableEq V] [DecidableEq X] [DecidableEq R]

/-- The body of `for edge in …: net.add_edge(ep[0] + suffix, ep[1] + suffix, label=str(edge.relation))` (sample_graph.py 348,
sample_space.py 216-217 and 223-226). `oA` lists the endpoints. -/
def drawRelation (t : Texts V X R) (oA : Order (Node V X)) (suffix : Str) (color : Option Str) (e : Edge V X R) :
    Py (DrawOp Str) :=
  match e.ab oA with
  | .error er => .error er
  | .ok (a, b) => .ok (.edge ⟨a.stringId t ++ suffix, b.stringId t ++ suffix, e.relation.repr t, color⟩)

/-- `SampleGraph.visualize` (sample_graph.py 335-350). -/
def SampleGraph.visualize (t : Texts V X R) (oN oA : Order (Node V X)) (oE : Order (Edge V X R)) (g : SampleGraph V X R) :
    Py (Net Str) := do
  let es ← (oE.run g.edges).mapM (drawRelation t oA [] none)
  Net.empty.run ((oN.run g.nodes).map (fun n => .node ⟨n.stringId t, n.stringId t, none⟩) ++ es)

/-- `str(i)` (sample_space.py 209, 212). -/
def natStr (i : ℕ) : Str := Nat.toDigits 10 i

/-- The calls for one outcome (sample_space.py 207-217); `nm` is the field `name` of the outcome. An outcome without nodes raises
`IndexError` at line 209. -/
def outcomeOps (t : Texts V X R) (nm : SampleGraph V X R → Str) (oN oA : Order (Node V X)) (oE : Order (Edge V X R))
    (p : (SampleGraph V X R × ℤ) × ℕ) : Py (List (DrawOp Str)) :=
  match oN.run p.1.1.nodes with
  | [] => .error .indexError
  | h :: rest => do
    let es ← (oE.run p.1.1.edges).mapM (drawRelation t oA (natStr p.2) none)
    return .node ⟨h.stringId t ++ natStr p.2, h.stringId t ++ '@' :: nm p.1.1 ++ '(' :: intStr p.1.2 ++ [')'], none⟩ ::
      rest.map (fun n => .node ⟨n.stringId t ++ natStr p.2, n.stringId t, none⟩) ++ es

/-- `"_query"` (sample_space.py 220). -/
def querySuffix : Str := ['_', 'q', 'u', 'e', 'r', 'y']

/-- `"red"` (sample_space.py 220, activation_graph.py 123). -/
def red : Str := ['r', 'e', 'd']

/-- The calls for the evidence (sample_space.py 219-226). -/
def evidenceOps (t : Texts V X R) (oN oA : Order (Node V X)) (oE : Order (Edge V X R)) : Option (Sample V X R) →
    Py (List (DrawOp Str))
  | none => .ok []
  | some ev => do
    let es ← (oE.run ev.graph.edges).mapM (drawRelation t oA querySuffix (some red))
    return (oN.run ev.graph.nodes).map (fun n => .node ⟨n.stringId t ++ querySuffix, n.stringId t, some red⟩) ++ es

/-- `SampleSpace.visualize_outcomes` (sample_space.py 195-228). -/
def Space.visualizeOutcomes (t : Texts V X R) (nm : SampleGraph V X R → Str) (oI : Order (SampleGraph V X R × ℤ))
    (oN oA : Order (Node V X)) (oE : Order (Edge V X R)) (sp : Space V X R) : Py (Net Str) := do
  let net ← (oI.run sp.outcomes.items).zipIdx.foldlM (init := Net.empty) fun net p => do
    net.run (← outcomeOps t nm oN oA oE p)
  net.run (← evidenceOps t oN oA oE sp.evidence)

/-- The first two of `list(edge.endpoints)` (folded_graph.py 152, activation_graph.py 121). -/
def firstTwo (oV : Order V) (P : Finset V) : Py (V × V) :=
  match oV.run P with
  | a :: b :: _ => .ok (a, b)
  | _ => .error .indexError

/-- `f"{s}({c})"` (folded_graph.py 146, 153). -/
def counted (s : Str) (c : ℤ) : Str := s ++ '(' :: intStr c ++ [')']

/-- `"gray"` (folded_graph.py 162). -/
def gray : Str := ['g', 'r', 'a', 'y']

/-- The label of a folded node (folded_graph.py 146-149): the texts of the values are collected in a set. -/
def FoldedNode.drawn (t : Texts V X R) (oS : Order Str) (f : FoldedNode V X) : DrawnNode V :=
  ⟨f.var, t.var f.var ++ [':', '{'] ++ joinStr [','] (oS.run (f.valueNodes.image fun p => counted (t.val p.1.val) p.2)) ++
    [',', ' '] ++ counted ['u'] f.unobservedCount ++ ['}'], none⟩

/-- The call for a folded edge (folded_graph.py 152-154): the texts of the relations are collected in a set. -/
def FoldedEdge.drawn (t : Texts V X R) (oV : Order V) (oS : Order Str) (f : FoldedEdge V X R) : Py (DrawOp V) :=
  match firstTwo oV f.endpoints with
  | .error e => .error e
  | .ok (a, b) => .ok (.edge ⟨a, b, '{' :: joinStr [',']
      (oS.run (f.edges.entries.toFinset.image fun p => counted (p.1.relation.repr t) p.2)) ++ ['}'], none⟩)

/-- The node added for a variable that does not occur (folded_graph.py 158-162). -/
def absentNode (t : Texts V X R) (oX : Order X) (n : ℤ) (p : V × Finset X) : DrawnNode V :=
  ⟨p.1, t.var p.1 ++ [':', '{'] ++ joinStr [','] ((oX.run p.2).map fun x => counted (t.val x) 0) ++
    [',', ' '] ++ counted ['u'] n ++ ['}'], some gray⟩

/-- `FoldedGraph.visualize` (folded_graph.py 134-164). `lN`, `lE` list the two sets of the graph, `lV` lists
`components_provider.variables()`. -/
def FoldedGraph.visualize (t : Texts V X R) (oV : Order V) (oX : Order X) (oS : Order Str) (f : FoldedGraph V X R)
    (lN : List (FoldedNode V X)) (lE : List (FoldedEdge V X R)) (lV : List (V × Finset X)) : Py (Net V) := do
  let es ← lE.mapM (FoldedEdge.drawn t oV oS)
  Net.empty.run (lN.map (fun N => .node (N.drawn t oS)) ++ es ++
    (lV.filter fun p => p.1 ∉ f.nodes.map FoldedNode.var).map fun p => .node (absentNode t oX f.n p))

/-- `int(q)`: towards zero (activation_graph.py 117). -/
def truncRat (q : ℚ) : ℤ := if 0 ≤ q then ⌊q⌋ else ⌈q⌉

/-- `"%0.2X" % z`: at least two hexadecimal digits in upper case. -/
def hexTwo (z : ℤ) : Str :=
  let d := (Nat.toDigits 16 z.natAbs).map Char.toUpper
  (if z < 0 then ['-'] else []) ++ (if d.length < 2 then '0' :: d else d)

/-- `max` of a list; Python raises `ValueError` for an empty one (here `TypeError`) (activation_graph.py 117). -/
def maxRat : List ℚ → Py ℚ
  | [] => .error .typeError
  | a :: t => .ok (t.foldl max a)

/-- `"black"` (activation_graph.py 113). -/
def black : Str := ['b', 'l', 'a', 'c', 'k']

/-- `"green"` (activation_graph.py 117, 123). -/
def green : Str := ['g', 'r', 'e', 'e', 'n']

/-- `color` of an active node (activation_graph.py 117). -/
def ActiveNode.color (N : ActiveNode V X) : Py Str :=
  if N.inQuery then .ok green
  else match maxRat N.values.vals with
    | .error e => .error e
    | .ok q => .ok ('#' :: hexTwo (truncRat (q * 255)) ++ ['0', '0', '0', '0'])

/-- The call for one declared variable (activation_graph.py 110-118); `num` is `str` of a weight. -/
def activeVariable (t : Texts V X R) (num : ℚ → Str) (oX : Order X) (oW : Order (X × ℚ)) (ag : ActivationGraph V X R)
    (p : V × Finset X) : Py (DrawOp V) :=
  match ag.nodes.find? fun N => N.var = p.1 with
  | none => .ok (.node ⟨p.1, '{' :: joinStr [',', ' '] ((oX.run p.2).map fun x => t.val x ++ ['=', '0']) ++ ['}'], some black⟩)
  | some N =>
    match N.color with
    | .error e => .error e
    | .ok c => .ok (.node ⟨p.1, t.var p.1 ++ [':', '{'] ++
        joinStr [',', ' '] ((oW.run N.values.entries.toFinset).map fun q => t.val q.1 ++ '=' :: num q.2) ++ ['}'], some c⟩)

/-- The call for an active edge (activation_graph.py 120-124). -/
def ActiveEdge.drawn (t : Texts V X R) (oV : Order V) (oS : Order Str) (A : ActiveEdge V R) : Py (DrawOp V) :=
  match firstTwo oV A.endpoints with
  | .error e => .error e
  | .ok (a, b) => .ok (.edge ⟨a, b, '{' :: joinStr [',', ' ']
      (oS.run (A.relations.entries.toFinset.image fun p => counted (p.1.repr t) p.2)) ++ ['}'],
      some (if A.inQuery then green else red)⟩)

/-- `ActivationGraph.visualize` (activation_graph.py 98-126). `lE` lists the set of edges, `lV` lists
`components_provider.variables()`. -/
def ActivationGraph.visualize (t : Texts V X R) (num : ℚ → Str) (oV : Order V) (oX : Order X) (oW : Order (X × ℚ))
    (oS : Order Str) (ag : ActivationGraph V X R) (lE : List (ActiveEdge V R)) (lV : List (V × Finset X)) : Py (Net V) := do
  let ns ← lV.mapM (activeVariable t num oX oW ag)
  let es ← lE.mapM (ActiveEdge.drawn t oV oS)
  Net.empty.run (ns ++ es)

end
end Verif
