import Verif.Model.SampleSet
import Mathlib.Data.List.Sort
import Mathlib.Data.List.Lex
import Mathlib.Data.Char

/-!
# Model of the textual forms

`string_id`, `__repr__`, `name`, `text_view`, `print_samples`. A Python `str` is a list of characters, compared by code points;
`sorted` of strings is the unique ascending rearrangement (here by insertion sort). `str` of variables, values and relation
labels is arbitrary (`Texts`). File references are relative to `/repo/Python/research/scripts/relnet/`.
-/

namespace Verif

/-- Python `str` (the texts of graph_components.py 33, 75-76). -/
abbrev Str := List Char

/-- `str(variable)`, `str(value)`, `str(relation)` (graph_components.py 33, 76, 123). -/
structure Texts (V X R : Type) where
  var : V → Str
  val : X → Str
  rel : R → Str

/-- `sorted` on strings (sample_graph.py 277, 314). -/
def sortStr (l : List Str) : List Str := l.insertionSort (· ≤ ·)

/-- `sep.join(l)` (sample_graph.py 277, 314). -/
def joinStr (sep : Str) : List Str → Str
  | [] => []
  | [a] => a
  | a :: b :: t => a ++ sep ++ joinStr sep (b :: t)

section
variable {V X R : Type} [DecidableEq V] [DecidableEq X] [DecidableEq R]

/-- `ValueNode.string_id` (graph_components.py 33). -/
def Node.stringId (t : Texts V X R) (n : Node V X) : Str := t.var n.var ++ '_' :: t.val n.val

/-- `ValueNode.__repr__` (graph_components.py 38-39). -/
def Node.repr (t : Texts V X R) (n : Node V X) : Str := '(' :: n.stringId t ++ [')']

/-- `str(relation)`: the label, or `DirectedRelation.__repr__` (graph_components.py 122-123). -/
def Rel.repr (t : Texts V X R) : Rel V R → Str
  | .plain r => t.rel r
  | .directed a b r => t.rel r ++ '[' :: t.var a ++ ['-', '>'] ++ t.var b ++ [']']

/-- `RelationEdge.__repr__` (graph_components.py 74-76). -/
def Edge.repr (t : Texts V X R) (oN : Order (Node V X)) (e : Edge V X R) : Py Str :=
  match sortStr ((oN.run e.endpoints).map (Node.repr t)) with
  | a :: b :: _ => .ok (a ++ ['-', '-', '{'] ++ e.relation.repr t ++ ['}', '-', '-'] ++ b)
  | _ => .error .indexError

/-- `SampleGraph.text_view` (sample_graph.py 308-318). -/
def SampleGraph.textView (t : Texts V X R) (oN : Order (Node V X)) (oE : Order (Edge V X R)) (g : SampleGraph V X R) : Py Str :=
  if g.edges ≠ ∅ then do
    let es ← (oE.run g.edges).mapM (Edge.repr t oN)
    return '{' :: joinStr [';', ' '] (sortStr es) ++ ['}']
  else match oN.run g.nodes with
    | n :: _ => .ok ('{' :: n.repr t ++ ['}'])
    | [] => .ok ['{', '}']

/-- The field `SampleGraph.name` (sample_graph.py 276-278): the given name if it is a non-empty string, otherwise the sorted
texts of the edges, or of the nodes when there are no edges. -/
def SampleGraph.nameOf (t : Texts V X R) (oN : Order (Node V X)) (oE : Order (Edge V X R)) (name : Option Str)
    (g : SampleGraph V X R) : Py Str :=
  match name with
  | some (c :: s) => .ok (c :: s)
  | _ =>
    if g.edges ≠ ∅ then do
      let es ← (oE.run g.edges).mapM (Edge.repr t oN)
      return '{' :: joinStr [';', ' '] (sortStr es) ++ ['}']
    else .ok ('{' :: joinStr [';', ' '] (sortStr ((oN.run g.nodes).map (Node.repr t))) ++ ['}'])

/-- A sample graph object with its name (sample_graph.py 273-282). -/
structure NamedSample (V X R : Type) where
  sample : Sample V X R
  name : Str

/-- A `SampleGraphBuilder` with its name (sample_graph.py 78-82). -/
structure NamedBuilder (V X R : Type) where
  name : Option Str
  builder : Builder V X R

/-- `SampleGraphBuilder.set_name` (sample_graph.py 91-98). -/
def NamedBuilder.setName (b : NamedBuilder V X R) (name : Option Str) : NamedBuilder V X R := { b with name := name }

/-- `SampleGraphBuilder.add_relation` (sample_graph.py 150-170) does not touch the name. -/
def NamedBuilder.addRelation (s : Schema V X R) (b : NamedBuilder V X R) (eps : Finset (V × X)) (r : Rel V R) :
    NamedBuilder V X R × Option Err :=
  (⟨b.name, (b.builder.addRelation s eps r).1⟩, (b.builder.addRelation s eps r).2)

/-- `SampleGraphBuilder.build` (sample_graph.py 250-258). -/
def NamedBuilder.build (t : Texts V X R) (oN : Order (Node V X)) (oE : Order (Edge V X R)) (b : NamedBuilder V X R) :
    Py (NamedSample V X R) := do
  let s ← b.builder.build
  let n ← s.graph.nameOf t oN oE b.name
  return ⟨s, n⟩

/-- `SampleGraph.builder` (sample_graph.py 352-361): the builder receives the name of the sample. -/
def NamedSample.builder (oE : Order (Edge V X R)) (s : NamedSample V X R) : NamedBuilder V X R :=
  ⟨some s.name, Builder.ofSets oE s.sample.prov s.sample.graph.nodes s.sample.graph.edges⟩

/-- `str(count)` (sample_set.py 102, sample_space.py 234). -/
def intStr (c : ℤ) : Str := (toString c).toList

/-- `SampleSet.__repr__` (sample_set.py 101-102). `nm` gives the name of the sample object which is the key. -/
def Samples.repr (nm : SampleGraph V X R → Str) (a : Samples V X R) : Str :=
  ['{', '\n'] ++ joinStr ['\n'] (sortStr (a.samples.entries.map fun p => [' ', ' ', ' ', ' '] ++ nm p.1 ++ [':', ' '] ++ intStr p.2)) ++
    ['\n', '}']

/-- `SampleSpace.print_samples` (sample_space.py 229-234). `linesep` is `os.linesep`; the iteration is over the set
`outcomes.items()`. -/
def Samples.print (linesep : Str) (nm : SampleGraph V X R → Str) (oI : Order (SampleGraph V X R × ℤ)) (a : Samples V X R) : Str :=
  joinStr linesep (sortStr ((oI.run a.items).map fun p => nm p.1 ++ ['('] ++ intStr p.2 ++ [')']))

end

end Verif
