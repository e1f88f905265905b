import Verif.Model.RelationGraphBuilder
import Verif.Model.Conditional
import Verif.Model.Text

/-!
# Model of names, descriptions and edge set views of sample spaces

`name` fields of relation graphs, conditional graphs and their builders, `describe`, `outcomes_as_edges_sets` and the texts of the
builders. File references are relative to `/repo/Python/research/scripts/relnet/`. The dictionaries returned by `describe` have
fixed keys and are kept as structures.
-/

namespace Verif

/-- `name if name else other`: `None` and the empty text are both replaced (relation_graph.py 200, 272; sample_space.py 83). -/
def nameOr (name : Option Str) (other : Str) : Str :=
  match name with
  | some (c :: s) => c :: s
  | _ => other

/-- A relation graph or conditional graph with its name (sample_space.py 40-49, relation_graph.py 194-203,
conditional_graph.py 35-45). -/
structure NamedSpace (V X R : Type) where
  space : Space V X R
  name : Str

/-- A `RelationGraphBuilder` with its name (relation_graph.py 36-53). -/
structure NamedRG (V X R : Type) where
  name : Option Str
  builder : RGBuilder V X R

/-- The result of `RelationGraph.describe` (relation_graph.py 210-217). -/
structure RelationDescription where
  name : Str
  numberOfVariables : ℕ
  numberOfRelations : ℕ
  numberOfOutcomes : ℤ
  variableTexts : Finset Str
  relationTexts : Finset Str

/-- The result of `ConditionalGraph.describe` (conditional_graph.py 52-57). -/
structure ConditionalDescription where
  query : Str
  numberOutcomes : ℤ
  includedVariables : Finset Str
  includedRelations : Finset Str

section
variable {V X R : Type} [DecidableEq V] [DecidableEq X] [DecidableEq R]

/-- The default name of a relation graph (relation_graph.py 200). -/
def defaultName (o : Samples V X R) : Str :=
  "relation_graph_with_".toList ++ intStr o.length ++ "_outcomes".toList

/-- `RelationGraph.__init__` (relation_graph.py 194-203). -/
def mkRelationGraph (s : Schema V X R) (name : Option Str) (o : Samples V X R) : NamedSpace V X R :=
  ⟨⟨s, o, none⟩, nameOr name (defaultName o)⟩

/-- `RelationGraphBuilder.set_name` (relation_graph.py 58-65). -/
def NamedRG.setName (b : NamedRG V X R) (name : Option Str) : NamedRG V X R := { b with name := name }

/-- `RelationGraphBuilder.add_outcome` (relation_graph.py 75-89) does not touch the name. -/
def NamedRG.addOutcome (b : NamedRG V X R) (p : Sample V X R × ℤ) : NamedRG V X R × Option Err :=
  (⟨b.name, (b.builder.addOutcome p.1 p.2).1⟩, (b.builder.addOutcome p.1 p.2).2)

/-- `RelationGraphBuilder.build` (relation_graph.py 175-186). -/
def NamedRG.build (b : NamedRG V X R) : Py (NamedSpace V X R) :=
  if b.builder.outcomes.bool then .ok (mkRelationGraph b.builder.schema b.name b.builder.outcomes) else .error .assertion

/-- `str` of an optional name inside an f-string (relation_graph.py 56, sample_graph.py 88-89). -/
def optText : Option Str → Str
  | none => "None".toList
  | some s => s

/-- `RelationGraphBuilder.__repr__` (relation_graph.py 55-56). -/
def NamedRG.repr (b : NamedRG V X R) : Str :=
  "RelationGraphBuilder(name = ".toList ++ optText b.name ++ ", len(outcomes) = ".toList ++ intStr b.builder.outcomes.length ++ [')']

/-- `SampleGraphBuilder.__repr__` (sample_graph.py 87-89); the text begins with the name of another class. -/
def NamedBuilder.repr (b : NamedBuilder V X R) : Str :=
  "RelationGraphBuilder(name = ".toList ++ optText b.name ++ ", len(nodes) = ".toList ++ intStr b.builder.nodes.card ++
    ", len(edges) = ".toList ++ intStr b.builder.edges.card ++ [')']

namespace NamedSpace

/-- `SampleSpace.builder` (sample_space.py 59-70). An empty set of outcomes is replaced by a new empty one
(relation_graph.py 50), which has the same provider. -/
def builder (g : NamedSpace V X R) : NamedRG V X R :=
  ⟨some g.name, ⟨g.space.schema, g.space.outcomes.prov,
    if g.space.outcomes.bool then g.space.outcomes else Samples.empty g.space.outcomes.prov, 0⟩⟩

/-- `SampleSpace.relation_graph` (sample_space.py 72-81). -/
def relationGraph (g : NamedSpace V X R) (name : Option Str) : NamedSpace V X R :=
  mkRelationGraph g.space.schema (some (nameOr name g.name)) g.space.outcomes

/-- `RelationGraph.conditional_graph` (relation_graph.py 219-239). -/
def conditionalGraph (oI : Order (SampleGraph V X R × ℤ)) (g : NamedSpace V X R) (ev : Sample V X R) (name : Option Str) :
    Py (NamedSpace V X R) := do
  let sp ← g.space.conditionalGraph oI ev
  return ⟨sp, nameOr name ("conditional_of_".toList ++ g.name)⟩

/-- `RelationGraph.describe` (relation_graph.py 205-217). -/
def describe (t : Texts V X R) (g : NamedSpace V X R) : RelationDescription where
  name := g.name
  numberOfVariables := g.space.schema.vars.entries.toFinset.card
  numberOfRelations := g.space.schema.rels.card
  numberOfOutcomes := g.space.outcomes.length
  variableTexts := g.space.schema.vars.entries.toFinset.image fun p => t.var p.1
  relationTexts := g.space.schema.rels.image t.rel

end NamedSpace

/-- `ConditionalGraph.describe` (conditional_graph.py 47-57); `ev` is the field `evidence`. -/
def Space.describeConditional (t : Texts V X R) (oG : Order (SampleGraph V X R)) (oN : Order (Node V X)) (oE : Order (Edge V X R))
    (sp : Space V X R) (ev : Sample V X R) : Py ConditionalDescription := do
  let q ← ev.graph.textView t oN oE
  return ⟨q, sp.outcomes.length, (sp.includedVariables oG oN).image fun p => t.var p.1, sp.includedRelations.image (Rel.repr t)⟩

/-- `SampleSpace.outcomes_as_edges_sets` (sample_space.py 91-100). -/
def Space.outcomesAsEdgesSets (oN : Order (Node V X)) (sp : Space V X R) : Finset (EdgesView V X R × ℤ) :=
  sp.outcomes.items.image fun p => (p.1.edgesSetView oN, p.2)

end
end Verif
