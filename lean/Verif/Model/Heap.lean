import Verif.Model.RelationGraphBuilder

/-!
# A heap model of the mutable containers

Python objects of `relnet` hold references to dictionaries and sets. Here every mutable container (and every frozen copy of one) is
a cell of a heap; objects hold addresses of cells. Which constructor copies and which one keeps the reference given by the caller
is what this file models; what the methods do to the contents is taken from the other model files.

An address is a position in the list of cells of its kind, so a new cell never coincides with an existing one. Objects are
referred to by their position in the list of objects of their kind. The keys of the dictionaries are sample graphs; they are kept
by value, since a sample graph never changes (`C47_immutable`). Operations on objects that do not exist do nothing. An
operation that raises keeps the changes made before the exception.
-/

namespace Verif

/-- `SampleSet` (sample_set.py 81-88): its dictionary, and `length` computed once. -/
structure SetObj where
  prov : Nat
  dict : Nat
  length : ℤ

/-- `SampleSetBuilder` (sample_set.py 276-281). -/
structure SetBuilderObj where
  prov : Nat
  dict : Nat

/-- `SampleGraph` (sample_graph.py 266-282): two frozen sets. -/
structure SampleObj where
  prov : Nat
  nodes : Nat
  edges : Nat

/-- `SampleGraphBuilder` (sample_graph.py 71-82): two sets and the private index by endpoints. -/
structure BuilderObj where
  prov : Nat
  nodes : Nat
  edges : Nat
  eps : Nat

/-- `RelationGraph` (relation_graph.py 188-199): refers to a `SampleSet`; its variables and relations are frozen copies of what the
provider declared when it was made (`none`: there is no such provider). -/
structure GraphObj (V X R : Type) where
  prov : Nat
  outcomes : Nat
  declared : Option (Schema V X R)

/-- `RelationGraphBuilder` (relation_graph.py 36-53): refers to a `SampleSetBuilder`; variables and relations as in `GraphObj`. -/
structure GraphBuilderObj (V X R : Type) where
  prov : Nat
  outcomes : Nat
  declared : Option (Schema V X R)

/-- The heap: cells, and objects. `userDicts`, `userNodes`, `userEdges` are the addresses of containers made by the user (the
containers of sample_set.py 39 and sample_graph.py 78-82). -/
structure Heap (V X R : Type) where
  dicts : List (Dict (SampleGraph V X R) ℤ) := []
  nsets : List (Finset (Node V X)) := []
  esets : List (Finset (Edge V X R)) := []
  index : List (Dict (Finset (Node V X)) (Edge V X R)) := []
  schemas : List (Schema V X R) := []
  userDicts : List Nat := []
  userNodes : List Nat := []
  userEdges : List Nat := []
  provs : List Nat := []
  sets : List SetObj := []
  setBuilders : List SetBuilderObj := []
  samples : List SampleObj := []
  builders : List BuilderObj := []
  graphs : List (GraphObj V X R) := []
  graphBuilders : List (GraphBuilderObj V X R) := []

section
variable {V X R : Type} [DecidableEq V] [DecidableEq X] [DecidableEq R]

namespace Heap
variable (h : Heap V X R)

/-! ### Reading -/

/-- The contents of a dictionary cell (`_samples`, sample_set.py 39). -/
def dictAt (a : Nat) : Dict (SampleGraph V X R) ℤ := h.dicts.getD a Dict.empty

/-- The contents of a node set cell (`_nodes`, sample_graph.py 80). -/
def nodesAt (a : Nat) : Finset (Node V X) := h.nsets.getD a ∅

/-- The contents of an edge set cell (`_edges`, sample_graph.py 81). -/
def edgesAt (a : Nat) : Finset (Edge V X R) := h.esets.getD a ∅

/-- The contents of an index cell (`_endpoints`, sample_graph.py 82). -/
def indexAt (a : Nat) : Dict (Finset (Node V X)) (Edge V X R) := h.index.getD a Dict.empty

/-- What provider `p` currently declares: it keeps the dictionary and the set it was given (graph_components.py 172-173). -/
def schemaOf (p : Nat) : Option (Schema V X R) := h.provs[p]? >>= fun a => h.schemas[a]?

/-- A `SampleSet` as a value (sample_set.py 76-88). -/
def setView (s : SetObj) : Samples V X R := ⟨s.prov, h.dictAt s.dict⟩

/-- A `SampleSetBuilder` as a value (sample_set.py 257-281). -/
def setBuilderView (b : SetBuilderObj) : Samples V X R := ⟨b.prov, h.dictAt b.dict⟩

/-- A `SampleGraph` as a value (sample_graph.py 261-282). -/
def sampleView (s : SampleObj) : Sample V X R := ⟨s.prov, h.nodesAt s.nodes, h.edgesAt s.edges⟩

/-- A `SampleGraphBuilder` as a value (sample_graph.py 71-82). -/
def builderView (b : BuilderObj) : Builder V X R := ⟨b.prov, h.nodesAt b.nodes, h.edgesAt b.edges, h.indexAt b.eps⟩

/-! ### Primitive changes -/

/-- A new user dictionary (an argument for sample_set.py 81-88, 276-281). -/
def newUserDict (d : Dict (SampleGraph V X R) ℤ) : Heap V X R :=
  { h with dicts := h.dicts ++ [d], userDicts := h.userDicts ++ [h.dicts.length] }

/-- A new user set of nodes (an argument for sample_graph.py 71-77). -/
def newUserNodes (s : Finset (Node V X)) : Heap V X R :=
  { h with nsets := h.nsets ++ [s], userNodes := h.userNodes ++ [h.nsets.length] }

/-- A new user set of edges (an argument for sample_graph.py 71-77). -/
def newUserEdges (s : Finset (Edge V X R)) : Heap V X R :=
  { h with esets := h.esets ++ [s], userEdges := h.userEdges ++ [h.esets.length] }

/-- Overwrite a dictionary cell (sample_set.py 293-339). -/
def writeDict (a : Nat) (d : Dict (SampleGraph V X R) ℤ) : Heap V X R := { h with dicts := h.dicts.set a d }

/-- Overwrite a node set cell (sample_graph.py 150-248). -/
def writeNodes (a : Nat) (s : Finset (Node V X)) : Heap V X R := { h with nsets := h.nsets.set a s }

/-- Overwrite an edge set cell (sample_graph.py 150-248). -/
def writeEdges (a : Nat) (s : Finset (Edge V X R)) : Heap V X R := { h with esets := h.esets.set a s }

/-- Overwrite an index cell (sample_graph.py 150-248). -/
def writeIndex (a : Nat) (d : Dict (Finset (Node V X)) (Edge V X R)) : Heap V X R := { h with index := h.index.set a d }

/-- `SampleSet(provider, samples)` (sample_set.py 81-88): keeps `samples.copy()`. -/
def mkSet (prov : Nat) (d : Dict (SampleGraph V X R) ℤ) : Heap V X R :=
  { h with dicts := h.dicts ++ [d], sets := h.sets ++ [⟨prov, h.dicts.length, d.vals.sum⟩] }

/-- `SampleSetBuilder(provider, samples)` (sample_set.py 276-281): keeps `samples.copy()`, or a new dictionary. -/
def mkSetBuilder (prov : Nat) (d : Dict (SampleGraph V X R) ℤ) : Heap V X R :=
  { h with dicts := h.dicts ++ [d], setBuilders := h.setBuilders ++ [⟨prov, h.dicts.length⟩] }

/-- `SampleGraph(provider, frozenset(nodes), frozenset(edges), name)`: new frozen sets (sample_graph.py 105-122, 258). -/
def mkSample (s : Sample V X R) : Heap V X R :=
  { h with nsets := h.nsets ++ [s.graph.nodes], esets := h.esets ++ [s.graph.edges],
           samples := h.samples ++ [⟨s.prov, h.nsets.length, h.esets.length⟩] }

/-- `self._nodes = nodes if nodes else set([])` (sample_graph.py 80): a non-empty set is kept, not copied. -/
def shareNodes (a : Option Nat) : Heap V X R × Nat :=
  match a with
  | some a => if h.nodesAt a ≠ ∅ then (h, a) else ({ h with nsets := h.nsets ++ [∅] }, h.nsets.length)
  | none => ({ h with nsets := h.nsets ++ [∅] }, h.nsets.length)

/-- `self._edges = edges if edges else set([])` (sample_graph.py 81). -/
def shareEdges (a : Option Nat) : Heap V X R × Nat :=
  match a with
  | some a => if h.edgesAt a ≠ ∅ then (h, a) else ({ h with esets := h.esets ++ [∅] }, h.esets.length)
  | none => ({ h with esets := h.esets ++ [∅] }, h.esets.length)

/-- A `SampleGraphBuilder` on given cells; the index is built from the edges (sample_graph.py 82). -/
def mkBuilder (oE : Order (Edge V X R)) (prov n e : Nat) : Heap V X R :=
  { h with index := h.index ++ [(Builder.ofSets oE prov (h.nodesAt n) (h.edgesAt e)).eps],
           builders := h.builders ++ [⟨prov, n, e, h.index.length⟩] }

/-- `SampleGraphBuilder(provider, name, nodes, edges)` (sample_graph.py 71-82). -/
def newBuilder (oE : Order (Edge V X R)) (prov : Nat) (n e : Option Nat) : Heap V X R :=
  let p := h.shareNodes n
  let q := p.1.shareEdges e
  q.1.mkBuilder oE prov p.2 q.2

/-- A `SampleGraphBuilder` over new sets: `SampleGraphBuilder.__copy__` (sample_graph.py 84-85) and `SampleGraph.builder` (352-361)
pass freshly made sets. -/
def copyBuilder (oE : Order (Edge V X R)) (prov : Nat) (ns : Finset (Node V X)) (es : Finset (Edge V X R)) : Heap V X R :=
  let h' : Heap V X R := { h with nsets := h.nsets ++ [ns], esets := h.esets ++ [es] }
  h'.mkBuilder oE prov h.nsets.length h.esets.length

/-- The mutators of `SampleGraphBuilder` change its sets and its index in place (sample_graph.py 150-248). -/
def writeBuilder (b : BuilderObj) (b' : Builder V X R) : Heap V X R :=
  ((h.writeNodes b.nodes b'.nodes).writeEdges b.edges b'.edges).writeIndex b.eps b'.eps

/-- `RelationGraphBuilder(…, outcomes, provider)` (relation_graph.py 50): a non-empty builder is kept, not copied. -/
def newGraphBuilder (prov : Nat) (i : Option Nat) : Heap V X R :=
  match i >>= fun i => h.setBuilders[i]?.map fun b => (i, b) with
  | some (i, b) =>
    if (h.setBuilderView b).bool then { h with graphBuilders := h.graphBuilders ++ [⟨prov, i, h.schemaOf prov⟩] }
    else { h.mkSetBuilder prov Dict.empty with graphBuilders := h.graphBuilders ++ [⟨prov, h.setBuilders.length, h.schemaOf prov⟩] }
  | none => { h.mkSetBuilder prov Dict.empty with graphBuilders := h.graphBuilders ++ [⟨prov, h.setBuilders.length, h.schemaOf prov⟩] }

end Heap

/-- What a program can do (the public methods of sample_set.py and sample_graph.py). -/
inductive HeapOp (V X R : Type) where
  /-- the user makes a dictionary, a set of nodes, a set of edges, the declarations for a provider -/
  | userDict (d : Dict (SampleGraph V X R) ℤ)
  | userNodes (s : Finset (Node V X))
  | userEdges (s : Finset (Edge V X R))
  | userSchema (s : Schema V X R)
  /-- the user changes one of them in any way -/
  | changeDict (i : Nat) (d : Dict (SampleGraph V X R) ℤ)
  | changeNodes (i : Nat) (s : Finset (Node V X))
  | changeEdges (i : Nat) (s : Finset (Edge V X R))
  | changeSchema (i : Nat) (s : Schema V X R)
  /-- `BuilderComponentsProvider(variables, relations)` -/
  | provider (i : Nat)
  /-- `SampleSet(provider, samples)` with a user dictionary -/
  | sampleSet (prov i : Nat)
  /-- `SampleSetBuilder(provider, samples)` with a user dictionary or without -/
  | setBuilder (prov : Nat) (i : Option Nat)
  /-- `add`, `add_all` (of a set, of a builder), `remove`, `remove_all` on a `SampleSetBuilder` -/
  | add (i : Nat) (s : Sample V X R) (c : ℤ)
  | addSet (i j : Nat) (o : Order (SampleGraph V X R × ℤ))
  | addBuilder (i j : Nat) (o : Order (SampleGraph V X R × ℤ))
  | remove (i : Nat) (g : SampleGraph V X R)
  | removeSet (i j : Nat) (o : Order (SampleGraph V X R))
  /-- `SampleSetBuilder.copy`, `SampleSetBuilder.build`, `SampleSetBuilder.empty`, `SampleSet.builder` -/
  | copySetBuilder (i : Nat)
  | buildSet (i : Nat)
  | emptySet (i : Nat)
  | setToBuilder (i : Nat)
  /-- `SampleSet.union`, `SampleSet.filter_samples` -/
  | union (i j : Nat) (o : Order (SampleGraph V X R × ℤ))
  | filter (i : Nat) (p : SampleGraph V X R → Bool)
  /-- `SampleGraphBuilder(provider, name, nodes, edges)` with user sets or without -/
  | builder (oE : Order (Edge V X R)) (prov : Nat) (n e : Option Nat)
  /-- `SampleGraphBuilder.__copy__`, `SampleGraph.builder` -/
  | copyBuilder (oE : Order (Edge V X R)) (i : Nat)
  | sampleToBuilder (oE : Order (Edge V X R)) (i : Nat)
  /-- `add_relation`, `join_sample`, `build_from_edges` on a `SampleGraphBuilder` -/
  | addRelation (i : Nat) (eps : Finset (V × X)) (r : Rel V R)
  | joinSample (oE : Order (Edge V X R)) (i j : Nat)
  | fromEdges (oE : Order (RawEdge V X R)) (oN : Order (V × X)) (i : Nat) (es : Finset (RawEdge V X R)) (validate : Bool)
  /-- `build`, `build_single_node`, `build_empty` -/
  | build (i : Nat)
  | single (i : Nat) (v : V) (x : X)
  | emptySample (i : Nat)
  /-- `RelationGraphBuilder(…, outcomes, provider)` with a `SampleSetBuilder` or without -/
  | graphBuilder (prov : Nat) (i : Option Nat)
  /-- `RelationGraphBuilder.add_outcome`, `RelationGraphBuilder.build`, `SampleSpace.builder`, `SampleSpace.relation_graph` -/
  | addOutcome (i : Nat) (s : Sample V X R) (c : ℤ)
  | buildGraph (i : Nat)
  | graphToBuilder (i : Nat)
  | relationGraph (i : Nat)

namespace Heap

/-- The address kept at a position of a list of user containers (the caller of sample_graph.py 71-77 or sample_set.py 276-281). -/
def userAddr (l : List Nat) (i : Option Nat) : Option Nat := i >>= fun i => l[i]?

/-- One operation (a call of one of the methods cited above). -/
def step (h : Heap V X R) : HeapOp V X R → Heap V X R
  | .userDict d => h.newUserDict d
  | .userNodes s => h.newUserNodes s
  | .userEdges s => h.newUserEdges s
  | .userSchema s => { h with schemas := h.schemas ++ [s] }
  | .changeDict i d => match h.userDicts[i]? with
    | some a => h.writeDict a d
    | none => h
  | .changeNodes i s => match h.userNodes[i]? with
    | some a => h.writeNodes a s
    | none => h
  | .changeEdges i s => match h.userEdges[i]? with
    | some a => h.writeEdges a s
    | none => h
  | .changeSchema i s => { h with schemas := h.schemas.set i s }
  | .provider i => match h.schemas[i]? with
    | some s => match Schema.check s.vars s.rels with
      | .ok _ => { h with provs := h.provs ++ [i] }
      | .error _ => h
    | none => h
  | .sampleSet prov i => match h.userDicts[i]? with
    | some a => h.mkSet prov (h.dictAt a)
    | none => h
  | .setBuilder prov i => match userAddr h.userDicts i with
    | some a => h.mkSetBuilder prov (h.dictAt a)
    | none => h.mkSetBuilder prov Dict.empty
  | .add i s c => match h.setBuilders[i]? with
    | some b => h.writeDict b.dict ((h.setBuilderView b).add s c).1.samples
    | none => h
  | .addSet i j o => match h.setBuilders[i]?, h.sets[j]? with
    | some b, some s => h.writeDict b.dict ((h.setBuilderView b).addAll o (h.setView s)).1.samples
    | _, _ => h
  | .addBuilder i j o => match h.setBuilders[i]?, h.setBuilders[j]? with
    | some b, some s => h.writeDict b.dict ((h.setBuilderView b).addAll o (h.setBuilderView s)).1.samples
    | _, _ => h
  | .remove i g => match h.setBuilders[i]? with
    | some b => h.writeDict b.dict ((h.setBuilderView b).remove g).1.samples
    | none => h
  | .removeSet i j o => match h.setBuilders[i]?, h.sets[j]? with
    | some b, some s => h.writeDict b.dict ((h.setBuilderView b).removeAll o (h.setView s)).1.samples
    | _, _ => h
  | .copySetBuilder i => match h.setBuilders[i]? with
    | some b => h.mkSetBuilder b.prov (h.dictAt b.dict)
    | none => h
  | .buildSet i => match h.setBuilders[i]? with
    | some b => h.mkSet b.prov (h.dictAt b.dict)
    | none => h
  | .emptySet i => match h.setBuilders[i]? with
    | some b => h.mkSet b.prov Dict.empty
    | none => h
  | .setToBuilder i => match h.sets[i]? with
    | some s => h.mkSetBuilder s.prov (h.dictAt s.dict)
    | none => h
  | .union i j o => match h.sets[i]?, h.sets[j]? with
    | some s, some t => match (h.setView s).union o (h.setView t) with
      | .ok u => (h.mkSetBuilder s.prov u.samples).mkSet s.prov u.samples
      | .error _ => h
    | _, _ => h
  | .filter i p => match h.sets[i]? with
    | some s => h.mkSet s.prov ((h.setView s).filterSamples p).samples
    | none => h
  | .builder oE prov n e => h.newBuilder oE prov (userAddr h.userNodes n) (userAddr h.userEdges e)
  | .copyBuilder oE i => match h.builders[i]? with
    | some b => h.copyBuilder oE b.prov (h.nodesAt b.nodes) (h.edgesAt b.edges)
    | none => h
  | .sampleToBuilder oE i => match h.samples[i]? with
    | some s => h.copyBuilder oE s.prov (h.nodesAt s.nodes) (h.edgesAt s.edges)
    | none => h
  | .addRelation i eps r => match h.builders[i]? with
    | some b => match h.schemaOf b.prov with
      | some s => h.writeBuilder b ((h.builderView b).addRelation s eps r).1
      | none => h
    | none => h
  | .joinSample oE i j => match h.builders[i]?, h.samples[j]? with
    | some b, some s => h.writeBuilder b ((h.builderView b).joinSample oE (h.sampleView s)).1
    | _, _ => h
  | .fromEdges oE oN i es validate => match h.builders[i]? with
    | some b => match h.schemaOf b.prov with
      | some s =>
        let r := (h.builderView b).buildFromEdges s oE oN es validate
        match r.2 with
        | .ok smp => (h.writeBuilder b r.1).mkSample smp
        | .error _ => h.writeBuilder b r.1
      | none => h
    | none => h
  | .build i => match h.builders[i]? with
    | some b => match (h.builderView b).build with
      | .ok smp => h.mkSample smp
      | .error _ => h
    | none => h
  | .single i v x => match h.builders[i]? with
    | some b => match h.schemaOf b.prov with
      | some s => match (h.builderView b).buildSingleNode s v x with
        | .ok smp => h.mkSample smp
        | .error _ => h
      | none => h
    | none => h
  | .emptySample i => match h.builders[i]? with
    | some b => h.mkSample (h.builderView b).buildEmpty
    | none => h
  | .graphBuilder prov i => h.newGraphBuilder prov i
  | .addOutcome i s c => match h.graphBuilders[i]? with
    | some g => match h.setBuilders[g.outcomes]? with
      | some b =>
        if s.prov = g.prov ∧ 1 ≤ c then h.writeDict b.dict ((h.setBuilderView b).add s c).1.samples else h
      | none => h
    | none => h
  | .buildGraph i => match h.graphBuilders[i]? with
    | some g => match h.setBuilders[g.outcomes]? with
      | some b =>
        if (h.setBuilderView b).bool then
          { h.mkSet b.prov (h.dictAt b.dict) with graphs := h.graphs ++ [⟨g.prov, h.sets.length, h.schemaOf g.prov⟩] }
        else h
      | none => h
    | none => h
  | .graphToBuilder i => match h.graphs[i]? with
    | some g => match h.sets[g.outcomes]? with
      | some s => (h.mkSetBuilder s.prov (h.dictAt s.dict)).newGraphBuilder g.prov (some h.setBuilders.length)
      | none => h
    | none => h
  | .relationGraph i => match h.graphs[i]? with
    | some g => { h with graphs := h.graphs ++ [⟨g.prov, g.outcomes, h.schemaOf g.prov⟩] }
    | none => h

/-- A history of operations (calls one after the other). -/
def run (h : Heap V X R) (ops : List (HeapOp V X R)) : Heap V X R := ops.foldl step h

end Heap
end

end Verif
