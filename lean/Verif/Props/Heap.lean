import Verif.Model.Heap
import Verif.Props.Builder
import Mathlib.Data.List.Nodup
import Mathlib.Tactic.Tauto

/-!
# Isolation of objects on the heap (C47)
-/

set_option linter.unusedSectionVars false

namespace Verif
section
variable {V X R : Type} [DecidableEq V] [DecidableEq X] [DecidableEq R]

namespace Heap

/-! ### Which operation is meant to change which object -/

/-- The `SampleSetBuilder` an operation is called on, or which is held by the `RelationGraphBuilder` it is called on. -/
def setBuilderTarget (h : Heap V X R) : HeapOp V X R → Option Nat
  | .add i _ _ => some i
  | .addSet i _ _ => some i
  | .addBuilder i _ _ => some i
  | .remove i _ => some i
  | .removeSet i _ _ => some i
  | .addOutcome i _ _ => h.graphBuilders[i]?.map GraphBuilderObj.outcomes
  | _ => none

/-- The `SampleGraphBuilder` an operation is called on to change it. -/
def builderTarget : HeapOp V X R → Option Nat
  | .addRelation i _ _ => some i
  | .joinSample _ i _ => some i
  | .fromEdges _ _ i _ _ => some i
  | _ => none

/-- The user dictionary changed by the user. -/
def dictTarget : HeapOp V X R → Option Nat
  | .changeDict i _ => some i
  | _ => none

/-- The user set of nodes changed by the user. -/
def nodesTarget : HeapOp V X R → Option Nat
  | .changeNodes i _ => some i
  | _ => none

/-- The user set of edges changed by the user. -/
def edgesTarget : HeapOp V X R → Option Nat
  | .changeEdges i _ => some i
  | _ => none

/-! ### Growth: objects and cells are only added -/

/-- Every list of objects and cells only grows. -/
structure Grows (h h' : Heap V X R) : Prop where
  dicts : h.dicts.length ≤ h'.dicts.length
  nsets : h.nsets.length ≤ h'.nsets.length
  esets : h.esets.length ≤ h'.esets.length
  index : h.index.length ≤ h'.index.length
  userDicts : h.userDicts <+: h'.userDicts
  userNodes : h.userNodes <+: h'.userNodes
  userEdges : h.userEdges <+: h'.userEdges
  provs : h.provs <+: h'.provs
  sets : h.sets <+: h'.sets
  setBuilders : h.setBuilders <+: h'.setBuilders
  samples : h.samples <+: h'.samples
  builders : h.builders <+: h'.builders
  graphs : h.graphs <+: h'.graphs
  graphBuilders : h.graphBuilders <+: h'.graphBuilders

theorem Grows.refl (h : Heap V X R) : Grows h h := by
  constructor <;> first | exact le_rfl | exact List.prefix_rfl

theorem Grows.trans {h h' h'' : Heap V X R} (a : Grows h h') (b : Grows h' h'') : Grows h h'' where
  dicts := a.dicts.trans b.dicts
  nsets := a.nsets.trans b.nsets
  esets := a.esets.trans b.esets
  index := a.index.trans b.index
  userDicts := a.userDicts.trans b.userDicts
  userNodes := a.userNodes.trans b.userNodes
  userEdges := a.userEdges.trans b.userEdges
  provs := a.provs.trans b.provs
  sets := a.sets.trans b.sets
  setBuilders := a.setBuilders.trans b.setBuilders
  samples := a.samples.trans b.samples
  builders := a.builders.trans b.builders
  graphs := a.graphs.trans b.graphs
  graphBuilders := a.graphBuilders.trans b.graphBuilders

macro "grow" : tactic => `(tactic| (constructor <;> simp))

theorem grows_newUserDict (h : Heap V X R) (d) : Grows h (h.newUserDict d) := by unfold newUserDict; grow
theorem grows_newUserNodes (h : Heap V X R) (d) : Grows h (h.newUserNodes d) := by unfold newUserNodes; grow
theorem grows_newUserEdges (h : Heap V X R) (d) : Grows h (h.newUserEdges d) := by unfold newUserEdges; grow
theorem grows_writeDict (h : Heap V X R) (a d) : Grows h (h.writeDict a d) := by unfold writeDict; grow
theorem grows_writeNodes (h : Heap V X R) (a d) : Grows h (h.writeNodes a d) := by unfold writeNodes; grow
theorem grows_writeEdges (h : Heap V X R) (a d) : Grows h (h.writeEdges a d) := by unfold writeEdges; grow
theorem grows_writeIndex (h : Heap V X R) (a d) : Grows h (h.writeIndex a d) := by unfold writeIndex; grow
theorem grows_mkSet (h : Heap V X R) (p d) : Grows h (h.mkSet p d) := by unfold mkSet; grow
theorem grows_mkSetBuilder (h : Heap V X R) (p d) : Grows h (h.mkSetBuilder p d) := by unfold mkSetBuilder; grow
theorem grows_mkSample (h : Heap V X R) (s) : Grows h (h.mkSample s) := by unfold mkSample; grow
theorem grows_mkBuilder (h : Heap V X R) (o p n e) : Grows h (h.mkBuilder o p n e) := by unfold mkBuilder; grow

theorem grows_shareNodes (h : Heap V X R) (a) : Grows h (h.shareNodes a).1 := by
  unfold shareNodes
  split
  · split
    · exact Grows.refl h
    · grow
  · grow

theorem grows_shareEdges (h : Heap V X R) (a) : Grows h (h.shareEdges a).1 := by
  unfold shareEdges
  split
  · split
    · exact Grows.refl h
    · grow
  · grow

theorem grows_newBuilder (h : Heap V X R) (o p n e) : Grows h (h.newBuilder o p n e) :=
  ((grows_shareNodes h n).trans (grows_shareEdges _ e)).trans (grows_mkBuilder _ _ _ _ _)

theorem grows_copyBuilder (h : Heap V X R) (o p n e) : Grows h (h.copyBuilder o p n e) := by
  refine Grows.trans (h' := { h with nsets := h.nsets ++ [n], esets := h.esets ++ [e] }) ?_ (grows_mkBuilder _ _ _ _ _)
  grow

theorem grows_writeBuilder (h : Heap V X R) (b b') : Grows h (h.writeBuilder b b') :=
  ((grows_writeNodes h _ _).trans (grows_writeEdges _ _ _)).trans (grows_writeIndex _ _ _)

theorem grows_newGraphBuilder (h : Heap V X R) (p i) : Grows h (h.newGraphBuilder p i) := by
  unfold newGraphBuilder mkSetBuilder
  split
  · split <;> grow
  · grow

theorem grows_step (h : Heap V X R) (op : HeapOp V X R) : Grows h (h.step op) := by
  cases op <;> simp only [step] <;> (repeat' split) <;>
    first
    | exact Grows.refl h
    | exact grows_newUserDict h _
    | exact grows_newUserNodes h _
    | exact grows_newUserEdges h _
    | exact grows_writeDict h _ _
    | exact grows_writeNodes h _ _
    | exact grows_writeEdges h _ _
    | exact (grows_mkSetBuilder h _ _).trans (grows_mkSet _ _ _)
    | exact (grows_mkSetBuilder h _ _).trans (grows_newGraphBuilder _ _ _)
    | exact grows_mkSet h _ _
    | exact grows_mkSetBuilder h _ _
    | exact (grows_writeBuilder h _ _).trans (grows_mkSample _ _)
    | exact grows_mkSample h _
    | exact grows_newBuilder h _ _ _ _
    | exact grows_copyBuilder h _ _ _ _
    | exact grows_writeBuilder h _ _
    | exact grows_newGraphBuilder h _ _
    | (unfold mkSet; grow)
    | grow

theorem grows_run (ops : List (HeapOp V X R)) : ∀ h : Heap V X R, Grows h (h.run ops) := by
  induction ops with
  | nil => exact fun h => Grows.refl h
  | cons op t ih => exact fun h => (grows_step h op).trans (ih _)

/-! ### Which cells an operation writes -/

/-- The dictionary cell written. -/
def wDict (h : Heap V X R) (op : HeapOp V X R) : List Nat :=
  (match dictTarget op with
    | some i => h.userDicts[i]?.toList
    | none => []) ++
  (match setBuilderTarget h op with
    | some i => (h.setBuilders[i]?.map SetBuilderObj.dict).toList
    | none => [])

/-- The node set cells written. -/
def wNodes (h : Heap V X R) (op : HeapOp V X R) : List Nat :=
  (match nodesTarget op with
    | some i => h.userNodes[i]?.toList
    | none => []) ++
  (match builderTarget op with
    | some i => (h.builders[i]?.map BuilderObj.nodes).toList
    | none => [])

/-- The edge set cells written. -/
def wEdges (h : Heap V X R) (op : HeapOp V X R) : List Nat :=
  (match edgesTarget op with
    | some i => h.userEdges[i]?.toList
    | none => []) ++
  (match builderTarget op with
    | some i => (h.builders[i]?.map BuilderObj.edges).toList
    | none => [])

/-- The index cells written. -/
def wIndex (h : Heap V X R) (op : HeapOp V X R) : List Nat :=
  match builderTarget op with
    | some i => (h.builders[i]?.map BuilderObj.eps).toList
    | none => []

theorem getD_append_lt {α : Type} (l : List α) (m : List α) (d : α) {a : Nat} (ha : a < l.length) :
    (l ++ m).getD a d = l.getD a d := by
  simp [List.getD_eq_getElem?_getD, List.getElem?_append_left ha]

theorem getD_set_ne {α : Type} (l : List α) (d x : α) {a b : Nat} (hab : a ≠ b) : (l.set a x).getD b d = l.getD b d := by
  simp [List.getD_eq_getElem?_getD, List.getElem?_set_ne hab]

theorem getD_set_eq {α : Type} (l : List α) (d x : α) {a : Nat} (ha : a < l.length) : (l.set a x).getD a d = x := by
  simp [List.getD_eq_getElem?_getD, List.getElem?_set_self ha]

theorem getD_append_length {α : Type} (l : List α) (d x : α) : (l ++ [x]).getD l.length d = x := by
  simp [List.getD_eq_getElem?_getD]

theorem shareNodes_dicts (h : Heap V X R) (a) : (h.shareNodes a).1.dicts = h.dicts := by
  unfold shareNodes; split <;> (try split) <;> rfl
theorem shareEdges_dicts (h : Heap V X R) (a) : (h.shareEdges a).1.dicts = h.dicts := by
  unfold shareEdges; split <;> (try split) <;> rfl
theorem shareNodes_esets (h : Heap V X R) (a) : (h.shareNodes a).1.esets = h.esets := by
  unfold shareNodes; split <;> (try split) <;> rfl
theorem shareEdges_nsets (h : Heap V X R) (a) : (h.shareEdges a).1.nsets = h.nsets := by
  unfold shareEdges; split <;> (try split) <;> rfl
theorem shareNodes_index (h : Heap V X R) (a) : (h.shareNodes a).1.index = h.index := by
  unfold shareNodes; split <;> (try split) <;> rfl
theorem shareEdges_index (h : Heap V X R) (a) : (h.shareEdges a).1.index = h.index := by
  unfold shareEdges; split <;> (try split) <;> rfl

theorem newBuilder_dicts (h : Heap V X R) (o p n e) : (h.newBuilder o p n e).dicts = h.dicts := by
  simp [newBuilder, mkBuilder, shareNodes_dicts, shareEdges_dicts]

theorem shareNodes_nodesAt (h : Heap V X R) (a) {x : Nat} (hx : x < h.nsets.length) :
    (h.shareNodes a).1.nodesAt x = h.nodesAt x := by
  unfold shareNodes nodesAt
  split
  · split
    · rfl
    · exact getD_append_lt _ _ _ hx
  · exact getD_append_lt _ _ _ hx

theorem shareEdges_edgesAt (h : Heap V X R) (a) {x : Nat} (hx : x < h.esets.length) :
    (h.shareEdges a).1.edgesAt x = h.edgesAt x := by
  unfold shareEdges edgesAt
  split
  · split
    · rfl
    · exact getD_append_lt _ _ _ hx
  · exact getD_append_lt _ _ _ hx

theorem newBuilder_nodesAt (h : Heap V X R) (o p n e) {x : Nat} (hx : x < h.nsets.length) :
    (h.newBuilder o p n e).nodesAt x = h.nodesAt x := by
  rw [← shareNodes_nodesAt h n hx]
  simp [newBuilder, mkBuilder, nodesAt, shareEdges_nsets]

theorem newBuilder_edgesAt (h : Heap V X R) (o p n e) {x : Nat} (hx : x < h.esets.length) :
    (h.newBuilder o p n e).edgesAt x = h.edgesAt x := by
  have := shareEdges_edgesAt (h.shareNodes n).1 e (x := x) (by rw [shareNodes_esets]; exact hx)
  calc (h.newBuilder o p n e).edgesAt x = ((h.shareNodes n).1.shareEdges e).1.edgesAt x := rfl
    _ = (h.shareNodes n).1.edgesAt x := this
    _ = h.edgesAt x := by simp [edgesAt, shareNodes_esets]

theorem newBuilder_indexAt (h : Heap V X R) (o p n e) {x : Nat} (hx : x < h.index.length) :
    (h.newBuilder o p n e).indexAt x = h.indexAt x := by
  simp only [newBuilder, mkBuilder, indexAt, shareEdges_index, shareNodes_index]
  exact getD_append_lt _ _ _ hx

theorem newGraphBuilder_dictAt (h : Heap V X R) (p i) {x : Nat} (hx : x < h.dicts.length) :
    (h.newGraphBuilder p i).dictAt x = h.dictAt x := by
  unfold newGraphBuilder mkSetBuilder dictAt
  split
  · split
    · rfl
    · exact getD_append_lt _ _ _ hx
  · exact getD_append_lt _ _ _ hx

theorem newGraphBuilder_nsets (h : Heap V X R) (p i) : (h.newGraphBuilder p i).nsets = h.nsets := by
  unfold newGraphBuilder mkSetBuilder; split <;> (try split) <;> rfl
theorem newGraphBuilder_esets (h : Heap V X R) (p i) : (h.newGraphBuilder p i).esets = h.esets := by
  unfold newGraphBuilder mkSetBuilder; split <;> (try split) <;> rfl
theorem newGraphBuilder_index (h : Heap V X R) (p i) : (h.newGraphBuilder p i).index = h.index := by
  unfold newGraphBuilder mkSetBuilder; split <;> (try split) <;> rfl

theorem step_dictAt (h : Heap V X R) (op : HeapOp V X R) {x : Nat} (hx : x < h.dicts.length) (hw : x ∉ wDict h op) :
    (h.step op).dictAt x = h.dictAt x := by
  cases op <;> simp only [step] <;> (repeat' split) <;>
    first
    | rfl
    | exact getD_append_lt _ _ _ hx
    | (refine getD_set_ne _ _ _ ?_
       rintro rfl
       apply hw
       simp_all [wDict, dictTarget, setBuilderTarget])
    | (simp only [dictAt, newBuilder_dicts]; done)
    | exact newGraphBuilder_dictAt h _ _ hx
    | (rw [newGraphBuilder_dictAt _ _ _ (by simp [mkSetBuilder]; omega)]; exact getD_append_lt _ _ _ hx)
    | (simp only [dictAt, mkSet, mkSetBuilder, List.append_assoc]; exact getD_append_lt _ _ _ hx)

theorem step_nodesAt (h : Heap V X R) (op : HeapOp V X R) {x : Nat} (hx : x < h.nsets.length) (hw : x ∉ wNodes h op) :
    (h.step op).nodesAt x = h.nodesAt x := by
  cases op <;> simp only [step] <;> (repeat' split) <;>
    first
    | rfl
    | exact getD_append_lt _ _ _ hx
    | (refine getD_set_ne _ _ _ ?_
       rintro rfl
       apply hw
       simp_all [wNodes, nodesTarget, builderTarget])
    | exact newBuilder_nodesAt h _ _ _ _ hx
    | (simp only [nodesAt, newGraphBuilder_nsets, mkSetBuilder]; done)
    | (refine (getD_append_lt _ _ _ (by simp [writeBuilder, writeNodes, writeEdges, writeIndex]; exact hx)).trans ?_
       refine getD_set_ne _ _ _ ?_
       rintro rfl
       apply hw
       simp_all [wNodes, nodesTarget, builderTarget])

theorem step_edgesAt (h : Heap V X R) (op : HeapOp V X R) {x : Nat} (hx : x < h.esets.length) (hw : x ∉ wEdges h op) :
    (h.step op).edgesAt x = h.edgesAt x := by
  cases op <;> simp only [step] <;> (repeat' split) <;>
    first
    | rfl
    | exact getD_append_lt _ _ _ hx
    | (refine getD_set_ne _ _ _ ?_
       rintro rfl
       apply hw
       simp_all [wEdges, edgesTarget, builderTarget])
    | exact newBuilder_edgesAt h _ _ _ _ hx
    | (simp only [edgesAt, newGraphBuilder_esets, mkSetBuilder]; done)
    | (refine (getD_append_lt _ _ _ (by simp [writeBuilder, writeNodes, writeEdges, writeIndex]; exact hx)).trans ?_
       refine getD_set_ne _ _ _ ?_
       rintro rfl
       apply hw
       simp_all [wEdges, edgesTarget, builderTarget])

theorem step_indexAt (h : Heap V X R) (op : HeapOp V X R) {x : Nat} (hx : x < h.index.length) (hw : x ∉ wIndex h op) :
    (h.step op).indexAt x = h.indexAt x := by
  cases op <;> simp only [step] <;> (repeat' split) <;>
    first
    | rfl
    | exact getD_append_lt _ _ _ hx
    | (refine getD_set_ne _ _ _ ?_
       rintro rfl
       apply hw
       simp_all [wIndex, builderTarget])
    | exact newBuilder_indexAt h _ _ _ _ hx
    | simp only [indexAt, newGraphBuilder_index, mkSetBuilder]

/-! ### The invariant -/

/-- Dictionaries: those of sets are apart from those of builders and of the user, which are pairwise distinct; cached lengths. -/
structure DInv (h : Heap V X R) : Prop where
  rs : ∀ s ∈ h.sets, s.dict < h.dicts.length
  rb : ∀ b ∈ h.setBuilders, b.dict < h.dicts.length
  ru : ∀ a ∈ h.userDicts, a < h.dicts.length
  sb : ∀ s ∈ h.sets, ∀ b ∈ h.setBuilders, s.dict ≠ b.dict
  su : ∀ s ∈ h.sets, s.dict ∉ h.userDicts
  bu : ∀ b ∈ h.setBuilders, b.dict ∉ h.userDicts
  bb : h.setBuilders.Pairwise fun b c => b.dict ≠ c.dict
  uu : h.userDicts.Nodup
  len : ∀ s ∈ h.sets, s.length = (h.dictAt s.dict).vals.sum

/-- Sets of nodes and edges: those of samples are apart from those of builders and of the user; two builders share a set only if it
is a set of the user; every builder has its own index. -/
structure SInv (h : Heap V X R) : Prop where
  sn : ∀ s ∈ h.samples, s.nodes < h.nsets.length
  se : ∀ s ∈ h.samples, s.edges < h.esets.length
  bn : ∀ b ∈ h.builders, b.nodes < h.nsets.length
  be : ∀ b ∈ h.builders, b.edges < h.esets.length
  bi : ∀ b ∈ h.builders, b.eps < h.index.length
  un : ∀ a ∈ h.userNodes, a < h.nsets.length
  ue : ∀ a ∈ h.userEdges, a < h.esets.length
  snb : ∀ s ∈ h.samples, ∀ b ∈ h.builders, s.nodes ≠ b.nodes
  seb : ∀ s ∈ h.samples, ∀ b ∈ h.builders, s.edges ≠ b.edges
  snu : ∀ s ∈ h.samples, s.nodes ∉ h.userNodes
  seu : ∀ s ∈ h.samples, s.edges ∉ h.userEdges
  bnb : h.builders.Pairwise fun b c => b.nodes = c.nodes → b.nodes ∈ h.userNodes
  beb : h.builders.Pairwise fun b c => b.edges = c.edges → b.edges ∈ h.userEdges
  bib : h.builders.Pairwise fun b c => b.eps ≠ c.eps
  uun : h.userNodes.Nodup
  uue : h.userEdges.Nodup

/-- References between objects exist. -/
structure GInv (h : Heap V X R) : Prop where
  gs : ∀ g ∈ h.graphs, g.outcomes < h.sets.length
  gb : ∀ g ∈ h.graphBuilders, g.outcomes < h.setBuilders.length

/-- The invariant. -/
structure Inv (h : Heap V X R) : Prop where
  d : DInv h
  s : SInv h
  g : GInv h

theorem inv_empty : Inv ({} : Heap V X R) := by
  refine ⟨?_, ?_, ?_⟩ <;> constructor <;> simp

theorem DInv.congr {h h' : Heap V X R} (i : DInv h) (e1 : h'.dicts = h.dicts) (e2 : h'.sets = h.sets)
    (e3 : h'.setBuilders = h.setBuilders) (e4 : h'.userDicts = h.userDicts) : DInv h' := by
  obtain ⟨rs, rb, ru, sb, su, bu, bb, uu, len⟩ := i
  constructor <;> simp only [dictAt, e1, e2, e3, e4] <;> assumption

theorem DInv.mkSet {h : Heap V X R} (i : DInv h) (p d) : DInv (h.mkSet p d) := by
  obtain ⟨rs, rb, ru, sb, su, bu, bb, uu, len⟩ := i
  constructor <;> simp only [Heap.mkSet, List.mem_append, List.mem_singleton, List.length_append, List.length_singleton]
  · rintro s (hs | rfl)
    · have := rs s hs; omega
    · simp
  · exact fun b hb => by have := rb b hb; omega
  · exact fun b hb => by have := ru b hb; omega
  · rintro s (hs | rfl) b hb
    · exact sb s hs b hb
    · have := rb b hb; simp; omega
  · rintro s (hs | rfl)
    · exact su s hs
    · intro hu; have := ru _ hu; simp at this
  · exact bu
  · exact bb
  · exact uu
  · rintro s (hs | rfl)
    · rw [len s hs]
      simp only [dictAt]
      rw [getD_append_lt _ _ _ (rs s hs)]
    · simp only [dictAt]
      rw [getD_append_length]

theorem DInv.mkSetBuilder {h : Heap V X R} (i : DInv h) (p d) : DInv (h.mkSetBuilder p d) := by
  obtain ⟨rs, rb, ru, sb, su, bu, bb, uu, len⟩ := i
  constructor <;>
    simp only [Heap.mkSetBuilder, List.mem_append, List.mem_singleton, List.length_append, List.length_singleton]
  · exact fun b hb => by have := rs b hb; omega
  · rintro s (hs | rfl)
    · have := rb s hs; omega
    · simp
  · exact fun b hb => by have := ru b hb; omega
  · rintro s hs b (hb | rfl)
    · exact sb s hs b hb
    · have := rs s hs; simp; omega
  · exact su
  · rintro s (hs | rfl)
    · exact bu s hs
    · intro hu; have := ru _ hu; simp at this
  · rw [List.pairwise_append]
    refine ⟨bb, List.pairwise_singleton _ _, ?_⟩
    intro b hb c hc
    rw [List.mem_singleton] at hc
    subst hc
    have := rb b hb; simp; omega
  · exact uu
  · intro s hs
    rw [len s hs]
    simp only [dictAt]
    rw [getD_append_lt _ _ _ (rs s hs)]

theorem DInv.newUserDict {h : Heap V X R} (i : DInv h) (d) : DInv (h.newUserDict d) := by
  obtain ⟨rs, rb, ru, sb, su, bu, bb, uu, len⟩ := i
  constructor <;>
    simp only [Heap.newUserDict, List.mem_append, List.mem_singleton, List.length_append, List.length_singleton]
  · exact fun b hb => by have := rs b hb; omega
  · exact fun b hb => by have := rb b hb; omega
  · rintro s (hs | rfl)
    · have := ru s hs; omega
    · simp
  · exact sb
  · rintro s hs (hu | hu)
    · exact su s hs hu
    · have := rs s hs; omega
  · rintro s hs (hu | hu)
    · exact bu s hs hu
    · have := rb s hs; omega
  · exact bb
  · rw [List.nodup_append]
    refine ⟨uu, List.nodup_singleton _, ?_⟩
    intro a ha b hb
    rw [List.mem_singleton] at hb
    have := ru a ha; omega
  · intro s hs
    rw [len s hs]
    simp only [dictAt]
    rw [getD_append_lt _ _ _ (rs s hs)]

theorem DInv.writeDict {h : Heap V X R} (i : DInv h) (a d) (ha : ∀ s ∈ h.sets, s.dict ≠ a) : DInv (h.writeDict a d) := by
  obtain ⟨rs, rb, ru, sb, su, bu, bb, uu, len⟩ := i
  constructor <;> simp only [Heap.writeDict, List.length_set]
  · exact rs
  · exact rb
  · exact ru
  · exact sb
  · exact su
  · exact bu
  · exact bb
  · exact uu
  · intro s hs
    rw [len s hs]
    simp only [dictAt]
    rw [getD_set_ne _ _ _ (fun e => ha s hs e.symm)]

theorem DInv.newGraphBuilder {h : Heap V X R} (i : DInv h) (p k) : DInv (h.newGraphBuilder p k) := by
  unfold Heap.newGraphBuilder
  split
  · split
    · exact i.congr rfl rfl rfl rfl
    · exact (i.mkSetBuilder p Dict.empty).congr rfl rfl rfl rfl
  · exact (i.mkSetBuilder p Dict.empty).congr rfl rfl rfl rfl

theorem SInv.congr {h h' : Heap V X R} (i : SInv h) (e1 : h'.nsets.length = h.nsets.length)
    (e2 : h'.esets.length = h.esets.length) (e3 : h'.index.length = h.index.length) (e4 : h'.samples = h.samples)
    (e5 : h'.builders = h.builders) (e6 : h'.userNodes = h.userNodes) (e7 : h'.userEdges = h.userEdges) : SInv h' := by
  obtain ⟨sn, se, bn, be, bi, un, ue, snb, seb, snu, seu, bnb, beb, bib, uun, uue⟩ := i
  constructor <;> simp only [e1, e2, e3, e4, e5, e6, e7] <;> assumption

theorem SInv.mkSample {h : Heap V X R} (i : SInv h) (s) : SInv (h.mkSample s) := by
  obtain ⟨sn, se, bn, be, bi, un, ue, snb, seb, snu, seu, bnb, beb, bib, uun, uue⟩ := i
  constructor <;> simp only [Heap.mkSample, List.mem_append, List.mem_singleton, List.length_append, List.length_singleton]
  · rintro t (ht | rfl)
    · have := sn t ht; omega
    · simp
  · rintro t (ht | rfl)
    · have := se t ht; omega
    · simp
  · exact fun b hb => by have := bn b hb; omega
  · exact fun b hb => by have := be b hb; omega
  · exact bi
  · exact fun b hb => by have := un b hb; omega
  · exact fun b hb => by have := ue b hb; omega
  · rintro t (ht | rfl) b hb
    · exact snb t ht b hb
    · have := bn b hb; simp; omega
  · rintro t (ht | rfl) b hb
    · exact seb t ht b hb
    · have := be b hb; simp; omega
  · rintro t (ht | rfl)
    · exact snu t ht
    · intro hu; have := un _ hu; simp at this
  · rintro t (ht | rfl)
    · exact seu t ht
    · intro hu; have := ue _ hu; simp at this
  · exact bnb
  · exact beb
  · exact bib
  · exact uun
  · exact uue

theorem SInv.newUserNodes {h : Heap V X R} (i : SInv h) (d) : SInv (h.newUserNodes d) := by
  obtain ⟨sn, se, bn, be, bi, un, ue, snb, seb, snu, seu, bnb, beb, bib, uun, uue⟩ := i
  constructor <;>
    simp only [Heap.newUserNodes, List.mem_append, List.mem_singleton, List.length_append, List.length_singleton]
  · exact fun b hb => by have := sn b hb; omega
  · exact se
  · exact fun b hb => by have := bn b hb; omega
  · exact be
  · exact bi
  · rintro t (ht | rfl)
    · have := un t ht; omega
    · simp
  · exact ue
  · exact snb
  · exact seb
  · rintro s hs (hu | hu)
    · exact snu s hs hu
    · have := sn s hs; omega
  · exact seu
  · exact bnb.imp fun hbc e => Or.inl (hbc e)
  · exact beb
  · exact bib
  · rw [List.nodup_append]
    refine ⟨uun, List.nodup_singleton _, ?_⟩
    intro a ha b hb
    rw [List.mem_singleton] at hb
    have := un a ha; omega
  · exact uue

theorem SInv.newUserEdges {h : Heap V X R} (i : SInv h) (d) : SInv (h.newUserEdges d) := by
  obtain ⟨sn, se, bn, be, bi, un, ue, snb, seb, snu, seu, bnb, beb, bib, uun, uue⟩ := i
  constructor <;>
    simp only [Heap.newUserEdges, List.mem_append, List.mem_singleton, List.length_append, List.length_singleton]
  · exact sn
  · exact fun b hb => by have := se b hb; omega
  · exact bn
  · exact fun b hb => by have := be b hb; omega
  · exact bi
  · exact un
  · rintro t (ht | rfl)
    · have := ue t ht; omega
    · simp
  · exact snb
  · exact seb
  · exact snu
  · rintro s hs (hu | hu)
    · exact seu s hs hu
    · have := se s hs; omega
  · exact bnb
  · exact beb.imp fun hbc e => Or.inl (hbc e)
  · exact bib
  · exact uun
  · rw [List.nodup_append]
    refine ⟨uue, List.nodup_singleton _, ?_⟩
    intro a ha b hb
    rw [List.mem_singleton] at hb
    have := ue a ha; omega

/-- A new builder over cells that are new or belong to the user. -/
theorem SInv.addBuilder {h h' : Heap V X R} (i : SInv h) (b : BuilderObj) (g1 : h.nsets.length ≤ h'.nsets.length)
    (g2 : h.esets.length ≤ h'.esets.length) (g3 : h.index.length ≤ h'.index.length) (e4 : h'.samples = h.samples)
    (e5 : h'.builders = h.builders ++ [b]) (e6 : h'.userNodes = h.userNodes) (e7 : h'.userEdges = h.userEdges)
    (n1 : b.nodes < h'.nsets.length) (n2 : b.nodes ∈ h.userNodes ∨ h.nsets.length ≤ b.nodes)
    (m1 : b.edges < h'.esets.length) (m2 : b.edges ∈ h.userEdges ∨ h.esets.length ≤ b.edges)
    (k1 : b.eps < h'.index.length) (k2 : h.index.length ≤ b.eps) : SInv h' := by
  obtain ⟨sn, se, bn, be, bi, un, ue, snb, seb, snu, seu, bnb, beb, bib, uun, uue⟩ := i
  constructor <;> simp only [e4, e5, e6, e7, List.mem_append, List.mem_singleton]
  · exact fun s hs => lt_of_lt_of_le (sn s hs) g1
  · exact fun s hs => lt_of_lt_of_le (se s hs) g2
  · rintro c (hc | rfl)
    · exact lt_of_lt_of_le (bn c hc) g1
    · exact n1
  · rintro c (hc | rfl)
    · exact lt_of_lt_of_le (be c hc) g2
    · exact m1
  · rintro c (hc | rfl)
    · exact lt_of_lt_of_le (bi c hc) g3
    · exact k1
  · exact fun s hs => lt_of_lt_of_le (un s hs) g1
  · exact fun s hs => lt_of_lt_of_le (ue s hs) g2
  · rintro s hs c (hc | rfl)
    · exact snb s hs c hc
    · rcases n2 with n2 | n2
      · exact fun e => snu s hs (e ▸ n2)
      · have := sn s hs; omega
  · rintro s hs c (hc | rfl)
    · exact seb s hs c hc
    · rcases m2 with m2 | m2
      · exact fun e => seu s hs (e ▸ m2)
      · have := se s hs; omega
  · exact snu
  · exact seu
  · rw [List.pairwise_append]
    refine ⟨bnb, List.pairwise_singleton _ _, ?_⟩
    intro c hc d hd e
    rw [List.mem_singleton] at hd
    subst hd
    rcases n2 with n2 | n2
    · exact e ▸ n2
    · have := bn c hc; omega
  · rw [List.pairwise_append]
    refine ⟨beb, List.pairwise_singleton _ _, ?_⟩
    intro c hc d hd e
    rw [List.mem_singleton] at hd
    subst hd
    rcases m2 with m2 | m2
    · exact e ▸ m2
    · have := be c hc; omega
  · rw [List.pairwise_append]
    refine ⟨bib, List.pairwise_singleton _ _, ?_⟩
    intro c hc d hd
    rw [List.mem_singleton] at hd
    subst hd
    have := bi c hc; omega
  · exact uun
  · exact uue

theorem SInv.copyBuilder {h : Heap V X R} (i : SInv h) (o p n e) : SInv (h.copyBuilder o p n e) := by
  refine i.addBuilder ⟨p, h.nsets.length, h.esets.length, h.index.length⟩ ?_ ?_ ?_ rfl rfl rfl rfl ?_ (Or.inr le_rfl) ?_
    (Or.inr le_rfl) ?_ le_rfl <;> simp [Heap.copyBuilder, mkBuilder]

theorem shareNodes_cell (h : Heap V X R) (a) (ha : ∀ x, a = some x → x ∈ h.userNodes) (hu : ∀ x ∈ h.userNodes, x < h.nsets.length) :
    (h.shareNodes a).2 < (h.shareNodes a).1.nsets.length ∧
      ((h.shareNodes a).2 ∈ h.userNodes ∨ h.nsets.length ≤ (h.shareNodes a).2) := by
  unfold shareNodes
  split
  · split
    · exact ⟨hu _ (ha _ rfl), Or.inl (ha _ rfl)⟩
    · simp
  · simp

theorem shareEdges_cell (h : Heap V X R) (a) (ha : ∀ x, a = some x → x ∈ h.userEdges) (hu : ∀ x ∈ h.userEdges, x < h.esets.length) :
    (h.shareEdges a).2 < (h.shareEdges a).1.esets.length ∧
      ((h.shareEdges a).2 ∈ h.userEdges ∨ h.esets.length ≤ (h.shareEdges a).2) := by
  unfold shareEdges
  split
  · split
    · exact ⟨hu _ (ha _ rfl), Or.inl (ha _ rfl)⟩
    · simp
  · simp

theorem shareNodes_rest (h : Heap V X R) (a) : (h.shareNodes a).1 = { h with nsets := (h.shareNodes a).1.nsets } := by
  unfold shareNodes; split <;> (try split) <;> rfl
theorem shareEdges_rest (h : Heap V X R) (a) : (h.shareEdges a).1 = { h with esets := (h.shareEdges a).1.esets } := by
  unfold shareEdges; split <;> (try split) <;> rfl

theorem SInv.newBuilder {h : Heap V X R} (i : SInv h) (o p n e) (hn : ∀ x, n = some x → x ∈ h.userNodes)
    (he : ∀ x, e = some x → x ∈ h.userEdges) : SInv (h.newBuilder o p n e) := by
  have c1 := shareNodes_cell h n hn i.un
  have ee := shareNodes_rest h n
  have hue : (h.shareNodes n).1.userEdges = h.userEdges := by rw [ee]
  have c2 := shareEdges_cell (h.shareNodes n).1 e (by rw [hue]; exact he) (by rw [hue, shareNodes_esets]; exact i.ue)
  rw [hue, shareNodes_esets] at c2
  have g1 := grows_shareNodes h n
  have g2 := grows_shareEdges (h.shareNodes n).1 e
  have e2 := shareEdges_rest (h.shareNodes n).1 e
  have r1 : ((h.shareNodes n).1.shareEdges e).1.samples = h.samples := by rw [e2, ee]
  have r2 : ((h.shareNodes n).1.shareEdges e).1.builders = h.builders := by rw [e2, ee]
  have r3 : ((h.shareNodes n).1.shareEdges e).1.userNodes = h.userNodes := by rw [e2, ee]
  have r4 : ((h.shareNodes n).1.shareEdges e).1.userEdges = h.userEdges := by rw [e2, ee]
  have r5 : ((h.shareNodes n).1.shareEdges e).1.index = h.index := by rw [e2, ee]
  have r6 : ((h.shareNodes n).1.shareEdges e).1.nsets = (h.shareNodes n).1.nsets := shareEdges_nsets _ _
  refine i.addBuilder ⟨p, (h.shareNodes n).2, ((h.shareNodes n).1.shareEdges e).2, h.index.length⟩ ?_ ?_ ?_ ?_ ?_ ?_ ?_ ?_ c1.2 ?_
    c2.2 ?_ le_rfl
  · simp only [Heap.newBuilder, mkBuilder, r6]; exact g1.nsets
  · simp only [Heap.newBuilder, mkBuilder]; exact g1.esets.trans g2.esets
  · simp [Heap.newBuilder, mkBuilder, r5]
  · simp only [Heap.newBuilder, mkBuilder]; exact r1
  · simp only [Heap.newBuilder, mkBuilder, r2, r5]
  · simp only [Heap.newBuilder, mkBuilder]; exact r3
  · simp only [Heap.newBuilder, mkBuilder]; exact r4
  · simp only [Heap.newBuilder, mkBuilder, r6]; exact c1.1
  · simp only [Heap.newBuilder, mkBuilder]; exact c2.1
  · simp [Heap.newBuilder, mkBuilder, r5]

theorem GInv.congr {h h' : Heap V X R} (i : GInv h) (e1 : h.sets.length ≤ h'.sets.length)
    (e2 : h.setBuilders.length ≤ h'.setBuilders.length) (e3 : h'.graphs = h.graphs) (e4 : h'.graphBuilders = h.graphBuilders) :
    GInv h' := by
  obtain ⟨gs, gb⟩ := i
  constructor <;> simp only [e3, e4]
  · exact fun g hg => lt_of_lt_of_le (gs g hg) e1
  · exact fun g hg => lt_of_lt_of_le (gb g hg) e2

theorem GInv.newGraphBuilder {h : Heap V X R} (i : GInv h) (p k) : GInv (h.newGraphBuilder p k) := by
  obtain ⟨gs, gb⟩ := i
  have aux : GInv { h.mkSetBuilder p Dict.empty with
      graphBuilders := h.graphBuilders ++ [⟨p, h.setBuilders.length, h.schemaOf p⟩] } := by
    refine ⟨gs, ?_⟩
    simp only [mkSetBuilder, List.mem_append, List.mem_singleton, List.length_append, List.length_singleton]
    rintro g (hg | rfl)
    · have := gb g hg; omega
    · simp
  unfold Heap.newGraphBuilder
  split
  next j b hj =>
    split
    · refine ⟨gs, ?_⟩
      simp only [List.mem_append, List.mem_singleton]
      rintro g (hg | rfl)
      · exact gb g hg
      · cases k with
        | none => simp at hj
        | some k =>
          simp only [Option.bind_eq_bind, Option.bind_some, Option.map_eq_some_iff, Prod.mk.injEq] at hj
          obtain ⟨c, hc, rfl, rfl⟩ := hj
          exact (List.getElem?_eq_some_iff.mp hc).1
    · exact aux
  · exact aux

theorem newGraphBuilder_rest (h : Heap V X R) (p k) :
    (h.newGraphBuilder p k).nsets = h.nsets ∧ (h.newGraphBuilder p k).esets = h.esets ∧
      (h.newGraphBuilder p k).index = h.index ∧ (h.newGraphBuilder p k).samples = h.samples ∧
      (h.newGraphBuilder p k).builders = h.builders ∧ (h.newGraphBuilder p k).userNodes = h.userNodes ∧
      (h.newGraphBuilder p k).userEdges = h.userEdges := by
  unfold newGraphBuilder mkSetBuilder; split <;> (try split) <;> simp

theorem SInv.newGraphBuilder {h : Heap V X R} (i : SInv h) (p k) : SInv (h.newGraphBuilder p k) := by
  obtain ⟨e1, e2, e3, e4, e5, e6, e7⟩ := newGraphBuilder_rest h p k
  exact i.congr (by rw [e1]) (by rw [e2]) (by rw [e3]) e4 e5 e6 e7

theorem newBuilder_rest (h : Heap V X R) (o p n e) :
    (h.newBuilder o p n e).sets = h.sets ∧ (h.newBuilder o p n e).setBuilders = h.setBuilders ∧
      (h.newBuilder o p n e).userDicts = h.userDicts ∧ (h.newBuilder o p n e).graphs = h.graphs ∧
      (h.newBuilder o p n e).graphBuilders = h.graphBuilders := by
  have ee := shareNodes_rest h n
  have e2 := shareEdges_rest (h.shareNodes n).1 e
  simp only [newBuilder, mkBuilder]
  refine ⟨?_, ?_, ?_, ?_, ?_⟩ <;> rw [e2, ee]

theorem userAddr_mem {l : List Nat} {i : Option Nat} {a : Nat} (h : userAddr l i = some a) : a ∈ l := by
  cases i with
  | none => simp [userAddr] at h
  | some i => exact List.mem_of_getElem? (by simpa [userAddr] using h)

theorem step_dinv {h : Heap V X R} (i : DInv h) (op : HeapOp V X R) : DInv (h.step op) := by
  have hb : ∀ {j : Nat} {b : SetBuilderObj}, h.setBuilders[j]? = some b → ∀ s ∈ h.sets, s.dict ≠ b.dict :=
    fun hj s hs => i.sb s hs _ (List.mem_of_getElem? hj)
  cases op <;> simp only [step] <;> (repeat' split) <;>
    first
    | exact i
    | exact i.congr rfl rfl rfl rfl
    | exact i.newUserDict _
    | exact i.writeDict _ _ (hb ‹h.setBuilders[_]? = some _›)
    | exact i.writeDict _ _ fun s hs e => i.su s hs (e ▸ List.mem_of_getElem? ‹h.userDicts[_]? = some _›)
    | exact (i.mkSetBuilder _ _).mkSet _ _
    | exact (i.mkSetBuilder _ _).newGraphBuilder _ _
    | exact i.mkSet _ _
    | exact (i.mkSet _ _).congr rfl rfl rfl rfl
    | exact i.mkSetBuilder _ _
    | exact i.newGraphBuilder _ _
    | (obtain ⟨e1, e2, e3, -⟩ := newBuilder_rest h _ _ _ _; exact i.congr (newBuilder_dicts _ _ _ _ _) e1 e2 e3)

theorem step_sinv {h : Heap V X R} (i : SInv h) (op : HeapOp V X R) : SInv (h.step op) := by
  have hw : ∀ b b', SInv (h.writeBuilder b b') := fun b b' =>
    i.congr (by simp [writeBuilder, writeNodes, writeEdges, writeIndex])
      (by simp [writeBuilder, writeNodes, writeEdges, writeIndex]) (by simp [writeBuilder, writeNodes, writeEdges, writeIndex])
      rfl rfl rfl rfl
  cases op <;> simp only [step] <;> (repeat' split) <;>
    first
    | exact i
    | exact i.congr rfl rfl rfl rfl rfl rfl rfl
    | exact hw _ _
    | exact i.newUserNodes _
    | exact i.newUserEdges _
    | exact i.congr (by simp [writeNodes]) rfl rfl rfl rfl rfl rfl
    | exact i.congr rfl (by simp [writeEdges]) rfl rfl rfl rfl rfl
    | exact i.mkSample _
    | exact (hw _ _).mkSample _
    | exact i.copyBuilder _ _ _ _
    | exact i.newBuilder _ _ _ _ (fun _ => userAddr_mem) (fun _ => userAddr_mem)
    | exact i.newGraphBuilder _ _
    | exact SInv.newGraphBuilder (h := h.mkSetBuilder _ _) (i.congr rfl rfl rfl rfl rfl rfl rfl) _ _

theorem step_ginv {h : Heap V X R} (i : GInv h) (op : HeapOp V X R) : GInv (h.step op) := by
  cases op <;> simp only [step] <;> (repeat' split) <;>
    first
    | exact i
    | exact i.congr le_rfl le_rfl rfl rfl
    | exact i.newGraphBuilder _ _
    | exact GInv.newGraphBuilder (h := h.mkSetBuilder _ _)
        (i.congr (grows_mkSetBuilder h _ _).sets.length_le (grows_mkSetBuilder h _ _).setBuilders.length_le rfl rfl) _ _
    | exact i.congr (grows_mkSet h _ _).sets.length_le (grows_mkSet h _ _).setBuilders.length_le rfl rfl
    | exact i.congr (grows_mkSetBuilder h _ _).sets.length_le (grows_mkSetBuilder h _ _).setBuilders.length_le rfl rfl
    | exact i.congr ((grows_mkSetBuilder h _ _).trans (grows_mkSet _ _ _)).sets.length_le
        ((grows_mkSetBuilder h _ _).trans (grows_mkSet _ _ _)).setBuilders.length_le rfl rfl
    | (obtain ⟨e1, e2, -, e4, e5⟩ := newBuilder_rest h _ _ _ _; exact i.congr (by rw [e1]) (by rw [e2]) e4 e5)
    | (refine ⟨?_, i.gb⟩
       simp only [mkSet, List.mem_append, List.mem_singleton, List.length_append, List.length_singleton]
       rintro g (hg | rfl)
       · have := i.gs g hg; omega
       · simp)
    | (refine ⟨?_, i.gb⟩
       simp only [List.mem_append, List.mem_singleton]
       rintro g (hg | rfl)
       · exact i.gs g hg
       · have hg := List.mem_of_getElem? ‹h.graphs[_]? = some _›
         have hg' := i.gs _ hg
         exact hg')

theorem inv_step {h : Heap V X R} (i : Inv h) (op : HeapOp V X R) : Inv (h.step op) :=
  ⟨step_dinv i.d op, step_sinv i.s op, step_ginv i.g op⟩

theorem inv_run (ops : List (HeapOp V X R)) : ∀ {h : Heap V X R}, Inv h → Inv (h.run ops) := by
  induction ops with
  | nil => exact fun i => i
  | cons op t ih => exact fun i => ih (inv_step i op)

/-- A heap reached from the empty one. -/
def Reached (h : Heap V X R) : Prop := ∃ ops, h = run ({} : Heap V X R) ops

theorem Reached.inv {h : Heap V X R} (r : Reached h) : Inv h := by
  obtain ⟨ops, rfl⟩ := r
  exact inv_run ops inv_empty

theorem Reached.run {h : Heap V X R} (r : Reached h) (ops) : Reached (h.run ops) := by
  obtain ⟨pre, rfl⟩ := r
  exact ⟨pre ++ ops, by simp [Heap.run, List.foldl_append]⟩

/-! ### What a program can observe -/

/-- The `SampleSet` number `k`: its value and its cached length. -/
def setValue (h : Heap V X R) (k : Nat) : Option (Samples V X R × ℤ) := h.sets[k]?.map fun s => (h.setView s, s.length)

/-- The `SampleSetBuilder` number `k`. -/
def setBuilderValue (h : Heap V X R) (k : Nat) : Option (Samples V X R) := h.setBuilders[k]?.map h.setBuilderView

/-- The `SampleGraph` number `k`. -/
def sampleValue (h : Heap V X R) (k : Nat) : Option (Sample V X R) := h.samples[k]?.map h.sampleView

/-- The `SampleGraphBuilder` number `k`. -/
def builderValue (h : Heap V X R) (k : Nat) : Option (Builder V X R) := h.builders[k]?.map h.builderView

/-- The `RelationGraph` number `k`: provider, declared variables and relations, outcomes. -/
def graphValue (h : Heap V X R) (k : Nat) : Option (Nat × Option (Schema V X R) × Samples V X R × ℤ) :=
  h.graphs[k]? >>= fun g => (h.setValue g.outcomes).map fun v => (g.prov, g.declared, v)

/-- The user dictionary number `k`. -/
def userDictValue (h : Heap V X R) (k : Nat) : Option (Dict (SampleGraph V X R) ℤ) := h.userDicts[k]?.map h.dictAt

theorem getElem?_of_prefix {α : Type} {l m : List α} (p : l <+: m) {k : Nat} (hk : k < l.length) : m[k]? = l[k]? := by
  obtain ⟨t, rfl⟩ := p
  exact List.getElem?_append_left hk

theorem wDict_cases {h : Heap V X R} {op : HeapOp V X R} {a : Nat} (ha : a ∈ wDict h op) :
    (∃ i, dictTarget op = some i ∧ h.userDicts[i]? = some a) ∨
      ∃ i b, setBuilderTarget h op = some i ∧ h.setBuilders[i]? = some b ∧ b.dict = a := by
  unfold wDict at ha
  rcases List.mem_append.mp ha with ha | ha
  · split at ha
    · next i hi => exact Or.inl ⟨i, hi, by simpa using ha⟩
    · simp at ha
  · split at ha
    · next i hi =>
      simp only [Option.mem_toList, Option.map_eq_some_iff] at ha
      obtain ⟨b, hb, rfl⟩ := ha
      exact Or.inr ⟨i, b, hi, hb, rfl⟩
    · simp at ha

theorem wNodes_cases {h : Heap V X R} {op : HeapOp V X R} {a : Nat} (ha : a ∈ wNodes h op) :
    (∃ i, nodesTarget op = some i ∧ h.userNodes[i]? = some a) ∨
      ∃ i b, builderTarget op = some i ∧ h.builders[i]? = some b ∧ b.nodes = a := by
  unfold wNodes at ha
  rcases List.mem_append.mp ha with ha | ha
  · split at ha
    · next i hi => exact Or.inl ⟨i, hi, by simpa using ha⟩
    · simp at ha
  · split at ha
    · next i hi =>
      simp only [Option.mem_toList, Option.map_eq_some_iff] at ha
      obtain ⟨b, hb, rfl⟩ := ha
      exact Or.inr ⟨i, b, hi, hb, rfl⟩
    · simp at ha

theorem wEdges_cases {h : Heap V X R} {op : HeapOp V X R} {a : Nat} (ha : a ∈ wEdges h op) :
    (∃ i, edgesTarget op = some i ∧ h.userEdges[i]? = some a) ∨
      ∃ i b, builderTarget op = some i ∧ h.builders[i]? = some b ∧ b.edges = a := by
  unfold wEdges at ha
  rcases List.mem_append.mp ha with ha | ha
  · split at ha
    · next i hi => exact Or.inl ⟨i, hi, by simpa using ha⟩
    · simp at ha
  · split at ha
    · next i hi =>
      simp only [Option.mem_toList, Option.map_eq_some_iff] at ha
      obtain ⟨b, hb, rfl⟩ := ha
      exact Or.inr ⟨i, b, hi, hb, rfl⟩
    · simp at ha

theorem wIndex_cases {h : Heap V X R} {op : HeapOp V X R} {a : Nat} (ha : a ∈ wIndex h op) :
    ∃ i b, builderTarget op = some i ∧ h.builders[i]? = some b ∧ b.eps = a := by
  unfold wIndex at ha
  split at ha
  · next i hi =>
    simp only [Option.mem_toList, Option.map_eq_some_iff] at ha
    obtain ⟨b, hb, rfl⟩ := ha
    exact ⟨i, b, hi, hb, rfl⟩
  · simp at ha

theorem setValue_step {h : Heap V X R} (i : Inv h) (op : HeapOp V X R) {k : Nat} (hk : k < h.sets.length) :
    (h.step op).setValue k = h.setValue k := by
  unfold setValue
  rw [getElem?_of_prefix (grows_step h op).sets hk]
  obtain ⟨s, hs⟩ : ∃ s, h.sets[k]? = some s := ⟨_, List.getElem?_eq_getElem hk⟩
  have hm := List.mem_of_getElem? hs
  have e : (h.step op).dictAt s.dict = h.dictAt s.dict := by
    refine step_dictAt h op (i.d.rs s hm) fun hw => ?_
    rcases wDict_cases hw with ⟨j, -, hj⟩ | ⟨j, b, -, hj, hb⟩
    · exact i.d.su s hm (List.mem_of_getElem? hj)
    · exact i.d.sb s hm b (List.mem_of_getElem? hj) hb.symm
  simp [hs, setView, e]

theorem sampleValue_step {h : Heap V X R} (i : Inv h) (op : HeapOp V X R) {k : Nat} (hk : k < h.samples.length) :
    (h.step op).sampleValue k = h.sampleValue k := by
  unfold sampleValue
  rw [getElem?_of_prefix (grows_step h op).samples hk]
  obtain ⟨s, hs⟩ : ∃ s, h.samples[k]? = some s := ⟨_, List.getElem?_eq_getElem hk⟩
  have hm := List.mem_of_getElem? hs
  have e : (h.step op).nodesAt s.nodes = h.nodesAt s.nodes := by
    refine step_nodesAt h op (i.s.sn s hm) fun hw => ?_
    rcases wNodes_cases hw with ⟨j, -, hj⟩ | ⟨j, b, -, hj, hb⟩
    · exact i.s.snu s hm (List.mem_of_getElem? hj)
    · exact i.s.snb s hm b (List.mem_of_getElem? hj) hb.symm
  have e' : (h.step op).edgesAt s.edges = h.edgesAt s.edges := by
    refine step_edgesAt h op (i.s.se s hm) fun hw => ?_
    rcases wEdges_cases hw with ⟨j, -, hj⟩ | ⟨j, b, -, hj, hb⟩
    · exact i.s.seu s hm (List.mem_of_getElem? hj)
    · exact i.s.seb s hm b (List.mem_of_getElem? hj) hb.symm
  simp [hs, sampleView, e, e']

theorem setValue_run (ops : List (HeapOp V X R)) :
    ∀ {h : Heap V X R}, Inv h → ∀ {k : Nat}, k < h.sets.length → (h.run ops).setValue k = h.setValue k := by
  induction ops with
  | nil => exact fun _ _ _ => rfl
  | cons op t ih =>
    intro h i k hk
    exact (ih (inv_step i op) (lt_of_lt_of_le hk (grows_step h op).sets.length_le)).trans (setValue_step i op hk)

theorem sampleValue_run (ops : List (HeapOp V X R)) :
    ∀ {h : Heap V X R}, Inv h → ∀ {k : Nat}, k < h.samples.length → (h.run ops).sampleValue k = h.sampleValue k := by
  induction ops with
  | nil => exact fun _ _ _ => rfl
  | cons op t ih =>
    intro h i k hk
    exact (ih (inv_step i op) (lt_of_lt_of_le hk (grows_step h op).samples.length_le)).trans (sampleValue_step i op hk)

/-- C47: nothing a program does later changes a `SampleSet` (its samples, counts, cached length), a `SampleGraph` or a
`RelationGraph` (its outcomes, provider, declared variables and relations) that exists now. -/
theorem C47_immutable {h : Heap V X R} (r : Reached h) (ops : List (HeapOp V X R)) :
    (∀ k < h.sets.length, (h.run ops).setValue k = h.setValue k) ∧
      (∀ k < h.samples.length, (h.run ops).sampleValue k = h.sampleValue k) ∧
      (∀ k < h.graphs.length, (h.run ops).graphValue k = h.graphValue k) := by
  refine ⟨fun k hk => setValue_run ops r.inv hk, fun k hk => sampleValue_run ops r.inv hk, fun k hk => ?_⟩
  unfold graphValue
  rw [getElem?_of_prefix (grows_run ops h).graphs hk, List.getElem?_eq_getElem hk]
  simp only [Option.bind_eq_bind, Option.bind_some]
  rw [setValue_run ops r.inv (r.inv.g.gs _ (List.getElem_mem hk))]

/-- C47: the length cached by a `SampleSet` is the number of its samples, at every later time. Every set, sample and graph in the
list has a value. -/
theorem C47_length {h : Heap V X R} (r : Reached h) (k : Nat) (hk : k < h.sets.length) :
    ∃ v, h.setValue k = some (v, v.length) := by
  refine ⟨h.setView h.sets[k], ?_⟩
  rw [setValue, List.getElem?_eq_getElem hk, Option.map_some, r.inv.d.len _ (List.getElem_mem hk)]
  rfl

/-- Some operation of the history `ops`, at the heap it is applied to, satisfies `P`. -/
def Somewhere (P : Heap V X R → HeapOp V X R → Prop) : Heap V X R → List (HeapOp V X R) → Prop
  | _, [] => False
  | h, op :: t => P h op ∨ Somewhere P (h.step op) t

theorem setBuilderValue_step {h : Heap V X R} (i : Inv h) (op : HeapOp V X R) {k : Nat} (hk : k < h.setBuilders.length)
    (ht : setBuilderTarget h op ≠ some k) : (h.step op).setBuilderValue k = h.setBuilderValue k := by
  unfold setBuilderValue
  rw [getElem?_of_prefix (grows_step h op).setBuilders hk]
  obtain ⟨s, hs⟩ : ∃ s, h.setBuilders[k]? = some s := ⟨_, List.getElem?_eq_getElem hk⟩
  have hm := List.mem_of_getElem? hs
  have e : (h.step op).dictAt s.dict = h.dictAt s.dict := by
    refine step_dictAt h op (i.d.rb s hm) fun hw => ?_
    rcases wDict_cases hw with ⟨j, -, hj⟩ | ⟨j, b, ht', hj, hb⟩
    · exact i.d.bu s hm (List.mem_of_getElem? hj)
    · have hjk : j ≠ k := fun e => ht (e ▸ ht')
      have hpw := List.pairwise_iff_getElem.mp i.d.bb
      obtain ⟨hj1, hj2⟩ := List.getElem?_eq_some_iff.mp hj
      obtain ⟨hk1, hk2⟩ := List.getElem?_eq_some_iff.mp hs
      rcases lt_or_gt_of_ne hjk with h1 | h1
      · exact hpw j k hj1 hk1 h1 (by rw [hj2, hk2]; exact hb)
      · exact hpw k j hk1 hj1 h1 (by rw [hj2, hk2]; exact hb.symm)
  simp [hs, setBuilderView, e]

/-- C47: a `SampleSetBuilder` changes only by `add`, `add_all`, `remove`, `remove_all` called on it, or by `add_outcome` called on a
`RelationGraphBuilder` that holds it. In particular copies, built sets, other builders and the dictionary it was made from are
independent of it. -/
theorem C47_set_builder {h : Heap V X R} (r : Reached h) (ops : List (HeapOp V X R)) (k : Nat) (hk : k < h.setBuilders.length)
    (hn : ¬ Somewhere (fun h op => setBuilderTarget h op = some k) h ops) :
    (h.run ops).setBuilderValue k = h.setBuilderValue k := by
  have i := r.inv
  clear r
  induction ops generalizing h with
  | nil => rfl
  | cons op t ih =>
    simp only [Somewhere, not_or] at hn
    exact (ih (lt_of_lt_of_le hk (grows_step h op).setBuilders.length_le) hn.2 (inv_step i op)).trans
      (setBuilderValue_step i op hk hn.1)

/-- C47: a dictionary of the user is changed by nobody else. -/
theorem C47_user_dict {h : Heap V X R} (r : Reached h) (ops : List (HeapOp V X R)) (k : Nat) (hk : k < h.userDicts.length)
    (hn : ¬ Somewhere (fun _ op => dictTarget op = some k) h ops) :
    (h.run ops).userDictValue k = h.userDictValue k := by
  have i := r.inv
  clear r
  induction ops generalizing h with
  | nil => rfl
  | cons op t ih =>
    simp only [Somewhere, not_or] at hn
    refine (ih (lt_of_lt_of_le hk (grows_step h op).userDicts.length_le) hn.2 (inv_step i op)).trans ?_
    unfold userDictValue
    rw [getElem?_of_prefix (grows_step h op).userDicts hk, List.getElem?_eq_getElem hk, Option.map_some, Option.map_some]
    congr 1
    refine step_dictAt h op (i.d.ru _ (List.getElem_mem hk)) fun hw => ?_
    rcases wDict_cases hw with ⟨j, hj', hj⟩ | ⟨j, b, -, hj, hb⟩
    · obtain ⟨hj1, hj2⟩ := List.getElem?_eq_some_iff.mp hj
      have := (List.Nodup.getElem_inj_iff i.d.uu).mp hj2
      exact hn.1 (this ▸ hj')
    · exact i.d.bu b (List.mem_of_getElem? hj) (hb ▸ List.getElem_mem hk)

/-- Two sample graph builders have a set in common. -/
def Shares (h : Heap V X R) (j k : Nat) : Prop :=
  ∃ b c, h.builders[j]? = some b ∧ h.builders[k]? = some c ∧ (b.nodes = c.nodes ∨ b.edges = c.edges)

/-- A sample graph builder works on sets of the user. -/
def OnUserSets (h : Heap V X R) (k : Nat) : Prop :=
  ∃ b, h.builders[k]? = some b ∧ (b.nodes ∈ h.userNodes ∨ b.edges ∈ h.userEdges)

/-- The operation changes sample graph builder `k`, or one sharing a set with it, or the user changes a set it works on. -/
def Touches (k : Nat) (h : Heap V X R) (op : HeapOp V X R) : Prop :=
  (∃ j, builderTarget op = some j ∧ (j = k ∨ Shares h j k)) ∨
    (∃ j b a, nodesTarget op = some j ∧ h.builders[k]? = some b ∧ h.userNodes[j]? = some a ∧ b.nodes = a) ∨
    (∃ j b a, edgesTarget op = some j ∧ h.builders[k]? = some b ∧ h.userEdges[j]? = some a ∧ b.edges = a)

theorem builderValue_step {h : Heap V X R} (i : Inv h) (op : HeapOp V X R) {k : Nat} (hk : k < h.builders.length)
    (ht : ¬ Touches k h op) : (h.step op).builderValue k = h.builderValue k := by
  unfold builderValue
  rw [getElem?_of_prefix (grows_step h op).builders hk]
  obtain ⟨s, hs⟩ : ∃ s, h.builders[k]? = some s := ⟨_, List.getElem?_eq_getElem hk⟩
  have hm := List.mem_of_getElem? hs
  have e1 : (h.step op).nodesAt s.nodes = h.nodesAt s.nodes := by
    refine step_nodesAt h op (i.s.bn s hm) fun hw => ht ?_
    rcases wNodes_cases hw with ⟨j, hj', hj⟩ | ⟨j, b, ht', hj, hb⟩
    · exact Or.inr (Or.inl ⟨j, s, _, hj', hs, hj, rfl⟩)
    · exact Or.inl ⟨j, ht', Or.inr ⟨b, s, hj, hs, Or.inl hb⟩⟩
  have e2 : (h.step op).edgesAt s.edges = h.edgesAt s.edges := by
    refine step_edgesAt h op (i.s.be s hm) fun hw => ht ?_
    rcases wEdges_cases hw with ⟨j, hj', hj⟩ | ⟨j, b, ht', hj, hb⟩
    · exact Or.inr (Or.inr ⟨j, s, _, hj', hs, hj, rfl⟩)
    · exact Or.inl ⟨j, ht', Or.inr ⟨b, s, hj, hs, Or.inr hb⟩⟩
  have e3 : (h.step op).indexAt s.eps = h.indexAt s.eps := by
    refine step_indexAt h op (i.s.bi s hm) fun hw => ht ?_
    obtain ⟨j, b, ht', hj, hb⟩ := wIndex_cases hw
    refine Or.inl ⟨j, ht', ?_⟩
    by_cases hjk : j = k
    · exact Or.inl hjk
    exfalso
    have hpw := List.pairwise_iff_getElem.mp i.s.bib
    obtain ⟨hj1, hj2⟩ := List.getElem?_eq_some_iff.mp hj
    obtain ⟨hk1, hk2⟩ := List.getElem?_eq_some_iff.mp hs
    rcases lt_or_gt_of_ne hjk with h1 | h1
    · exact hpw j k hj1 hk1 h1 (by rw [hj2, hk2]; exact hb)
    · exact hpw k j hk1 hj1 h1 (by rw [hj2, hk2]; exact hb.symm)
  simp [hs, builderView, e1, e2, e3]

/-- C47: a `SampleGraphBuilder` changes only by operations on it, on a builder sharing a set with it, or by the user changing a set
that was passed to it. -/
theorem C47_sample_builder {h : Heap V X R} (r : Reached h) (ops : List (HeapOp V X R)) (k : Nat) (hk : k < h.builders.length)
    (hn : ¬ Somewhere (Touches k) h ops) : (h.run ops).builderValue k = h.builderValue k := by
  have i := r.inv
  clear r
  induction ops generalizing h with
  | nil => rfl
  | cons op t ih =>
    simp only [Somewhere, not_or] at hn
    exact (ih (lt_of_lt_of_le hk (grows_step h op).builders.length_le) hn.2 (inv_step i op)).trans
      (builderValue_step i op hk hn.1)

/-- C47: the only sharing between two `SampleGraphBuilder`s is a set of the user. -/
theorem C47_shares {h : Heap V X R} (r : Reached h) (j k : Nat) (hjk : j ≠ k) (hs : Shares h j k) :
    OnUserSets h j ∧ OnUserSets h k := by
  obtain ⟨b, c, hb, hc, he⟩ := hs
  obtain ⟨hj1, hj2⟩ := List.getElem?_eq_some_iff.mp hb
  obtain ⟨hk1, hk2⟩ := List.getElem?_eq_some_iff.mp hc
  have hn := List.pairwise_iff_getElem.mp r.inv.s.bnb
  have hm := List.pairwise_iff_getElem.mp r.inv.s.beb
  rcases he with he | he
  · have : b.nodes ∈ h.userNodes := by
      rcases lt_or_gt_of_ne hjk with h1 | h1
      · have := hn j k hj1 hk1 h1; rw [hj2, hk2] at this; exact this he
      · have := hn k j hk1 hj1 h1; rw [hj2, hk2] at this; rw [he]; exact this he.symm
    exact ⟨⟨b, hb, Or.inl this⟩, ⟨c, hc, Or.inl (he ▸ this)⟩⟩
  · have : b.edges ∈ h.userEdges := by
      rcases lt_or_gt_of_ne hjk with h1 | h1
      · have := hm j k hj1 hk1 h1; rw [hj2, hk2] at this; exact this he
      · have := hm k j hk1 hj1 h1; rw [hj2, hk2] at this; rw [he]; exact this he.symm
    exact ⟨⟨b, hb, Or.inr this⟩, ⟨c, hc, Or.inr (he ▸ this)⟩⟩

theorem step_userNodes (h : Heap V X R) (op : HeapOp V X R) {a : Nat} (ha : a ∈ (h.step op).userNodes) :
    a ∈ h.userNodes ∨ h.nsets.length ≤ a := by
  revert ha
  cases op <;> simp only [step] <;> (repeat' split) <;>
    first
    | exact Or.inl
    | (intro ha; left; rw [(newGraphBuilder_rest _ _ _).2.2.2.2.2.1] at ha; exact ha)
    | (intro ha; left
       simp only [newBuilder, mkBuilder] at ha
       rw [shareEdges_rest, shareNodes_rest] at ha
       exact ha)
    | (simp only [newUserNodes, List.mem_append, List.mem_singleton]
       rintro (ha | rfl)
       · exact Or.inl ha
       · exact Or.inr le_rfl)

theorem step_userEdges (h : Heap V X R) (op : HeapOp V X R) {a : Nat} (ha : a ∈ (h.step op).userEdges) :
    a ∈ h.userEdges ∨ h.esets.length ≤ a := by
  revert ha
  cases op <;> simp only [step] <;> (repeat' split) <;>
    first
    | exact Or.inl
    | (intro ha; left; rw [(newGraphBuilder_rest _ _ _).2.2.2.2.2.2] at ha; exact ha)
    | (intro ha; left
       simp only [newBuilder, mkBuilder] at ha
       rw [shareEdges_rest, shareNodes_rest] at ha
       exact ha)
    | (simp only [newUserEdges, List.mem_append, List.mem_singleton]
       rintro (ha | rfl)
       · exact Or.inl ha
       · exact Or.inr le_rfl)

theorem onUserSets_step {h : Heap V X R} (i : Inv h) (op : HeapOp V X R) {k : Nat} (hk : k < h.builders.length)
    (hu : OnUserSets (h.step op) k) : OnUserSets h k := by
  obtain ⟨b, hb, hu⟩ := hu
  rw [getElem?_of_prefix (grows_step h op).builders hk] at hb
  have hm := List.mem_of_getElem? hb
  refine ⟨b, hb, hu.imp (fun hu => ?_) (fun hu => ?_)⟩
  · rcases step_userNodes h op hu with h1 | h1
    · exact h1
    · have := i.s.bn b hm; omega
  · rcases step_userEdges h op hu with h1 | h1
    · exact h1
    · have := i.s.be b hm; omega

/-- C47: a `SampleGraphBuilder` that was not given sets of the user (or only empty ones) changes only by operations on it. -/
theorem C47_private_builder {h : Heap V X R} (r : Reached h) (ops : List (HeapOp V X R)) (k : Nat) (hk : k < h.builders.length)
    (hp : ¬ OnUserSets h k) (hn : ¬ Somewhere (fun _ op => builderTarget op = some k) h ops) :
    (h.run ops).builderValue k = h.builderValue k := by
  induction ops generalizing h with
  | nil => rfl
  | cons op t ih =>
    simp only [Somewhere, not_or] at hn
    refine (ih (h := h.step op) (r.run [op]) (lt_of_lt_of_le hk (grows_step h op).builders.length_le)
      (fun hu => hp (onUserSets_step r.inv op hk hu)) hn.2).trans (builderValue_step r.inv op hk ?_)
    rintro (⟨j, hj, rfl | hs⟩ | ⟨j, b, a, -, hb, ha, rfl⟩ | ⟨j, b, a, -, hb, ha, rfl⟩)
    · exact hn.1 hj
    · by_cases hjk : j = k
      · exact hn.1 (hjk ▸ hj)
      · exact hp (C47_shares r j k hjk hs).2
    · exact hp ⟨b, hb, Or.inl (List.mem_of_getElem? ha)⟩
    · exact hp ⟨b, hb, Or.inr (List.mem_of_getElem? ha)⟩

/-! ### Copies -/

theorem getElem?_append_length {α : Type} (l : List α) (x : α) : (l ++ [x])[l.length]? = some x := by simp

/-- C47: `SampleSetBuilder.copy`, `SampleSetBuilder.build`, `SampleSet.builder` give a new object with the same contents;
`SampleSet(provider, d)` and `SampleSetBuilder(provider, d)` a new object with the contents of the dictionary. By `C47_immutable`,
`C47_set_builder`, `C47_user_dict` the new object and the old one have independent lives. -/
theorem C47_set_copies (h : Heap V X R) (k p : Nat) (v : Samples V X R) :
    (h.setBuilderValue k = some v → (h.step (.copySetBuilder k)).setBuilderValue h.setBuilders.length = some v) ∧
      (h.setBuilderValue k = some v → (h.step (.buildSet k)).setValue h.sets.length = some (v, v.length)) ∧
      (∀ n, h.setValue k = some (v, n) → (h.step (.setToBuilder k)).setBuilderValue h.setBuilders.length = some v) ∧
      (∀ d, h.userDictValue k = some d →
        (h.step (.sampleSet p k)).setValue h.sets.length = some (⟨p, d⟩, Samples.length ⟨p, d⟩) ∧
          (h.step (.setBuilder p (some k))).setBuilderValue h.setBuilders.length = some ⟨p, d⟩) := by
  refine ⟨fun hv => ?_, fun hv => ?_, fun n hv => ?_, fun d hd => ?_⟩
  · obtain ⟨b, hb, rfl⟩ := Option.map_eq_some_iff.mp hv
    simp only [step, hb, mkSetBuilder, setBuilderValue, getElem?_append_length, Option.map_some]
    simp [setBuilderView, dictAt]
  · obtain ⟨b, hb, rfl⟩ := Option.map_eq_some_iff.mp hv
    simp only [step, hb, mkSet, setValue, getElem?_append_length, Option.map_some]
    simp [setBuilderView, setView, dictAt, Samples.length]
  · obtain ⟨b, hb, he⟩ := Option.map_eq_some_iff.mp hv
    obtain ⟨rfl, rfl⟩ := Prod.mk.inj he
    simp only [step, hb, mkSetBuilder, setBuilderValue, getElem?_append_length, Option.map_some]
    simp [setBuilderView, setView, dictAt]
  · obtain ⟨a, ha, rfl⟩ := Option.map_eq_some_iff.mp hd
    constructor
    · simp only [step, ha, mkSet, setValue, getElem?_append_length, Option.map_some]
      simp [setView, dictAt, Samples.length]
    · simp only [step, userAddr, Option.bind_eq_bind, Option.bind_some, ha, mkSetBuilder, setBuilderValue,
        getElem?_append_length, Option.map_some]
      simp [setBuilderView, dictAt]

theorem builderView_mkBuilder_last (h : Heap V X R) (o p n e) :
    (h.mkBuilder o p n e).builderValue h.builders.length = some (Builder.ofSets o p (h.nodesAt n) (h.edgesAt e)) := by
  simp only [mkBuilder, builderValue, getElem?_append_length, Option.map_some]
  simp [builderView, Builder.ofSets, indexAt, nodesAt, edgesAt]

theorem copyBuilder_value (h : Heap V X R) (o p n e) :
    (h.copyBuilder o p n e).builderValue h.builders.length = some (Builder.ofSets o p n e) := by
  refine (builderView_mkBuilder_last (h := { h with nsets := h.nsets ++ [n], esets := h.esets ++ [e] }) o p _ _).trans ?_
  simp [nodesAt, edgesAt]

theorem copyBuilder_private {h : Heap V X R} (i : Inv h) (o p n e) : ¬ OnUserSets (h.copyBuilder o p n e) h.builders.length := by
  rintro ⟨b, hb, hu⟩
  simp only [copyBuilder, mkBuilder, getElem?_append_length, Option.some.injEq] at hb
  subst hb
  rcases hu with hu | hu
  · have := i.s.un _ hu; simp at this
  · have := i.s.ue _ hu; simp at this

/-- C47: `SampleGraphBuilder.__copy__` and `SampleGraph.builder()` give a builder with the same nodes and edges on sets of its own;
`SampleGraphBuilder.build` gives a sample with the contents of the builder; `SampleGraphBuilder(provider)` is empty with sets of its own. By
`C47_immutable` and `C47_private_builder` they have independent lives. -/
theorem C47_builder_copies {h : Heap V X R} (r : Reached h) (o : Order (Edge V X R)) (k p : Nat) :
    (∀ b, h.builderValue k = some b →
      (h.step (.copyBuilder o k)).builderValue h.builders.length = some (Builder.ofSets o b.prov b.nodes b.edges) ∧
        ¬ OnUserSets (h.step (.copyBuilder o k)) h.builders.length) ∧
      (∀ s, h.sampleValue k = some s →
        (h.step (.sampleToBuilder o k)).builderValue h.builders.length = some (s.builder o) ∧
          ¬ OnUserSets (h.step (.sampleToBuilder o k)) h.builders.length) ∧
      (∀ b s, h.builderValue k = some b → b.build = .ok s → (h.step (.build k)).sampleValue h.samples.length = some s) ∧
      (h.step (.builder o p none none)).builderValue h.builders.length = some (Builder.new p) ∧
        ¬ OnUserSets (h.step (.builder o p none none)) h.builders.length := by
  refine ⟨fun b hb => ?_, fun s hs => ?_, fun b s hb hs => ?_, ?_, ?_⟩
  · obtain ⟨c, hc, rfl⟩ := Option.map_eq_some_iff.mp hb
    simp only [step, hc]
    exact ⟨copyBuilder_value h o _ _ _, copyBuilder_private r.inv o _ _ _⟩
  · obtain ⟨c, hc, rfl⟩ := Option.map_eq_some_iff.mp hs
    simp only [step, hc]
    exact ⟨copyBuilder_value h o _ _ _, copyBuilder_private r.inv o _ _ _⟩
  · obtain ⟨c, hc, rfl⟩ := Option.map_eq_some_iff.mp hb
    simp only [step, hc, hs, mkSample, sampleValue, getElem?_append_length, Option.map_some]
    simp [sampleView, nodesAt, edgesAt]
  · have : h.step (.builder o p none none) = h.copyBuilder o p ∅ ∅ := rfl
    rw [this, copyBuilder_value]
    simp [Builder.ofSets, Builder.new, Order.run_empty]
    rfl
  · have : h.step (.builder o p none none) = h.copyBuilder o p ∅ ∅ := rfl
    rw [this]
    exact copyBuilder_private r.inv o _ _ _

/-! ### Aliasing -/

/-- C47, the aliasing of `RelationGraphBuilder(…, outcomes, provider)`: after `add_outcome` on it, a non-empty builder passed as `outcomes`
has got the outcome; an empty one has not, since `outcomes if outcomes else …` replaces it by a new one. -/
theorem C47_graph_builder {h : Heap V X R} (r : Reached h) (i p : Nat) (v : Samples V X R) (hv : h.setBuilderValue i = some v)
    (s : Sample V X R) (hs : s.prov = p) (c : ℤ) (hc : 1 ≤ c) :
    (h.run [.graphBuilder p (some i), .addOutcome h.graphBuilders.length s c]).setBuilderValue i =
      if v.bool then some (v.add s c).1 else some v := by
  obtain ⟨b, hb, rfl⟩ := Option.map_eq_some_iff.mp hv
  have hi := (List.getElem?_eq_some_iff.mp hb).1
  simp only [run, List.foldl_cons, List.foldl_nil]
  by_cases hbool : (h.setBuilderView b).bool = true
  · rw [if_pos hbool]
    have e1 : h.step (.graphBuilder p (some i)) = { h with graphBuilders := h.graphBuilders ++ [⟨p, i, h.schemaOf p⟩] } := by
      simp only [step, newGraphBuilder, Option.bind_eq_bind, Option.bind_some, hb, Option.map_some, hbool, if_true]
    rw [e1]
    simp only [step, getElem?_append_length, hb, hs, hc, and_self, if_true]
    have hd := r.inv.d.rb b (List.mem_of_getElem? hb)
    simp only [setBuilderValue, writeDict, hb, Option.map_some]
    have e2 : ((h.setBuilderView b).add s c).1.prov = b.prov := by
      unfold Samples.add
      split
      · rfl
      · split <;> rfl
    have e3 : ∀ q : Samples V X R, q.prov = b.prov → (⟨b.prov, q.samples⟩ : Samples V X R) = q := by
      rintro ⟨_, _⟩ rfl; rfl
    refine congrArg some (Eq.trans ?_ (e3 _ e2))
    simp only [setBuilderView, dictAt]
    rw [getD_set_eq _ _ _ hd]
  · rw [if_neg hbool]
    have e1 : h.step (.graphBuilder p (some i)) =
        { h.mkSetBuilder p Dict.empty with
          graphBuilders := h.graphBuilders ++ [⟨p, h.setBuilders.length, h.schemaOf p⟩] } := by
      simp only [step, newGraphBuilder, Option.bind_eq_bind, Option.bind_some, hb, Option.map_some, hbool]
      rfl
    have r1 : Reached (h.step (.graphBuilder p (some i))) := r.run [.graphBuilder p (some i)]
    have hi1 := lt_of_lt_of_le hi (grows_step h (.graphBuilder p (some i))).setBuilders.length_le
    rw [setBuilderValue_step r1.inv _ hi1, setBuilderValue_step r.inv _ hi (by simp [setBuilderTarget]), hv]
    rw [e1]
    simp only [setBuilderTarget, getElem?_append_length, Option.map_some, ne_eq, Option.some.injEq]
    omega

/-- C47: `SampleSpace.builder()` gives a `RelationGraphBuilder` whose outcomes are a new `SampleSetBuilder`. -/
theorem C47_graph_to_builder {h : Heap V X R} (r : Reached h) (k : Nat) (hk : k < h.graphs.length) :
    ∃ g : GraphBuilderObj V X R, (h.step (.graphToBuilder k)).graphBuilders = h.graphBuilders ++ [g] ∧
      h.setBuilders.length ≤ g.outcomes ∧
      ∃ p d v n, h.graphValue k = some (p, d, v, n) ∧ g.prov = p ∧ (v.bool = true → v.samples.entries ≠ [] ∧
        (h.step (.graphToBuilder k)).setBuilderValue g.outcomes = some v) := by
  have hs := r.inv.g.gs _ (List.getElem_mem hk)
  set g := h.graphs[k] with hg
  have e0 : h.graphs[k]? = some g := List.getElem?_eq_getElem hk
  have e1 : h.sets[g.outcomes]? = some h.sets[g.outcomes] := List.getElem?_eq_getElem hs
  set s := h.sets[g.outcomes] with hs'
  have e2 : h.step (.graphToBuilder k) = (h.mkSetBuilder s.prov (h.dictAt s.dict)).newGraphBuilder g.prov (some h.setBuilders.length) := by
    simp only [step, e0, e1]
  set h1 := h.mkSetBuilder s.prov (h.dictAt s.dict) with hh1
  have e3 : h1.setBuilders[h.setBuilders.length]? = some ⟨s.prov, h.dicts.length⟩ := by simp [hh1, mkSetBuilder]
  have e4 : h1.setBuilderView ⟨s.prov, h.dicts.length⟩ = h.setView s := by
    simp [hh1, mkSetBuilder, setBuilderView, setView, dictAt]
  have egv : h.graphValue k = some (g.prov, g.declared, h.setView s, s.length) := by
    simp only [graphValue, e0, Option.bind_eq_bind, Option.bind_some, setValue, e1, Option.map_some]
  rw [e2]
  by_cases hbool : (h.setView s).bool = true
  · refine ⟨⟨g.prov, h.setBuilders.length, h1.schemaOf g.prov⟩, ?_, le_rfl, _, _, _, _, egv, rfl, fun hv => ⟨?_, ?_⟩⟩
    · simp only [newGraphBuilder, Option.bind_eq_bind, Option.bind_some, e3, Option.map_some, e4, hbool, if_true]
      rfl
    · simpa [Samples.bool] using hv
    · simp only [newGraphBuilder, Option.bind_eq_bind, Option.bind_some, e3, Option.map_some, e4, hbool, if_true]
      simp only [setBuilderValue, e3, Option.map_some]
      exact congrArg some e4
  · refine ⟨⟨g.prov, h1.setBuilders.length, h1.schemaOf g.prov⟩, ?_, (grows_mkSetBuilder h _ _).setBuilders.length_le,
      _, _, _, _, egv, rfl, fun hv => absurd hv hbool⟩
    simp only [newGraphBuilder, Option.bind_eq_bind, Option.bind_some, e3, Option.map_some, e4, hbool]
    rfl

/-- C47, the aliasing of `SampleGraphBuilder(provider, name, nodes, edges)`: non-empty sets of the user become the sets of the builder, so
that the user changing them changes the builder; empty ones do not. -/
theorem C47_user_sets {h : Heap V X R} (r : Reached h) (o : Order (Edge V X R)) (p i j n e : Nat)
    (hi : h.userNodes[i]? = some n) (hj : h.userEdges[j]? = some e) (ns : Finset (Node V X)) (es : Finset (Edge V X R)) :
    (h.step (.builder o p (some i) (some j))).builderValue h.builders.length =
        some (Builder.ofSets o p (h.nodesAt n) (h.edgesAt e)) ∧
      ∃ b, (h.run [.builder o p (some i) (some j), .changeNodes i ns, .changeEdges j es]).builderValue h.builders.length = some b ∧
        b.nodes = (if h.nodesAt n = ∅ then ∅ else ns) ∧ b.edges = (if h.edgesAt e = ∅ then ∅ else es) := by
  have un := r.inv.s.un _ (List.mem_of_getElem? hi)
  have ue := r.inv.s.ue _ (List.mem_of_getElem? hj)
  have key : ∃ cn ce, (h.step (.builder o p (some i) (some j))).builders = h.builders ++ [⟨p, cn, ce, h.index.length⟩] ∧
      cn = (if h.nodesAt n = ∅ then h.nsets.length else n) ∧ ce = (if h.edgesAt e = ∅ then h.esets.length else e) ∧
      (h.step (.builder o p (some i) (some j))).nodesAt cn = h.nodesAt n ∧
      (h.step (.builder o p (some i) (some j))).edgesAt ce = h.edgesAt e ∧
      (h.step (.builder o p (some i) (some j))).indexAt h.index.length = (Builder.ofSets o p (h.nodesAt n) (h.edgesAt e)).eps ∧
      (h.step (.builder o p (some i) (some j))).userNodes = h.userNodes ∧
      (h.step (.builder o p (some i) (some j))).userEdges = h.userEdges := by
    refine ⟨_, _, ?_, rfl, rfl, ?_, ?_, ?_, ?_, ?_⟩ <;>
      simp only [step, userAddr, Option.bind_eq_bind, Option.bind_some, hi, hj, newBuilder, mkBuilder, shareNodes] <;>
      by_cases h1 : h.nodesAt n = ∅ <;> by_cases h2 : h.edgesAt e = ∅ <;>
      simp_all [shareEdges, nodesAt, edgesAt, indexAt, Builder.ofSets]
  obtain ⟨cn, ce, k1, k2, k3, k4, k5, k6, k7, k8⟩ := key
  set h' := h.step (.builder o p (some i) (some j)) with hh'
  have g := grows_step h (.builder o p (some i) (some j))
  rw [← hh'] at g
  constructor
  · rw [builderValue, k1, getElem?_append_length, Option.map_some]
    simp only [builderView, k4, k5, k6]
    rfl
  · have e0 : h.run [.builder o p (some i) (some j), .changeNodes i ns, .changeEdges j es] =
        (h'.writeNodes n ns).writeEdges e es := by
      simp only [run, List.foldl_cons, List.foldl_nil, ← hh']
      simp only [step, k7, hi]
      have : (h'.writeNodes n ns).userEdges = h.userEdges := k8
      simp only [this, hj]
    have e1 : ((h'.writeNodes n ns).writeEdges e es).builders = h.builders ++ [⟨p, cn, ce, h.index.length⟩] := k1
    refine ⟨_, by rw [e0, builderValue, e1, getElem?_append_length, Option.map_some], ?_, ?_⟩
    · have hn := lt_of_lt_of_le un g.nsets
      have : ((h'.writeNodes n ns).writeEdges e es).nodesAt cn = if h.nodesAt n = ∅ then ∅ else ns := by
        by_cases hx : h.nodesAt n = ∅
        · have hne : n ≠ cn := by rw [k2, if_pos hx]; omega
          rw [if_pos hx]
          exact (getD_set_ne _ _ _ hne).trans (k4.trans hx)
        · have hne : cn = n := by rw [k2, if_neg hx]
          rw [if_neg hx, hne]
          exact getD_set_eq _ _ _ hn
      exact this
    · have hn := lt_of_lt_of_le ue g.esets
      have : ((h'.writeNodes n ns).writeEdges e es).edgesAt ce = if h.edgesAt e = ∅ then ∅ else es := by
        by_cases hx : h.edgesAt e = ∅
        · have hne : e ≠ ce := by rw [k3, if_pos hx]; omega
          rw [if_pos hx]
          exact (getD_set_ne _ _ _ hne).trans (k5.trans hx)
        · have hne : ce = e := by rw [k3, if_neg hx]
          rw [if_neg hx, hne]
          exact getD_set_eq _ _ _ hn
      exact this

/-- C47: a provider keeps the declarations it was given by reference: whatever the user later makes of them is what the provider then
accepts, for every provider made from them and for no other. The variables and relations shown by an existing `RelationGraph` stay
(`C47_immutable`). -/
theorem C47_provider_alias (h : Heap V X R) (i : Nat) (s' : Schema V X R) (hi : i < h.schemas.length) (p : Nat)
    (hp : p < h.provs.length) :
    (h.step (.changeSchema i s')).schemaOf p = if h.provs[p] = i then some s' else h.schemaOf p := by
  simp only [step, schemaOf, List.getElem?_eq_getElem hp, Option.bind_eq_bind, Option.bind_some]
  split
  · next e => rw [e, List.getElem?_set_self hi]
  · next e => rw [List.getElem?_set_ne (fun e' => e e'.symm)]

end Heap

/-! ### Without user sets every sample graph is well formed -/

theorem Builder.inv_joinSample (oE : Order (Edge V X R)) (b : Builder V X R) (hb : b.Inv) (smp : Sample V X R)
    (hw : WellFormed smp.graph) : (b.joinSample oE smp).1.Inv := by
  by_cases hok : (b.joinSample oE smp).2 = none ∧ smp.graph.nodes.Nonempty
  · exact ((C07_join_sample oE b hb smp hw hok.2).2.1 hok.1).2.2.2
  · unfold Builder.joinSample at hok ⊢
    split_ifs at hok ⊢ with h1 h2 h3 h4
    · exact hb
    · exact Builder.joinEdges_induct Builder.Inv smp.graph.edges
        (fun c e hc he ht hj => c.inv_join_step hc e (hw.good e he) ht hj) oE _ _ (Finset.Subset.refl _) b hb
    · exact absurd ⟨rfl, Finset.card_pos.mp (by omega)⟩ hok
    · exact hb
    · exact hb

theorem Builder.inv_ofSets (oE : Order (Edge V X R)) (prov : Nat) (g : SampleGraph V X R) (hw : WellFormed g) :
    (Builder.ofSets oE prov g.nodes g.edges).Inv := by
  refine ⟨hw, fun k e => ?_⟩
  simp only [Builder.ofSets]
  rw [Dict.get?_ofList]
  · simp only [List.mem_map, oE.mem, Prod.mk.injEq]
    constructor
    · rintro ⟨e', he', rfl, rfl⟩; exact ⟨he', rfl⟩
    · rintro ⟨he, rfl⟩; exact ⟨e, he, rfl, rfl⟩
  · rw [List.map_map]
    refine (oE.nodup g.edges).map_on ?_
    intro e he e' he' hee
    exact hw.onePer e ((oE.mem _ _).mp he) e' ((oE.mem _ _).mp he') hee

namespace Heap

/-- The operation passes no sets of the user to `SampleGraphBuilder` and is not `build_from_edges` (which may be given two edges
on the same endpoints, C10). -/
def Clean : HeapOp V X R → Prop
  | .builder _ _ n e => n = none ∧ e = none
  | .fromEdges _ _ _ _ _ => False
  | _ => True

/-- The operation makes a `SampleGraph`. -/
def MakesSample : HeapOp V X R → Prop
  | .build _ => True
  | .single _ _ _ => True
  | .emptySample _ => True
  | .fromEdges _ _ _ _ _ => True
  | _ => False

/-- The operation makes a `SampleGraphBuilder`. -/
def MakesBuilder : HeapOp V X R → Prop
  | .builder _ _ _ _ => True
  | .copyBuilder _ _ => True
  | .sampleToBuilder _ _ => True
  | _ => False

theorem step_samples_eq (h : Heap V X R) (op : HeapOp V X R) (hm : ¬ MakesSample op) : (h.step op).samples = h.samples := by
  cases op <;> simp only [step] <;> (repeat' split) <;>
    first
    | rfl
    | exact absurd trivial hm
    | exact (newGraphBuilder_rest _ _ _).2.2.2.1
    | (simp only [newBuilder, mkBuilder]; rw [shareEdges_rest, shareNodes_rest])

theorem step_builders_eq (h : Heap V X R) (op : HeapOp V X R) (hm : ¬ MakesBuilder op) : (h.step op).builders = h.builders := by
  cases op <;> simp only [step] <;> (repeat' split) <;>
    first
    | rfl
    | exact absurd trivial hm
    | exact (newGraphBuilder_rest _ _ _).2.2.2.2.1

/-- Samples are well formed, builders satisfy their invariant and have sets of their own. -/
structure WInv (h : Heap V X R) : Prop where
  smp : ∀ k s, h.sampleValue k = some s → WellFormed s.graph
  bld : ∀ k b, h.builderValue k = some b → b.Inv
  own : ∀ k, ¬ OnUserSets h k

theorem value_lt {α β : Type} {l : List α} {f : α → β} {k : Nat} {b : β} (h : l[k]?.map f = some b) : k < l.length := by
  obtain ⟨a, ha, -⟩ := Option.map_eq_some_iff.mp h
  exact (List.getElem?_eq_some_iff.mp ha).1

theorem wellFormed_single (n : Node V X) : WellFormed (⟨{n}, ∅⟩ : SampleGraph V X R) := by
  refine ⟨by simp, by simp, by simp [OnePerPair], ?_⟩
  intro a ha b hb
  simp only [Finset.coe_singleton, Set.mem_singleton_iff] at ha hb
  rw [ha, hb]

theorem wellFormed_empty : WellFormed (⟨∅, ∅⟩ : SampleGraph V X R) := by
  refine ⟨by simp, by simp, by simp [OnePerPair], ?_⟩
  intro a ha
  simp at ha

theorem mkSample_last (h : Heap V X R) (s : Sample V X R) : (h.mkSample s).sampleValue h.samples.length = some s := by
  simp only [mkSample, sampleValue, getElem?_append_length, Option.map_some]
  simp [sampleView, nodesAt, edgesAt]

theorem mkSample_lt (h : Heap V X R) (s t : Sample V X R) {k : Nat} (hk : (h.mkSample s).sampleValue k = some t)
    (hl : h.samples.length ≤ k) : t = s := by
  have := value_lt hk
  simp only [mkSample, List.length_append, List.length_singleton] at this
  have e : k = h.samples.length := by omega
  rw [e, mkSample_last] at hk
  exact (Option.some.inj hk).symm

theorem writeBuilder_value {h : Heap V X R} (i : Inv h) {k : Nat} {b : BuilderObj} (hb : h.builders[k]? = some b)
    (b' : Builder V X R) : (h.writeBuilder b b').builderValue k = some ⟨b.prov, b'.nodes, b'.edges, b'.eps⟩ := by
  have hm := List.mem_of_getElem? hb
  simp only [builderValue, writeBuilder, writeNodes, writeEdges, writeIndex, hb, Option.map_some]
  simp only [builderView, nodesAt, edgesAt, indexAt]
  rw [getD_set_eq _ _ _ (i.s.bn b hm), getD_set_eq _ _ _ (i.s.be b hm), getD_set_eq _ _ _ (i.s.bi b hm)]

theorem winv_step {h : Heap V X R} (i : Inv h) (w : WInv h) (op : HeapOp V X R) (hc : Clean op) : WInv (h.step op) := by
  have hshare : ∀ j k, j ≠ k → ¬ Shares h j k := by
    intro j k hjk hs
    obtain ⟨b, c, hb, hc, he⟩ := hs
    obtain ⟨hj1, hj2⟩ := List.getElem?_eq_some_iff.mp hb
    obtain ⟨hk1, hk2⟩ := List.getElem?_eq_some_iff.mp hc
    have hn := List.pairwise_iff_getElem.mp i.s.bnb
    have hm := List.pairwise_iff_getElem.mp i.s.beb
    rcases lt_or_gt_of_ne hjk with h1 | h1
    · have h2 := hn j k hj1 hk1 h1
      have h3 := hm j k hj1 hk1 h1
      rw [hj2, hk2] at h2 h3
      exact w.own j ⟨b, hb, he.imp h2 h3⟩
    · have h2 := hn k j hk1 hj1 h1
      have h3 := hm k j hk1 hj1 h1
      rw [hj2, hk2] at h2 h3
      exact w.own k ⟨c, hc, he.imp (fun e => h2 e.symm) (fun e => h3 e.symm)⟩
  have htouch : ∀ k, builderTarget op ≠ some k → ¬ Touches k h op := by
    rintro k hk (⟨j, hj, rfl | hs⟩ | ⟨j, b, a, -, hb, ha, rfl⟩ | ⟨j, b, a, -, hb, ha, rfl⟩)
    · exact hk hj
    · by_cases hjk : j = k
      · exact hk (hjk ▸ hj)
      · exact hshare j k hjk hs
    · exact w.own k ⟨b, hb, Or.inl (List.mem_of_getElem? ha)⟩
    · exact w.own k ⟨b, hb, Or.inr (List.mem_of_getElem? ha)⟩
  constructor
  · intro k s hs
    by_cases hk : k < h.samples.length
    · rw [sampleValue_step i op hk] at hs
      exact w.smp k s hs
    by_cases hm : MakesSample op
    · cases op <;> simp only [MakesSample] at hm
      all_goals first | exact False.elim hc | skip
      all_goals simp only [step] at hs; repeat' split at hs
      all_goals first
        | exact w.smp k s hs
        | (have e := mkSample_lt h _ _ hs (not_lt.mp hk)
           subst e)
      · rename_i hbb
        simp only [Builder.build] at hbb
        split at hbb
        · cases hbb
        · cases hbb
          have hb' := ‹h.builders[_]? = some _›
          exact (w.bld _ _ (by rw [builderValue, hb', Option.map_some])).wf
      · rename_i hbb
        simp only [Builder.buildSingleNode] at hbb
        split at hbb
        · cases hbb
        · cases hbb
          exact wellFormed_single _
      · exact wellFormed_empty
    · have := value_lt hs
      rw [step_samples_eq h op hm] at this
      exact absurd this hk
  · intro k b hs
    by_cases hk : k < h.builders.length
    · by_cases ht : builderTarget op = some k
      · obtain ⟨c, hcc⟩ : ∃ c, h.builders[k]? = some c := ⟨_, List.getElem?_eq_getElem hk⟩
        have hbi : (h.builderView c).Inv := w.bld k _ (by rw [builderValue, hcc, Option.map_some])
        have same : h.builderValue k = some b → b.Inv := w.bld k b
        cases op <;> simp only [builderTarget, reduceCtorEq, Option.some.injEq] at ht
        all_goals subst ht
        all_goals first | exact False.elim hc | skip
        all_goals simp only [step, hcc] at hs; repeat' split at hs
        all_goals first
          | exact same hs
          | (rw [writeBuilder_value i (by assumption)] at hs; cases hs)
          | (rename_i hb _; cases hb; rw [writeBuilder_value i (by assumption)] at hs; cases hs)
        · have := Builder.inv_addRelation ‹Schema V X R› _ hbi ‹Finset (V × X)› ‹Rel V R›
          exact ⟨this.wf, this.index⟩
        · rename_i hsm
          have := Builder.inv_joinSample ‹Order (Edge V X R)› _ hbi _
            (w.smp _ _ (by rw [sampleValue, hsm, Option.map_some]))
          exact ⟨this.wf, this.index⟩
      · rw [builderValue_step i op hk (htouch k ht)] at hs
        exact w.bld k b hs
    by_cases hm : MakesBuilder op
    · have hlast : ∀ o p (g : SampleGraph V X R), WellFormed g → h.step op = h.copyBuilder o p g.nodes g.edges → b.Inv := by
        intro o p g hg e
        rw [e] at hs
        have hl := value_lt hs
        simp only [copyBuilder, mkBuilder, List.length_append, List.length_singleton] at hl
        have ek : k = h.builders.length := by omega
        rw [ek, copyBuilder_value] at hs
        cases hs
        exact Builder.inv_ofSets o p g hg
      cases op <;> simp only [MakesBuilder] at hm
      · obtain ⟨rfl, rfl⟩ := hc
        exact hlast _ _ ⟨∅, ∅⟩ wellFormed_empty rfl
      · rename_i o j
        cases hj : h.builders[j]? with
        | none => simp only [step, hj] at hs; exact w.bld k b hs
        | some c =>
          refine hlast o c.prov ⟨h.nodesAt c.nodes, h.edgesAt c.edges⟩
            (w.bld j (h.builderView c) (by rw [builderValue, hj, Option.map_some])).wf ?_
          simp only [step, hj]
      · rename_i o j
        cases hj : h.samples[j]? with
        | none => simp only [step, hj] at hs; exact w.bld k b hs
        | some c =>
          refine hlast o c.prov ⟨h.nodesAt c.nodes, h.edgesAt c.edges⟩
            (w.smp j (h.sampleView c) (by rw [sampleValue, hj, Option.map_some])) ?_
          simp only [step, hj]
    · have := value_lt hs
      rw [step_builders_eq h op hm] at this
      exact absurd this hk
  · intro k hu
    by_cases hk : k < h.builders.length
    · exact w.own k (onUserSets_step i op hk hu)
    have hlt : k < (h.step op).builders.length := by
      obtain ⟨b, hb, -⟩ := hu
      exact (List.getElem?_eq_some_iff.mp hb).1
    by_cases hm : MakesBuilder op
    · have hlast : ∀ o p n e, h.step op ≠ h.copyBuilder o p n e := by
        intro o p n e eq
        rw [eq] at hu hlt
        simp only [copyBuilder, mkBuilder, List.length_append, List.length_singleton] at hlt
        have ek : k = h.builders.length := by omega
        exact copyBuilder_private i o p n e (ek ▸ hu)
      cases op <;> simp only [MakesBuilder] at hm
      · obtain ⟨rfl, rfl⟩ := hc
        exact hlast _ _ ∅ ∅ rfl
      · rename_i o j
        cases hj : h.builders[j]? with
        | none => simp only [step, hj] at hlt; exact hk hlt
        | some c => exact hlast o c.prov (h.nodesAt c.nodes) (h.edgesAt c.edges) (by simp only [step, hj])
      · rename_i o j
        cases hj : h.samples[j]? with
        | none => simp only [step, hj] at hlt; exact hk hlt
        | some c => exact hlast o c.prov (h.nodesAt c.nodes) (h.edgesAt c.edges) (by simp only [step, hj])
    · rw [step_builders_eq h op hm] at hlt
      exact hk hlt

/-- C47: in every history in which no sets of the user are passed to `SampleGraphBuilder` and `build_from_edges` is not called,
every `SampleGraph` is well formed and every `SampleGraphBuilder` satisfies its invariant — however the objects are copied, shared,
joined and built, whatever raises in between, and whatever the user does to declarations, dictionaries and sets. -/
theorem C47_wellformed (ops : List (HeapOp V X R)) (hc : ∀ op ∈ ops, Clean op) (k : Nat) :
    (∀ s, (run {} ops).sampleValue k = some s → WellFormed s.graph) ∧ ∀ b, (run {} ops).builderValue k = some b → b.Inv := by
  have key : ∀ (ops : List (HeapOp V X R)) (h : Heap V X R), Inv h → WInv h → (∀ op ∈ ops, Clean op) → WInv (h.run ops) := by
    intro ops
    induction ops with
    | nil => exact fun h _ w _ => w
    | cons op t ih =>
      intro h i w hc
      exact ih _ (inv_step i op) (winv_step i w op (hc op List.mem_cons_self)) fun o ho => hc o (List.mem_cons_of_mem _ ho)
  have w := key ops {} inv_empty
    ⟨by simp [sampleValue], by simp [builderValue], by rintro k ⟨b, hb, -⟩; simp at hb⟩ hc
  exact ⟨w.smp k, w.bld k⟩

end Heap

/-! ### Sharing sets breaks the rules of the builder -/

/-- The history of `C47_parallel_edges`: two builders over the same user sets, each adds a relation between the same nodes. -/
def parallelHistory (o : Order (Edge ℕ ℕ ℕ)) : List (HeapOp ℕ ℕ ℕ) :=
  [.userSchema ⟨⟨[(0, {0}), (1, {0}), (2, {0})], by decide⟩, {0, 1}⟩, .provider 0,
    .userNodes {⟨0, 0⟩, ⟨1, 0⟩}, .userEdges {⟨{⟨0, 0⟩, ⟨1, 0⟩}, .plain 0⟩}] ++
  [.builder o 0 (some 0) (some 0), .builder o 0 (some 0) (some 0),
    .addRelation 0 {(1, 0), (2, 0)} (.plain 0), .addRelation 1 {(1, 0), (2, 0)} (.plain 1), .build 1]

/-- C47: two `SampleGraphBuilder`s over the same non-empty sets can link a pair of nodes twice, since the index by endpoints is not
shared; `build` then gives a sample graph that is not well formed, though each builder on its own refuses a second relation (C05). -/
theorem C47_parallel_edges (o : Order (Edge ℕ ℕ ℕ)) : ∃ s : Sample ℕ ℕ ℕ,
    (Heap.run {} (parallelHistory o)).sampleValue 0 = some s ∧ ¬ OnePerPair s.graph.edges := by
  let e01 : Edge ℕ ℕ ℕ := ⟨{⟨0, 0⟩, ⟨1, 0⟩}, .plain 0⟩
  have hb : ∀ h : Heap ℕ ℕ ℕ, h.userNodes = [0] → h.userEdges = [0] → h.edgesAt 0 = {e01} →
      h.step (.builder o 0 (some 0) (some 0)) = h.step (.builder (Order.ofList [e01]) 0 (some 0) (some 0)) := by
    intro h h1 h2 h3
    have h3' : (h.shareNodes (some 0)).1.edgesAt 0 = {e01} := by
      rw [← h3]; simp only [Heap.edgesAt, Heap.shareNodes_esets]
    have h4 : ((h.shareNodes (some 0)).1.shareEdges (some 0)) = ((h.shareNodes (some 0)).1, 0) := by
      simp [Heap.shareEdges, h3']
    simp only [Heap.step, Heap.newBuilder, Heap.userAddr, Option.bind_eq_bind, Option.bind_some, h1, h2, List.getElem?_cons_zero,
      h4, Heap.mkBuilder, Builder.ofSets, h3', Order.run_singleton]
  have e1 : Heap.run {} (parallelHistory o) = Heap.run {} (parallelHistory (Order.ofList [e01])) := by
    simp only [parallelHistory, Heap.run, List.foldl_append]
    set h4 := List.foldl Heap.step ({} : Heap ℕ ℕ ℕ) _ with hh4
    simp only [List.foldl_cons]
    rw [hb h4 (by rw [hh4]; decide +kernel) (by rw [hh4]; decide +kernel) (by rw [hh4]; decide +kernel)]
    rw [hb (h4.step _) (by rw [hh4]; decide +kernel) (by rw [hh4]; decide +kernel) (by rw [hh4]; decide +kernel)]
  rw [e1]
  refine ⟨⟨0, ⟨{⟨0, 0⟩, ⟨1, 0⟩, ⟨2, 0⟩}, {e01, ⟨{⟨1, 0⟩, ⟨2, 0⟩}, .plain 0⟩, ⟨{⟨1, 0⟩, ⟨2, 0⟩}, .plain 1⟩}⟩⟩, by decide +kernel, ?_⟩
  intro h
  have := h ⟨{⟨1, 0⟩, ⟨2, 0⟩}, .plain 0⟩ (by simp) ⟨{⟨1, 0⟩, ⟨2, 0⟩}, .plain 1⟩ (by simp) rfl
  simp at this

/-- A history that makes a sample graph, a set builder, a sample set and a relation graph. -/
noncomputable def demoHistory : List (HeapOp ℕ ℕ ℕ) :=
  [.userSchema ⟨⟨[(0, {0}), (1, {0}), (2, {0})], by decide⟩, {0, 1}⟩, .provider 0, .builder (Order.ofList []) 0 none none,
    .addRelation 0 {(0, 0), (1, 0)} (.plain 0), .build 0, .graphBuilder 0 none, .addOutcome 0 ⟨0, oneEdge ⟨0, 0⟩ ⟨1, 0⟩⟩ 2,
    .buildGraph 0, .copySetBuilder 0]

/-- Operations on the builders afterwards. -/
def demoLater : List (HeapOp ℕ ℕ ℕ) :=
  [.addOutcome 0 ⟨0, oneEdge ⟨1, 0⟩ ⟨2, 0⟩⟩ 1, .addRelation 0 {(1, 0), (2, 0)} (.plain 1), .changeSchema 0 ⟨Dict.empty, ∅⟩]

/-- Non-vacuity of C47: afterwards the builders differ from before, so the sets, samples, graphs and the copied builder could have
changed as well. -/
example : let h := Heap.run {} demoHistory
    h.Reached ∧ h.sets.length = 1 ∧ h.samples.length = 1 ∧ h.graphs.length = 1 ∧ h.setBuilders.length = 2 ∧
      (∀ op ∈ demoHistory ++ demoLater, Heap.Clean op) ∧ ¬ h.OnUserSets 0 ∧
      (h.run demoLater).setBuilderValue 0 ≠ h.setBuilderValue 0 ∧ (h.run demoLater).builderValue 0 ≠ h.builderValue 0 ∧
      h.setBuilderValue 1 = h.setBuilderValue 0 ∧
      ¬ Heap.Somewhere (fun h op => Heap.setBuilderTarget h op = some 1) h demoLater := by
  refine ⟨⟨_, rfl⟩, by decide +kernel, by decide +kernel, by decide +kernel, by decide +kernel, ?_, ?_, ?_, ?_, ?_, ?_⟩
  · simp [demoHistory, demoLater, Heap.Clean]
  · rintro ⟨b, -, hu⟩
    have h1 : (Heap.run {} demoHistory).userNodes = [] := by decide +kernel
    have h2 : (Heap.run {} demoHistory).userEdges = [] := by decide +kernel
    simp [h1, h2] at hu
  · intro h
    have := congrArg (Option.map fun v => v.samples.entries.length) h
    revert this
    decide +kernel
  · intro h
    have := congrArg (Option.map fun v => v.nodes) h
    revert this
    decide +kernel
  · rfl
  · have : (Heap.run {} demoHistory).graphBuilders.map (fun g => g.outcomes) = [0] := by decide +kernel
    have h0 : (Heap.run {} demoHistory).graphBuilders[0]?.map (fun g => g.outcomes) = some 0 := by
      rw [← List.getElem?_map, this]; rfl
    rintro (h | h | h | h)
    · simp only [Heap.setBuilderTarget] at h
      rw [h0] at h
      simp at h
    · simp [Heap.setBuilderTarget] at h
    · simp [Heap.setBuilderTarget] at h
    · exact h

/-- Non-vacuity of `C47_graph_builder`, both cases. -/
example : ∃ ops : List (HeapOp ℕ ℕ ℕ), ∃ v w : Samples ℕ ℕ ℕ, (Heap.run {} ops).setBuilderValue 0 = some v ∧
    (Heap.run {} ops).setBuilderValue 1 = some w ∧ v.bool = true ∧ w.bool = false :=
  ⟨[.setBuilder 0 none, .setBuilder 0 none, .add 0 ⟨0, oneEdge ⟨0, 0⟩ ⟨1, 0⟩⟩ 1], _, _, rfl, rfl, by decide +kernel, by decide +kernel⟩

end
end Verif
