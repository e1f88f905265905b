import Verif.Props.Heap

/-!
# What new immutable objects hold (C47)
-/

set_option linter.unusedSectionVars false

namespace Verif
section
variable {V X R : Type} [DecidableEq V] [DecidableEq X] [DecidableEq R]

namespace Heap

/-- C47: `RelationGraphBuilder.build` on a non-empty builder makes one new graph holding the current contents of the builder, with
the current declarations of the provider; on an empty builder nothing is made. The contents are a snapshot by `C47_immutable`. -/
theorem C47_build_graph (h : Heap V X R) (k : Nat) (g : GraphBuilderObj V X R) (hg : h.graphBuilders[k]? = some g)
    (v : Samples V X R) (hv : h.setBuilderValue g.outcomes = some v) :
    (v.samples.entries ≠ [] → (h.step (.buildGraph k)).graphs.length = h.graphs.length + 1 ∧
      (h.step (.buildGraph k)).graphValue h.graphs.length = some (g.prov, h.schemaOf g.prov, v, v.length)) ∧
    (v.samples.entries = [] → h.step (.buildGraph k) = h) := by
  obtain ⟨b, hb, rfl⟩ := Option.map_eq_some_iff.mp hv
  have hbool : (h.setBuilderView b).bool = true ↔ (h.setBuilderView b).samples.entries ≠ [] := by
    simp [Samples.bool]
  constructor
  · intro hne
    simp only [step, hg, hb, hbool.2 hne, if_true, mkSet]
    refine ⟨by simp, ?_⟩
    simp only [graphValue, getElem?_append_length, Option.bind_eq_bind, Option.bind_some, setValue, Option.map_some]
    simp [setView, setBuilderView, dictAt, Samples.length]
  · intro he
    have : ¬ (h.setBuilderView b).bool = true := fun hh => hbool.1 hh he
    simp only [step, hg, hb, this]
    simp

/-- C47: `SampleSpace.relation_graph` makes a graph with the same outcomes (the very same `SampleSet` object). -/
theorem C47_relation_graph (h : Heap V X R) (k : Nat) (p : Nat) (d : Option (Schema V X R)) (v : Samples V X R)
    (n : ℤ) (hk : h.graphValue k = some (p, d, v, n)) :
    (h.step (.relationGraph k)).graphs.length = h.graphs.length + 1 ∧
    (h.step (.relationGraph k)).graphValue h.graphs.length = some (p, h.schemaOf p, v, n) ∧
    (h.step (.relationGraph k)).sets = h.sets := by
  unfold graphValue at hk
  cases hg : h.graphs[k]? with
  | none => rw [hg] at hk; simp at hk
  | some g =>
    rw [hg] at hk
    simp only [Option.bind_eq_bind, Option.bind_some] at hk
    obtain ⟨w, hw, he⟩ := Option.map_eq_some_iff.mp hk
    simp only [Prod.mk.injEq] at he
    obtain ⟨rfl, rfl, rfl⟩ := he
    simp only [step, hg]
    refine ⟨by simp, ?_, trivial⟩
    simp only [graphValue, getElem?_append_length, Option.bind_eq_bind, Option.bind_some]
    have : ∀ (l : List (GraphObj V X R)), setValue { h with graphs := l } g.outcomes = h.setValue g.outcomes := fun _ => rfl
    rw [this, hw]
    rfl

/-- C47: `SampleSet.union`, `SampleSet.filter_samples` and `SampleSetBuilder.empty` make one new set, whose contents are those
of C20 (`Samples.union`), C21 (`Samples.filterSamples`) and the empty dictionary; a `union` that raises makes nothing. -/
theorem C47_derived_sets (h : Heap V X R) (i j : Nat) (v w : Samples V X R) (n m : ℤ) (hv : h.setValue i = some (v, n))
    (hw : h.setValue j = some (w, m)) (o : Order (SampleGraph V X R × ℤ)) (p : SampleGraph V X R → Bool) :
    (∀ u, v.union o w = .ok u →
      (h.step (.union i j o)).setValue h.sets.length = some (⟨v.prov, u.samples⟩, Samples.length ⟨v.prov, u.samples⟩)) ∧
    (∀ e, v.union o w = .error e → h.step (.union i j o) = h) ∧
    (h.step (.filter i p)).setValue h.sets.length = some (v.filterSamples p, (v.filterSamples p).length) ∧
    (∀ k b, h.setBuilderValue k = some b →
      (h.step (.emptySet k)).setValue h.sets.length = some (⟨b.prov, Dict.empty⟩, 0)) := by
  obtain ⟨s, hs, he⟩ := Option.map_eq_some_iff.mp hv
  obtain ⟨rfl, rfl⟩ := Prod.mk.inj he
  obtain ⟨t, ht, he'⟩ := Option.map_eq_some_iff.mp hw
  obtain ⟨rfl, rfl⟩ := Prod.mk.inj he'
  refine ⟨fun u hu => ?_, fun e hu => ?_, ?_, fun k b hb => ?_⟩
  · simp only [step, hs, ht, hu, mkSet, mkSetBuilder, setValue, getElem?_append_length, Option.map_some]
    simp [setView, dictAt, Samples.length]
  · simp only [step, hs, ht, hu]
  · simp only [step, hs, mkSet, setValue, getElem?_append_length, Option.map_some]
    simp [setView, dictAt, Samples.length, Samples.filterSamples]
  · obtain ⟨b, hb', rfl⟩ := Option.map_eq_some_iff.mp hb
    simp only [step, hb', mkSet, setValue, getElem?_append_length, Option.map_some]
    simp [setView, setBuilderView, dictAt, Dict.vals, Dict.empty]

/-- C47: `build_single_node`, `build_empty` and `build_from_edges` of a builder make one new sample with the value given by the
model of the method, and only `build_from_edges` touches the builder. -/
theorem C47_derived_samples (h : Heap V X R) (i : Nat) (b : Builder V X R) (hb : h.builderValue i = some b) :
    (h.step (.emptySample i)).sampleValue h.samples.length = some ⟨b.prov, ⟨∅, ∅⟩⟩ ∧
    (∀ sc, h.schemaOf b.prov = some sc → ∀ v x, (∀ s, b.buildSingleNode sc v x = .ok s →
        (h.step (.single i v x)).sampleValue h.samples.length = some s) ∧
      (∀ e, b.buildSingleNode sc v x = .error e → h.step (.single i v x) = h)) ∧
    (∀ sc, h.schemaOf b.prov = some sc → ∀ oE oN es val s, (b.buildFromEdges sc oE oN es val).2 = .ok s →
      (h.step (.fromEdges oE oN i es val)).sampleValue h.samples.length = some s) := by
  obtain ⟨c, hc, rfl⟩ := Option.map_eq_some_iff.mp hb
  have hmk : ∀ (h : Heap V X R) (s : Sample V X R), (h.mkSample s).sampleValue h.samples.length = some s := by
    intro h s
    simp only [mkSample, sampleValue, getElem?_append_length, Option.map_some]
    simp [sampleView, nodesAt, edgesAt]
  have hp : (h.builderView c).prov = c.prov := rfl
  refine ⟨?_, fun sc hsc v x => ⟨fun s hs => ?_, fun e he => ?_⟩, fun sc hsc oE oN es val s hs => ?_⟩
  · simp only [step, hc]
    exact hmk _ _
  · rw [hp] at hsc
    simp only [step, hc, hsc, hs]
    exact hmk _ _
  · rw [hp] at hsc
    simp only [step, hc, hsc, he]
  · rw [hp] at hsc
    simp only [step, hc, hsc, hs]
    exact hmk (h.writeBuilder c _) s

/-- Non-vacuity: a history with two outcomes added to a graph builder, `build`, `relation_graph`, and a later outcome; both
graphs keep two outcomes. -/
example : ∃ (ops : List (HeapOp ℕ ℕ ℕ)),
    ((Heap.run {} ops).graphs.length = 2) ∧
    ((Heap.run {} ops).graphValue 1).map (fun p => (p.1, p.2.2.1.samples.entries.length, p.2.2.2)) = some (0, 2, 5) ∧
    ((Heap.run {} ops).setBuilderValue 0).map (fun p => p.samples.entries.length) = some 3 := by
  refine ⟨[.userSchema ⟨⟨[(0, {0, 1})], by decide⟩, {0}⟩, .provider 0, .graphBuilder 0 none,
    .addOutcome 0 ⟨0, ⟨{⟨0, 0⟩}, ∅⟩⟩ 2, .addOutcome 0 ⟨0, ⟨{⟨0, 1⟩}, ∅⟩⟩ 3, .buildGraph 0, .relationGraph 0,
    .addOutcome 0 ⟨0, ⟨∅, ∅⟩⟩ 1], ?_, ?_, ?_⟩ <;> decide +kernel

end Heap
end
end Verif
