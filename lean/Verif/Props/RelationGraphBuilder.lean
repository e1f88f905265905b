import Verif.Model.RelationGraphBuilder
import Verif.Lemmas.SampleSet
import Verif.Props.Builder
import Verif.Props.Components

/-!
# Histories of a `RelationGraphBuilder` (C37)
-/

set_option linter.unusedSectionVars false

namespace Verif

/-- A call on a `RelationGraphBuilder`. -/
inductive RGOp (V X R : Type) where
  | outcome (s : Sample V X R) (c : ℤ)
  | outcomes (l : List (Sample V X R)) (c : ℤ)
  | sample (f : Builder V X R → Py (Sample V X R))
  | nextId

section
variable {V X R : Type} [DecidableEq V] [DecidableEq X] [DecidableEq R]

/-- The effect of a call: new state, exception, returned id. -/
def RGOp.apply (b : RGBuilder V X R) : RGOp V X R → RGBuilder V X R × Option Err × Option Nat
  | .outcome s c => ((b.addOutcome s c).1, (b.addOutcome s c).2, none)
  | .outcomes l c => ((RGBuilder.addOutcomes c l b).1, (RGBuilder.addOutcomes c l b).2, none)
  | .sample f => ((b.buildSample f).1, (b.buildSample f).2, none)
  | .nextId => (b.nextId.2, none, some b.nextId.1)

/-- A history: exceptions are caught by the caller, who goes on with the builder. Final state and returned ids. -/
def runRGOps (b : RGBuilder V X R) : List (RGOp V X R) → RGBuilder V X R × List Nat
  | [] => (b, [])
  | op :: t =>
    ((runRGOps (op.apply b).1 t).1, (op.apply b).2.2.toList ++ (runRGOps (op.apply b).1 t).2)

/-! ### Specification -/

/-- The (outcome, count) pairs a call should record on a builder of provider `prov`. -/
def RGOp.accepted (prov : Nat) : RGOp V X R → List (SampleGraph V X R × ℤ)
  | .outcome s c => if s.prov = prov ∧ 0 < c then [(s.graph, c)] else []
  | .outcomes l c => if 0 < c then (l.takeWhile fun s => decide (s.prov = prov)).map fun s => (s.graph, c) else []
  | .sample f =>
    match f (Builder.new prov) with
    | .ok s => if s.prov = prov then [(s.graph, 1)] else []
    | .error _ => []
  | .nextId => []

/-- The calls that should raise, with their exception. -/
def RGOp.Raises (prov : Nat) (e : Err) : RGOp V X R → Prop
  | .outcome s c => e = .assertion ∧ (s.prov ≠ prov ∨ c ≤ 0)
  | .outcomes l c => e = .assertion ∧ ((∃ s ∈ l, s.prov ≠ prov) ∨ (c ≤ 0 ∧ l ≠ []))
  | .sample f => f (Builder.new prov) = .error e ∨ (e = .assertion ∧ ∃ s, f (Builder.new prov) = .ok s ∧ s.prov ≠ prov)
  | .nextId => False

/-! ### Proofs -/

/-- The provider of the outcomes is the provider of the builder. -/
def RGBuilder.Coherent (b : RGBuilder V X R) : Prop := b.outcomes.prov = b.prov

theorem addOutcome_ok (b : RGBuilder V X R) (hb : b.Coherent) (s : Sample V X R) (c : ℤ) (hs : s.prov = b.prov)
    (hc : 0 < c) :
    (b.addOutcome s c).2 = none ∧ (b.addOutcome s c).1.Coherent ∧ (b.addOutcome s c).1.prov = b.prov ∧
    (b.addOutcome s c).1.schema = b.schema ∧ (b.addOutcome s c).1.idCounter = b.idCounter ∧
    ∀ g, (b.addOutcome s c).1.outcomes.samples.get? g =
      addCounts (b.outcomes.samples.get? g) (totalOf [(s.graph, c)] g) := by
  unfold RGBuilder.addOutcome
  rw [if_neg (not_not.2 hs), if_neg (by omega)]
  obtain ⟨h1, h2, h3, -⟩ := b.outcomes.add_ok s c (hs.trans hb.symm)
  refine ⟨h1, ?_, rfl, rfl, rfl, ?_⟩
  · unfold RGBuilder.Coherent; simp only; rw [h2]; exact hb
  · intro g
    simp only
    rw [h3, totalOf_cons, totalOf_nil]
    by_cases h : s.graph = g
    · rw [if_pos h, if_pos h]; rfl
    · rw [if_neg h, if_neg h]; simp

theorem addOutcome_bad (b : RGBuilder V X R) (s : Sample V X R) (c : ℤ) (h : s.prov ≠ b.prov ∨ c ≤ 0) :
    b.addOutcome s c = (b, some .assertion) := by
  unfold RGBuilder.addOutcome
  by_cases hs : s.prov = b.prov
  · rw [if_neg (not_not.2 hs), if_pos]
    rcases h with h | h
    · exact absurd hs h
    · omega
  · rw [if_pos hs]

theorem addOutcomes_bad (c : ℤ) (hc : c ≤ 0) (l : List (Sample V X R)) (hl : l ≠ []) (b : RGBuilder V X R) :
    RGBuilder.addOutcomes c l b = (b, some .assertion) := by
  cases l with
  | nil => exact absurd rfl hl
  | cons s t => unfold RGBuilder.addOutcomes; rw [addOutcome_bad b s c (Or.inr hc)]

theorem addOutcomes_spec (c : ℤ) (hc : 0 < c) (l : List (Sample V X R)) : ∀ (b : RGBuilder V X R), b.Coherent →
    (RGBuilder.addOutcomes c l b).1.Coherent ∧ (RGBuilder.addOutcomes c l b).1.prov = b.prov ∧
    (RGBuilder.addOutcomes c l b).1.schema = b.schema ∧ (RGBuilder.addOutcomes c l b).1.idCounter = b.idCounter ∧
    (∀ g, (RGBuilder.addOutcomes c l b).1.outcomes.samples.get? g = addCounts (b.outcomes.samples.get? g)
      (totalOf ((l.takeWhile fun s => decide (s.prov = b.prov)).map fun s => (s.graph, c)) g)) ∧
    (((∀ s ∈ l, s.prov = b.prov) ∧ (RGBuilder.addOutcomes c l b).2 = none) ∨
      ((∃ s ∈ l, s.prov ≠ b.prov) ∧ (RGBuilder.addOutcomes c l b).2 = some .assertion)) := by
  induction l with
  | nil => intro b hb; simp [RGBuilder.addOutcomes, totalOf_nil, hb]
  | cons s t ih =>
    intro b hb
    by_cases hs : s.prov = b.prov
    · obtain ⟨h1, h2, h3, h4, h5, h6⟩ := addOutcome_ok b hb s c hs hc
      have hstep : RGBuilder.addOutcomes c (s :: t) b = RGBuilder.addOutcomes c t (b.addOutcome s c).1 := by
        rw [RGBuilder.addOutcomes]
        split
        · rename_i b' e heq; rw [heq] at h1; simp at h1
        · rename_i b' heq; rw [heq]
      obtain ⟨i1, i2, i3, i4, i5, i6⟩ := ih _ h2
      rw [hstep]
      rw [h3] at i5 i6
      refine ⟨i1, i2.trans h3, i3.trans h4, i4.trans h5, ?_, ?_⟩
      · intro g
        rw [i5, h6, List.takeWhile_cons_of_pos (by simpa using hs), List.map_cons, addCounts_assoc]
        congr 1
        rw [← totalOf_append]; rfl
      · rcases i6 with ⟨ha, hn⟩ | ⟨⟨s', hs', hne⟩, he⟩
        · left; refine ⟨?_, hn⟩; simpa [hs] using ha
        · right; exact ⟨⟨s', by simp [hs'], hne⟩, he⟩
    · have hbad := addOutcome_bad b s c (Or.inl hs)
      have hstep : RGBuilder.addOutcomes c (s :: t) b = (b, some .assertion) := by
        unfold RGBuilder.addOutcomes; rw [hbad]
      rw [hstep]
      refine ⟨hb, rfl, rfl, rfl, ?_, Or.inr ⟨⟨s, by simp, hs⟩, rfl⟩⟩
      intro g
      rw [List.takeWhile_cons_of_neg (by simpa using hs)]
      simp [totalOf_nil]

theorem rgop_step (b : RGBuilder V X R) (hb : b.Coherent) (op : RGOp V X R) :
    (op.apply b).1.Coherent ∧ (op.apply b).1.prov = b.prov ∧ (op.apply b).1.schema = b.schema ∧
    (∀ g, (op.apply b).1.outcomes.samples.get? g = addCounts (b.outcomes.samples.get? g)
      (totalOf (op.accepted b.prov) g)) ∧
    (∀ e, (op.apply b).2.1 = some e ↔ op.Raises b.prov e) ∧
    (op.apply b).1.idCounter = b.idCounter + (op.apply b).2.2.toList.length ∧
    (∀ i ∈ (op.apply b).2.2, i = b.idCounter + 1) := by
  have one : ∀ (s : Sample V X R) (c : ℤ),
      (b.addOutcome s c).1.Coherent ∧ (b.addOutcome s c).1.prov = b.prov ∧ (b.addOutcome s c).1.schema = b.schema ∧
      (∀ g, (b.addOutcome s c).1.outcomes.samples.get? g = addCounts (b.outcomes.samples.get? g)
        (totalOf (if s.prov = b.prov ∧ 0 < c then [(s.graph, c)] else []) g)) ∧
      (∀ e, (b.addOutcome s c).2 = some e ↔ (e = .assertion ∧ (s.prov ≠ b.prov ∨ c ≤ 0))) ∧
      (b.addOutcome s c).1.idCounter = b.idCounter := by
    intro s c
    by_cases h : s.prov = b.prov ∧ 0 < c
    · obtain ⟨h1, h2, h3, h4, h5, h6⟩ := addOutcome_ok b hb s c h.1 h.2
      refine ⟨h2, h3, h4, ?_, ?_, h5⟩
      · rw [if_pos h]; exact h6
      · intro e; rw [h1]
        constructor
        · intro h'; simp at h'
        · rintro ⟨-, h' | h'⟩
          · exact absurd h.1 h'
          · exact absurd h.2 (by omega)
    · have hbad : s.prov ≠ b.prov ∨ c ≤ 0 := by
        by_cases hs : s.prov = b.prov
        · right; by_contra h'; exact h ⟨hs, by omega⟩
        · left; exact hs
      rw [addOutcome_bad b s c hbad, if_neg h]
      refine ⟨hb, rfl, rfl, ?_, ?_, rfl⟩
      · intro g; simp [totalOf_nil]
      · intro e; simp only [Option.some.injEq]
        exact ⟨fun h' => ⟨h'.symm, hbad⟩, fun h' => h'.1.symm⟩
  cases op with
  | outcome s c =>
    obtain ⟨h1, h2, h3, h4, h5, h6⟩ := one s c
    exact ⟨h1, h2, h3, h4, h5, by simpa [RGOp.apply] using h6, by simp [RGOp.apply]⟩
  | outcomes l c =>
    by_cases hc : 0 < c
    · obtain ⟨h1, h2, h3, h4, h5, h6⟩ := addOutcomes_spec c hc l b hb
      refine ⟨h1, h2, h3, ?_, ?_, by simpa [RGOp.apply] using h4, by simp [RGOp.apply]⟩
      · simp only [RGOp.accepted, if_pos hc]; exact h5
      · intro e
        simp only [RGOp.apply, RGOp.Raises]
        rcases h6 with ⟨ha, hn⟩ | ⟨hex, he⟩
        · rw [hn]
          constructor
          · intro h; simp at h
          · rintro ⟨-, ⟨s, hs, hne⟩ | ⟨h, -⟩⟩
            · exact absurd (ha s hs) hne
            · omega
        · rw [he]
          simp only [Option.some.injEq]
          exact ⟨fun h => ⟨h.symm, Or.inl hex⟩, fun h => h.1.symm⟩
    · by_cases hl : l = []
      · subst hl
        refine ⟨hb, rfl, rfl, ?_, ?_, by simp [RGOp.apply, RGBuilder.addOutcomes], by simp [RGOp.apply]⟩
        · intro g; simp [RGOp.accepted, totalOf_nil, RGOp.apply, RGBuilder.addOutcomes]
        · intro e; simp [RGOp.apply, RGOp.Raises, RGBuilder.addOutcomes]
      · have := addOutcomes_bad c (by omega) l hl b
        refine ⟨?_, ?_, ?_, ?_, ?_, ?_, by simp [RGOp.apply]⟩ <;> simp only [RGOp.apply, this, RGOp.accepted, if_neg hc]
        · exact hb
        · intro g; simp [totalOf_nil]
        · intro e; simp only [RGOp.Raises, Option.some.injEq]
          exact ⟨fun h => ⟨h.symm, Or.inr ⟨by omega, hl⟩⟩, fun h => h.1.symm⟩
        · simp
  | sample f =>
    cases hf : f (Builder.new b.prov) with
    | error e' =>
      have : b.buildSample f = (b, some e') := by unfold RGBuilder.buildSample; rw [hf]
      refine ⟨?_, ?_, ?_, ?_, ?_, ?_, by simp [RGOp.apply]⟩ <;> simp only [RGOp.apply, this, RGOp.accepted, hf]
      · exact hb
      · intro g; simp [totalOf_nil]
      · intro e; simp [RGOp.Raises, hf]
      · simp
    | ok s =>
      have : b.buildSample f = b.addOutcome s 1 := by unfold RGBuilder.buildSample; rw [hf]
      obtain ⟨h1, h2, h3, h4, h5, h6⟩ := one s 1
      refine ⟨?_, ?_, ?_, ?_, ?_, ?_, by simp [RGOp.apply]⟩ <;> simp only [RGOp.apply, this, RGOp.accepted, hf]
      · exact h1
      · exact h2
      · exact h3
      · simpa using h4
      · intro e
        rw [h5]
        simp [RGOp.Raises, hf]
      · simpa using h6
  | nextId =>
    refine ⟨hb, rfl, rfl, ?_, ?_, ?_, ?_⟩
    · intro g; simp [RGOp.accepted, totalOf_nil, RGOp.apply, RGBuilder.nextId]
    · intro e; simp [RGOp.apply, RGOp.Raises]
    · simp [RGOp.apply, RGBuilder.nextId]
    · simp [RGOp.apply, RGBuilder.nextId]

theorem runRGOps_append (b : RGBuilder V X R) (l m : List (RGOp V X R)) :
    runRGOps b (l ++ m) = ((runRGOps (runRGOps b l).1 m).1, (runRGOps b l).2 ++ (runRGOps (runRGOps b l).1 m).2) := by
  induction l generalizing b with
  | nil => rfl
  | cons op t ih => simp only [List.cons_append, runRGOps, ih, List.append_assoc]

theorem runRGOps_spec (ops : List (RGOp V X R)) : ∀ (b : RGBuilder V X R), b.Coherent →
    (runRGOps b ops).1.Coherent ∧ (runRGOps b ops).1.prov = b.prov ∧ (runRGOps b ops).1.schema = b.schema ∧
    (∀ g, (runRGOps b ops).1.outcomes.samples.get? g = addCounts (b.outcomes.samples.get? g)
      (totalOf (ops.flatMap fun op => op.accepted b.prov) g)) ∧
    (runRGOps b ops).2 = (List.range (runRGOps b ops).2.length).map (· + (b.idCounter + 1)) := by
  induction ops with
  | nil => intro b hb; exact ⟨hb, rfl, rfl, fun g => by simp [runRGOps, totalOf_nil], rfl⟩
  | cons op t ih =>
    intro b hb
    obtain ⟨h1, h2, h3, h4, -, h6, h7⟩ := rgop_step b hb op
    obtain ⟨i1, i2, i3, i4, i5⟩ := ih _ h1
    refine ⟨i1, i2.trans h2, i3.trans h3, ?_, ?_⟩
    · intro g
      simp only [runRGOps]
      rw [i4, h4, h2, List.flatMap_cons, totalOf_append, addCounts_assoc]
    · simp only [runRGOps]
      rw [h6] at i5
      cases hid : (op.apply b).2.2 with
      | none => rw [hid] at i5; simpa using i5
      | some i =>
        have hi := h7 i (by rw [hid]; rfl)
        rw [hid] at i5
        simp only [Option.toList_some, List.singleton_append, List.length_cons, List.length_nil] at i5 ⊢
        rw [List.range_succ_eq_map, List.map_cons, List.map_map, hi]
        congr 1
        · omega
        · conv_lhs => rw [i5]
          apply List.map_congr_left
          intro k _
          simp only [Function.comp_apply]; omega

theorem coherent_fresh (s : Schema V X R) (prov : Nat) : (RGBuilder.fresh s prov).Coherent := rfl

/-- C37, history: after any sequence of calls on a fresh builder every outcome has as count the sum of the counts of the
accepted calls with this outcome (and is absent if there is none). -/
theorem C37_history (s : Schema V X R) (prov : Nat) (ops : List (RGOp V X R)) (g : SampleGraph V X R) :
    (runRGOps (RGBuilder.fresh s prov) ops).1.outcomes.samples.get? g =
      totalOf (ops.flatMap fun op => op.accepted prov) g := by
  have := (runRGOps_spec ops _ (coherent_fresh s prov)).2.2.2.1 g
  rw [this]
  simp [RGBuilder.fresh, Samples.empty]

/-- C37, exceptions: after any history a call raises exactly in the cases of `RGOp.Raises`; a raising `add_outcome` or
`build_sample` leaves the builder as it was, and so does a raising `add_outcomes` whose first element or count is
bad. -/
theorem C37_raises (s : Schema V X R) (prov : Nat) (ops : List (RGOp V X R)) (op : RGOp V X R) :
    let b := (runRGOps (RGBuilder.fresh s prov) ops).1
    (∀ e, (op.apply b).2.1 = some e ↔ op.Raises prov e) ∧
    ((op.apply b).2.1 ≠ none → op.accepted prov = [] → (op.apply b).1 = b) ∧
    (∀ smp c, op = .outcome smp c → (op.apply b).2.1 ≠ none → (op.apply b).1 = b) ∧
    (∀ f, op = .sample f → (op.apply b).2.1 ≠ none → (op.apply b).1 = b) := by
  intro b
  obtain ⟨hc, hp, -, -, -⟩ := runRGOps_spec ops _ (coherent_fresh s prov)
  have hp : b.prov = prov := hp
  have hstep := rgop_step b hc op
  have hone : ∀ smp c, (b.addOutcome smp c).2 ≠ none → (b.addOutcome smp c).1 = b := by
    intro smp c h
    by_cases hg : smp.prov = b.prov ∧ 0 < c
    · exact absurd (addOutcome_ok b hc smp c hg.1 hg.2).1 h
    · rw [addOutcome_bad b smp c (by
        by_cases hs : smp.prov = b.prov
        · right; by_contra h'; exact hg ⟨hs, by omega⟩
        · left; exact hs)]
  have hsamp : ∀ f, (b.buildSample f).2 ≠ none → (b.buildSample f).1 = b := by
    intro f h
    unfold RGBuilder.buildSample at h ⊢
    split
    · rfl
    · rename_i smp hf; rw [hf] at h; exact hone _ _ h
  refine ⟨?_, ?_, ?_, ?_⟩
  · rw [← hp]; exact hstep.2.2.2.2.1
  · intro hr ha
    cases op with
    | outcome smp c => exact hone smp c hr
    | sample f => exact hsamp f hr
    | nextId => exact absurd rfl hr
    | outcomes l c =>
      simp only [RGOp.apply] at hr ⊢
      cases l with
      | nil => exact absurd rfl hr
      | cons x t =>
        have hbad : x.prov ≠ b.prov ∨ c ≤ 0 := by
          by_contra hcon
          push Not at hcon
          simp only [RGOp.accepted, if_pos hcon.2] at ha
          rw [List.takeWhile_cons_of_pos (by simpa [hp] using hcon.1)] at ha
          simp at ha
        unfold RGBuilder.addOutcomes
        rw [addOutcome_bad b x c hbad]
  · rintro smp c rfl hr; exact hone smp c hr
  · rintro f rfl hr; exact hsamp f hr

/-- C37, build: `build` returns exactly if some call was accepted, and then gives the relation graph with the recorded
outcomes; otherwise it raises `AssertionError`. -/
theorem C37_build (s : Schema V X R) (prov : Nat) (ops : List (RGOp V X R)) :
    let b := (runRGOps (RGBuilder.fresh s prov) ops).1
    (Returns b.build ↔ ∃ op ∈ ops, op.accepted prov ≠ []) ∧
    (¬ Returns b.build → b.build = .error .assertion) ∧
    (∀ sp, b.build = .ok sp → sp.schema = s ∧ sp.evidence = none ∧ sp.outcomes.prov = prov ∧
      ∀ g, sp.outcomes.samples.get? g = totalOf (ops.flatMap fun op => op.accepted prov) g) := by
  intro b
  obtain ⟨hc, hp, hs, hg, -⟩ := runRGOps_spec ops _ (coherent_fresh s prov)
  have hbool : b.outcomes.bool = true ↔ ∃ op ∈ ops, op.accepted prov ≠ [] := by
    unfold Samples.bool
    rw [decide_eq_true_eq]
    constructor
    · intro hne0
      obtain ⟨⟨g, c⟩, h⟩ := List.exists_mem_of_ne_nil _ hne0
      rw [Dict.mem_entries] at h
      have h2 := C37_history s prov ops g
      change b.outcomes.samples.get? g = _ at h2
      by_contra hcon
      push Not at hcon
      rw [List.flatMap_eq_nil_iff.2 hcon, totalOf_nil] at h2
      rw [h2] at h; simp at h
    · rintro ⟨op, hop, hne⟩
      obtain ⟨⟨g, c⟩, hgc⟩ := List.exists_mem_of_ne_nil _ hne
      have h2 := C37_history s prov ops g
      change b.outcomes.samples.get? g = _ at h2
      have hmem : (g, c) ∈ ops.flatMap fun op => op.accepted prov := List.mem_flatMap.2 ⟨op, hop, hgc⟩
      have : ∃ c, totalOf (ops.flatMap fun op => op.accepted prov) g = some c := by
        obtain ⟨l1, l2, hl⟩ := List.append_of_mem hmem
        rw [hl, totalOf_append, totalOf_cons, if_pos rfl]
        cases totalOf l1 g <;> cases totalOf l2 g <;> simp [addCounts]
      obtain ⟨c', hc'⟩ := this
      exact List.ne_nil_of_mem ((Dict.mem_entries _ g c').2 (h2.trans hc'))
  refine ⟨?_, ?_, ?_⟩
  · rw [← hbool]
    unfold RGBuilder.build Returns
    split
    · rename_i h; simp [h]
    · rename_i h; simp [h]
  · intro h
    unfold RGBuilder.build at h ⊢
    split
    · rename_i h'; rw [if_pos h'] at h; exact absurd ⟨_, rfl⟩ h
    · rfl
  · intro sp h
    unfold RGBuilder.build at h
    split at h
    · simp only [Except.ok.injEq] at h
      subst h
      exact ⟨hs, rfl, (show b.outcomes.prov = b.prov from hc).trans hp, fun g => C37_history s prov ops g⟩
    · simp at h

/-- C37, ids: the ids handed out during a history are `1, 2, 3, …`, so none repeats. -/
theorem C37_next_id (s : Schema V X R) (prov : Nat) (ops : List (RGOp V X R)) :
    let ids := (runRGOps (RGBuilder.fresh s prov) ops).2
    ids = (List.range ids.length).map (· + 1) ∧ ids.Nodup := by
  intro ids
  have h : ids = (List.range ids.length).map (· + 1) := (runRGOps_spec ops _ (coherent_fresh s prov)).2.2.2.2
  refine ⟨h, ?_⟩
  rw [h]
  exact List.nodup_range.map (fun a b hab => by simpa using hab)

/-- C37, construction: `__init__` raises `AssertionError` unless there is a variable, every variable has a value and there
is a relation; it then starts without outcomes, or with the given outcomes if these are not empty. -/
theorem C37_init (prov : Nat) (vars : Dict V (Finset X)) (rels : Finset R) (given : Option (Samples V X R)) :
    (Returns (RGBuilder.init prov vars rels given) ↔
      (∃ v, v ∈ vars.keys) ∧ (∀ v xs, vars.get? v = some xs → ∃ x, x ∈ xs) ∧ (∃ r, r ∈ rels)) ∧
    (¬ Returns (RGBuilder.init prov vars rels given) → RGBuilder.init prov vars rels given = .error .assertion) ∧
    (∀ b, RGBuilder.init prov vars rels given = .ok b → b.schema = ⟨vars, rels⟩ ∧ b.prov = prov ∧ b.idCounter = 0 ∧
      (given = none → b = RGBuilder.fresh ⟨vars, rels⟩ prov) ∧
      (∀ o g c, given = some o → o.samples.get? g = some c → b.outcomes = o)) := by
  have key : RGBuilder.init prov vars rels given = match Schema.check vars rels with
      | .error _ => .error .assertion
      | .ok s => match given with
        | some o => if o.bool then .ok ⟨s, prov, o, 0⟩ else .ok ⟨s, prov, Samples.empty prov, 0⟩
        | none => .ok ⟨s, prov, Samples.empty prov, 0⟩ := by
    unfold RGBuilder.init Schema.check
    by_cases h1 : vars.entries = []
    · simp [h1]
    · by_cases h2 : rels = ∅
      · simp [h1, h2]
      · by_cases h3 : (vars.entries.any fun p => decide (p.2 = ∅)) = true
        · rw [if_neg (by tauto), if_neg h1, if_pos h3]
        · rw [if_neg (by tauto), if_neg h1, if_neg h3, if_neg h2]
          cases given <;> rfl
  obtain ⟨c1, c2, c3⟩ := C02_init vars rels
  rw [key, ← c1]
  cases hc : Schema.check vars rels with
  | error e => refine ⟨?_, ?_, ?_⟩ <;> simp [Returns]
  | ok s =>
    have := c3 s hc
    subst this
    refine ⟨?_, ?_, ?_⟩
    · refine ⟨fun _ => ⟨_, rfl⟩, fun _ => ?_⟩
      cases given with
      | none => exact ⟨_, rfl⟩
      | some o => simp only; split <;> exact ⟨_, rfl⟩
    · intro h
      exfalso; apply h
      cases given with
      | none => exact ⟨_, rfl⟩
      | some o => simp only; split <;> exact ⟨_, rfl⟩
    · intro b h
      cases given with
      | none =>
        simp only [Except.ok.injEq] at h
        subst h
        exact ⟨rfl, rfl, rfl, fun _ => rfl, by simp⟩
      | some o =>
        simp only at h
        split at h
        · simp only [Except.ok.injEq] at h
          subst h
          exact ⟨rfl, rfl, rfl, by simp, fun o' g c h' _ => by simpa using h'⟩
        · rename_i hb
          simp only [Except.ok.injEq] at h
          subst h
          refine ⟨rfl, rfl, rfl, by simp, ?_⟩
          intro o' g c h' hg
          exfalso; apply hb
          simp only [Option.some.injEq] at h'
          subst h'
          unfold Samples.bool
          rw [decide_eq_true_eq]
          intro hnil
          have := (Dict.mem_entries o.samples g c).2 hg
          rw [hnil] at this; simp at this

/-- Non-vacuity of C37: a history with accepted and rejected calls; the accepted ones add up. -/
example : let ops : List (RGOp ℕ ℕ ℕ) := [.outcome ⟨0, oneEdge ⟨0, 0⟩ ⟨1, 0⟩⟩ 2, .outcome ⟨7, oneEdge ⟨0, 0⟩ ⟨1, 0⟩⟩ 1,
      .outcome ⟨0, oneEdge ⟨0, 0⟩ ⟨1, 0⟩⟩ 0, .nextId,
      .outcomes [⟨0, oneEdge ⟨0, 0⟩ ⟨1, 0⟩⟩, ⟨7, oneEdge ⟨0, 0⟩ ⟨1, 0⟩⟩, ⟨0, oneEdge ⟨0, 1⟩ ⟨1, 0⟩⟩] 3, .nextId]
    let b := runRGOps (RGBuilder.fresh ⟨Dict.empty, ∅⟩ 0) ops
    b.1.outcomes.samples.get? (oneEdge ⟨0, 0⟩ ⟨1, 0⟩) = some 5 ∧
    b.1.outcomes.samples.get? (oneEdge ⟨0, 1⟩ ⟨1, 0⟩) = none ∧ b.2 = [1, 2] := by
  decide +kernel

end
end Verif
