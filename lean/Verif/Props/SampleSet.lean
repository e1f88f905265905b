import Verif.Lemmas.SampleSet
import Verif.Props.SampleGraph

/-!
# C20 – C23, C25 – C27: sample sets
-/

set_option linter.unusedSectionVars false

namespace Verif

variable {V X R : Type} [DecidableEq V] [DecidableEq X] [DecidableEq R]

/-! ### C20 -/

/-- The mutating methods of `SampleSetBuilder`. -/
inductive SetOp (V X R : Type) where
  | add (s : Sample V X R) (c : ℤ)
  | addAll (o : Order (SampleGraph V X R × ℤ)) (other : Samples V X R)
  | remove (g : SampleGraph V X R)
  | removeAll (o : Order (SampleGraph V X R)) (other : Samples V X R)

/-- Running one of them: the state it leaves and the exception, if any. -/
def SetOp.apply (b : Samples V X R) : SetOp V X R → Samples V X R × Option Err
  | .add s c => b.add s c
  | .addAll o other => b.addAll o other
  | .remove g => ((b.remove g).1, match (b.remove g).2 with | .ok _ => none | .error e => some e)
  | .removeAll o other => b.removeAll o other

/-- Running a history (the caller goes on after exceptions): final state and the list of outcomes of the calls. -/
def runSetOps (b : Samples V X R) : List (SetOp V X R) → Samples V X R × List (Option Err)
  | [] => (b, [])
  | op :: t => let r := runSetOps (op.apply b).1 t; (r.1, (op.apply b).2 :: r.2)

/-- What a call contributes to a counter that currently reads `m`, and whether it raises. -/
inductive Contributes (prov : ℕ) (m : SampleGraph V X R → Option ℤ) :
    SetOp V X R → Option Err → List (Event (SampleGraph V X R)) → Prop
  | add (s c) : s.prov = prov → Contributes prov m (.add s c) none [.added s.graph c]
  | addForeign (s c) : s.prov ≠ prov → Contributes prov m (.add s c) (some .assertion) []
  | addAll (o other) (l : List (SampleGraph V X R × ℤ)) : (other.prov = prov ∨ other.samples.entries = []) → l.Perm other.samples.entries →
      Contributes prov m (.addAll o other) none (l.map fun p => .added p.1 p.2)
  | addAllForeign (o other) : other.prov ≠ prov → other.samples.entries ≠ [] →
      Contributes prov m (.addAll o other) (some .assertion) []
  | remove (g) : m g ≠ none → Contributes prov m (.remove g) none [.removed g]
  | removeAbsent (g) : m g = none → Contributes prov m (.remove g) (some .assertion) []
  | removeAll (o other) (l : List (SampleGraph V X R)) : (∀ g ∈ l, m g ≠ none) → l.Perm other.samples.keys →
      Contributes prov m (.removeAll o other) none (l.map .removed)
  | removeAllAbsent (o other) (l rest : List (SampleGraph V X R)) (g) : (∀ g' ∈ l, m g' ≠ none) → (l ++ g :: rest).Perm other.samples.keys → m g = none →
      Contributes prov m (.removeAll o other) (some .assertion) (l.map .removed)

/-- Histories of calls on a fresh builder with the log of what they contributed. -/
inductive History (prov : ℕ) : List (SetOp V X R) → List (Option Err) → List (Event (SampleGraph V X R)) → Prop
  | nil : History prov [] [] []
  | snoc {ops errs log op err evs} : History prov ops errs log → Contributes prov (sinceLastRemoval log) op err evs →
      History prov (ops ++ [op]) (errs ++ [err]) (log ++ evs)

section since
variable {K : Type} [DecidableEq K]

theorem amounts_cons_added (k : K) (c : ℤ) (l : List (Event K)) (g : K) :
    amounts g (.added k c :: l) = if k = g then c :: amounts g l else amounts g l := by
  unfold amounts
  rw [List.filterMap_cons]
  by_cases h : k = g <;> simp [h]

theorem since_added (log : List (Event K)) (k : K) (c : ℤ) (g : K) :
    sinceLastRemoval (log ++ [.added k c]) g =
      if k = g then addCounts (sinceLastRemoval log g) (some c) else sinceLastRemoval log g := by
  unfold sinceLastRemoval
  simp only [List.reverse_append, List.reverse_cons, List.reverse_nil, List.nil_append, List.cons_append]
  rw [List.takeWhile_cons_of_pos (by simp [Event.removes]), amounts_cons_added]
  by_cases h : k = g
  · simp only [h, if_true, List.cons_ne_nil, if_false, List.sum_cons]
    by_cases h' : amounts g (log.reverse.takeWhile fun e => !Event.removes g e) = []
    · rw [if_pos h', h']; simp [addCounts]
    · rw [if_neg h']; simp [addCounts, add_comm]
  · simp only [h, if_false]

theorem since_removed (log : List (Event K)) (k g : K) :
    sinceLastRemoval (log ++ [.removed k]) g = if k = g then none else sinceLastRemoval log g := by
  unfold sinceLastRemoval
  simp only [List.reverse_append, List.reverse_cons, List.reverse_nil, List.nil_append, List.cons_append]
  by_cases h : k = g
  · rw [List.takeWhile_cons_of_neg (by simp [Event.removes, h])]
    simp [amounts, h]
  · rw [List.takeWhile_cons_of_pos (by simp [Event.removes, h])]
    simp [amounts, h]

theorem since_added_list (l : List (K × ℤ)) (log : List (Event K)) (g : K) :
    sinceLastRemoval (log ++ l.map fun p => .added p.1 p.2) g = addCounts (sinceLastRemoval log g) (totalOf l g) := by
  induction l generalizing log with
  | nil => simp [totalOf_nil]
  | cons p t ih =>
    rw [List.map_cons, ← List.singleton_append, ← List.append_assoc, ih, since_added, totalOf_cons]
    split
    · rw [addCounts_assoc]
    · rfl

theorem since_removed_list (l : List K) (log : List (Event K)) (g : K) :
    sinceLastRemoval (log ++ l.map .removed) g = if g ∈ l then none else sinceLastRemoval log g := by
  induction l generalizing log with
  | nil => simp
  | cons k t ih =>
    rw [List.map_cons, ← List.singleton_append, ← List.append_assoc, ih, since_removed]
    by_cases h : g ∈ t
    · simp [h]
    · by_cases h' : k = g
      · simp [h']
      · simp [h, h', Ne.symm h']

end since

theorem SetOp.apply_spec (b : Samples V X R) (log : List (Event (SampleGraph V X R)))
    (hb : ∀ g, b.samples.get? g = sinceLastRemoval log g) (op : SetOp V X R) :
    ∃ evs, Contributes b.prov (sinceLastRemoval log) op (op.apply b).2 evs ∧ (op.apply b).1.prov = b.prov ∧
      ∀ g, (op.apply b).1.samples.get? g = sinceLastRemoval (log ++ evs) g := by
  cases op with
  | add s c =>
    by_cases h : s.prov = b.prov
    · obtain ⟨h1, h2, h3, -⟩ := b.add_ok s c h
      refine ⟨[.added s.graph c], ?_, h2, fun g => ?_⟩
      · have : (SetOp.apply b (.add s c)).2 = none := h1
        rw [this]; exact .add s c h
      · rw [since_added, ← hb]; exact h3 g
    · have : SetOp.apply b (.add s c) = (b, some .assertion) := b.add_error s c h
      rw [this]
      exact ⟨[], .addForeign s c h, rfl, by simpa using hb⟩
  | addAll o other =>
    by_cases h : other.prov = b.prov
    · obtain ⟨h1, h2, h3, -⟩ := b.addAll_ok o other h
      refine ⟨other.samples.entries.map fun p => .added p.1 p.2, ?_, h2, fun g => ?_⟩
      · have : (SetOp.apply b (.addAll o other)).2 = none := h1
        rw [this]
        exact .addAll o other _ (Or.inl h) (List.Perm.refl _)
      · rw [since_added_list, ← hb, totalOf_entries]; exact h3 g
    · by_cases he : other.samples.entries = []
      · have hr : o.run other.items = [] := by
          have := other.run_items_perm o; rw [he] at this; exact this.eq_nil
        have : SetOp.apply b (.addAll o other) = (b, none) := by
          show b.addAll o other = _
          unfold Samples.addAll; rw [hr]; rfl
        rw [this]
        refine ⟨_, .addAll o other _ (Or.inr he) (List.Perm.refl _), rfl, ?_⟩
        rw [he]; simpa using hb
      · have hr : o.run other.items ≠ [] := by
          have := other.run_items_perm o
          intro h'; rw [h'] at this; exact he this.nil_eq.symm
        have : SetOp.apply b (.addAll o other) = (b, some .assertion) := Samples.addList_error _ _ b h hr
        rw [this]
        exact ⟨[], .addAllForeign o other h he, rfl, by simpa using hb⟩
  | remove g =>
    cases hg : b.samples.get? g with
    | none =>
      have : SetOp.apply b (.remove g) = (b, some .assertion) := by
        show (_, _) = _; rw [b.remove_none g hg]
      rw [this]
      exact ⟨[], .removeAbsent g (by rw [← hb, hg]), rfl, by simpa using hb⟩
    | some c =>
      have : SetOp.apply b (.remove g) = (⟨b.prov, b.samples.erase g⟩, none) := by
        show (_, _) = _; rw [b.remove_some g c hg]
      rw [this]
      refine ⟨[.removed g], .remove g (by rw [← hb, hg]; simp), rfl, fun g' => ?_⟩
      rw [since_removed, ← hb]; exact b.samples.get?_erase g g'
  | removeAll o other =>
    obtain ⟨pre, suf, h1, h2, h3, h4, h5⟩ := Samples.removeList_spec (o.run other.graphs) b (o.nodup _)
    have hp := other.run_graphs_perm o
    have hpre : ∀ g ∈ pre, sinceLastRemoval log g ≠ none := by
      intro g hg; obtain ⟨c, hc⟩ := h3 g hg; rw [← hb, hc]; simp
    refine ⟨pre.map .removed, ?_, h2, fun g => ?_⟩
    · rcases h5 with ⟨h6, h7⟩ | ⟨g, t, h6, h7, h8⟩
      · have : (SetOp.apply b (.removeAll o other)).2 = none := h7
        rw [this]
        refine .removeAll o other pre hpre ?_
        rw [h6, List.append_nil] at h1
        rw [← h1]; exact hp
      · have : (SetOp.apply b (.removeAll o other)).2 = some .assertion := h8
        rw [this]
        refine .removeAllAbsent o other pre t g hpre ?_ (by rw [← hb, h7])
        rw [← h6, ← h1]; exact hp
    · rw [since_removed_list, ← hb]; exact h4 g

/-- C20. For every history of calls on a fresh builder, whatever the iteration orders, the calls raise or contribute as
listed in `Contributes`, and the builder then holds for each sample the sum of the counts added since its last removal
(and holds no entry if nothing was added since); `length()` is the sum of the counts held. -/
theorem C20_history (prov : ℕ) (ops : List (SetOp V X R)) :
    ∃ log, History prov ops (runSetOps (Samples.empty prov) ops).2 log ∧
      (∀ g, (runSetOps (Samples.empty prov) ops).1.samples.get? g = sinceLastRemoval log g) ∧
      (runSetOps (Samples.empty prov) ops).1.prov = prov ∧
      (runSetOps (Samples.empty prov) ops).1.length =
        ∑ g ∈ (runSetOps (Samples.empty prov) ops).1.graphs, (sinceLastRemoval log g).getD 0 := by
  have key : ∀ (ops' ops₀ : List (SetOp V X R)) (errs₀ : List (Option Err)) (log₀ : List (Event (SampleGraph V X R)))
      (b : Samples V X R),
      b.prov = prov → History prov ops₀ errs₀ log₀ → (∀ g, b.samples.get? g = sinceLastRemoval log₀ g) →
      ∃ log, History prov (ops₀ ++ ops') (errs₀ ++ (runSetOps b ops').2) log ∧
        (∀ g, (runSetOps b ops').1.samples.get? g = sinceLastRemoval log g) ∧ (runSetOps b ops').1.prov = prov := by
    intro ops'
    induction ops' with
    | nil => intro ops₀ errs₀ log₀ b hp hH hb; exact ⟨log₀, by simpa [runSetOps] using hH, hb, hp⟩
    | cons op t ih =>
      intro ops₀ errs₀ log₀ b hp hH hb
      obtain ⟨evs, h1, h2, h3⟩ := op.apply_spec b log₀ hb
      rw [hp] at h1
      obtain ⟨log, h4, h5⟩ := ih (ops₀ ++ [op]) (errs₀ ++ [(op.apply b).2]) (log₀ ++ evs) (op.apply b).1
        (h2.trans hp) (hH.snoc h1) h3
      refine ⟨log, ?_, h5⟩
      simpa [runSetOps] using h4
  obtain ⟨log, h1, h2, h3⟩ := key ops [] [] [] (Samples.empty prov) rfl .nil (by
    intro g; simp [Samples.empty, sinceLastRemoval, amounts])
  refine ⟨log, by simpa using h1, h2, h3, ?_⟩
  set b := (runSetOps (Samples.empty prov) ops).1
  have : ∀ g ∈ b.graphs, (sinceLastRemoval log g).getD 0 = (b.samples.get? g).getD 0 := fun g _ => by rw [h2]
  rw [Finset.sum_congr rfl this]
  unfold Samples.length Samples.graphs
  rw [List.sum_toFinset _ b.samples.nodup_keys]
  unfold Dict.vals Dict.keys
  rw [List.map_map]
  congr 1
  apply List.map_congr_left
  intro p hp
  rw [Function.comp, (b.samples.mem_entries' p).1 hp]; rfl

/-- Non-vacuity of C20: a history in which a sample is added, removed, added again. -/
example : ((runSetOps (Samples.empty 0) [.add ⟨0, oneEdge ⟨0, 0⟩ ⟨1, 0⟩⟩ 5, .remove (oneEdge ⟨0, 0⟩ ⟨1, 0⟩),
    .add ⟨0, oneEdge ⟨0, 0⟩ ⟨1, 0⟩⟩ 2, .add ⟨1, oneEdge ⟨0, 0⟩ ⟨1, 0⟩⟩ 2]).1.samples.get? (oneEdge ⟨0, 0⟩ ⟨1, 0⟩)) = some 2 := by
  decide

/-! ### C21 -/

/-- C21, union: returns exactly for compatible sets, adds counts, adds lengths. -/
theorem C21_union (o : Order (SampleGraph V X R × ℤ)) (a b : Samples V X R) :
    (Returns (a.union o b) ↔ a.prov = b.prov) ∧ (a.prov ≠ b.prov → a.union o b = .error .assertion) ∧
    (∀ r, a.union o b = .ok r → (∀ g, r.samples.get? g = addCounts (a.samples.get? g) (b.samples.get? g)) ∧
      r.length = a.length + b.length ∧ r.prov = a.prov) := by
  by_cases h : a.prov = b.prov
  · obtain ⟨r, h1, h2, h3, h4⟩ := a.union_ok o b h
    refine ⟨⟨fun _ => h, fun _ => ⟨r, h1⟩⟩, fun h' => absurd h h', fun r' hr' => ?_⟩
    rw [h1, Except.ok.injEq] at hr'
    subst hr'; exact ⟨h3, h4, h2⟩
  · have := a.union_error o b h
    refine ⟨⟨fun ⟨r, hr⟩ => by rw [this] at hr; simp at hr, fun h' => absurd h' h⟩, fun _ => this, fun r hr => ?_⟩
    rw [this] at hr; simp at hr

/-- C21, algebra: commutative, associative and with the empty set as unit, for all iteration orders. -/
theorem C21_algebra (o1 o2 o3 o4 : Order (SampleGraph V X R × ℤ)) (a b c : Samples V X R) (hab : a.prov = b.prov)
    (hbc : b.prov = c.prov) :
    (∃ r r', a.union o1 b = .ok r ∧ b.union o2 a = .ok r' ∧ r.pyEq r' = true) ∧
    (∃ r s r' s', a.union o1 b = .ok r ∧ r.union o2 c = .ok s ∧ b.union o3 c = .ok r' ∧ a.union o4 r' = .ok s' ∧
      s.pyEq s' = true) ∧
    (∃ r r', a.union o1 (Samples.empty a.prov) = .ok r ∧ (Samples.empty a.prov).union o2 a = .ok r' ∧
      r.pyEq a = true ∧ r'.pyEq a = true) := by
  refine ⟨?_, ?_, ?_⟩
  · obtain ⟨r, h1, -, h3, -⟩ := a.union_ok o1 b hab
    obtain ⟨r', h1', -, h3', -⟩ := b.union_ok o2 a hab.symm
    exact ⟨r, r', h1, h1', Samples.equiv_of_get fun g => by rw [h3, h3', addCounts_comm]⟩
  · obtain ⟨r, h1, h2, h3, -⟩ := a.union_ok o1 b hab
    obtain ⟨s, i1, -, i3, -⟩ := r.union_ok o2 c (h2.trans (hab.trans hbc))
    obtain ⟨r', j1, j2, j3, -⟩ := b.union_ok o3 c hbc
    obtain ⟨s', k1, -, k3, -⟩ := a.union_ok o4 r' (hab.trans j2.symm)
    exact ⟨r, s, r', s', h1, i1, j1, k1, Samples.equiv_of_get fun g => by rw [i3, h3, k3, j3, addCounts_assoc]⟩
  · obtain ⟨r, h1, -, h3, -⟩ := a.union_ok o1 (Samples.empty a.prov) rfl
    obtain ⟨r', h1', -, h3', -⟩ := (Samples.empty a.prov).union_ok o2 a rfl
    exact ⟨r, r', h1, h1', Samples.equiv_of_get fun g => by rw [h3]; simp [Samples.empty],
      Samples.equiv_of_get fun g => by rw [h3']; simp [Samples.empty]⟩

/-- The entries of all sets of a list. -/
def allEntries (l : List (Samples V X R)) : List (SampleGraph V X R × ℤ) := l.flatMap fun s => s.samples.entries

/-- C21, `join_sample_set`: the empty list raises; a non-empty list of sets of one provider gives the total counts;
hence the order of the list does not matter. -/
theorem C21_join_sample_set (o o' : Order (SampleGraph V X R × ℤ)) (prov : ℕ) (l l' : List (Samples V X R))
    (hl : ∀ s ∈ l, s.prov = prov) :
    (Samples.joinSampleSet o ([] : List (Samples V X R)) = .error .assertion) ∧
    (l ≠ [] → ∃ r, Samples.joinSampleSet o l = .ok r ∧ r.prov = prov ∧ (∀ g, r.samples.get? g = totalOf (allEntries l) g) ∧
      r.length = (l.map Samples.length).sum) ∧
    (l ≠ [] → l.Perm l' → ∃ r r', Samples.joinSampleSet o l = .ok r ∧ Samples.joinSampleSet o' l' = .ok r' ∧
      r.pyEq r' = true) := by
  have key : ∀ (o : Order (SampleGraph V X R × ℤ)) (l : List (Samples V X R)), (∀ s ∈ l, s.prov = prov) → l ≠ [] →
      ∃ r, Samples.joinSampleSet o l = .ok r ∧ r.prov = prov ∧ (∀ g, r.samples.get? g = totalOf (allEntries l) g) ∧
        r.length = (l.map Samples.length).sum := by
    intro o l
    induction l with
    | nil => intro _ h; exact absurd rfl h
    | cons s t ih =>
      intro hl _
      cases t with
      | nil =>
        refine ⟨s, rfl, hl s (by simp), fun g => ?_, by simp⟩
        simp only [allEntries, List.flatMap_cons, List.flatMap_nil, List.append_nil, totalOf_entries]
      | cons s' t' =>
        obtain ⟨r, h1, h2, h3, h4⟩ := ih (fun x hx => hl x (by simp [hx])) (by simp)
        obtain ⟨u, i1, i2, i3, i4⟩ := s.union_ok o r ((hl s (by simp)).trans h2.symm)
        refine ⟨u, ?_, i2.trans (hl s (by simp)), fun g => ?_, ?_⟩
        · unfold Samples.joinSampleSet; rw [h1]; exact i1
        · rw [i3, h3]
          have : allEntries (s :: s' :: t') = s.samples.entries ++ allEntries (s' :: t') := rfl
          rw [this, totalOf_append, totalOf_entries]
        · rw [i4, h4]; simp
  refine ⟨rfl, fun h => key o l hl h, fun h hp => ?_⟩
  obtain ⟨r, h1, -, h3, -⟩ := key o l hl h
  obtain ⟨r', h1', -, h3', -⟩ := key o' l' (fun s hs => hl s (hp.mem_iff.2 hs)) (fun h' => h (by rw [h'] at hp; exact hp.eq_nil))
  refine ⟨r, r', h1, h1', Samples.equiv_of_get fun g => ?_⟩
  rw [h3, h3']
  exact totalOf_perm (hp.flatMap_right _) g

/-- Non-vacuity of C21: two different compatible sets with a common sample. -/
example : ∃ a b : Samples ℕ ℕ ℕ, a.prov = b.prov ∧ a.pyEq b = false ∧ ∀ o r, a.union o b = .ok r →
    r.samples.get? (oneEdge ⟨0, 0⟩ ⟨1, 0⟩) = some 5 := by
  refine ⟨⟨0, ⟨[(oneEdge ⟨0, 0⟩ ⟨1, 0⟩, 2)], by decide⟩⟩, ⟨0, ⟨[(oneEdge ⟨0, 0⟩ ⟨1, 0⟩, 3)], by decide⟩⟩, rfl, by decide, ?_⟩
  intro o r hr
  rw [((C21_union o _ _).2.2 r hr).1]
  decide

/-! ### C22 -/

theorem filterSamples_get (a : Samples V X R) (p : SampleGraph V X R → Bool) (g : SampleGraph V X R) (c : ℤ) :
    (a.filterSamples p).samples.get? g = some c ↔ a.samples.get? g = some c ∧ p g = true := by
  unfold Samples.filterSamples
  rw [Dict.get?_filterKeys]
  split
  · rename_i h; simp [h]
  · rename_i h; simp [h]

/-- C22. `filter_samples` keeps exactly the samples satisfying the predicate, with their counts; a filter and its
complement add up to the set; filters compose. -/
theorem C22_filter_samples (o : Order (SampleGraph V X R × ℤ)) (a : Samples V X R) (p q : SampleGraph V X R → Bool) :
    (∀ g c, (a.filterSamples p).samples.get? g = some c ↔ a.samples.get? g = some c ∧ p g = true) ∧
    (∃ r, (a.filterSamples p).union o (a.filterSamples fun g => !p g) = .ok r ∧ r.pyEq a = true) ∧
    (a.filterSamples p).length + (a.filterSamples fun g => !p g).length = a.length ∧
    ((a.filterSamples p).filterSamples q).pyEq (a.filterSamples fun g => p g && q g) = true ∧
    (a.filterSamples p).prov = a.prov := by
  have hget : ∀ p g, (a.filterSamples p).samples.get? g = if p g then a.samples.get? g else none := by
    intro p g; unfold Samples.filterSamples; exact Dict.get?_filterKeys _ _ _
  obtain ⟨r, h1, -, h3, h4⟩ := (a.filterSamples p).union_ok o (a.filterSamples fun g => !p g) rfl
  have heq : ∀ g, r.samples.get? g = a.samples.get? g := by
    intro g; rw [h3, hget, hget]
    cases p g <;> simp
  refine ⟨filterSamples_get a p, ⟨r, h1, Samples.equiv_of_get heq⟩, ?_, Samples.equiv_of_get fun g => ?_, rfl⟩
  · rw [← h4]; exact Samples.length_congr heq
  · have : ((a.filterSamples p).filterSamples q).samples.get? g =
        if q g then (a.filterSamples p).samples.get? g else none := Dict.get?_filterKeys _ _ _
    rw [this, hget, hget]
    cases p g <;> cases q g <;> simp

/-- Non-vacuity of C22: a filter that keeps one sample and drops another. -/
example : ((⟨0, ⟨[(oneEdge ⟨0, 0⟩ ⟨1, 0⟩, 2), (oneEdge ⟨0, 0⟩ ⟨2, 0⟩, 3)], by decide⟩⟩ : Samples ℕ ℕ ℕ).filterSamples
    fun g => decide (2 ∈ g.includedVariables)).samples.entries = [(oneEdge ⟨0, 0⟩ ⟨2, 0⟩, 3)] := by decide

/-! ### C23 -/

/-- All counts are positive, as `RelationGraphBuilder.add_outcome` requires. -/
def Positive (a : Samples V X R) : Prop := ∀ g c, a.samples.get? g = some c → 0 < c

theorem length_eq_sum (a : Samples V X R) : a.length = ∑ p ∈ a.items, p.2 := by
  unfold Samples.length Samples.items Dict.vals
  rw [List.sum_toFinset _ a.samples.nodup_entries]

theorem count_le_length (a : Samples V X R) (h : Positive a) (g : SampleGraph V X R) (c : ℤ)
    (hg : a.samples.get? g = some c) : c ≤ a.length := by
  rw [length_eq_sum]
  exact Finset.single_le_sum (f := fun p : SampleGraph V X R × ℤ => p.2)
    (fun p hp => (h p.1 p.2 ((a.mem_items p).1 hp)).le) ((a.mem_items (g, c)).2 hg)

theorem length_pos (a : Samples V X R) (h : Positive a) (hne : a.samples.entries ≠ []) : 0 < a.length := by
  obtain ⟨p, hp⟩ := List.exists_mem_of_ne_nil _ hne
  have hp := (a.samples.mem_entries' p).1 hp
  exact lt_of_lt_of_le (h p.1 p.2 hp) (count_le_length a h p.1 p.2 hp)

/-- C23. For a non-empty set with positive counts `probabilities()` returns exactly the pairs (sample, count/length),
each in (0, 1], summing to 1, in agreement with `probability_of`. -/
theorem C23_probabilities (o : Order (SampleGraph V X R × ℚ)) (a : Samples V X R) (h : Positive a)
    (hne : a.samples.entries ≠ []) :
    ∃ ps, a.probabilities o = .ok ps ∧
      (∀ g q, (g, q) ∈ ps ↔ ∃ c, a.samples.get? g = some c ∧ q = (c : ℚ) / (a.length : ℚ)) ∧
      (∀ g q, (g, q) ∈ ps ↔ a.probabilityOf g = .ok q) ∧
      (∀ p ∈ ps, 0 < p.2 ∧ p.2 ≤ 1) ∧ ∑ p ∈ ps, p.2 = 1 := by
  have hpos := length_pos a h hne
  have hposq : (0 : ℚ) < (a.length : ℚ) := by exact_mod_cast hpos
  set props : Finset (SampleGraph V X R × ℚ) :=
    (a.samples.entries.map fun p => (p.1, (p.2 : ℚ) / (a.length : ℚ))).toFinset with hprops
  have hmem : ∀ g q, (g, q) ∈ props ↔ ∃ c, a.samples.get? g = some c ∧ q = (c : ℚ) / (a.length : ℚ) := by
    intro g q
    rw [hprops, List.mem_toFinset, List.mem_map]
    constructor
    · rintro ⟨p, hp, he⟩
      simp only [Prod.mk.injEq] at he
      exact ⟨p.2, by rw [← he.1]; exact (a.samples.mem_entries' p).1 hp, he.2.symm⟩
    · rintro ⟨c, hc, rfl⟩
      exact ⟨(g, c), (a.samples.mem_entries g c).2 hc, rfl⟩
  have hsum : ∑ p ∈ props, p.2 = 1 := by
    rw [hprops, List.sum_toFinset]
    · rw [List.map_map]
      have : (Prod.snd ∘ fun p : SampleGraph V X R × ℤ => (p.1, (p.2 : ℚ) / (a.length : ℚ))) =
          fun p => ((p.2 : ℤ) : ℚ) / (a.length : ℚ) := rfl
      rw [this]
      have h2 : ∀ l : List (SampleGraph V X R × ℤ), (l.map fun p => ((p.2 : ℤ) : ℚ) / (a.length : ℚ)).sum =
          (((l.map Prod.snd).sum : ℤ) : ℚ) / (a.length : ℚ) := by
        intro l
        induction l with
        | nil => simp
        | cons p t ih => simp only [List.map_cons, List.sum_cons, ih, Int.cast_add, add_div]
      rw [h2]
      exact div_self hposq.ne'
    · apply List.Nodup.of_map Prod.fst
      rw [List.map_map]
      exact a.samples.nodup
  refine ⟨props, ?_, hmem, fun g q => ?_, fun p hp => ?_, hsum⟩
  · unfold Samples.probabilities
    rw [if_neg (fun h' => hpos.ne' h'.2)]
    simp only
    rw [if_pos]
    rw [o.sum_map]; exact hsum
  · rw [hmem]
    unfold Samples.probabilityOf
    cases hg : a.samples.get? g with
    | none => simp
    | some c =>
      simp only [Option.some.injEq, exists_eq_left', hpos.ne', if_false, Except.ok.injEq]
      exact eq_comm
  · obtain ⟨c, hc, hq⟩ := (hmem p.1 p.2).1 hp
    rw [hq]
    have h1 := h p.1 c hc
    have h2 := count_le_length a h p.1 c hc
    refine ⟨div_pos (by exact_mod_cast h1) hposq, (div_le_one hposq).2 (by exact_mod_cast h2)⟩

/-- C23, the empty set: `probabilities()` raises `AssertionError`. -/
theorem C23_empty (o : Order (SampleGraph V X R × ℚ)) (prov : ℕ) :
    (Samples.empty prov : Samples V X R).probabilities o = .error .assertion := by
  simp [Samples.probabilities, Samples.empty]

/-- Non-vacuity of C23. -/
example : ∃ a : Samples ℕ ℕ ℕ, Positive a ∧ a.samples.entries.length = 2 := by
  refine ⟨⟨0, ⟨[(oneEdge ⟨0, 0⟩ ⟨1, 0⟩, 2), (oneEdge ⟨0, 0⟩ ⟨2, 0⟩, 3)], by decide⟩⟩, ?_, rfl⟩
  intro g c h
  rw [← Dict.mem_entries] at h
  simp only [List.mem_cons, Prod.mk.injEq, List.not_mem_nil, or_false] at h
  rcases h with ⟨-, rfl⟩ | ⟨-, rfl⟩ <;> norm_num

/-! ### C25 -/

theorem matchNodes_spec : ∀ (l : List (Node V X)) (acc : Dict V X),
    (∀ acc', Samples.matchNodes l acc = some acc' →
      (∀ v x, acc'.get? v = some x ↔ acc.get? v = some x ∨ (⟨v, x⟩ : Node V X) ∈ l)) ∧
    (Samples.matchNodes l acc = none ↔ ∃ n m : Node V X, n ∈ l ∧ n.var = m.var ∧ n.val ≠ m.val ∧
      (acc.get? m.var = some m.val ∨ m ∈ l)) := by
  intro l
  induction l with
  | nil =>
    intro acc
    refine ⟨?_, ?_⟩
    · intro acc' h; simp only [Samples.matchNodes, Option.some.injEq] at h; subst h; simp
    · simp [Samples.matchNodes]
  | cons n t ih =>
    intro acc
    unfold Samples.matchNodes
    cases hn : acc.get? n.var with
    | some x =>
      simp only
      by_cases hx : x = n.val
      · subst hx
        rw [if_neg (by simp)]
        obtain ⟨h1, h2⟩ := ih acc
        refine ⟨fun acc' h v x => ?_, ?_⟩
        · rw [h1 acc' h, List.mem_cons]
          constructor
          · rintro (h | h)
            · exact Or.inl h
            · exact Or.inr (Or.inr h)
          · rintro (h | h | h)
            · exact Or.inl h
            · subst h; exact Or.inl hn
            · exact Or.inr h
        · rw [h2]
          constructor
          · rintro ⟨a, m, ha, h3, h4, h5⟩
            exact ⟨a, m, List.mem_cons_of_mem _ ha, h3, h4, h5.imp_right (List.mem_cons_of_mem _)⟩
          · rintro ⟨a, m, ha, h3, h4, h5⟩
            rcases List.mem_cons.1 ha with rfl | ha'
            · rcases h5 with h5 | h5
              · rw [h3, h5] at hn; simp only [Option.some.injEq] at hn; exact absurd hn.symm h4
              · rcases List.mem_cons.1 h5 with rfl | h5
                · exact absurd rfl h4
                · exact ⟨m, a, h5, h3.symm, Ne.symm h4, Or.inl hn⟩
            · rcases h5 with h5 | h5
              · exact ⟨a, m, ha', h3, h4, Or.inl h5⟩
              · rcases List.mem_cons.1 h5 with h5 | h5
                · subst h5; exact ⟨a, m, ha', h3, h4, Or.inl hn⟩
                · exact ⟨a, m, ha', h3, h4, Or.inr h5⟩
      · rw [if_pos (by simpa using hx)]
        refine ⟨by simp, ?_⟩
        simp only [true_iff]
        exact ⟨n, ⟨n.var, x⟩, by simp, rfl, Ne.symm hx, Or.inl hn⟩
    | none =>
      simp only
      obtain ⟨h1, h2⟩ := ih (acc.set n.var n.val)
      refine ⟨fun acc' h v x => ?_, ?_⟩
      · rw [h1 acc' h, Dict.get?_set, List.mem_cons]
        by_cases hv : n.var = v
        · subst hv
          rw [if_pos rfl, hn]
          simp only [Option.some.injEq, reduceCtorEq, false_or]
          constructor
          · rintro (rfl | h)
            · exact Or.inl rfl
            · exact Or.inr h
          · rintro (h | h)
            · left; rw [← h]
            · exact Or.inr h
        · rw [if_neg hv]
          have : (⟨v, x⟩ : Node V X) ≠ n := fun h' => hv (by rw [← h'])
          simp [this]
      · rw [h2]
        constructor
        · rintro ⟨a, m, ha, h3, h4, h5⟩
          rw [Dict.get?_set] at h5
          rcases h5 with h5 | h5
          · split at h5
            · rename_i hv
              simp only [Option.some.injEq] at h5
              refine ⟨a, n, List.mem_cons_of_mem _ ha, h3.trans hv.symm, ?_, Or.inr (by simp)⟩
              rw [h5]; exact h4
            · exact ⟨a, m, List.mem_cons_of_mem _ ha, h3, h4, Or.inl h5⟩
          · exact ⟨a, m, List.mem_cons_of_mem _ ha, h3, h4, Or.inr (List.mem_cons_of_mem _ h5)⟩
        · rintro ⟨a, m, ha, h3, h4, h5⟩
          rw [List.mem_cons] at ha
          rcases ha with rfl | ha
          · rcases h5 with h5 | h5
            · rw [← h3, hn] at h5; simp at h5
            · rcases List.mem_cons.1 h5 with rfl | h5
              · exact absurd rfl h4
              · exact ⟨m, a, h5, h3.symm, Ne.symm h4, Or.inl (by simp)⟩
          · rcases h5 with h5 | h5
            · refine ⟨a, m, ha, h3, h4, Or.inl ?_⟩
              rw [Dict.get?_set_ne _ _ (by rintro h; rw [h, h5] at hn; simp at hn)]
              exact h5
            · rcases List.mem_cons.1 h5 with rfl | h5
              · exact ⟨a, m, ha, h3, h4, Or.inl (by simp)⟩
              · exact ⟨a, m, ha, h3, h4, Or.inr h5⟩

theorem matchGraphs_spec (oN : Order (Node V X)) : ∀ (l : List (SampleGraph V X R)) (acc : Dict V X),
    Samples.matchGraphs oN l acc = true ↔
      ∀ n m : Node V X, (∃ g ∈ l, n ∈ g.nodes) → ((∃ g ∈ l, m ∈ g.nodes) ∨ acc.get? m.var = some m.val) →
        n.var = m.var → n.val = m.val := by
  intro l
  induction l with
  | nil => intro acc; simp [Samples.matchGraphs]
  | cons g t ih =>
    intro acc
    unfold Samples.matchGraphs
    obtain ⟨h1, h2⟩ := matchNodes_spec (oN.run g.nodes) acc
    cases hm : Samples.matchNodes (oN.run g.nodes) acc with
    | none =>
      simp only [Bool.false_eq_true, false_iff]
      obtain ⟨n, m, hn, h3, h4, h5⟩ := h2.1 hm
      intro hall
      rw [oN.mem] at hn
      refine h4 (hall n m ⟨g, by simp, hn⟩ ?_ h3)
      rcases h5 with h5 | h5
      · exact Or.inr h5
      · exact Or.inl ⟨g, by simp, (oN.mem _ _).1 h5⟩
    | some acc' =>
      simp only
      have hg := h1 acc' hm
      have hno : ¬ ∃ n m : Node V X, n ∈ oN.run g.nodes ∧ n.var = m.var ∧ n.val ≠ m.val ∧
          (acc.get? m.var = some m.val ∨ m ∈ oN.run g.nodes) := by
        rw [← h2, hm]; simp
      have hin : ∀ n m : Node V X, n ∈ g.nodes → (acc.get? m.var = some m.val ∨ m ∈ g.nodes) → n.var = m.var → n.val = m.val := by
        intro n m hn hm' hv
        by_contra hne
        exact hno ⟨n, m, (oN.mem _ _).2 hn, hv, hne, by rw [oN.mem]; exact hm'⟩
      rw [ih]
      constructor
      · rintro hall n m ⟨a, ha, hn⟩ hm' hv
        rcases List.mem_cons.1 ha with rfl | ha
        · rcases hm' with ⟨b, hb, hm'⟩ | hm'
          · rcases List.mem_cons.1 hb with rfl | hb
            · exact hin n m hn (Or.inr hm') hv
            · exact (hall m n ⟨b, hb, hm'⟩ (Or.inr ((hg _ _).2 (Or.inr ((oN.mem _ _).2 hn)))) hv.symm).symm
          · exact hin n m hn (Or.inl hm') hv
        · refine hall n m ⟨a, ha, hn⟩ ?_ hv
          rcases hm' with ⟨b, hb, hm'⟩ | hm'
          · rcases List.mem_cons.1 hb with rfl | hb
            · exact Or.inr ((hg _ _).2 (Or.inr ((oN.mem _ _).2 hm')))
            · exact Or.inl ⟨b, hb, hm'⟩
          · exact Or.inr ((hg _ _).2 (Or.inl hm'))
      · rintro hall n m ⟨a, ha, hn⟩ hm' hv
        refine hall n m ⟨a, List.mem_cons_of_mem _ ha, hn⟩ ?_ hv
        rcases hm' with ⟨b, hb, hm'⟩ | hm'
        · exact Or.inl ⟨b, List.mem_cons_of_mem _ hb, hm'⟩
        · rcases (hg _ _).1 hm' with h | h
          · exact Or.inr h
          · exact Or.inl ⟨g, by simp, (oN.mem _ _).1 h⟩

/-- C25. `is_all_values_match` is `True` exactly when no variable has two values over all nodes of all samples. The
right hand side mentions no order, so the answer depends neither on set iteration nor on the order of insertion. -/
theorem C25_is_all_values_match (oN : Order (Node V X)) (a : Samples V X R) :
    a.isAllValuesMatch oN = true ↔
      ∀ n m : Node V X, (∃ g c, a.samples.get? g = some c ∧ n ∈ g.nodes) → (∃ g c, a.samples.get? g = some c ∧ m ∈ g.nodes) →
        n.var = m.var → n.val = m.val := by
  unfold Samples.isAllValuesMatch
  rw [matchGraphs_spec]
  have : ∀ n : Node V X, (∃ g ∈ a.samples.keys, n ∈ g.nodes) ↔ ∃ g c, a.samples.get? g = some c ∧ n ∈ g.nodes := by
    intro n
    constructor
    · rintro ⟨g, hg, hn⟩; obtain ⟨c, hc⟩ := (a.samples.mem_keys g).1 hg; exact ⟨g, c, hc, hn⟩
    · rintro ⟨g, c, hc, hn⟩; exact ⟨g, (a.samples.mem_keys g).2 ⟨c, hc⟩, hn⟩
  simp only [this, Dict.get?_empty, reduceCtorEq, or_false]

/-- Non-vacuity of C25: both answers occur. -/
example : ∃ a b : Samples ℕ ℕ ℕ, (∀ oN, a.isAllValuesMatch oN = true) ∧ ∀ oN, b.isAllValuesMatch oN = false := by
  refine ⟨Samples.empty 0, ⟨0, ⟨[(⟨{⟨0, 0⟩}, ∅⟩, 1), (⟨{⟨0, 1⟩}, ∅⟩, 1)], by decide⟩⟩, fun oN => rfl, fun oN => ?_⟩
  rw [← Bool.not_eq_true, C25_is_all_values_match]
  intro h
  have := h ⟨0, 0⟩ ⟨0, 1⟩ ⟨⟨{⟨0, 0⟩}, ∅⟩, 1, (Dict.mem_entries _ _ _).1 (by simp), by simp⟩
    ⟨⟨{⟨0, 1⟩}, ∅⟩, 1, (Dict.mem_entries _ _ _).1 (by simp), by simp⟩ rfl
  simp at this

/-! ### C26 -/

theorem mem_common (t : List (SampleGraph V X R)) (s : Finset V) (v : V) :
    v ∈ t.foldl (fun a h => a ∩ h.includedVariables) s ↔ v ∈ s ∧ ∀ g ∈ t, v ∈ g.includedVariables := by
  induction t generalizing s with
  | nil => simp
  | cons g t ih => rw [List.foldl_cons, ih, Finset.mem_inter]; simp [and_assoc]

/-- C26. On a non-empty set of single-valued samples `can_join_samples` is `True` exactly when all samples agree on every
variable that *all* samples contain; on the empty set it raises `TypeError`. -/
theorem C26_can_join_samples (oN : Order (Node V X)) (a : Samples V X R)
    (hs : ∀ g c, a.samples.get? g = some c → SingleValued g.nodes) :
    (a.samples.entries = [] → a.canJoinSamples oN = .error .typeError) ∧
    (a.samples.entries ≠ [] → ∃ r, a.canJoinSamples oN = .ok r ∧
      (r = true ↔ ∀ v, (∀ g c, a.samples.get? g = some c → ∃ x, (⟨v, x⟩ : Node V X) ∈ g.nodes) →
        ∀ g c g' c' x x', a.samples.get? g = some c → a.samples.get? g' = some c' →
          (⟨v, x⟩ : Node V X) ∈ g.nodes → (⟨v, x'⟩ : Node V X) ∈ g'.nodes → x = x')) := by
  constructor
  · intro h
    have : a.samples.keys = [] := by simp [Dict.keys, h]
    unfold Samples.canJoinSamples; rw [this]
  · intro h
    cases hk : a.samples.keys with
    | nil => exact absurd (by simpa [Dict.keys] using hk) h
    | cons g t =>
      unfold Samples.canJoinSamples
      rw [hk]
      refine ⟨_, rfl, ?_⟩
      rw [decide_eq_true_eq]
      have hcommon : ∀ v, v ∈ t.foldl (fun a h => a ∩ h.includedVariables) g.includedVariables ↔
          ∀ g c, a.samples.get? g = some c → ∃ x, (⟨v, x⟩ : Node V X) ∈ g.nodes := by
        intro v
        rw [mem_common]
        have hkeys : ∀ g', g' ∈ a.samples.keys ↔ g' = g ∨ g' ∈ t := by intro g'; rw [hk]; simp
        have hincl : ∀ g : SampleGraph V X R, v ∈ g.includedVariables ↔ ∃ x, (⟨v, x⟩ : Node V X) ∈ g.nodes := by
          intro g
          unfold SampleGraph.includedVariables
          rw [Finset.mem_image]
          constructor
          · rintro ⟨n, hn, rfl⟩; exact ⟨n.val, hn⟩
          · rintro ⟨x, hx⟩; exact ⟨_, hx, rfl⟩
        constructor
        · rintro ⟨h1, h2⟩ g' c hg'
          rw [← hincl]
          rcases (hkeys g').1 ((a.samples.mem_keys g').2 ⟨c, hg'⟩) with rfl | h
          · exact h1
          · exact h2 g' h
        · intro hall
          have : ∀ g', g' = g ∨ g' ∈ t → v ∈ g'.includedVariables := by
            intro g' h'
            obtain ⟨c, hc⟩ := (a.samples.mem_keys g').1 ((hkeys g').2 h')
            rw [hincl]; exact hall g' c hc
          exact ⟨this g (Or.inl rfl), fun g' h' => this g' (Or.inr h')⟩
      refine forall_congr' fun v => ?_
      rw [hcommon]
      refine imp_congr_right fun hall => ?_
      rw [not_lt, Finset.card_le_one]
      constructor
      · intro hle g c g' c' x x' h1 h2 h3 h4
        have e1 := (C15_lookups g (hs g c h1) oN oN v x).1.2 h3
        have e2 := (C15_lookups g' (hs g' c' h2) oN oN v x').1.2 h4
        have := hle (some x) (Finset.mem_image.2 ⟨g, (a.mem_graphs g).2 ⟨c, h1⟩, e1⟩)
          (some x') (Finset.mem_image.2 ⟨g', (a.mem_graphs g').2 ⟨c', h2⟩, e2⟩)
        simpa using this
      · intro hag y hy y' hy'
        obtain ⟨g, hg, rfl⟩ := Finset.mem_image.1 hy
        obtain ⟨g', hg', rfl⟩ := Finset.mem_image.1 hy'
        obtain ⟨c, hc⟩ := (a.mem_graphs g).1 hg
        obtain ⟨c', hc'⟩ := (a.mem_graphs g').1 hg'
        obtain ⟨x, hx⟩ := hall g c hc
        obtain ⟨x', hx'⟩ := hall g' c' hc'
        rw [(C15_lookups g (hs g c hc) oN oN v x).1.2 hx, (C15_lookups g' (hs g' c' hc') oN oN v x').1.2 hx',
          hag g c g' c' x x' hc hc' hx hx']

/-- C26: `is_all_values_match` implies `can_join_samples`. -/
theorem C26_implied (oN : Order (Node V X)) (a : Samples V X R) (hs : ∀ g c, a.samples.get? g = some c → SingleValued g.nodes)
    (hne : a.samples.entries ≠ []) (h : a.isAllValuesMatch oN = true) : a.canJoinSamples oN = .ok true := by
  obtain ⟨r, h1, h2⟩ := (C26_can_join_samples oN a hs).2 hne
  have : r = true := h2.2 (by
    intro v _ g c g' c' x x' hg hg' hx hx'
    exact (C25_is_all_values_match oN a).1 h ⟨v, x⟩ ⟨v, x'⟩ ⟨g, c, hg, hx⟩ ⟨g', c', hg', hx'⟩ rfl)
  rw [h1, this]

/-- C26: the converse fails for three samples: two of them differ on variable 0, which the third does not contain. -/
theorem C26_not_sufficient : ∃ a : Samples ℕ ℕ ℕ, (∀ g c, a.samples.get? g = some c → SingleValued g.nodes) ∧
    ∀ oN, a.canJoinSamples oN = .ok true ∧ a.isAllValuesMatch oN = false := by
  have hsv : ∀ g c, (⟨0, ⟨[(⟨{⟨0, 0⟩}, ∅⟩, 1), (⟨{⟨0, 1⟩}, ∅⟩, 1), (⟨{⟨1, 0⟩}, ∅⟩, 1)], by decide⟩⟩ :
      Samples ℕ ℕ ℕ).samples.get? g = some c → SingleValued g.nodes := by
    intro g c h
    rw [← Dict.mem_entries] at h
    simp only [List.mem_cons, Prod.mk.injEq, List.not_mem_nil, or_false] at h
    rcases h with ⟨rfl, -⟩ | ⟨rfl, -⟩ | ⟨rfl, -⟩ <;> (intro a ha b hb _; simp at ha hb; rw [ha, hb])
  refine ⟨_, hsv, fun oN => ⟨?_, ?_⟩⟩
  · obtain ⟨r, h1, h2⟩ := (C26_can_join_samples oN _ hsv).2 (by simp)
    rw [h1]
    congr 1
    refine h2.2 ?_
    intro v hall
    exfalso
    obtain ⟨x, hx⟩ := hall ⟨{⟨0, 0⟩}, ∅⟩ 1 ((Dict.mem_entries _ _ _).1 (by simp))
    obtain ⟨y, hy⟩ := hall ⟨{⟨1, 0⟩}, ∅⟩ 1 ((Dict.mem_entries _ _ _).1 (by simp))
    simp at hx hy
    omega
  · rw [← Bool.not_eq_true, C25_is_all_values_match]
    intro h
    have := h ⟨0, 0⟩ ⟨0, 1⟩ ⟨⟨{⟨0, 0⟩}, ∅⟩, 1, (Dict.mem_entries _ _ _).1 (by simp), by simp⟩
      ⟨⟨{⟨0, 1⟩}, ∅⟩, 1, (Dict.mem_entries _ _ _).1 (by simp), by simp⟩ rfl
    simp at this

/-! ### C27 -/

/-- The union of graphs. -/
def unionGraph (l : List (SampleGraph V X R)) : SampleGraph V X R :=
  ⟨l.foldr (fun g s => g.nodes ∪ s) ∅, l.foldr (fun g s => g.edges ∪ s) ∅⟩

theorem mem_unionGraph_nodes (l : List (SampleGraph V X R)) (n : Node V X) :
    n ∈ (unionGraph l).nodes ↔ ∃ g ∈ l, n ∈ g.nodes := by
  unfold unionGraph
  induction l with
  | nil => simp
  | cons g t ih =>
    simp only [List.foldr_cons, Finset.mem_union, List.mem_cons, exists_eq_or_imp]
    simp only at ih
    rw [ih]

theorem mem_unionGraph_edges (l : List (SampleGraph V X R)) (e : Edge V X R) :
    e ∈ (unionGraph l).edges ↔ ∃ g ∈ l, e ∈ g.edges := by
  unfold unionGraph
  induction l with
  | nil => simp
  | cons g t ih =>
    simp only [List.foldr_cons, Finset.mem_union, List.mem_cons, exists_eq_or_imp]
    simp only at ih
    rw [ih]

/-- The samples fit together: no variable has two values, no pair of nodes two relations. -/
def Consistent (l : List (SampleGraph V X R)) : Prop :=
  SingleValued (unionGraph l).nodes ∧ OnePerPair (unionGraph l).edges

/-- Each sample after the first shares a node with some earlier one. -/
def Chained : List (SampleGraph V X R) → Prop
  | [] => True
  | g :: t => ∀ pre h suf, t = pre ++ h :: suf → ∃ n ∈ h.nodes, ∃ k ∈ g :: pre, n ∈ k.nodes

theorem joinList_spec (oE : Order (Edge V X R)) (prov : ℕ) : ∀ (l : List (SampleGraph V X R)) (b : Builder V X R),
    b.Inv → b.prov = prov → (∀ g ∈ l, WellFormed g ∧ g.nodes.Nonempty) →
    ((Samples.joinList oE prov l b).2 = none →
      (Samples.joinList oE prov l b).1.nodes = b.nodes ∪ (unionGraph l).nodes ∧
      (Samples.joinList oE prov l b).1.edges = b.edges ∪ (unionGraph l).edges ∧
      (Samples.joinList oE prov l b).1.prov = prov ∧ (Samples.joinList oE prov l b).1.Inv ∧
      (SingleValued b.nodes → SingleValued (b.nodes ∪ (unionGraph l).nodes))) ∧
    ((Samples.joinList oE prov l b).2 ≠ none → (Samples.joinList oE prov l b).2 = some .assertion) ∧
    (SingleValued (b.nodes ∪ (unionGraph l).nodes) → OnePerPair (b.edges ∪ (unionGraph l).edges) →
      (∀ pre g suf, l = pre ++ g :: suf → (b.nodes = ∅ ∧ pre = []) ∨ ∃ n ∈ g.nodes, n ∈ b.nodes ∨ ∃ h ∈ pre, n ∈ h.nodes) →
      (Samples.joinList oE prov l b).2 = none) := by
  intro l
  induction l with
  | nil =>
    intro b hb hp _
    refine ⟨fun _ => ⟨by simp [Samples.joinList, unionGraph], by simp [Samples.joinList, unionGraph], hp, hb, ?_⟩,
      fun h => absurd rfl h, fun _ _ _ => rfl⟩
    simp [unionGraph]
  | cons g t ih =>
    intro b hb hp hl
    obtain ⟨hw, hne⟩ := hl g (by simp)
    obtain ⟨c1, c2, c3⟩ := C07_join_sample oE b hb ⟨prov, g⟩ hw hne
    have hun : (unionGraph (g :: t)).nodes = g.nodes ∪ (unionGraph t).nodes := rfl
    have hue : (unionGraph (g :: t)).edges = g.edges ∪ (unionGraph t).edges := rfl
    rcases hr : b.joinSample oE ⟨prov, g⟩ with ⟨b', er⟩
    rw [hr] at c1 c2 c3
    simp only at c1 c2 c3
    cases er with
    | some e =>
      have he : Samples.joinList oE prov (g :: t) b = (b', some e) := by rw [Samples.joinList, hr]
      rw [he]
      refine ⟨by simp, fun _ => c3 (by simp), fun h1 h2 h3 => ?_⟩
      exfalso
      have : some e = none := c1.2 ⟨hp.symm, ?_, ?_, ?_⟩
      · simp at this
      · rcases h3 [] g t rfl with h | ⟨n, hn, h | h⟩
        · exact Or.inl h.1
        · exact Or.inr ⟨n, hn, h⟩
        · simp at h
      · intro n hn _ m hm hv
        apply h1 m _ n _ hv
        · rw [hun]
          rcases Finset.mem_union.1 hm with h | h <;> simp [h]
        · rw [hun]; simp [hn]
      · intro f hf f' hf' heq
        rw [h2 f' _ f _ heq]
        · rw [hue]; simp [hf']
        · rw [hue]; simp [hf]
    | none =>
      have he : Samples.joinList oE prov (g :: t) b = Samples.joinList oE prov t b' := by rw [Samples.joinList, hr]
      obtain ⟨d1, d2, d3, d4⟩ := c2 rfl
      obtain ⟨i1, i2, i3⟩ := ih b' d4 (d3.trans hp) (fun x hx => hl x (by simp [hx]))
      rw [he]
      refine ⟨fun h => ?_, i2, fun h1 h2 h3 => i3 ?_ ?_ ?_⟩
      · obtain ⟨j1, j2, j3, j4, j5⟩ := i1 h
        refine ⟨by rw [j1, d1, hun, Finset.union_assoc], by rw [j2, d2, hue, Finset.union_assoc], j3, j4, fun hsv => ?_⟩
        rw [hun, ← Finset.union_assoc]
        have hj := c1.1 rfl
        have : SingleValued (b.nodes ∪ g.nodes) := by
          have hval := hj.values
          intro x hx y hy hxy
          by_cases hxb : x ∈ b.nodes
          · by_cases hyb : y ∈ b.nodes
            · exact hsv x hxb y hyb hxy
            · have hyg : y ∈ g.nodes := (Finset.mem_union.1 hy).resolve_left hyb
              exact hval y hyg hyb x hx hxy
          · have hxg : x ∈ g.nodes := (Finset.mem_union.1 hx).resolve_left hxb
            exact (hval x hxg hxb y hy hxy.symm).symm
        have := j5 (by rw [d1]; exact this)
        rwa [d1] at this
      · rw [d1, Finset.union_assoc, ← hun]; exact h1
      · rw [d2, Finset.union_assoc, ← hue]; exact h2
      · intro pre h suf hsplit
        right
        rcases h3 (g :: pre) h suf (by rw [hsplit]; rfl) with ⟨-, h'⟩ | ⟨n, hn, h'⟩
        · simp at h'
        · refine ⟨n, hn, ?_⟩
          rcases h' with h' | ⟨k, hk, hnk⟩
          · left; rw [d1]; simp [h']
          · rcases List.mem_cons.1 hk with rfl | hk
            · left; rw [d1]; exact Finset.mem_union_right _ hnk
            · exact Or.inr ⟨k, hk, hnk⟩

/-- C27. For non-empty well formed samples: if `make_joined_sample` returns, the sample is the union of all samples,
well formed and single-valued (so it raises whenever values differ or the union is not connected), and the counts are
those of the samples in dict order; it only ever raises `AssertionError`; it returns for consistent samples each sharing
a node with an earlier one. -/
theorem C27_make_joined_sample (oE : Order (Edge V X R)) (a : Samples V X R)
    (hw : ∀ g c, a.samples.get? g = some c → WellFormed g ∧ g.nodes.Nonempty) :
    (∀ smp cs, a.makeJoinedSample oE = .ok (smp, cs) →
      smp = ⟨a.prov, unionGraph a.samples.keys⟩ ∧ cs = a.samples.vals ∧ WellFormed smp.graph ∧ SingleValued smp.graph.nodes) ∧
    (∀ er, a.makeJoinedSample oE = .error er → er = .assertion) ∧
    (a.samples.entries ≠ [] → Consistent a.samples.keys → Chained a.samples.keys → Returns (a.makeJoinedSample oE)) ∧
    (a.samples.entries = [] → a.makeJoinedSample oE = .error .assertion) := by
  obtain ⟨h1, h2, h3⟩ := joinList_spec oE a.prov a.samples.keys (Builder.new a.prov) (Builder.inv_new _) rfl (by
    intro g hg; obtain ⟨c, hc⟩ := (a.samples.mem_keys g).1 hg; exact hw g c hc)
  have hn : (Builder.new a.prov : Builder V X R).nodes = ∅ := rfl
  have hed : (Builder.new a.prov : Builder V X R).edges = ∅ := rfl
  rw [hn, Finset.empty_union] at h1 h3
  rw [hed, Finset.empty_union] at h1 h3
  rcases hr : Samples.joinList oE a.prov a.samples.keys (Builder.new a.prov) with ⟨b, er⟩
  rw [hr] at h1 h2 h3
  simp only at h1 h2 h3
  refine ⟨?_, ?_, ?_, ?_⟩
  · intro smp cs h
    unfold Samples.makeJoinedSample at h
    rw [hr] at h
    cases er with
    | some e => simp at h
    | none =>
      obtain ⟨i1, i2, i3, i4, i5⟩ := h1 rfl
      simp only [Builder.build] at h
      split at h
      · simp at h
      · rename_i s hs
        split at hs
        · simp at hs
        · simp only [Except.ok.injEq, Prod.mk.injEq] at h hs
          obtain ⟨rfl, rfl⟩ := h
          subst hs
          have hg : b.graph = unionGraph a.samples.keys := SampleGraph.ext i1 i2
          refine ⟨by rw [← hg, ← i3]; rfl, rfl, i4.wf, ?_⟩
          rw [i1]
          exact i5 (by intro x hx; simp at hx)
  · intro e h
    unfold Samples.makeJoinedSample at h
    rw [hr] at h
    cases er with
    | some e' =>
      simp only [Except.error.injEq] at h
      have := h2 (by simp)
      simp only [Option.some.injEq] at this
      rw [← h, this]
    | none =>
      simp only [Builder.build] at h
      split at h
      · rename_i e' he'
        split at he'
        · simp only [Except.error.injEq] at h he'; rw [← h, ← he']
        · simp at he'
      · simp at h
  · intro hne hc hch
    have : er = none := by
      apply h3 hc.1 hc.2
      intro pre g suf hsplit
      cases pre with
      | nil => exact Or.inl ⟨trivial, rfl⟩
      | cons k pre =>
        right
        rw [hsplit] at hch
        obtain ⟨n, hn, k', hk', hnk⟩ := hch pre g suf rfl
        exact ⟨n, hn, Or.inr ⟨k', hk', hnk⟩⟩
    subst this
    obtain ⟨i1, -⟩ := h1 rfl
    have hnb : b.nodes ≠ ∅ := by
      obtain ⟨p, hp⟩ := List.exists_mem_of_ne_nil _ hne
      obtain ⟨n, hn⟩ := (hw p.1 p.2 ((a.samples.mem_entries' p).1 hp)).2
      rw [i1]
      intro h
      have : n ∈ (unionGraph a.samples.keys).nodes := (mem_unionGraph_nodes _ _).2 ⟨p.1, List.mem_map_of_mem hp, hn⟩
      rw [h] at this; simp at this
    unfold Samples.makeJoinedSample
    rw [hr]
    simp only [Builder.build, hnb, if_false]
    exact ⟨_, rfl⟩
  · intro he
    have hk : a.samples.keys = [] := by simp [Dict.keys, he]
    unfold Samples.makeJoinedSample
    rw [hk]
    rfl

/-- Non-vacuity of C27: two samples that are consistent and chained. -/
example : ∃ a : Samples ℕ ℕ ℕ, (∀ g c, a.samples.get? g = some c → WellFormed g ∧ g.nodes.Nonempty) ∧
    a.samples.entries.length = 2 ∧ Consistent a.samples.keys ∧ Chained a.samples.keys := by
  refine ⟨⟨0, ⟨[(oneEdge ⟨0, 0⟩ ⟨1, 0⟩, 2), (oneEdge ⟨1, 0⟩ ⟨2, 0⟩, 3)], by decide⟩⟩, ?_, rfl, ⟨?_, ?_⟩, ?_⟩
  · intro g c h
    rw [← Dict.mem_entries] at h
    simp only [List.mem_cons, Prod.mk.injEq, List.not_mem_nil, or_false] at h
    rcases h with ⟨rfl, -⟩ | ⟨rfl, -⟩
    · exact ⟨oneEdge_wf _ _ (by simp), ⟨⟨0, 0⟩, by simp [oneEdge]⟩⟩
    · exact ⟨oneEdge_wf _ _ (by simp), ⟨⟨1, 0⟩, by simp [oneEdge]⟩⟩
  · unfold SingleValued; decide
  · unfold OnePerPair; decide
  · intro pre h suf hsplit
    have hh : h = oneEdge ⟨1, 0⟩ ⟨2, 0⟩ ∧ pre = [] := by
      cases pre with
      | nil => simp at hsplit; exact ⟨hsplit.1.symm, rfl⟩
      | cons k pre => simp at hsplit
    refine ⟨⟨1, 0⟩, by rw [hh.1]; simp [oneEdge], _, List.mem_cons_self, by simp [oneEdge]⟩

end Verif
