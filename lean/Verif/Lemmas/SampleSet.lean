import Verif.Spec.Counts
import Verif.Lemmas.Builder
import Mathlib.Tactic.Ring
import Mathlib.Tactic.Linarith
import Mathlib.Tactic.Abel

/-!
# Lemmas about sample sets
-/

set_option linter.unusedSectionVars false

namespace Verif

theorem addCounts_comm (x y : Option ℤ) : addCounts x y = addCounts y x := by
  cases x <;> cases y <;> simp [addCounts, add_comm]

theorem addCounts_assoc (x y z : Option ℤ) : addCounts (addCounts x y) z = addCounts x (addCounts y z) := by
  cases x <;> cases y <;> cases z <;> simp [addCounts, add_assoc]

@[simp] theorem addCounts_none_left (x : Option ℤ) : addCounts none x = x := by cases x <;> rfl
@[simp] theorem addCounts_none_right (x : Option ℤ) : addCounts x none = x := by cases x <;> rfl

section
variable {K A : Type} [DecidableEq K]

theorem totalOf_nil (k : K) : totalOf ([] : List (K × ℤ)) k = none := rfl

theorem totalOf_cons (p : K × ℤ) (l : List (K × ℤ)) (k : K) :
    totalOf (p :: l) k = if p.1 = k then addCounts (some p.2) (totalOf l k) else totalOf l k := by
  unfold totalOf
  by_cases h : p.1 = k
  · simp only [h, decide_true, List.filter_cons_of_pos, List.map_cons, if_true]
    split
    · rename_i h'; simp at h'
    · split
      · rename_i h'; simp [h', addCounts]
      · simp [addCounts]
  · have : (p :: l).filter (fun p => p.1 = k) = l.filter (fun p => p.1 = k) := List.filter_cons_of_neg (by simpa using h)
    simp only [this, h, if_false]

theorem totalOf_append (l m : List (K × ℤ)) (k : K) : totalOf (l ++ m) k = addCounts (totalOf l k) (totalOf m k) := by
  induction l with
  | nil => simp [totalOf_nil]
  | cons p t ih =>
    rw [List.cons_append, totalOf_cons, totalOf_cons, ih]
    split
    · rw [addCounts_assoc]
    · rfl

theorem totalOf_perm {l m : List (K × ℤ)} (h : l.Perm m) (k : K) : totalOf l k = totalOf m k := by
  induction h with
  | nil => rfl
  | cons p _ ih => rw [totalOf_cons, totalOf_cons, ih]
  | swap p q l =>
    simp only [totalOf_cons]
    split
    · split
      · rw [← addCounts_assoc, ← addCounts_assoc, addCounts_comm (some q.2)]
      · rfl
    · rfl
  | trans _ _ ih1 ih2 => rw [ih1, ih2]

theorem totalOf_entries (d : Dict K ℤ) (k : K) : totalOf d.entries k = d.get? k := by
  obtain ⟨l, hl⟩ := d
  unfold Dict.get?
  simp only
  induction l with
  | nil => rfl
  | cons p t ih =>
    obtain ⟨p1, p2⟩ := p
    rw [List.map_cons, List.nodup_cons] at hl
    rw [totalOf_cons, ih hl.2]
    simp only [assoc?]
    split
    · rename_i h
      have : assoc? t k = none := by rw [assoc?_eq_none_iff, ← h]; exact hl.1
      rw [this]; rfl
    · rfl

theorem sum_vals_assocSet (l : List (K × ℤ)) (k : K) (a : ℤ) :
    ((assocSet l k a).map Prod.snd).sum = (l.map Prod.snd).sum - (assoc? l k).getD 0 + a := by
  induction l with
  | nil => simp [assocSet, assoc?]
  | cons p t ih =>
    obtain ⟨p1, p2⟩ := p
    simp only [assocSet, assoc?]
    split
    · simp [add_comm]
    · simp only [List.map_cons, List.sum_cons, ih]; ring

theorem sum_vals_assocErase (l : List (K × ℤ)) (k : K) :
    ((assocErase l k).map Prod.snd).sum = (l.map Prod.snd).sum - (assoc? l k).getD 0 := by
  induction l with
  | nil => simp [assocErase, assoc?]
  | cons p t ih =>
    obtain ⟨p1, p2⟩ := p
    simp only [assocErase, assoc?]
    split
    · simp
    · simp only [List.map_cons, List.sum_cons, ih]; ring

theorem Dict.sum_vals_set (d : Dict K ℤ) (k : K) (a : ℤ) :
    (d.set k a).vals.sum = d.vals.sum - (d.get? k).getD 0 + a := sum_vals_assocSet d.entries k a

theorem Dict.sum_vals_erase (d : Dict K ℤ) (k : K) : (d.erase k).vals.sum = d.vals.sum - (d.get? k).getD 0 :=
  sum_vals_assocErase d.entries k

theorem Dict.get?_merge (a b : Dict K A) (k : K) :
    (a.merge b).get? k = match b.get? k with | some x => some x | none => a.get? k := by
  unfold Dict.merge
  rw [Dict.get?_ofList_foldl _ b.nodup]
  rfl

end

variable {V X R : Type} [DecidableEq V] [DecidableEq X] [DecidableEq R]

namespace Samples

theorem mem_items (b : Samples V X R) (p : SampleGraph V X R × ℤ) : p ∈ b.items ↔ b.samples.get? p.1 = some p.2 := by
  unfold items; rw [List.mem_toFinset, Dict.mem_entries']

theorem mem_graphs (b : Samples V X R) (g : SampleGraph V X R) : g ∈ b.graphs ↔ ∃ c, b.samples.get? g = some c := by
  unfold graphs; rw [List.mem_toFinset, Dict.mem_keys]

theorem run_items_perm (o : Order (SampleGraph V X R × ℤ)) (b : Samples V X R) : (o.run b.items).Perm b.samples.entries := by
  rw [List.perm_ext_iff_of_nodup (o.nodup _) b.samples.nodup_entries]
  intro p; rw [o.mem]; unfold items; rw [List.mem_toFinset]

theorem run_graphs_perm (o : Order (SampleGraph V X R)) (b : Samples V X R) : (o.run b.graphs).Perm b.samples.keys := by
  rw [List.perm_ext_iff_of_nodup (o.nodup _) b.samples.nodup_keys]
  intro p; rw [o.mem]; unfold graphs; rw [List.mem_toFinset]

theorem pyEq_iff (a b : Samples V X R) : a.pyEq b = true ↔ a.samples.Equiv b.samples := by
  unfold pyEq
  rw [Bool.and_eq_true, decide_eq_true_eq, List.all_eq_true]
  simp only [decide_eq_true_eq]
  constructor
  · rintro ⟨hl, h⟩
    rw [Dict.equiv_iff_perm]
    apply List.Subperm.perm_of_length_le
    · exact List.subperm_of_subset a.samples.nodup_entries fun p hp => (b.samples.mem_entries' p).2 (h p hp)
    · omega
  · intro h
    refine ⟨((Dict.equiv_iff_perm _ _).1 h).length_eq, fun p hp => ?_⟩
    rw [← h]; exact (a.samples.mem_entries' p).1 hp

theorem add_ok (b : Samples V X R) (s : Sample V X R) (c : ℤ) (h : s.prov = b.prov) :
    (b.add s c).2 = none ∧ (b.add s c).1.prov = b.prov ∧
    (∀ g, (b.add s c).1.samples.get? g = if s.graph = g then addCounts (b.samples.get? g) (some c) else b.samples.get? g) ∧
    (b.add s c).1.length = b.length + c := by
  unfold add
  rw [if_neg (not_not.2 h)]
  cases hg : b.samples.get? s.graph with
  | none =>
    refine ⟨rfl, rfl, fun g => ?_, ?_⟩
    · simp only [Dict.get?_set]
      split
      · rename_i h'; subst h'; rw [hg]; rfl
      · rfl
    · simp only [length, Dict.sum_vals_set, hg]; simp
  | some n =>
    refine ⟨rfl, rfl, fun g => ?_, ?_⟩
    · simp only [Dict.get?_set]
      split
      · rename_i h'; subst h'; rw [hg]; rfl
      · rfl
    · simp only [length, Dict.sum_vals_set, hg, Option.getD_some]; ring

theorem add_error (b : Samples V X R) (s : Sample V X R) (c : ℤ) (h : s.prov ≠ b.prov) :
    b.add s c = (b, some .assertion) := by
  unfold add; rw [if_pos h]

theorem addList_ok (prov : ℕ) : ∀ (l : List (SampleGraph V X R × ℤ)) (b : Samples V X R), prov = b.prov →
    (addList prov l b).2 = none ∧ (addList prov l b).1.prov = b.prov ∧
    (∀ g, (addList prov l b).1.samples.get? g = addCounts (b.samples.get? g) (totalOf l g)) ∧
    (addList prov l b).1.length = b.length + (l.map Prod.snd).sum := by
  intro l
  induction l with
  | nil => intro b _; simp [addList, totalOf_nil]
  | cons p t ih =>
    intro b h
    obtain ⟨g, c⟩ := p
    obtain ⟨h1, h2, h3, h4⟩ := b.add_ok ⟨prov, g⟩ c h
    unfold addList
    rcases hr : b.add ⟨prov, g⟩ c with ⟨b', e⟩
    rw [hr] at h1 h2 h3 h4
    simp only at h1 h2 h3 h4
    subst h1
    simp only
    obtain ⟨i1, i2, i3, i4⟩ := ih b' (h.trans h2.symm)
    refine ⟨i1, i2.trans h2, fun g' => ?_, ?_⟩
    · rw [i3, h3, totalOf_cons]
      simp only
      split
      · rw [addCounts_assoc]
      · rfl
    · rw [i4, h4]; simp only [List.map_cons, List.sum_cons]; ring

theorem addList_error (prov : ℕ) (l : List (SampleGraph V X R × ℤ)) (b : Samples V X R) (h : prov ≠ b.prov) (hl : l ≠ []) :
    addList prov l b = (b, some .assertion) := by
  cases l with
  | nil => exact absurd rfl hl
  | cons p t => obtain ⟨g, c⟩ := p; unfold addList; rw [b.add_error ⟨prov, g⟩ c h]

theorem addAll_ok (o : Order (SampleGraph V X R × ℤ)) (b other : Samples V X R) (h : other.prov = b.prov) :
    (b.addAll o other).2 = none ∧ (b.addAll o other).1.prov = b.prov ∧
    (∀ g, (b.addAll o other).1.samples.get? g = addCounts (b.samples.get? g) (other.samples.get? g)) ∧
    (b.addAll o other).1.length = b.length + other.length := by
  obtain ⟨h1, h2, h3, h4⟩ := addList_ok other.prov (o.run other.items) b h
  have hp := other.run_items_perm o
  refine ⟨h1, h2, fun g => ?_, ?_⟩
  · unfold addAll; rw [h3, totalOf_perm hp, totalOf_entries]
  · unfold addAll; rw [h4, (hp.map Prod.snd).sum_eq]; rfl

theorem remove_some (b : Samples V X R) (g : SampleGraph V X R) (c : ℤ) (h : b.samples.get? g = some c) :
    b.remove g = (⟨b.prov, b.samples.erase g⟩, .ok (g, c)) := by
  unfold remove; rw [h]

theorem remove_none (b : Samples V X R) (g : SampleGraph V X R) (h : b.samples.get? g = none) :
    b.remove g = (b, .error .assertion) := by
  unfold remove; rw [h]

/-- Removing a list: a prefix is removed; everything is removed exactly when no exception is raised. -/
theorem removeList_spec : ∀ (l : List (SampleGraph V X R)) (b : Samples V X R), l.Nodup →
    ∃ pre suf, l = pre ++ suf ∧ (removeList l b).1.prov = b.prov ∧
      (∀ g ∈ pre, ∃ c, b.samples.get? g = some c) ∧
      (∀ g, (removeList l b).1.samples.get? g = if g ∈ pre then none else b.samples.get? g) ∧
      ((suf = [] ∧ (removeList l b).2 = none) ∨
       (∃ g t, suf = g :: t ∧ b.samples.get? g = none ∧ (removeList l b).2 = some .assertion)) := by
  intro l
  induction l with
  | nil => intro b _; exact ⟨[], [], rfl, rfl, by simp, by simp [removeList], Or.inl ⟨rfl, rfl⟩⟩
  | cons g t ih =>
    intro b hnd
    rw [List.nodup_cons] at hnd
    cases hg : b.samples.get? g with
    | none =>
      refine ⟨[], g :: t, rfl, ?_, by simp, ?_, Or.inr ⟨g, t, rfl, hg, ?_⟩⟩
      all_goals unfold removeList; rw [b.remove_none g hg]
      intro g'; simp
    | some c =>
      obtain ⟨pre, suf, h1, h2, h3, h4, h5⟩ := ih ⟨b.prov, b.samples.erase g⟩ hnd.2
      have he : removeList (g :: t) b = removeList t ⟨b.prov, b.samples.erase g⟩ := by
        rw [removeList, b.remove_some g c hg]
      refine ⟨g :: pre, suf, by rw [h1]; rfl, by rw [he, h2], ?_, ?_, ?_⟩
      · intro g' hg'
        rcases List.mem_cons.1 hg' with rfl | hg'
        · exact ⟨c, hg⟩
        · obtain ⟨c', hc'⟩ := h3 g' hg'
          simp only [Dict.get?_erase] at hc'
          split at hc'
          · simp at hc'
          · exact ⟨c', hc'⟩
      · intro g'
        rw [he, h4]
        simp only [Dict.get?_erase, List.mem_cons]
        by_cases h : g' ∈ pre
        · simp [h]
        · by_cases h' : g = g'
          · subst h'; simp
          · simp [h, h', Ne.symm h']
      · rw [he]
        rcases h5 with h5 | ⟨g', t', h6, h7, h8⟩
        · exact Or.inl h5
        · refine Or.inr ⟨g', t', h6, ?_, h8⟩
          have hne : g ≠ g' := by
            rintro rfl
            apply hnd.1
            rw [h1, h6]; simp
          simpa [Dict.get?_erase, hne] using h7

theorem union_ok (o : Order (SampleGraph V X R × ℤ)) (a b : Samples V X R) (h : a.prov = b.prov) :
    ∃ r, a.union o b = .ok r ∧ r.prov = a.prov ∧
      (∀ g, r.samples.get? g = addCounts (a.samples.get? g) (b.samples.get? g)) ∧ r.length = a.length + b.length := by
  obtain ⟨h1, h2, h3, h4⟩ := a.addAll_ok o b h.symm
  refine ⟨(a.addAll o b).1, ?_, h2, h3, h4⟩
  unfold union isCompatible toPy
  rw [if_pos (by simpa using h), h1]

theorem union_error (o : Order (SampleGraph V X R × ℤ)) (a b : Samples V X R) (h : a.prov ≠ b.prov) :
    a.union o b = .error .assertion := by
  unfold union isCompatible; rw [if_neg (by simpa using h)]

theorem equiv_of_get {a b : Samples V X R} (h : ∀ g, a.samples.get? g = b.samples.get? g) : a.pyEq b = true :=
  (pyEq_iff a b).2 h

theorem length_congr {a b : Samples V X R} (h : a.samples.Equiv b.samples) : a.length = b.length :=
  h.vals_perm.sum_eq

end Samples
end Verif
