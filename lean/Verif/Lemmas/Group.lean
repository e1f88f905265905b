import Verif.Lemmas.SampleSet

/-!
# Lemmas on `group_intersecting`
-/

set_option linter.unusedSectionVars false

namespace Verif

variable {V X R : Type} [DecidableEq V] [DecidableEq X] [DecidableEq R]

namespace Samples

/-- State of `sample_acc` while grouping the samples `d`. -/
structure GroupInv (d : Dict (SampleGraph V X R) ℤ) (acc : Dict (GKey V) (Dict (SampleGraph V X R) ℤ)) : Prop where
  sub : ∀ k m, acc.get? k = some m → ∀ g c, m.get? g = some c → d.get? g = some c ∧ groupKey g ⊆ k
  cover : ∀ k m, acc.get? k = some m → ∀ x ∈ k, ∃ g c, m.get? g = some c ∧ x ∈ groupKey g
  disj : ∀ k m k' m' g c c', acc.get? k = some m → acc.get? k' = some m' → m.get? g = some c → m'.get? g = some c' → k = k'
  nonempty : ∀ k m, acc.get? k = some m → ∃ g c, m.get? g = some c

/-- Nothing is lost. -/
def GroupFull (d : Dict (SampleGraph V X R) ℤ) (acc : Dict (GKey V) (Dict (SampleGraph V X R) ℤ)) : Prop :=
  ∀ g c, d.get? g = some c → ∃ k m, acc.get? k = some m ∧ m.get? g = some c

/-- The loop body of the first loop. -/
def groupStep (acc : Dict (GKey V) (Dict (SampleGraph V X R) ℤ)) (p : SampleGraph V X R × ℤ) :
    Dict (GKey V) (Dict (SampleGraph V X R) ℤ) :=
  acc.set (groupKey p.1) (((acc.get? (groupKey p.1)).getD Dict.empty).set p.1 p.2)

theorem groupInit_eq (d : Dict (SampleGraph V X R) ℤ) : groupInit d = d.entries.foldl groupStep Dict.empty := by
  unfold groupInit
  congr 1
  funext acc p
  unfold groupStep
  cases acc.get? (groupKey p.1) <;> rfl

theorem groupStep_fold (l : List (SampleGraph V X R × ℤ)) (hl : (l.map Prod.fst).Nodup)
    (acc : Dict (GKey V) (Dict (SampleGraph V X R) ℤ)) (done : List (SampleGraph V X R × ℤ))
    (hd : ∀ p ∈ l, ∀ q ∈ done, p.1 ≠ q.1)
    (h : ∀ k, (acc.get? k = none ∧ ∀ q ∈ done, groupKey q.1 ≠ k) ∨
      (∃ m, acc.get? k = some m ∧ (∃ q ∈ done, groupKey q.1 = k) ∧ ∀ g c, m.get? g = some c ↔ (g, c) ∈ done ∧ groupKey g = k)) :
    ∀ k, ((l.foldl groupStep acc).get? k = none ∧ ∀ q ∈ done ++ l, groupKey q.1 ≠ k) ∨
      (∃ m, (l.foldl groupStep acc).get? k = some m ∧ (∃ q ∈ done ++ l, groupKey q.1 = k) ∧
        ∀ g c, m.get? g = some c ↔ (g, c) ∈ done ++ l ∧ groupKey g = k) := by
  induction l generalizing acc done with
  | nil => simpa using h
  | cons p t ih =>
    rw [List.map_cons, List.nodup_cons] at hl
    rw [List.foldl_cons]
    have := ih hl.2 (groupStep acc p) (done ++ [p]) (by
      intro x hx q hq
      rcases List.mem_append.1 hq with hq | hq
      · exact hd x (List.mem_cons_of_mem _ hx) q hq
      · rw [List.mem_singleton] at hq
        subst hq
        intro he
        exact hl.1 (by rw [← he]; exact List.mem_map_of_mem hx)) (by
      intro k
      unfold groupStep
      by_cases hk : groupKey p.1 = k
      · right
        subst hk
        refine ⟨_, Dict.get?_set_self _ _ _, ⟨p, by simp, rfl⟩, fun g c => ?_⟩
        rw [Dict.get?_set]
        by_cases hg : p.1 = g
        · subst hg
          simp only [if_true, Option.some.injEq, and_true]
          constructor
          · rintro rfl; simp
          · intro hin
            rcases List.mem_append.1 hin with hin | hin
            · exact absurd rfl (hd p (by simp) (p.1, c) hin)
            · rw [List.mem_singleton] at hin
              rw [← hin]
        · rw [if_neg hg]
          have hne : ((g, c) : SampleGraph V X R × ℤ) ≠ p := fun h' => hg (by rw [← h'])
          simp only [List.mem_append, List.mem_singleton, hne, or_false]
          rcases h (groupKey p.1) with ⟨h1, h2⟩ | ⟨m, h1, h2, h3⟩
          · rw [h1]
            simp only [Option.getD_none, Dict.get?_empty, reduceCtorEq, false_iff]
            rintro ⟨h4, h5⟩
            exact h2 _ h4 h5
          · rw [h1]; simp only [Option.getD_some]; exact h3 g c
      · rw [Dict.get?_set_ne _ _ hk]
        rcases h k with ⟨h1, h2⟩ | ⟨m, h1, ⟨q, hq, hqk⟩, h3⟩
        · left
          refine ⟨h1, fun q hq => ?_⟩
          rcases List.mem_append.1 hq with hq | hq
          · exact h2 q hq
          · rw [List.mem_singleton] at hq; rw [hq]; exact hk
        · right
          refine ⟨m, h1, ⟨q, by simp [hq], hqk⟩, fun g c => ?_⟩
          rw [h3 g c]
          constructor
          · rintro ⟨h4, h5⟩; exact ⟨by simp [h4], h5⟩
          · rintro ⟨h4, h5⟩
            refine ⟨?_, h5⟩
            rcases List.mem_append.1 h4 with h4 | h4
            · exact h4
            · rw [List.mem_singleton] at h4
              exact absurd (by rw [← h4]; exact h5) hk)
    intro k
    have := this k
    rwa [List.append_assoc, List.singleton_append] at this

theorem groupInit_spec (d : Dict (SampleGraph V X R) ℤ) (k : GKey V) :
    ((groupInit d).get? k = none ∧ ∀ g c, d.get? g = some c → groupKey g ≠ k) ∨
      (∃ m, (groupInit d).get? k = some m ∧ (∃ g c, d.get? g = some c ∧ groupKey g = k) ∧
        ∀ g c, m.get? g = some c ↔ d.get? g = some c ∧ groupKey g = k) := by
  have := groupStep_fold d.entries d.nodup Dict.empty [] (by simp) (by intro k; left; simp) k
  rw [← groupInit_eq, List.nil_append] at this
  rcases this with ⟨h1, h2⟩ | ⟨m, h1, ⟨q, hq, hqk⟩, h3⟩
  · exact Or.inl ⟨h1, fun g c hg => h2 (g, c) ((d.mem_entries g c).2 hg)⟩
  · refine Or.inr ⟨m, h1, ⟨q.1, q.2, (d.mem_entries' q).1 hq, hqk⟩, fun g c => ?_⟩
    rw [h3, d.mem_entries]

theorem groupInit_inv (d : Dict (SampleGraph V X R) ℤ) :
    GroupInv d (groupInit d) ∧ GroupFull d (groupInit d) ∧
      ∀ k, k ∈ (groupInit d).keys ↔ ∃ g c, d.get? g = some c ∧ groupKey g = k := by
  have key : ∀ k m, (groupInit d).get? k = some m → (∃ g c, d.get? g = some c ∧ groupKey g = k) ∧
      ∀ g c, m.get? g = some c ↔ d.get? g = some c ∧ groupKey g = k := by
    intro k m hm
    rcases groupInit_spec d k with ⟨h1, -⟩ | ⟨m', h1, h2, h3⟩
    · rw [h1] at hm; simp at hm
    · rw [h1, Option.some.injEq] at hm; subst hm; exact ⟨h2, h3⟩
  refine ⟨⟨?_, ?_, ?_, ?_⟩, ?_, ?_⟩
  · intro k m hm g c hg
    obtain ⟨h1, h2⟩ := ((key k m hm).2 g c).1 hg
    exact ⟨h1, h2.le⟩
  · intro k m hm x hx
    obtain ⟨⟨g, c, hg, hk⟩, h3⟩ := key k m hm
    exact ⟨g, c, (h3 g c).2 ⟨hg, hk⟩, by rw [hk]; exact hx⟩
  · intro k m k' m' g c c' hm hm' hg hg'
    rw [← (((key k m hm).2 g c).1 hg).2, ← (((key k' m' hm').2 g c').1 hg').2]
  · intro k m hm
    obtain ⟨⟨g, c, hg, hk⟩, h3⟩ := key k m hm
    exact ⟨g, c, (h3 g c).2 ⟨hg, hk⟩⟩
  · intro g c hg
    rcases groupInit_spec d (groupKey g) with ⟨-, h2⟩ | ⟨m, h1, h2, h3⟩
    · exact absurd rfl (h2 g c hg)
    · exact ⟨_, m, h1, (h3 g c).2 ⟨hg, rfl⟩⟩
  · intro k
    rw [Dict.mem_keys]
    constructor
    · rintro ⟨m, hm⟩; exact (key k m hm).1
    · rintro ⟨g, c, hg, hk⟩
      rcases groupInit_spec d k with ⟨-, h2⟩ | ⟨m, h1, h2, h3⟩
      · exact absurd hk (h2 g c hg)
      · exact ⟨m, h1⟩

theorem groupFind_some {keys : List (GKey V)} {ka kb : GKey V} (h : groupFind keys = some (ka, kb)) :
    ka ∈ keys ∧ kb ∈ keys ∧ ka ≠ kb ∧ ¬ Disjoint ka kb := by
  unfold groupFind at h
  have h1 := List.mem_of_find?_eq_some h
  have h2 := List.find?_some h
  have h1 := List.mem_product.1 h1
  simpa [h1.1, h1.2] using h2

theorem groupFind_none {keys : List (GKey V)} (h : groupFind keys = none) {ka kb : GKey V} (ha : ka ∈ keys) (hb : kb ∈ keys)
    (hne : ka ≠ kb) : Disjoint ka kb := by
  unfold groupFind at h
  rw [List.find?_eq_none] at h
  have := h (ka, kb) (List.mem_product.2 ⟨ha, hb⟩)
  simpa [hne] using this

theorem groupMerge_get (acc : Dict (GKey V) (Dict (SampleGraph V X R) ℤ)) (ka kb k : GKey V) :
    (groupMerge acc ka kb).get? k =
      if ka ∪ kb = k then some (((acc.get? ka).getD Dict.empty).merge ((acc.get? kb).getD Dict.empty))
      else if kb = k then none else if ka = k then none else acc.get? k := by
  unfold groupMerge
  rw [Dict.get?_set]
  split
  · rfl
  · rw [Dict.get?_erase]
    split
    · rfl
    · rw [Dict.get?_erase]

theorem groupMerge_inv {d : Dict (SampleGraph V X R) ℤ} {acc : Dict (GKey V) (Dict (SampleGraph V X R) ℤ)} (h : GroupInv d acc)
    {ka kb : GKey V} (ha : ka ∈ acc.keys) (hb : kb ∈ acc.keys) (hne : ka ≠ kb) : GroupInv d (groupMerge acc ka kb) := by
  obtain ⟨ma, hma⟩ := (acc.mem_keys ka).1 ha
  obtain ⟨mb, hmb⟩ := (acc.mem_keys kb).1 hb
  -- the members of the merged group
  have hmem : ∀ g c, (ma.merge mb).get? g = some c ↔ ma.get? g = some c ∨ mb.get? g = some c := by
    intro g c
    rw [Dict.get?_merge]
    cases hg : mb.get? g with
    | none => simp
    | some c' =>
      simp only [Option.some.injEq]
      constructor
      · exact Or.inr
      · rintro (h' | h')
        · exact absurd (h.disj ka ma kb mb g c c' hma hmb h' hg) hne
        · exact h'
  have hget : ∀ k m, (groupMerge acc ka kb).get? k = some m →
      (k = ka ∪ kb ∧ m = ma.merge mb) ∨ (k ≠ ka ∧ k ≠ kb ∧ acc.get? k = some m) := by
    intro k m hm
    rw [groupMerge_get, hma, hmb] at hm
    split at hm
    · rename_i hk
      simp only [Option.getD_some, Option.some.injEq] at hm
      exact Or.inl ⟨hk.symm, hm.symm⟩
    · split at hm
      · simp at hm
      · rename_i hkb
        split at hm
        · simp at hm
        · rename_i hka
          exact Or.inr ⟨Ne.symm hka, Ne.symm hkb, hm⟩
  refine ⟨?_, ?_, ?_, ?_⟩
  · intro k m hm g c hg
    rcases hget k m hm with ⟨rfl, rfl⟩ | ⟨-, -, hm⟩
    · rcases (hmem g c).1 hg with hg | hg
      · have := h.sub ka ma hma g c hg; exact ⟨this.1, this.2.trans Finset.subset_union_left⟩
      · have := h.sub kb mb hmb g c hg; exact ⟨this.1, this.2.trans Finset.subset_union_right⟩
    · exact h.sub k m hm g c hg
  · intro k m hm x hx
    rcases hget k m hm with ⟨rfl, rfl⟩ | ⟨-, -, hm⟩
    · rcases Finset.mem_union.1 hx with hx | hx
      · obtain ⟨g, c, h1, h2⟩ := h.cover ka ma hma x hx; exact ⟨g, c, (hmem g c).2 (Or.inl h1), h2⟩
      · obtain ⟨g, c, h1, h2⟩ := h.cover kb mb hmb x hx; exact ⟨g, c, (hmem g c).2 (Or.inr h1), h2⟩
    · exact h.cover k m hm x hx
  · have aux : ∀ k' m' g c c', k' ≠ ka → k' ≠ kb → acc.get? k' = some m' → (ma.merge mb).get? g = some c →
        m'.get? g = some c' → False := by
      intro k' m' g c c' hk1 hk2 hm' hg hg'
      rcases (hmem g c).1 hg with hg | hg
      · exact hk1 (h.disj ka ma k' m' g c c' hma hm' hg hg').symm
      · exact hk2 (h.disj kb mb k' m' g c c' hmb hm' hg hg').symm
    intro k m k' m' g c c' hm hm' hg hg'
    rcases hget k m hm with ⟨hk, hme⟩ | ⟨hk1, hk2, hm1⟩
    · rcases hget k' m' hm' with ⟨hk', -⟩ | ⟨hk1', hk2', hm1'⟩
      · rw [hk, hk']
      · subst hme; exact absurd hg' (fun h' => aux k' m' g c c' hk1' hk2' hm1' hg h')
    · rcases hget k' m' hm' with ⟨hk', hme'⟩ | ⟨hk1', hk2', hm1'⟩
      · subst hme'; exact absurd hg (fun h' => aux k m g c' c hk1 hk2 hm1 hg' h')
      · exact h.disj k m k' m' g c c' hm1 hm1' hg hg'
  · intro k m hm
    rcases hget k m hm with ⟨rfl, rfl⟩ | ⟨-, -, hm⟩
    · obtain ⟨g, c, hg⟩ := h.nonempty ka ma hma
      exact ⟨g, c, (hmem g c).2 (Or.inl hg)⟩
    · exact h.nonempty k m hm

theorem groupMerge_full {d : Dict (SampleGraph V X R) ℤ} {acc : Dict (GKey V) (Dict (SampleGraph V X R) ℤ)} (hi : GroupInv d acc)
    (h : GroupFull d acc) {ka kb : GKey V} (ha : ka ∈ acc.keys) (hb : kb ∈ acc.keys) (hne : ka ≠ kb)
    (hfree : ka ∪ kb ∉ acc.keys ∨ ka ∪ kb = ka ∨ ka ∪ kb = kb) : GroupFull d (groupMerge acc ka kb) := by
  obtain ⟨ma, hma⟩ := (acc.mem_keys ka).1 ha
  obtain ⟨mb, hmb⟩ := (acc.mem_keys kb).1 hb
  intro g c hg
  obtain ⟨k, m, hk, hm⟩ := h g c hg
  by_cases hka : k = ka
  · subst hka
    rw [hk, Option.some.injEq] at hma
    subst hma
    refine ⟨k ∪ kb, m.merge mb, by rw [groupMerge_get, if_pos rfl, hk, hmb]; rfl, ?_⟩
    rw [Dict.get?_merge]
    cases hg' : mb.get? g with
    | none => exact hm
    | some c' => exact absurd (hi.disj k m kb mb g c c' hk hmb hm hg') hne
  · by_cases hkb : k = kb
    · subst hkb
      rw [hk, Option.some.injEq] at hmb
      subst hmb
      refine ⟨ka ∪ k, ma.merge m, by rw [groupMerge_get, if_pos rfl, hk, hma]; rfl, ?_⟩
      rw [Dict.get?_merge, hm]
    · refine ⟨k, m, ?_, hm⟩
      rw [groupMerge_get, if_neg, if_neg (Ne.symm hkb), if_neg (Ne.symm hka)]
      · exact hk
      · rintro rfl
        rcases hfree with h' | h' | h'
        · exact h' ((acc.mem_keys _).2 ⟨m, hk⟩)
        · exact hka h'
        · exact hkb h'

theorem mem_keys_groupMerge {acc : Dict (GKey V) (Dict (SampleGraph V X R) ℤ)} {ka kb k : GKey V}
    (h : k ∈ (groupMerge acc ka kb).keys) : k = ka ∪ kb ∨ (k ∈ acc.keys ∧ k ≠ ka ∧ k ≠ kb) := by
  rw [Dict.mem_keys] at h
  obtain ⟨m, hm⟩ := h
  rw [groupMerge_get] at hm
  split at hm
  · rename_i h; exact Or.inl h.symm
  · split at hm
    · simp at hm
    · rename_i h1
      split at hm
      · simp at hm
      · rename_i h2; exact Or.inr ⟨(acc.mem_keys _).2 ⟨m, hm⟩, Ne.symm h2, Ne.symm h1⟩

theorem groupMerge_length {acc : Dict (GKey V) (Dict (SampleGraph V X R) ℤ)} {ka kb : GKey V} (ha : ka ∈ acc.keys)
    (hb : kb ∈ acc.keys) (hne : ka ≠ kb) : (groupMerge acc ka kb).keys.length < acc.keys.length := by
  rw [← List.toFinset_card_of_nodup (groupMerge acc ka kb).nodup_keys, ← List.toFinset_card_of_nodup acc.nodup_keys]
  have h1 : (groupMerge acc ka kb).keys.toFinset ⊆ insert (ka ∪ kb) ((acc.keys.toFinset.erase ka).erase kb) := by
    intro k hk
    rw [List.mem_toFinset] at hk
    rw [Finset.mem_insert, Finset.mem_erase, Finset.mem_erase, List.mem_toFinset]
    rcases mem_keys_groupMerge hk with h | ⟨h1, h2, h3⟩
    · exact Or.inl h
    · exact Or.inr ⟨h3, h2, h1⟩
  have h2 := (Finset.card_le_card h1).trans (Finset.card_insert_le _ _)
  have h3 : kb ∈ acc.keys.toFinset.erase ka := by simp [Ne.symm hne, hb]
  have h4 : ka ∈ acc.keys.toFinset := by simp [ha]
  have h5 := Finset.card_erase_add_one h3
  have h6 := Finset.card_erase_add_one h4
  omega

/-- Members of one group are related. -/
def GroupWithin (E : SampleGraph V X R → SampleGraph V X R → Prop) (acc : Dict (GKey V) (Dict (SampleGraph V X R) ℤ)) : Prop :=
  ∀ k m, acc.get? k = some m → ∀ g c g' c', m.get? g = some c → m.get? g' = some c' → E g g'

theorem mem_groupMerge_keys_of {acc : Dict (GKey V) (Dict (SampleGraph V X R) ℤ)} (ka kb : GKey V) {k₀ : GKey V} (h : k₀ ∈ acc.keys)
    {x : V ⊕ Finset V} (hx : x ∈ k₀) : ∃ k ∈ (groupMerge acc ka kb).keys, x ∈ k := by
  by_cases h1 : k₀ = ka ∨ k₀ = kb
  · refine ⟨ka ∪ kb, (Dict.mem_keys _ _).2 ⟨_, by rw [groupMerge_get, if_pos rfl]⟩, ?_⟩
    rcases h1 with rfl | rfl <;> simp [hx]
  · push Not at h1
    refine ⟨k₀, ?_, hx⟩
    rw [Dict.mem_keys]
    obtain ⟨m, hm⟩ := (acc.mem_keys k₀).1 h
    rw [groupMerge_get, if_neg h1.2.symm, if_neg h1.1.symm]
    split
    · exact ⟨_, rfl⟩
    · exact ⟨m, hm⟩

theorem groupMerge_within {d : Dict (SampleGraph V X R) ℤ} {acc : Dict (GKey V) (Dict (SampleGraph V X R) ℤ)} (hi : GroupInv d acc)
    {E : SampleGraph V X R → SampleGraph V X R → Prop} (hs : ∀ g g', E g g' → E g' g) (ht : ∀ g g' g'', E g g' → E g' g'' → E g g'')
    (hE : ∀ g c g' c' x, d.get? g = some c → d.get? g' = some c' → x ∈ groupKey g → x ∈ groupKey g' → E g g')
    (h : GroupWithin E acc) {ka kb : GKey V} (ha : ka ∈ acc.keys) (hb : kb ∈ acc.keys) (hd : ¬ Disjoint ka kb) :
    GroupWithin E (groupMerge acc ka kb) := by
  obtain ⟨ma, hma⟩ := (acc.mem_keys ka).1 ha
  obtain ⟨mb, hmb⟩ := (acc.mem_keys kb).1 hb
  rw [Finset.not_disjoint_iff] at hd
  obtain ⟨x, hxa, hxb⟩ := hd
  obtain ⟨ga, ca, hga, hxga⟩ := hi.cover ka ma hma x hxa
  obtain ⟨gb, cb, hgb, hxgb⟩ := hi.cover kb mb hmb x hxb
  have hab : E ga gb := hE ga ca gb cb x (hi.sub ka ma hma ga ca hga).1 (hi.sub kb mb hmb gb cb hgb).1 hxga hxgb
  intro k m hm g c g' c' hg hg'
  rw [groupMerge_get, hma, hmb] at hm
  split at hm
  · simp only [Option.getD_some, Option.some.injEq] at hm
    subst hm
    have key : ∀ g c, (ma.merge mb).get? g = some c → E ga g := by
      intro g c hg
      rw [Dict.get?_merge] at hg
      cases hb' : mb.get? g with
      | none => rw [hb'] at hg; exact h ka ma hma ga ca g c hga hg
      | some c'' => exact ht _ _ _ hab (h kb mb hmb gb cb g c'' hgb hb')
    exact ht _ _ _ (hs _ _ (key g c hg)) (key g' c' hg')
  · split at hm
    · simp at hm
    · split at hm
      · simp at hm
      · exact h k m hm g c g' c' hg hg'

/-- The loop terminates with pairwise disjoint keys; nothing is lost if no merge overwrites. -/
theorem groupLoop_spec (d : Dict (SampleGraph V X R) ℤ) : ∀ (fuel : ℕ) (acc : Dict (GKey V) (Dict (SampleGraph V X R) ℤ)),
    acc.keys.length < fuel → GroupInv d acc → ∃ acc', groupLoop fuel acc = .ok acc' ∧ GroupInv d acc' ∧
      (∀ k k', k ∈ acc'.keys → k' ∈ acc'.keys → k ≠ k' → Disjoint k k') ∧
      (∀ k, k ∈ acc'.keys → ∀ x ∈ k, ∃ k₀ ∈ acc.keys, x ∈ k₀) ∧
      (∀ k, k ∈ acc.keys → ∀ x ∈ k, ∃ k₀ ∈ acc'.keys, x ∈ k₀) ∧
      (∀ E : SampleGraph V X R → SampleGraph V X R → Prop, (∀ g g', E g g' → E g' g) → (∀ g g' g'', E g g' → E g' g'' → E g g'') →
        (∀ g c g' c' x, d.get? g = some c → d.get? g' = some c' → x ∈ groupKey g → x ∈ groupKey g' → E g g') →
        GroupWithin E acc → GroupWithin E acc') ∧
      ∀ P : List (GKey V) → Prop,
        (∀ (acc : Dict (GKey V) (Dict (SampleGraph V X R) ℤ)) ka kb, P acc.keys → ka ∈ acc.keys → kb ∈ acc.keys →
          ka ≠ kb → ¬ Disjoint ka kb →
          P (groupMerge acc ka kb).keys ∧ (ka ∪ kb ∉ acc.keys ∨ ka ∪ kb = ka ∨ ka ∪ kb = kb)) →
        P acc.keys → GroupFull d acc → GroupFull d acc' := by
  intro fuel
  induction fuel with
  | zero => intro acc h; omega
  | succ fuel ih =>
    intro acc hlen hi
    unfold groupLoop
    cases hf : groupFind acc.keys with
    | none =>
      exact ⟨acc, rfl, hi, fun k k' hk hk' hne => groupFind_none hf hk hk' hne, fun k hk x hx => ⟨k, hk, hx⟩,
        fun k hk x hx => ⟨k, hk, hx⟩, fun _ _ _ _ h => h, fun _ _ _ h => h⟩
    | some p =>
      obtain ⟨ka, kb⟩ := p
      obtain ⟨ha, hb, hne, hd⟩ := groupFind_some hf
      have := groupMerge_length ha hb hne
      obtain ⟨acc', h1, h2, h3, h4, h4', h4'', h5⟩ := ih (groupMerge acc ka kb) (by omega) (groupMerge_inv hi ha hb hne)
      refine ⟨acc', h1, h2, h3, fun k hk x hx => ?_, fun k hk x hx => ?_, fun E hs ht hE hw => ?_, fun P hP hPa hfull => ?_⟩
      · obtain ⟨k₀, hk₀, hx⟩ := h4 k hk x hx
        rcases mem_keys_groupMerge hk₀ with rfl | h
        · rcases Finset.mem_union.1 hx with hx | hx
          · exact ⟨ka, ha, hx⟩
          · exact ⟨kb, hb, hx⟩
        · exact ⟨k₀, h.1, hx⟩
      · obtain ⟨k', hk', hx'⟩ := mem_groupMerge_keys_of ka kb hk hx
        exact h4' k' hk' x hx'
      · exact h4'' E hs ht hE (groupMerge_within hi hs ht hE hw ha hb hd)
      · obtain ⟨h6, h7⟩ := hP acc ka kb hPa ha hb hne hd
        exact h5 P hP h6 (groupMerge_full hi hfull ha hb hne h7)

end Samples
end Verif
