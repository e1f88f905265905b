import Verif.Lemmas.Group
import Mathlib.Logic.Relation

/-!
# When `group_intersecting` loses samples

The keys of the groups while merging are unions of families of keys of samples. A sample is lost exactly when two families without common key are merged to the same key.
-/

set_option linter.unusedSectionVars false

namespace Verif

variable {V X R : Type} [DecidableEq V] [DecidableEq X] [DecidableEq R]

namespace Samples

/-- Any two keys of the family are linked by a chain of intersecting keys of the family. -/
def KLinked (A : Finset (GKey V)) : Prop :=
  A.Nonempty ∧ ∀ k ∈ A, ∀ k' ∈ A, Relation.ReflTransGen (fun x y => x ∈ A ∧ y ∈ A ∧ ¬ Disjoint x y) k k'

/-- Linked families without common key have different unions. -/
def SepKeys (K : List (GKey V)) : Prop :=
  ∀ A B : Finset (GKey V), (∀ k ∈ A, k ∈ K) → (∀ k ∈ B, k ∈ K) → KLinked A → KLinked B → A.biUnion id = B.biUnion id → ¬ Disjoint A B

theorem KLinked.single (k : GKey V) : KLinked {k} := by
  refine ⟨Finset.singleton_nonempty _, fun a ha b hb => ?_⟩
  rw [Finset.mem_singleton] at ha hb
  subst ha; subst hb
  exact .refl

theorem KLinked.union {A B : Finset (GKey V)} (hA : KLinked A) (hB : KLinked B) (h : ¬ Disjoint (A.biUnion id) (B.biUnion id)) : KLinked (A ∪ B) := by
  refine ⟨hA.1.mono Finset.subset_union_left, ?_⟩
  rw [Finset.not_disjoint_iff] at h
  obtain ⟨x, hxa, hxb⟩ := h
  obtain ⟨a, ha, hxa⟩ := Finset.mem_biUnion.1 hxa
  obtain ⟨b, hb, hxb⟩ := Finset.mem_biUnion.1 hxb
  have hab : ¬ Disjoint a b := Finset.not_disjoint_iff.2 ⟨x, hxa, hxb⟩
  have lA : ∀ k ∈ A, ∀ k' ∈ A, Relation.ReflTransGen (fun x y => x ∈ A ∪ B ∧ y ∈ A ∪ B ∧ ¬ Disjoint x y) k k' := fun k hk k' hk' =>
    (hA.2 k hk k' hk').lift id fun x y h => ⟨Finset.mem_union_left _ h.1, Finset.mem_union_left _ h.2.1, h.2.2⟩
  have lB : ∀ k ∈ B, ∀ k' ∈ B, Relation.ReflTransGen (fun x y => x ∈ A ∪ B ∧ y ∈ A ∪ B ∧ ¬ Disjoint x y) k k' := fun k hk k' hk' =>
    (hB.2 k hk k' hk').lift id fun x y h => ⟨Finset.mem_union_right _ h.1, Finset.mem_union_right _ h.2.1, h.2.2⟩
  have e1 : Relation.ReflTransGen (fun x y => x ∈ A ∪ B ∧ y ∈ A ∪ B ∧ ¬ Disjoint x y) a b :=
    .single ⟨Finset.mem_union_left _ ha, Finset.mem_union_right _ hb, hab⟩
  have e2 : Relation.ReflTransGen (fun x y => x ∈ A ∪ B ∧ y ∈ A ∪ B ∧ ¬ Disjoint x y) b a :=
    .single ⟨Finset.mem_union_right _ hb, Finset.mem_union_left _ ha, fun h => hab h.symm⟩
  intro k hk k' hk'
  rcases Finset.mem_union.1 hk with hk | hk <;> rcases Finset.mem_union.1 hk' with hk' | hk'
  · exact lA k hk k' hk'
  · exact ((lA k hk a ha).trans e1).trans (lB b hb k' hk')
  · exact ((lB k hk b hb).trans e2).trans (lA a ha k' hk')
  · exact lB k hk k' hk'

/-- Every key of `l` is the union of a linked family of its own of keys of `K`. -/
def Blocks (K : List (GKey V)) (l : List (GKey V)) : Prop :=
  ∃ F : GKey V → Finset (GKey V), (∀ k ∈ l, (∀ y ∈ F k, y ∈ K) ∧ KLinked (F k) ∧ (F k).biUnion id = k) ∧
    ∀ k ∈ l, ∀ k' ∈ l, k ≠ k' → Disjoint (F k) (F k')

theorem blocks_init (K : List (GKey V)) : Blocks K K := by
  refine ⟨fun k => {k}, fun k hk => ⟨?_, KLinked.single k, by simp⟩, fun k _ k' _ hne => by simpa using hne⟩
  intro y hy
  rw [Finset.mem_singleton] at hy
  rwa [hy]

theorem blocks_step {K : List (GKey V)} (hK : SepKeys K) (acc : Dict (GKey V) (Dict (SampleGraph V X R) ℤ)) (ka kb : GKey V) (h : Blocks K acc.keys)
    (ha : ka ∈ acc.keys) (hb : kb ∈ acc.keys) (hne : ka ≠ kb) (hd : ¬ Disjoint ka kb) :
    Blocks K (groupMerge acc ka kb).keys ∧ (ka ∪ kb ∉ acc.keys ∨ ka ∪ kb = ka ∨ ka ∪ kb = kb) := by
  obtain ⟨F, h1, h2⟩ := h
  obtain ⟨a1, a2, a3⟩ := h1 ka ha
  obtain ⟨b1, b2, b3⟩ := h1 kb hb
  have hu : KLinked (F ka ∪ F kb) := a2.union b2 (by rw [a3, b3]; exact hd)
  have hun : (F ka ∪ F kb).biUnion id = ka ∪ kb := by rw [Finset.union_biUnion, a3, b3]
  have hmem : ∀ y ∈ F ka ∪ F kb, y ∈ K := by
    intro y hy
    rcases Finset.mem_union.1 hy with hy | hy
    · exact a1 y hy
    · exact b1 y hy
  constructor
  · refine ⟨Function.update F (ka ∪ kb) (F ka ∪ F kb), fun k hk => ?_, ?_⟩
    · rcases mem_keys_groupMerge hk with rfl | ⟨hk', h3, h4⟩
      · rw [Function.update_self]; exact ⟨hmem, hu, hun⟩
      · by_cases hkk : k = ka ∪ kb
        · subst hkk; rw [Function.update_self]; exact ⟨hmem, hu, hun⟩
        · rw [Function.update_of_ne hkk]; exact h1 k hk'
    · have key : ∀ k ∈ (groupMerge acc ka kb).keys, k ≠ ka ∪ kb → Disjoint (F ka ∪ F kb) (F k) := by
        intro k hk hkk
        rcases mem_keys_groupMerge hk with rfl | ⟨hk', h3, h4⟩
        · exact absurd rfl hkk
        · rw [Finset.disjoint_union_left]
          exact ⟨h2 ka ha k hk' (Ne.symm h3), h2 kb hb k hk' (Ne.symm h4)⟩
      intro k hk k' hk' hkk
      by_cases e1 : k = ka ∪ kb
      · subst e1
        rw [Function.update_self, Function.update_of_ne (Ne.symm hkk)]
        exact key k' hk' (Ne.symm hkk)
      · by_cases e2 : k' = ka ∪ kb
        · subst e2
          rw [Function.update_self, Function.update_of_ne hkk]
          exact (key k hk hkk).symm
        · rw [Function.update_of_ne e1, Function.update_of_ne e2]
          rcases mem_keys_groupMerge hk with h | h
          · exact absurd h e1
          · rcases mem_keys_groupMerge hk' with h' | h'
            · exact absurd h' e2
            · exact h2 k h.1 k' h'.1 hkk
  · by_cases hin : ka ∪ kb ∈ acc.keys
    · right
      by_contra hcon
      push Not at hcon
      obtain ⟨c1, c2, c3⟩ := h1 _ hin
      refine hK _ _ hmem c1 hu c2 (by rw [hun, c3]) ?_
      rw [Finset.disjoint_union_left]
      exact ⟨h2 ka ha _ hin (Ne.symm hcon.1), h2 kb hb _ hin (Ne.symm hcon.2)⟩
    · exact Or.inl hin

/-! ### Merging pairs in any order -/

/-- Pairs of different intersecting keys are merged one after the other; which pair comes next is left open. -/
def MergeRun : Dict (GKey V) (Dict (SampleGraph V X R) ℤ) → Dict (GKey V) (Dict (SampleGraph V X R) ℤ) → Prop :=
  Relation.ReflTransGen fun acc acc' => ∃ ka ∈ acc.keys, ∃ kb ∈ acc.keys, ka ≠ kb ∧ ¬ Disjoint ka kb ∧ acc' = groupMerge acc ka kb

/-- No pair is left. -/
def Merged (acc : Dict (GKey V) (Dict (SampleGraph V X R) ℤ)) : Prop := ∀ k ∈ acc.keys, ∀ k' ∈ acc.keys, k ≠ k' → Disjoint k k'

theorem groupLoop_run : ∀ (fuel : ℕ) (acc acc' : Dict (GKey V) (Dict (SampleGraph V X R) ℤ)), groupLoop fuel acc = .ok acc' →
    MergeRun acc acc' ∧ Merged acc' := by
  intro fuel
  induction fuel with
  | zero => intro acc acc' h; cases h
  | succ fuel ih =>
    intro acc acc' h
    unfold groupLoop at h
    cases hf : groupFind acc.keys with
    | none =>
      rw [hf] at h
      cases h
      exact ⟨.refl, fun k hk k' hk' hne => groupFind_none hf hk hk' hne⟩
    | some p =>
      obtain ⟨ka, kb⟩ := p
      rw [hf] at h
      obtain ⟨h1, h2⟩ := ih _ _ h
      obtain ⟨ha, hb, hne, hd⟩ := groupFind_some hf
      exact ⟨.head ⟨ka, ha, kb, hb, hne, hd, rfl⟩ h1, h2⟩

theorem MergeRun.inv {d : Dict (SampleGraph V X R) ℤ} {acc acc' : Dict (GKey V) (Dict (SampleGraph V X R) ℤ)} (h : MergeRun acc acc') (hi : GroupInv d acc) :
    GroupInv d acc' := by
  induction h with
  | refl => exact hi
  | tail _ hs ih =>
    obtain ⟨ka, ha, kb, hb, hne, hd, rfl⟩ := hs
    exact groupMerge_inv ih ha hb hne

theorem MergeRun.full {d : Dict (SampleGraph V X R) ℤ} {K : List (GKey V)} (hK : SepKeys K) {acc acc' : Dict (GKey V) (Dict (SampleGraph V X R) ℤ)}
    (h : MergeRun acc acc') (hi : GroupInv d acc) (hB : Blocks K acc.keys) (hf : GroupFull d acc) : GroupFull d acc' := by
  have : GroupInv d acc' ∧ Blocks K acc'.keys ∧ GroupFull d acc' := by
    induction h with
    | refl => exact ⟨hi, hB, hf⟩
    | tail _ hs ih =>
      obtain ⟨ka, ha, kb, hb, hne, hd, rfl⟩ := hs
      obtain ⟨i1, i2, i3⟩ := ih
      obtain ⟨j1, j2⟩ := blocks_step hK _ ka kb i2 ha hb hne hd
      exact ⟨groupMerge_inv i1 ha hb hne, j1, groupMerge_full i1 i3 ha hb hne j2⟩
  exact this.2.2

/-- The sample is in the group of the key. -/
def In (acc : Dict (GKey V) (Dict (SampleGraph V X R) ℤ)) (k : GKey V) (g : SampleGraph V X R) : Prop := ∃ m c, acc.get? k = some m ∧ m.get? g = some c

theorem in_groupMerge {acc : Dict (GKey V) (Dict (SampleGraph V X R) ℤ)} {ka kb : GKey V} (ha : ka ∈ acc.keys) (hb : kb ∈ acc.keys) (k : GKey V) (g : SampleGraph V X R) :
    In (groupMerge acc ka kb) k g ↔ if k = ka ∪ kb then In acc ka g ∨ In acc kb g else k ≠ ka ∧ k ≠ kb ∧ In acc k g := by
  obtain ⟨ma, hma⟩ := (acc.mem_keys ka).1 ha
  obtain ⟨mb, hmb⟩ := (acc.mem_keys kb).1 hb
  unfold In
  simp only [groupMerge_get]
  by_cases h1 : ka ∪ kb = k
  · simp only [if_pos h1, if_pos h1.symm, hma, hmb, Option.getD_some, Option.some.injEq]
    constructor
    · rintro ⟨m, c, rfl, hc⟩
      rw [Dict.get?_merge] at hc
      cases hg : mb.get? g with
      | none => rw [hg] at hc; exact Or.inl ⟨ma, c, rfl, hc⟩
      | some c' => exact Or.inr ⟨mb, c', rfl, hg⟩
    · rintro (⟨m, c, rfl, hc⟩ | ⟨m, c, rfl, hc⟩)
      · cases hg : mb.get? g with
        | none => exact ⟨_, c, rfl, by rw [Dict.get?_merge, hg]; exact hc⟩
        | some c' => exact ⟨_, c', rfl, by rw [Dict.get?_merge, hg]⟩
      · exact ⟨_, c, rfl, by rw [Dict.get?_merge, hc]⟩
  · simp only [if_neg h1, if_neg (Ne.symm h1)]
    by_cases h2 : kb = k
    · simp [h2]
    · by_cases h3 : ka = k
      · simp [h3]
      · simp only [if_neg h2, if_neg h3]
        exact ⟨fun h => ⟨Ne.symm h3, Ne.symm h2, h⟩, fun h => h.2.2⟩

/-- What is lost does not come back. -/
theorem MergeRun.lost {acc acc' : Dict (GKey V) (Dict (SampleGraph V X R) ℤ)} (h : MergeRun acc acc') {g : SampleGraph V X R} (hg : ∀ k, ¬ In acc k g) :
    ∀ k, ¬ In acc' k g := by
  induction h with
  | refl => exact hg
  | tail _ hs ih =>
    obtain ⟨ka, ha, kb, hb, hne, hd, rfl⟩ := hs
    intro k hin
    rw [in_groupMerge ha hb] at hin
    split at hin
    · rcases hin with h | h
      · exact ih _ h
      · exact ih _ h
    · exact ih _ hin.2.2

theorem In.unique {d : Dict (SampleGraph V X R) ℤ} {acc : Dict (GKey V) (Dict (SampleGraph V X R) ℤ)} (hi : GroupInv d acc) {k k' : GKey V} {g : SampleGraph V X R}
    (h : In acc k g) (h' : In acc k' g) : k = k' := by
  obtain ⟨m, c, h1, h2⟩ := h
  obtain ⟨m', c', h3, h4⟩ := h'
  exact hi.disj k m k' m' g c c' h1 h3 h2 h4

theorem In.mem_keys {acc : Dict (GKey V) (Dict (SampleGraph V X R) ℤ)} {k : GKey V} {g : SampleGraph V X R} (h : In acc k g) : k ∈ acc.keys := by
  obtain ⟨m, c, h1, h2⟩ := h
  exact (acc.mem_keys k).2 ⟨m, h1⟩

/-- A merge that overwrites the key of a sample loses the sample. -/
theorem merge_loses {d : Dict (SampleGraph V X R) ℤ} {acc : Dict (GKey V) (Dict (SampleGraph V X R) ℤ)} (hi : GroupInv d acc) {ka kb : GKey V} (ha : ka ∈ acc.keys)
    (hb : kb ∈ acc.keys) {g : SampleGraph V X R} (hin : In acc (ka ∪ kb) g) (h1 : ka ∪ kb ≠ ka) (h2 : ka ∪ kb ≠ kb) : ∀ k, ¬ In (groupMerge acc ka kb) k g := by
  intro k hk
  rw [in_groupMerge ha hb] at hk
  split at hk
  · rcases hk with h | h
    · exact h1 (hin.unique hi h)
    · exact h2 (hin.unique hi h)
  · rename_i hne
    exact hne (hk.2.2.unique hi hin)

/-! ### Losing samples on purpose -/

/-- The group of the union of the family has exactly the samples with keys in the family. -/
def Holds (d : Dict (SampleGraph V X R) ℤ) (acc : Dict (GKey V) (Dict (SampleGraph V X R) ℤ)) (S : Finset (GKey V)) : Prop :=
  (∃ g c, d.get? g = some c ∧ groupKey g ∈ S) ∧ ∀ g c, d.get? g = some c → (In acc (S.biUnion id) g ↔ groupKey g ∈ S)

/-- Something is lost. -/
def Loses (d : Dict (SampleGraph V X R) ℤ) (acc : Dict (GKey V) (Dict (SampleGraph V X R) ℤ)) : Prop := ∃ g c, d.get? g = some c ∧ ∀ k, ¬ In acc k g

theorem Holds.mem {d : Dict (SampleGraph V X R) ℤ} {acc : Dict (GKey V) (Dict (SampleGraph V X R) ℤ)} {S : Finset (GKey V)} (h : Holds d acc S) : S.biUnion id ∈ acc.keys := by
  obtain ⟨⟨g, c, hg, hk⟩, h2⟩ := h
  exact ((h2 g c hg).2 hk).mem_keys

theorem Holds.ne {d : Dict (SampleGraph V X R) ℤ} {acc : Dict (GKey V) (Dict (SampleGraph V X R) ℤ)} {S T : Finset (GKey V)} (h : Holds d acc S) (h' : Holds d acc T)
    (hd : Disjoint S T) : S.biUnion id ≠ T.biUnion id := by
  intro he
  obtain ⟨⟨g, c, hg, hk⟩, h2⟩ := h
  have := (h2 g c hg).2 hk
  rw [he] at this
  exact Finset.disjoint_left.1 hd hk ((h'.2 g c hg).1 this)

theorem holds_step {d : Dict (SampleGraph V X R) ℤ} {acc : Dict (GKey V) (Dict (SampleGraph V X R) ℤ)} (hi : GroupInv d acc) {S T : Finset (GKey V)} (hS : Holds d acc S)
    (hT : Holds d acc T) (hd : Disjoint S T) : Loses d (groupMerge acc (S.biUnion id) (T.biUnion id)) ∨
      (Holds d (groupMerge acc (S.biUnion id) (T.biUnion id)) (S ∪ T) ∧ ∀ U, Holds d acc U → Disjoint S U → Disjoint T U →
        Holds d (groupMerge acc (S.biUnion id) (T.biUnion id)) U) := by
  have ha := hS.mem
  have hb := hT.mem
  by_cases hov : ∃ g c, d.get? g = some c ∧ In acc (S.biUnion id ∪ T.biUnion id) g ∧ S.biUnion id ∪ T.biUnion id ≠ S.biUnion id ∧ S.biUnion id ∪ T.biUnion id ≠ T.biUnion id
  · obtain ⟨g, c, hg, hin, h1, h2⟩ := hov
    exact Or.inl ⟨g, c, hg, merge_loses hi ha hb hin h1 h2⟩
  · right
    refine ⟨⟨?_, fun g c hg => ?_⟩, fun U hU hSU hTU => ⟨hU.1, fun g c hg => ?_⟩⟩
    · obtain ⟨g, c, hg, hk⟩ := hS.1
      exact ⟨g, c, hg, Finset.mem_union_left _ hk⟩
    · rw [Finset.union_biUnion, in_groupMerge ha hb, if_pos rfl, hS.2 g c hg, hT.2 g c hg, Finset.mem_union]
    · have n1 := hS.ne hU hSU
      have n2 := hT.ne hU hTU
      rw [in_groupMerge ha hb, if_neg, hU.2 g c hg]
      · exact ⟨fun h => h.2.2, fun h => ⟨Ne.symm n1, Ne.symm n2, h⟩⟩
      · intro he
        obtain ⟨g', c', hg', hk'⟩ := hU.1
        refine hov ⟨g', c', hg', ?_, ?_, ?_⟩
        · rw [← he]; exact (hU.2 g' c' hg').2 hk'
        · rw [← he]; exact Ne.symm n1
        · rw [← he]; exact Ne.symm n2

/-- A part of a linked family that is not all of it can be extended. -/
theorem KLinked.extend {A S : Finset (GKey V)} (hA : KLinked A) (hS : S.Nonempty) (hSA : S ⊆ A) (hne : S ≠ A) :
    ∃ k ∈ A, k ∉ S ∧ ¬ Disjoint (S.biUnion id) k := by
  obtain ⟨s, hs⟩ := hS
  obtain ⟨t, ht, hts⟩ : ∃ t ∈ A, t ∉ S := by
    by_contra hcon
    push Not at hcon
    exact hne (Finset.Subset.antisymm hSA hcon)
  have hp := hA.2 s (hSA hs) t ht
  have : ∀ t, Relation.ReflTransGen (fun x y => x ∈ A ∧ y ∈ A ∧ ¬ Disjoint x y) s t → t ∉ S → ∃ k ∈ A, k ∉ S ∧ ¬ Disjoint (S.biUnion id) k := by
    intro t hp
    induction hp with
    | refl => intro h; exact absurd hs h
    | tail _ hstep ih =>
      rename_i y z _
      intro hz
      by_cases hy : y ∈ S
      · refine ⟨z, hstep.2.1, hz, fun hdis => hstep.2.2 ?_⟩
        exact Finset.disjoint_of_subset_left (Finset.subset_biUnion_of_mem id hy) hdis
      · exact ih hy
  exact this t hp hts

theorem gather {d : Dict (SampleGraph V X R) ℤ} {A : Finset (GKey V)} (hA : KLinked A) (Q : Finset (GKey V) → Prop) (hQ : ∀ B, Q B → Disjoint A B) :
    ∀ (n : ℕ) (S : Finset (GKey V)) (acc : Dict (GKey V) (Dict (SampleGraph V X R) ℤ)), (A \ S).card = n → S ⊆ A → S.Nonempty → GroupInv d acc →
      Holds d acc S → (∀ k ∈ A, k ∉ S → Holds d acc {k}) → (∀ B, Q B → Holds d acc B) →
      ∃ acc', MergeRun acc acc' ∧ GroupInv d acc' ∧ (Loses d acc' ∨ (Holds d acc' A ∧ ∀ B, Q B → Holds d acc' B)) := by
  intro n
  induction n with
  | zero =>
    intro S acc hn hSA _ hi hS _ hB
    have : S = A := by
      rw [Finset.card_eq_zero, Finset.sdiff_eq_empty_iff_subset] at hn
      exact Finset.Subset.antisymm hSA hn
    subst this
    exact ⟨acc, .refl, hi, Or.inr ⟨hS, hB⟩⟩
  | succ n ih =>
    intro S acc hn hSA hSn hi hS hk hB
    obtain ⟨k, hkA, hkS, hdis⟩ := hA.extend hSn hSA (by rintro rfl; simp at hn)
    have hT := hk k hkA hkS
    have hST : Disjoint S {k} := by simpa using hkS
    have hne := hS.ne hT hST
    have hkid : ({k} : Finset (GKey V)).biUnion id = k := by simp
    have hrun : MergeRun acc (groupMerge acc (S.biUnion id) (({k} : Finset (GKey V)).biUnion id)) :=
      .single ⟨_, hS.mem, _, hT.mem, hne, by rw [hkid]; exact hdis, rfl⟩
    have hi' := groupMerge_inv hi hS.mem hT.mem hne
    rcases holds_step hi hS hT hST with hl | ⟨h1, h2⟩
    · exact ⟨_, hrun, hi', Or.inl hl⟩
    · obtain ⟨acc', r1, r2, r3⟩ := ih (S ∪ {k}) _ (by
        have : A \ (S ∪ {k}) = (A \ S).erase k := by
          ext y
          simp only [Finset.mem_sdiff, Finset.mem_union, Finset.mem_singleton, Finset.mem_erase]
          tauto
        rw [this, Finset.card_erase_of_mem (Finset.mem_sdiff.2 ⟨hkA, hkS⟩), hn]
        rfl) (Finset.union_subset hSA (by simpa using hkA)) (hSn.mono Finset.subset_union_left) hi' h1 (fun k' hk' hk'S => by
          simp only [Finset.mem_union, Finset.mem_singleton, not_or] at hk'S
          exact h2 {k'} (hk k' hk' hk'S.1) (by simpa using hk'S.1) (by simpa using Ne.symm hk'S.2)) (fun B hQB => by
          have hAB := hQ B hQB
          exact h2 B (hB B hQB) (Finset.disjoint_of_subset_left hSA hAB) (Finset.disjoint_of_subset_left (by simpa using hkA) hAB))
      exact ⟨acc', hrun.trans r1, r2, r3⟩

/-- If two linked families without common key have the same union, then merging can lose a sample. -/
theorem exists_loss (d : Dict (SampleGraph V X R) ℤ) (hK : ¬ SepKeys (groupInit d).keys) : ∃ acc, MergeRun (groupInit d) acc ∧ Loses d acc := by
  unfold SepKeys at hK
  push Not at hK
  obtain ⟨A, B, hA, hB, lA, lB, hun, hdis⟩ := hK
  obtain ⟨i1, i2, i3⟩ := groupInit_inv d
  have h0 : ∀ k ∈ (groupInit d).keys, Holds d (groupInit d) {k} := by
    intro k hk
    obtain ⟨g, c, hg, hgk⟩ := (i3 k).1 hk
    refine ⟨⟨g, c, hg, by simpa using hgk⟩, fun g' c' hg' => ?_⟩
    have hid : ({k} : Finset (GKey V)).biUnion id = k := by simp
    rw [hid, Finset.mem_singleton]
    rcases groupInit_spec d k with ⟨h1, h2⟩ | ⟨m, h1, -, h3⟩
    · exact absurd hgk (h2 g c hg)
    · constructor
      · rintro ⟨m', c'', hm, hc⟩
        rw [h1, Option.some.injEq] at hm
        subst hm
        exact ((h3 g' c'').1 hc).2
      · intro h
        exact ⟨m, c', h1, (h3 g' c').2 ⟨hg', h⟩⟩
  obtain ⟨b, hb⟩ := lB.1
  obtain ⟨a, ha⟩ := lA.1
  obtain ⟨acc1, r1, j1, hl | ⟨hB1, hQ1⟩⟩ := gather (d := d) lB (fun U => ∃ k ∈ A, U = {k}) (by
    rintro U ⟨k, hk, rfl⟩
    simpa using fun h => Finset.disjoint_left.1 hdis hk h) _ {b} (groupInit d) rfl (by simpa using hb) (by simp) i1 (h0 b (hB b hb)) (fun k hk _ => h0 k (hB k hk)) (by
    rintro U ⟨k, hk, rfl⟩; exact h0 k (hA k hk))
  · exact ⟨acc1, r1, hl⟩
  · obtain ⟨acc2, r2, j2, hl | ⟨hA2, hQ2⟩⟩ := gather (d := d) lA (fun U => U = B) (by rintro U rfl; exact hdis) _ {a} acc1 rfl (by simpa using ha) (by simp) j1
      (hQ1 _ ⟨a, ha, rfl⟩) (fun k hk _ => hQ1 _ ⟨k, hk, rfl⟩) (by rintro U rfl; exact hB1)
    · exact ⟨acc2, r1.trans r2, hl⟩
    · exact absurd hun (hA2.ne (hQ2 B rfl) hdis)

/-- Every run can be continued until no pair is left. -/
theorem exists_merged {d : Dict (SampleGraph V X R) ℤ} (acc : Dict (GKey V) (Dict (SampleGraph V X R) ℤ)) (hi : GroupInv d acc) : ∃ acc', MergeRun acc acc' ∧ Merged acc' := by
  obtain ⟨acc', h, -⟩ := groupLoop_spec d _ acc (Nat.lt_succ_self _) hi
  exact ⟨acc', groupLoop_run _ _ _ h⟩

theorem merge_exact (d : Dict (SampleGraph V X R) ℤ) : (∀ acc, MergeRun (groupInit d) acc → Merged acc → GroupFull d acc) ↔ SepKeys (groupInit d).keys := by
  obtain ⟨i1, i2, i3⟩ := groupInit_inv d
  constructor
  · intro h
    by_contra hK
    obtain ⟨acc, r, g, c, hg, hlost⟩ := exists_loss d hK
    obtain ⟨acc', r', hm⟩ := exists_merged acc (r.inv i1)
    obtain ⟨k, m, hk, hc⟩ := h acc' (r.trans r') hm g c hg
    exact r'.lost hlost k ⟨m, c, hk, hc⟩
  · intro hK acc r _
    exact r.full hK i1 (blocks_init _) i2

end Samples
end Verif
