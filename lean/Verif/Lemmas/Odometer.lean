import Verif.Model.RelationGraphBuilder
import Mathlib.Tactic.Ring
import Mathlib.Tactic.Linarith

/-!
# The odometer of `generate_all_possible_outcomes` visits every index vector once
-/

namespace Verif

/-- An index vector: every entry is -1 or the index of one of `r` relations. -/
def IsIndex (r n : Nat) (l : List ℤ) : Prop := l.length = n ∧ ∀ a ∈ l, -1 ≤ a ∧ a < r

/-- The number shown by the odometer. -/
def odoVal (r : Nat) : List ℤ → Nat
  | [] => 0
  | a :: t => (a + 1).toNat + (r + 1) * odoVal r t

theorem odoVal_inj (r : Nat) : ∀ (n : Nat) (l m : List ℤ), IsIndex r n l → IsIndex r n m → odoVal r l = odoVal r m → l = m := by
  intro n
  induction n with
  | zero =>
    intro l m hl hm _
    rw [List.length_eq_zero_iff.1 hl.1, List.length_eq_zero_iff.1 hm.1]
  | succ n ih =>
    intro l m hl hm h
    obtain ⟨a, l, rfl⟩ := List.exists_cons_of_length_eq_add_one hl.1
    obtain ⟨b, m, rfl⟩ := List.exists_cons_of_length_eq_add_one hm.1
    simp only [odoVal] at h
    have ha := hl.2 a (by simp)
    have hb := hm.2 b (by simp)
    have ha' : (a + 1).toNat < r + 1 := by omega
    have hb' : (b + 1).toNat < r + 1 := by omega
    have h1 : (a + 1).toNat = (b + 1).toNat := by
      have := congrArg (· % (r + 1)) h
      simpa [Nat.add_mul_mod_self_left, Nat.mod_eq_of_lt ha', Nat.mod_eq_of_lt hb'] using this
    have h2 : odoVal r l = odoVal r m := by
      rw [h1] at h
      have := Nat.add_left_cancel h
      exact Nat.eq_of_mul_eq_mul_left (by omega) this
    have := ih l m ⟨by simpa using hl.1, fun c hc => hl.2 c (by simp [hc])⟩ ⟨by simpa using hm.1, fun c hc => hm.2 c (by simp [hc])⟩ h2
    rw [this]
    congr 1
    omega

theorem odoVal_lt (r : Nat) : ∀ (n : Nat) (l : List ℤ), IsIndex r n l → odoVal r l < (r + 1) ^ n := by
  intro n
  induction n with
  | zero => intro l hl; rw [List.length_eq_zero_iff.1 hl.1]; simp [odoVal]
  | succ n ih =>
    intro l hl
    obtain ⟨a, l, rfl⟩ := List.exists_cons_of_length_eq_add_one hl.1
    simp only [odoVal]
    have ha := hl.2 a (by simp)
    have := ih l ⟨by simpa using hl.1, fun c hc => hl.2 c (by simp [hc])⟩
    have h3 : (r + 1) * odoVal r l + (r + 1) ≤ (r + 1) * (r + 1) ^ n := by
      have : (r + 1) * (odoVal r l + 1) ≤ (r + 1) * (r + 1) ^ n := Nat.mul_le_mul_left _ (by omega)
      linarith
    rw [pow_succ]
    have : (a + 1).toNat < r + 1 := by omega
    calc _ < (r + 1) + (r + 1) * odoVal r l := by omega
      _ ≤ _ := by linarith

theorem odoStep_ok (r : Nat) : ∀ (n : Nat) (l : List ℤ), IsIndex r n l → (∃ a ∈ l, a < (r : ℤ) - 1) →
    ∃ l', odoStep r l = .ok l' ∧ IsIndex r n l' ∧ odoVal r l' = odoVal r l + 1 := by
  intro n
  induction n with
  | zero => intro l hl h; rw [List.length_eq_zero_iff.1 hl.1] at h; simp at h
  | succ n ih =>
    intro l hl h
    obtain ⟨a, l, rfl⟩ := List.exists_cons_of_length_eq_add_one hl.1
    have ha := hl.2 a (by simp)
    have hl' : IsIndex r n l := ⟨by simpa using hl.1, fun c hc => hl.2 c (by simp [hc])⟩
    unfold odoStep
    by_cases hge : a ≥ (r : ℤ) - 1
    · rw [if_pos hge]
      obtain ⟨l', h1, h2, h3⟩ := ih l hl' (by
        obtain ⟨b, hb, hlt⟩ := h
        rcases List.mem_cons.1 hb with rfl | hb
        · omega
        · exact ⟨b, hb, hlt⟩)
      rw [h1]
      refine ⟨(-1) :: l', rfl, ⟨by simp [h2.1], ?_⟩, ?_⟩
      · intro c hc
        rcases List.mem_cons.1 hc with rfl | hc
        · omega
        · exact h2.2 c hc
      · simp only [odoVal, h3]
        have : (a + 1).toNat = r := by omega
        rw [this]
        simp; ring
    · rw [if_neg hge]
      refine ⟨(a + 1) :: l, rfl, ⟨by simpa using hl.1, ?_⟩, ?_⟩
      · intro c hc
        rcases List.mem_cons.1 hc with rfl | hc
        · omega
        · exact hl.2 c (by simp [hc])
      · simp only [odoVal]; omega

theorem odoVal_max (r : Nat) : ∀ (n : Nat) (l : List ℤ), IsIndex r n l → (∀ a ∈ l, ¬ a < (r : ℤ) - 1) →
    odoVal r l + 1 = (r + 1) ^ n := by
  intro n
  induction n with
  | zero => intro l hl h; rw [List.length_eq_zero_iff.1 hl.1]; simp [odoVal]
  | succ n ih =>
    intro l hl h
    obtain ⟨a, l, rfl⟩ := List.exists_cons_of_length_eq_add_one hl.1
    have ha := hl.2 a (by simp)
    have ha2 := h a (by simp)
    have := ih l ⟨by simpa using hl.1, fun c hc => hl.2 c (by simp [hc])⟩ (fun c hc => h c (by simp [hc]))
    simp only [odoVal]
    have h1 : (a + 1).toNat = r := by omega
    rw [h1, pow_succ, ← this]; ring

theorem odoCond_iff (r : ℤ) (l : List ℤ) :
    ((l.map fun i => decide (i < r - 1)).toFinset ≠ {false} ∧ l.length ≠ 0) ↔ ∃ a ∈ l, a < r - 1 := by
  constructor
  · rintro ⟨h1, h2⟩
    by_contra hcon
    push Not at hcon
    apply h1
    ext b
    simp only [List.mem_toFinset, List.mem_map, Finset.mem_singleton]
    constructor
    · rintro ⟨a, ha, rfl⟩; have := hcon a ha; simp; omega
    · rintro rfl
      obtain ⟨a, ha⟩ := List.exists_mem_of_length_pos (Nat.pos_of_ne_zero h2)
      exact ⟨a, ha, by have := hcon a ha; simp; omega⟩
  · rintro ⟨a, ha, hlt⟩
    refine ⟨?_, ?_⟩
    · intro h
      have : true ∈ (l.map fun i => decide (i < r - 1)).toFinset := by
        simp only [List.mem_toFinset, List.mem_map]
        exact ⟨a, ha, by simpa using hlt⟩
      rw [h] at this; simp at this
    · intro h; rw [List.length_eq_zero_iff.1 h] at ha; simp at ha

/-- From a given position the loop visits exactly the later positions, each once. -/
theorem odoLoop_ok (r : Nat) (n : Nat) : ∀ (fuel : Nat) (l : List ℤ), IsIndex r n l → (r + 1) ^ n ≤ odoVal r l + fuel →
    ∃ L, odoLoop r fuel l = .ok L ∧ L.Nodup ∧ ∀ m, m ∈ L ↔ IsIndex r n m ∧ odoVal r l < odoVal r m := by
  intro fuel
  induction fuel with
  | zero => intro l hl hf; have := odoVal_lt r n l hl; omega
  | succ fuel ih =>
    intro l hl hf
    unfold odoLoop
    by_cases hc : ∃ a ∈ l, a < (r : ℤ) - 1
    · rw [if_pos ((odoCond_iff _ _).2 hc)]
      obtain ⟨l', h1, h2, h3⟩ := odoStep_ok r n l hl hc
      rw [h1]
      obtain ⟨L, h4, h5, h6⟩ := ih l' h2 (by omega)
      simp only [h4]
      refine ⟨l' :: L, rfl, List.nodup_cons.2 ⟨?_, h5⟩, ?_⟩
      · intro hmem; have := ((h6 l').1 hmem).2; omega
      · intro m
        rw [List.mem_cons, h6]
        constructor
        · rintro (rfl | ⟨hm, hlt⟩)
          · exact ⟨h2, by omega⟩
          · exact ⟨hm, by omega⟩
        · rintro ⟨hm, hlt⟩
          by_cases heq : odoVal r m = odoVal r l'
          · left; exact odoVal_inj r n m l' hm h2 heq
          · right; exact ⟨hm, by omega⟩
    · rw [if_neg (fun h => hc ((odoCond_iff _ _).1 h))]
      refine ⟨[], rfl, List.nodup_nil, ?_⟩
      push Not at hc
      have hmax := odoVal_max r n l hl (fun a ha => by have := hc a ha; omega)
      intro m
      simp only [List.not_mem_nil, false_iff, not_and, not_lt]
      intro hm
      have := odoVal_lt r n m hm
      omega

theorem odoVal_start (r n : Nat) : IsIndex r n (List.replicate n (-1)) ∧ odoVal r (List.replicate n (-1)) = 0 := by
  refine ⟨⟨by simp, ?_⟩, ?_⟩
  · intro a ha; rw [List.eq_of_mem_replicate ha]; omega
  · induction n with
    | zero => rfl
    | succ n ih => rw [List.replicate_succ, odoVal, ih]; rfl

theorem odoVal_pos (r n : Nat) (m : List ℤ) (hm : IsIndex r n m) : 0 < odoVal r m ↔ ∃ a ∈ m, 0 ≤ a := by
  obtain ⟨h1, h2⟩ := odoVal_start r n
  constructor
  · intro h
    by_contra hcon
    push Not at hcon
    have : m = List.replicate n (-1) := by
      rw [List.eq_replicate_iff]
      exact ⟨hm.1, fun a ha => by have := hcon a ha; have := hm.2 a ha; omega⟩
    rw [this, h2] at h; omega
  · rintro ⟨a, ha, h0⟩
    rcases Nat.eq_zero_or_pos (odoVal r m) with h | h
    · have := odoVal_inj r n m _ hm h1 (h.trans h2.symm)
      rw [this] at ha
      rw [List.eq_of_mem_replicate ha] at h0
      omega
    · exact h

/-- The index vectors visited by the odometer: all but the one without any edge, each once. -/
theorem odometer (r n : Nat) : ∃ L, odoLoop r ((r + 1) ^ n) (List.replicate n (-1)) = .ok L ∧ L.Nodup ∧
    ∀ m, m ∈ L ↔ IsIndex r n m ∧ ∃ a ∈ m, 0 ≤ a := by
  obtain ⟨h1, h2⟩ := odoVal_start r n
  obtain ⟨L, h3, h4, h5⟩ := odoLoop_ok r n ((r + 1) ^ n) _ h1 (by omega)
  refine ⟨L, h3, h4, ?_⟩
  intro m
  rw [h5, h2]
  constructor
  · rintro ⟨hm, h⟩; exact ⟨hm, (odoVal_pos r n m hm).1 h⟩
  · rintro ⟨hm, h⟩; exact ⟨hm, (odoVal_pos r n m hm).2 h⟩

end Verif
