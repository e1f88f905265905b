import Verif.Props.DrawingFold
import Mathlib.Tactic.IntervalCases

/-!
# The texts in the drawings: C66

The labels of C66 are written with the functions for numbers and texts of the model. What these functions give is stated here without them.
-/

namespace Verif

/-- The ten digits. -/
def tenDigits : Str := ['0', '1', '2', '3', '4', '5', '6', '7', '8', '9']

/-- `s` is the decimal numeral of `n`, without needless zeros. -/
inductive Numeral : Str → ℕ → Prop
  | digit (d : ℕ) (h : d < 10) : Numeral [tenDigits.getD d '?'] d
  | more (s : Str) (n d : ℕ) : Numeral s n → n ≠ 0 → d < 10 → Numeral (s ++ [tenDigits.getD d '?']) (10 * n + d)

/-- `s` is the decimal numeral of an integer. -/
def IntNumeral (s : Str) (c : ℤ) : Prop :=
  (0 ≤ c ∧ Numeral s c.toNat) ∨ (c < 0 ∧ ∃ t, s = '-' :: t ∧ Numeral t (-c).toNat)

theorem digitChar_ten (d : ℕ) (h : d < 10) : Nat.digitChar d = tenDigits.getD d '?' := by
  interval_cases d <;> rfl

theorem toDigits_numeral (n : ℕ) : Numeral (Nat.toDigits 10 n) n := by
  induction n using Nat.strongRecOn with
  | ind n ih =>
    by_cases h : n < 10
    · rw [Nat.toDigits_of_lt_base h, digitChar_ten n h]
      exact .digit n h
    · rw [Nat.toDigits_of_base_le (by omega) (by omega), digitChar_ten _ (Nat.mod_lt n (by omega))]
      have := Numeral.more _ _ (n % 10) (ih (n / 10) (by omega)) (by omega) (Nat.mod_lt n (by omega))
      rwa [Nat.div_add_mod] at this

/-- A numeral belongs to one number. -/
theorem Numeral.unique {s : Str} {n m : ℕ} (h : Numeral s n) (h' : Numeral s m) : n = m := by
  have hd : ∀ a b, a < 10 → b < 10 → tenDigits.getD a '?' = tenDigits.getD b '?' → a = b := by
    intro a b ha hb
    interval_cases a <;> interval_cases b <;> simp [tenDigits]
  have hne : ∀ {s n}, Numeral s n → s ≠ [] := by
    intro s n h
    cases h <;> simp
  induction h generalizing m with
  | digit d hd1 =>
    generalize hs : [tenDigits.getD d '?'] = s at h'
    cases h' with
    | digit d' hd2 => exact hd _ _ hd1 hd2 (by simpa using hs)
    | more s n d' h1 h2 h3 =>
      have := hne h1
      have hl := congrArg List.length hs
      simp only [List.length_cons, List.length_nil, List.length_append] at hl
      exact absurd (List.eq_nil_of_length_eq_zero (by omega)) this
  | more s n d h1 h2 h3 ih =>
    generalize hs : s ++ [tenDigits.getD d '?'] = s' at h'
    cases h' with
    | digit d' hd2 =>
      have := hne h1
      have hl := congrArg List.length hs
      simp only [List.length_cons, List.length_nil, List.length_append] at hl
      exact absurd (List.eq_nil_of_length_eq_zero (by omega)) this
    | more s2 n2 d2 k1 k2 k3 =>
      obtain ⟨ha, hb⟩ := List.append_inj' hs rfl
      subst ha
      rw [ih k1, hd _ _ h3 k3 (by simpa using hb)]

/-- **C66** The texts in the labels: counts and numbers of outcomes are decimal numerals, a counted text is followed by its count in brackets,
parts are separated by the separator, and the colours are those of the code. -/
theorem C66_texts : (∀ i, Numeral (natStr i) i) ∧ (∀ c, IntNumeral (intStr c) c) ∧
    (∀ s c, ∃ d, counted s c = s ++ '(' :: d ++ [')'] ∧ IntNumeral d c) ∧
    (∀ sep l, joinStr sep l = sep.intercalate l) ∧
    red = "red".toList ∧ green = "green".toList ∧ black = "black".toList ∧ gray = "gray".toList ∧ querySuffix = "_query".toList := by
  have hi : ∀ c, IntNumeral (intStr c) c := by
    intro c
    cases c with
    | ofNat n =>
      rw [intStr_ofNat]
      exact Or.inl ⟨Int.natCast_nonneg n, toDigits_numeral n⟩
    | negSucc n =>
      rw [intStr_negSucc]
      refine Or.inr ⟨Int.negSucc_lt_zero n, _, rfl, ?_⟩
      have : (-(Int.negSucc n)).toNat = n + 1 := rfl
      rw [this]
      exact toDigits_numeral (n + 1)
  refine ⟨toDigits_numeral, hi, fun s c => ⟨intStr c, rfl, hi c⟩, ?_, ?_, ?_, ?_, ?_, ?_⟩
  · intro sep l
    induction l with
    | nil => rfl
    | cons a t ih =>
      cases t with
      | nil => simp [joinStr]
      | cons b t => rw [joinStr, ih]; simp
  all_goals decide

/-- A numeral of two digits and one of a negative number. -/
theorem numeral_demo : Numeral ['4', '2'] 42 ∧ IntNumeral ['-', '7'] (-7) ∧ ¬ Numeral ['0', '7'] 7 := by
  refine ⟨.more ['4'] 4 2 (.digit 4 (by omega)) (by omega) (by omega), Or.inr ⟨by omega, ['7'], rfl, .digit 7 (by omega)⟩, ?_⟩
  intro h
  generalize hs : ['0', '7'] = s at h
  generalize 7 = m at h
  cases h with
  | digit d hd => simp at hs
  | more s n d h1 h2 h3 =>
    obtain ⟨ha, -⟩ := List.append_inj' (show ['0'] ++ ['7'] = _ from hs) rfl
    subst ha
    exact h2 (h1.unique (.digit 0 (by omega)))

end Verif
