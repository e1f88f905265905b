import Mathlib.Data.Int.Log
import Mathlib.Data.Rat.Floor
import Mathlib.Tactic.Linarith
import Mathlib.Tactic.Ring
import Mathlib.Tactic.FieldSimp
import Mathlib.Tactic.NormNum
import Mathlib.Tactic.Positivity
import Mathlib.Algebra.Order.Ring.Abs
import Mathlib.Algebra.Order.Field.Power

/-!
# Numbers of type `float` (IEEE 754 binary64)

A finite `float` is the rational number it stands for. An operation of Python on floats computes the exact result and rounds it with `fl`. Results
from `2 ^ 1024` on (which Python turns into `inf` or `OverflowError`) are not treated specially: the theorems show that the results stay far below.
The sign of zero is not modelled.
-/

namespace Verif

/-- The nearest integer; of two, the even one. -/
def roundEven (x : ℚ) : ℤ :=
  if x - ⌊x⌋ < 1 / 2 then ⌊x⌋
  else if 1 / 2 < x - ⌊x⌋ then ⌊x⌋ + 1
  else if ⌊x⌋ % 2 = 0 then ⌊x⌋ else ⌊x⌋ + 1

/-- Exponent of the unit in the last place for numbers of the size of `x`: 53 binary digits, of which the last stands for at least `2 ^ -1074`. -/
def ulpExp (x : ℚ) : ℤ := max (Int.log 2 |x|) (-1022) - 52

/-- Rounding to a `float` (round half to even). -/
def fl (x : ℚ) : ℚ := roundEven (x / 2 ^ ulpExp x) * 2 ^ ulpExp x

/-- The numbers that a `float` can have as value, apart from the upper bound of the exponent. -/
def IsFloat (x : ℚ) : Prop := ∃ m e : ℤ, |m| < 2 ^ 53 ∧ -1074 ≤ e ∧ x = m * 2 ^ e

/-! ### Rounding to integers -/

theorem roundEven_abs (x : ℚ) : |(roundEven x : ℚ) - x| ≤ 1 / 2 := by
  have h0 := Int.floor_le x
  have h1 := Int.lt_floor_add_one x
  unfold roundEven
  rw [abs_le]
  split_ifs <;> push_cast <;> constructor <;> linarith

theorem roundEven_nearest (x : ℚ) (k : ℤ) : |(roundEven x : ℚ) - x| ≤ |(k : ℚ) - x| := by
  have h0 := Int.floor_le x
  have h1 := Int.lt_floor_add_one x
  rcases le_or_gt k ⌊x⌋ with hk | hk
  · have hk' : (k : ℚ) ≤ (⌊x⌋ : ℚ) := by exact_mod_cast hk
    rw [abs_of_nonpos (by linarith : (k : ℚ) - x ≤ 0)]
    unfold roundEven
    rw [abs_le]
    split_ifs <;> push_cast <;> constructor <;> linarith
  · have hk' : (⌊x⌋ : ℚ) + 1 ≤ (k : ℚ) := by exact_mod_cast hk
    rw [abs_of_nonneg (by linarith : 0 ≤ (k : ℚ) - x)]
    unfold roundEven
    rw [abs_le]
    split_ifs <;> push_cast <;> constructor <;> linarith

theorem roundEven_tie {x : ℚ} {k : ℤ} (hk : |(k : ℚ) - x| = |(roundEven x : ℚ) - x|) (hne : k ≠ roundEven x) : roundEven x % 2 = 0 := by
  have h0 := Int.floor_le x
  have h1 := Int.lt_floor_add_one x
  unfold roundEven at hk hne ⊢
  rcases le_or_gt k ⌊x⌋ with hk2 | hk2
  · have hk' : (k : ℚ) ≤ (⌊x⌋ : ℚ) := by exact_mod_cast hk2
    rw [abs_of_nonpos (by linarith : (k : ℚ) - x ≤ 0)] at hk
    split_ifs at hk hne ⊢ with ha hb hc
    · rw [abs_of_nonpos (by linarith)] at hk
      exact absurd (by have : (k : ℚ) = ⌊x⌋ := by linarith
                       exact_mod_cast this) hne
    · push_cast at hk
      rw [abs_of_nonneg (by linarith)] at hk
      linarith
    · exact hc
    · omega
  · have hk' : (⌊x⌋ : ℚ) + 1 ≤ (k : ℚ) := by exact_mod_cast hk2
    rw [abs_of_nonneg (by linarith : 0 ≤ (k : ℚ) - x)] at hk
    split_ifs at hk hne ⊢ with ha hb hc
    · rw [abs_of_nonpos (by linarith)] at hk
      linarith
    · push_cast at hk
      rw [abs_of_nonneg (by linarith)] at hk
      exact absurd (by have : (k : ℚ) = ⌊x⌋ + 1 := by linarith
                       exact_mod_cast this) hne
    · exact hc
    · omega

theorem roundEven_int (k : ℤ) : roundEven k = k := by
  have := roundEven_nearest k k
  simp only [sub_self, abs_zero] at this
  have h : ((roundEven k : ℤ) : ℚ) = (k : ℚ) := by
    have := abs_eq_zero.mp (le_antisymm this (abs_nonneg _))
    linarith
  exact_mod_cast h

/-! ### Rounding to floats -/

theorem two_pow_pos (e : ℤ) : (0 : ℚ) < 2 ^ e := by positivity

theorem ulpExp_ge (x : ℚ) : -1074 ≤ ulpExp x := by
  have := le_max_right (Int.log 2 |x|) (-1022)
  unfold ulpExp; omega

theorem abs_lt_ulp (x : ℚ) : |x| < 2 ^ (53 : ℤ) * 2 ^ ulpExp x := by
  rw [← zpow_add₀ (by norm_num)]
  have h := Int.lt_zpow_succ_log_self (b := 2) (by norm_num) |x|
  refine lt_of_lt_of_le h ?_
  push_cast
  apply zpow_le_zpow_right₀ (by norm_num)
  have := le_max_left (Int.log 2 |x|) (-1022)
  unfold ulpExp; omega

theorem ulp_le_abs {x : ℚ} (hx : x ≠ 0) (h : -1074 < ulpExp x) : 2 ^ (52 : ℤ) * 2 ^ ulpExp x ≤ |x| := by
  have hl : -1022 < Int.log 2 |x| := by
    unfold ulpExp at h
    rcases le_total (Int.log 2 |x|) (-1022) with h1 | h1
    · rw [max_eq_right h1] at h; omega
    · rw [max_eq_left h1] at h; omega
  have he : ulpExp x = Int.log 2 |x| - 52 := by unfold ulpExp; rw [max_eq_left hl.le]
  rw [← zpow_add₀ (by norm_num), he]
  have := Int.zpow_log_le_self (b := 2) (by norm_num) (abs_pos.mpr hx)
  push_cast at this
  rwa [show (52 : ℤ) + (Int.log 2 |x| - 52) = Int.log 2 |x| by omega]

theorem fl_sub (x : ℚ) : fl x - x = ((roundEven (x / 2 ^ ulpExp x) : ℚ) - x / 2 ^ ulpExp x) * 2 ^ ulpExp x := by
  have := (two_pow_pos (ulpExp x)).ne'
  unfold fl
  field_simp

/-- The error is at most half a unit in the last place. -/
theorem fl_ulp (x : ℚ) : |fl x - x| ≤ 1 / 2 * 2 ^ ulpExp x := by
  rw [fl_sub, abs_mul, abs_of_pos (two_pow_pos _)]
  exact mul_le_mul_of_nonneg_right (roundEven_abs _) (two_pow_pos _).le

theorem fl_zero : fl 0 = 0 := by
  have := roundEven_int 0
  simp only [Int.cast_zero] at this
  simp [fl, this]

/-- No `float` is closer to `x` than `fl x`. -/
theorem fl_nearest {x y : ℚ} (hy : IsFloat y) : |fl x - x| ≤ |y - x| := by
  obtain ⟨m, f, hm, hf, rfl⟩ := hy
  by_cases hx : x = 0
  · subst hx; rw [fl_zero, sub_self, abs_zero]; exact abs_nonneg _
  have hp := two_pow_pos (ulpExp x)
  rw [fl_sub, abs_mul, abs_of_pos hp]
  rcases le_or_gt (ulpExp x) f with hef | hef
  · have hk : ((m : ℚ) * 2 ^ f - x) = (((m * 2 ^ (f - ulpExp x).toNat : ℤ) : ℚ) - x / 2 ^ ulpExp x) * 2 ^ ulpExp x := by
      have : (2 : ℚ) ^ f = 2 ^ (f - ulpExp x).toNat * 2 ^ ulpExp x := by
        rw [← zpow_natCast, ← zpow_add₀ (by norm_num), Int.toNat_of_nonneg (by omega)]
        congr 1; omega
      push_cast
      rw [this]
      field_simp
    rw [hk, abs_mul, abs_of_pos hp]
    exact mul_le_mul_of_nonneg_right (roundEven_nearest _ _) hp.le
  · have hge := ulp_le_abs hx (by omega : -1074 < ulpExp x)
    have hyl : |(m : ℚ) * 2 ^ f| ≤ 2 ^ (52 : ℤ) * 2 ^ ulpExp x := by
      rw [abs_mul, abs_of_pos (two_pow_pos f)]
      have h1 : |(m : ℚ)| ≤ 2 ^ (53 : ℤ) := by
        have : |(m : ℚ)| < 2 ^ 53 := by exact_mod_cast hm
        exact this.le
      have h2 : (2 : ℚ) ^ f ≤ 2 ^ (ulpExp x - 1) := zpow_le_zpow_right₀ (by norm_num) (by omega)
      calc |(m : ℚ)| * 2 ^ f ≤ 2 ^ (53 : ℤ) * 2 ^ (ulpExp x - 1) := mul_le_mul h1 h2 (two_pow_pos f).le (two_pow_pos 53).le
        _ = 2 ^ (52 : ℤ) * 2 ^ ulpExp x := by
          rw [← zpow_add₀ (by norm_num), ← zpow_add₀ (by norm_num)]; congr 1; omega
    have hr : |(roundEven (x / 2 ^ ulpExp x) : ℚ) - x / 2 ^ ulpExp x| * 2 ^ ulpExp x ≤ |x| - 2 ^ (52 : ℤ) * 2 ^ ulpExp x := by
      have ht : |x / 2 ^ ulpExp x| = |x| / 2 ^ ulpExp x := by rw [abs_div, abs_of_pos hp]
      have hge' : (2 : ℚ) ^ (52 : ℤ) ≤ |x| / 2 ^ ulpExp x := by rw [le_div_iff₀ hp]; exact hge
      have : |(roundEven (x / 2 ^ ulpExp x) : ℚ) - x / 2 ^ ulpExp x| ≤ |x| / 2 ^ ulpExp x - 2 ^ (52 : ℤ) := by
        rcases le_total 0 x with h0 | h0
        · refine (roundEven_nearest _ (2 ^ 52)).trans ?_
          rw [abs_of_nonneg h0] at hge' ⊢
          push_cast
          rw [abs_of_nonpos (by norm_num at hge' ⊢; linarith)]
          norm_num
        · refine (roundEven_nearest _ (-2 ^ 52)).trans ?_
          rw [abs_of_nonpos h0, neg_div] at hge' ⊢
          push_cast
          rw [abs_of_nonneg (by norm_num at hge' ⊢; linarith)]
          norm_num
          linarith
      calc _ ≤ (|x| / 2 ^ ulpExp x - 2 ^ (52 : ℤ)) * 2 ^ ulpExp x := mul_le_mul_of_nonneg_right this hp.le
        _ = _ := by rw [sub_mul, div_mul_cancel₀ _ hp.ne']
    have htri := abs_sub_abs_le_abs_sub x ((m : ℚ) * 2 ^ f)
    rw [abs_sub_comm] at htri
    linarith

/-- The result of rounding is a `float`. -/
theorem fl_isFloat (x : ℚ) : IsFloat (fl x) := by
  have hp := two_pow_pos (ulpExp x)
  have ht : |x / 2 ^ ulpExp x| < 2 ^ (53 : ℤ) := by
    rw [abs_div, abs_of_pos hp, div_lt_iff₀ hp]; exact abs_lt_ulp x
  set t := x / 2 ^ ulpExp x with htd
  have hle : |roundEven t| ≤ 2 ^ 53 := by
    have h1 := roundEven_nearest t (2 ^ 53)
    have h2 := roundEven_nearest t (-2 ^ 53)
    push_cast at h1 h2
    rw [show (2 : ℚ) ^ (53 : ℤ) = 9007199254740992 by norm_num] at ht
    have ht' := abs_lt.mp ht
    rw [abs_of_nonneg (a := 9007199254740992 - t) (by linarith)] at h1
    rw [abs_of_nonpos (a := -9007199254740992 - t) (by linarith)] at h2
    have h3 := (abs_le.mp h1).2
    have h4 := (abs_le.mp h2).1
    rw [abs_le]
    constructor
    · have : (-9007199254740992 : ℚ) ≤ (roundEven t : ℚ) := by linarith
      exact_mod_cast this
    · have : (roundEven t : ℚ) ≤ (9007199254740992 : ℚ) := by linarith
      exact_mod_cast this
  rcases lt_or_eq_of_le hle with h | h
  · exact ⟨roundEven t, ulpExp x, h, ulpExp_ge x, rfl⟩
  · rcases abs_eq (by norm_num : (0 : ℤ) ≤ 2 ^ 53) |>.mp h with h' | h'
    · refine ⟨2 ^ 52, ulpExp x + 1, by norm_num, by have := ulpExp_ge x; omega, ?_⟩
      unfold fl; rw [← htd, h', zpow_add_one₀ (by norm_num)]; push_cast; ring
    · refine ⟨-2 ^ 52, ulpExp x + 1, by norm_num, by have := ulpExp_ge x; omega, ?_⟩
      unfold fl; rw [← htd, h', zpow_add_one₀ (by norm_num)]; push_cast; ring

/-- Floats are not changed by rounding. -/
theorem fl_of_isFloat {x : ℚ} (h : IsFloat x) : fl x = x := by
  have := fl_nearest (x := x) h
  simp only [sub_self, abs_zero] at this
  have := abs_eq_zero.mp (le_antisymm this (abs_nonneg _))
  linarith

theorem fl_mono {x y : ℚ} (h : x ≤ y) : fl x ≤ fl y := by
  rcases h.eq_or_lt with rfl | h
  · exact le_rfl
  by_contra hc
  rw [not_le] at hc
  have h1 := fl_nearest (x := x) (fl_isFloat y)
  have h2 := fl_nearest (x := y) (fl_isFloat x)
  rcases abs_cases (fl x - x) with ⟨e1, _⟩ | ⟨e1, _⟩ <;> rcases abs_cases (fl y - x) with ⟨e2, _⟩ | ⟨e2, _⟩ <;>
    rcases abs_cases (fl y - y) with ⟨e3, _⟩ | ⟨e3, _⟩ <;> rcases abs_cases (fl x - y) with ⟨e4, _⟩ | ⟨e4, _⟩ <;> linarith

theorem isFloat_int {k : ℤ} (h : |k| ≤ 2 ^ 53) : IsFloat k := by
  rcases lt_or_eq_of_le h with h | h
  · exact ⟨k, 0, h, by norm_num, by simp⟩
  · rcases abs_eq (by norm_num : (0 : ℤ) ≤ 2 ^ 53) |>.mp h with h' | h'
    · exact ⟨2 ^ 52, 1, by norm_num, by norm_num, by rw [h']; norm_num⟩
    · exact ⟨-2 ^ 52, 1, by norm_num, by norm_num, by rw [h']; norm_num⟩

theorem isFloat_zero : IsFloat 0 := by exact_mod_cast isFloat_int (k := 0) (by norm_num)
theorem isFloat_one : IsFloat 1 := by exact_mod_cast isFloat_int (k := 1) (by norm_num)
theorem IsFloat.neg {x : ℚ} (h : IsFloat x) : IsFloat (-x) := by
  obtain ⟨m, e, hm, he, rfl⟩ := h
  exact ⟨-m, e, by rwa [abs_neg], he, by push_cast; ring⟩

theorem fl_one : fl 1 = 1 := fl_of_isFloat isFloat_one
theorem fl_nonneg {x : ℚ} (h : 0 ≤ x) : 0 ≤ fl x := by have := fl_mono h; rwa [fl_zero] at this
theorem fl_le {x y : ℚ} (hy : IsFloat y) (h : x ≤ y) : fl x ≤ y := by have := fl_mono h; rwa [fl_of_isFloat hy] at this
theorem le_fl {x y : ℚ} (hy : IsFloat y) (h : y ≤ x) : y ≤ fl x := by have := fl_mono h; rwa [fl_of_isFloat hy] at this
theorem abs_fl_le {x y : ℚ} (hy : IsFloat y) (h : |x| ≤ y) : |fl x| ≤ y := by
  rw [abs_le] at h ⊢
  exact ⟨le_fl hy.neg h.1, fl_le hy h.2⟩

/-- The unit roundoff. -/
def uro : ℚ := 1 / 2 ^ 53

/-- Relative error of rounding a number that is not tiny. -/
theorem fl_rel {x : ℚ} (h : 2 ^ (-1022 : ℤ) ≤ |x|) : |fl x - x| ≤ uro * |x| := by
  have hx : x ≠ 0 := by rintro rfl; rw [abs_zero] at h; exact absurd h (not_le.mpr (two_pow_pos _))
  rcases lt_or_ge (-1074) (ulpExp x) with he | he
  · have h1 := ulp_le_abs hx he
    have h2 := fl_ulp x
    have : (1 / 2 : ℚ) * 2 ^ ulpExp x = uro * (2 ^ (52 : ℤ) * 2 ^ ulpExp x) := by unfold uro; norm_num; ring
    rw [this] at h2
    exact h2.trans (mul_le_mul_of_nonneg_left h1 (by unfold uro; norm_num))
  · have h2 := fl_ulp x
    have he' : ulpExp x = -1074 := le_antisymm he (ulpExp_ge x)
    rw [he'] at h2
    refine h2.trans ?_
    have : (1 / 2 : ℚ) * 2 ^ (-1074 : ℤ) = uro * 2 ^ (-1022 : ℤ) := by
      unfold uro
      rw [show (-1022 : ℤ) = 52 + -1074 by norm_num, zpow_add₀ (by norm_num)]
      generalize (2 : ℚ) ^ (-1074 : ℤ) = z
      norm_num
      ring
    rw [this]
    exact mul_le_mul_of_nonneg_left h (by unfold uro; norm_num)

/-- Tiny multiples of `2 ^ -1074` are floats. -/
theorem isFloat_tiny {k : ℤ} (h : |(k : ℚ) * 2 ^ (-1074 : ℤ)| < 2 ^ (-1021 : ℤ)) : IsFloat (k * 2 ^ (-1074 : ℤ)) := by
  refine ⟨k, -1074, ?_, le_rfl, rfl⟩
  rw [abs_mul, abs_of_pos (two_pow_pos _)] at h
  rw [show (-1021 : ℤ) = 53 + -1074 by norm_num, zpow_add₀ (by norm_num)] at h
  have := lt_of_mul_lt_mul_right h (two_pow_pos _).le
  exact_mod_cast this

theorem IsFloat.multiple {x : ℚ} (h : IsFloat x) : ∃ k : ℤ, x = k * 2 ^ (-1074 : ℤ) := by
  obtain ⟨m, e, _, he, rfl⟩ := h
  refine ⟨m * 2 ^ (e + 1074).toNat, ?_⟩
  have : (2 : ℚ) ^ e = 2 ^ (e + 1074).toNat * 2 ^ (-1074 : ℤ) := by
    rw [← zpow_natCast, ← zpow_add₀ (by norm_num), Int.toNat_of_nonneg (by omega)]
    congr 1; omega
  push_cast
  rw [this]; ring

/-- Relative error of the sum of two floats: there is no exception for small numbers. -/
theorem fl_add_rel {x y : ℚ} (hx : IsFloat x) (hy : IsFloat y) : |fl (x + y) - (x + y)| ≤ uro * |x + y| := by
  rcases le_or_gt (2 ^ (-1022 : ℤ)) |x + y| with h | h
  · exact fl_rel h
  · obtain ⟨k, hk⟩ := hx.multiple
    obtain ⟨l, hl⟩ := hy.multiple
    have he : x + y = ((k + l : ℤ) : ℚ) * 2 ^ (-1074 : ℤ) := by push_cast; rw [hk, hl]; ring
    have hf : IsFloat (x + y) := by
      rw [he] at h ⊢
      exact isFloat_tiny (h.trans_le (zpow_le_zpow_right₀ (by norm_num) (by norm_num)))
    rw [fl_of_isFloat hf, sub_self, abs_zero]
    exact mul_nonneg (by unfold uro; norm_num) (abs_nonneg _)

/-- If two floats are equally near, the one with the even last digit is taken. -/
theorem fl_tie {x y : ℚ} (hy : IsFloat y) (ht : |y - x| = |fl x - x|) (hne : y ≠ fl x) :
    ∃ m k e : ℤ, fl x = m * 2 ^ e ∧ y = k * 2 ^ e ∧ |m - k| = 1 ∧ m % 2 = 0 := by
  by_cases hx : x = 0
  · subst hx
    rw [fl_zero] at ht hne
    simp only [sub_zero, abs_zero, abs_eq_zero] at ht
    exact absurd ht hne
  obtain ⟨n, f, hn, hf, rfl⟩ := hy
  have hp := two_pow_pos (ulpExp x)
  rcases le_or_gt (ulpExp x) f with hef | hef
  · have hk : (n : ℚ) * 2 ^ f = ((n * 2 ^ (f - ulpExp x).toNat : ℤ) : ℚ) * 2 ^ ulpExp x := by
      have : (2 : ℚ) ^ f = 2 ^ (f - ulpExp x).toNat * 2 ^ ulpExp x := by
        rw [← zpow_natCast, ← zpow_add₀ (by norm_num), Int.toNat_of_nonneg (by omega)]
        congr 1; omega
      push_cast
      rw [this]; ring
    generalize n * 2 ^ (f - ulpExp x).toNat = k at hk
    rw [hk] at ht hne ⊢
    have hkx : (k : ℚ) * 2 ^ ulpExp x - x = ((k : ℚ) - x / 2 ^ ulpExp x) * 2 ^ ulpExp x := by field_simp
    rw [hkx, fl_sub, abs_mul, abs_mul] at ht
    have ht' := mul_right_cancel₀ (abs_pos.mpr hp.ne').ne' ht
    have hkm : k ≠ roundEven (x / 2 ^ ulpExp x) := by rintro rfl; exact hne rfl
    refine ⟨roundEven (x / 2 ^ ulpExp x), k, ulpExp x, rfl, rfl, ?_, roundEven_tie ht' hkm⟩
    have h1 := roundEven_abs (x / 2 ^ ulpExp x)
    set t := x / 2 ^ ulpExp x
    have h2 : |((roundEven t - k : ℤ) : ℚ)| ≤ 1 := by
      have : ((roundEven t - k : ℤ) : ℚ) = ((roundEven t : ℚ) - t) - ((k : ℚ) - t) := by push_cast; ring
      rw [this]
      have := abs_sub ((roundEven t : ℚ) - t) ((k : ℚ) - t)
      linarith
    have h3 : |roundEven t - k| ≤ 1 := by exact_mod_cast h2
    have h4 : 0 < |roundEven t - k| := abs_pos.mpr (sub_ne_zero.mpr (Ne.symm hkm))
    omega
  · exfalso
    have hge := ulp_le_abs hx (by omega : -1074 < ulpExp x)
    have hyl : |(n : ℚ) * 2 ^ f| < 2 ^ (52 : ℤ) * 2 ^ ulpExp x := by
      rw [abs_mul, abs_of_pos (two_pow_pos f)]
      have h1 : |(n : ℚ)| < 2 ^ (53 : ℤ) := by
        have : |(n : ℚ)| < 2 ^ 53 := by exact_mod_cast hn
        exact this
      have h2 : (2 : ℚ) ^ f ≤ 2 ^ (ulpExp x - 1) := zpow_le_zpow_right₀ (by norm_num) (by omega)
      calc |(n : ℚ)| * 2 ^ f < 2 ^ (53 : ℤ) * 2 ^ f := mul_lt_mul_of_pos_right h1 (two_pow_pos f)
        _ ≤ 2 ^ (53 : ℤ) * 2 ^ (ulpExp x - 1) := mul_le_mul_of_nonneg_left h2 (two_pow_pos 53).le
        _ = 2 ^ (52 : ℤ) * 2 ^ ulpExp x := by
          rw [← zpow_add₀ (by norm_num), ← zpow_add₀ (by norm_num)]; congr 1; omega
    have hz : IsFloat ((2 ^ 52 : ℤ) * 2 ^ ulpExp x) := ⟨2 ^ 52, ulpExp x, by norm_num, ulpExp_ge x, by norm_cast⟩
    have hzc : (((2 : ℤ) ^ 52 : ℤ) : ℚ) * 2 ^ ulpExp x = 2 ^ (52 : ℤ) * 2 ^ ulpExp x := by norm_cast
    have hz' : IsFloat (2 ^ (52 : ℤ) * 2 ^ ulpExp x) := by rw [← hzc]; exact_mod_cast hz
    have htri := abs_sub_abs_le_abs_sub x ((n : ℚ) * 2 ^ f)
    rw [abs_sub_comm x] at htri
    have hclose : |fl x - x| ≤ |x| - 2 ^ (52 : ℤ) * 2 ^ ulpExp x := by
      rcases le_total 0 x with h0 | h0
      · have := fl_nearest (x := x) hz'
        rw [abs_of_nonneg h0] at hge ⊢
        rwa [abs_of_nonpos (a := 2 ^ (52 : ℤ) * 2 ^ ulpExp x - x) (by linarith), neg_sub] at this
      · have := fl_nearest (x := x) hz'.neg
        rw [abs_of_nonpos h0] at hge ⊢
        rw [abs_of_nonneg (a := -(2 ^ (52 : ℤ) * 2 ^ ulpExp x) - x) (by linarith)] at this
        linarith
    linarith

end Verif
