import Verif.Model.PyFloat
import Mathlib.Algebra.Order.Ring.Pow
import Mathlib.Algebra.BigOperators.Group.List.Basic

/-! # Rounding errors of sums -/

namespace Verif

theorem uro_pos : 0 < uro := by unfold uro; norm_num
theorem uro_lt_one : uro < 1 := by unfold uro; norm_num

/-- Sums of floats that are not negative. -/
theorem foldl_bounds (l : List ℚ) (h0 : ∀ x ∈ l, 0 ≤ x) (hf : ∀ x ∈ l, IsFloat x) : ∀ s, 0 ≤ s → IsFloat s →
    (1 - uro) ^ l.length * (s + l.sum) ≤ l.foldl (fun s x => fl (s + x)) s ∧ l.foldl (fun s x => fl (s + x)) s ≤ (1 + uro) ^ l.length * (s + l.sum) := by
  induction l with
  | nil => intro s _ _; simp
  | cons x t ih =>
    intro s hs hfs
    have hx := h0 x (by simp)
    have hfx := hf x (by simp)
    have hsum : 0 ≤ t.sum := List.sum_nonneg fun y hy => h0 y (by simp [hy])
    have hr := fl_add_rel hfs hfx
    rw [abs_of_nonneg (by linarith : 0 ≤ s + x), abs_le] at hr
    obtain ⟨i1, i2⟩ := ih (fun y hy => h0 y (by simp [hy])) (fun y hy => hf y (by simp [hy])) (fl (s + x)) (fl_nonneg (by linarith)) (fl_isFloat _)
    simp only [List.foldl_cons, List.length_cons, List.sum_cons, pow_succ]
    have hu := uro_pos
    have hu1 := uro_lt_one
    have p1 : 0 ≤ (1 - uro) ^ t.length := pow_nonneg (by linarith) _
    have p2 : 0 ≤ (1 + uro) ^ t.length := pow_nonneg (by linarith) _
    constructor
    · refine le_trans ?_ i1
      rw [mul_assoc]
      apply mul_le_mul_of_nonneg_left _ p1
      nlinarith [mul_nonneg hu.le hsum]
    · refine i2.trans ?_
      rw [mul_assoc]
      apply mul_le_mul_of_nonneg_left _ p2
      nlinarith [mul_nonneg hu.le hsum]

theorem foldl_isFloat (l : List ℚ) : ∀ s, IsFloat s → IsFloat (l.foldl (fun s x => fl (s + x)) s) := by
  induction l with
  | nil => intro s h; exact h
  | cons x t ih => intro s _; exact ih _ (fl_isFloat _)

/-- Sums of floats of either sign. -/
theorem foldl_error (l : List ℚ) (hf : ∀ x ∈ l, IsFloat x) : ∀ s, IsFloat s →
    |l.foldl (fun s x => fl (s + x)) s - (s + l.sum)| ≤ ((1 + uro) ^ l.length - 1) * (|s| + (l.map abs).sum) := by
  induction l with
  | nil => intro s _; simp
  | cons x t ih =>
    intro s hfs
    have hr := fl_add_rel hfs (hf x (by simp))
    have i := ih (fun y hy => hf y (by simp [hy])) (fl (s + x)) (fl_isFloat _)
    simp only [List.foldl_cons, List.length_cons, List.sum_cons, List.map_cons, pow_succ]
    have hu := uro_pos
    have hA : 0 ≤ (t.map abs).sum := List.sum_nonneg (by simp)
    have hsx : |s + x| ≤ |s| + |x| := abs_add_le _ _
    have hfl : |fl (s + x)| ≤ (1 + uro) * |s + x| := by
      have := abs_sub_abs_le_abs_sub (fl (s + x)) (s + x)
      linarith
    have p2 : 1 ≤ (1 + uro) ^ t.length := one_le_pow₀ (by linarith)
    set P := (1 + uro) ^ t.length
    set F := t.foldl (fun s x => fl (s + x)) (fl (s + x))
    have e1 : |F - (s + (x + t.sum))| ≤ |F - (fl (s + x) + t.sum)| + |fl (s + x) - (s + x)| := by
      have : F - (s + (x + t.sum)) = (F - (fl (s + x) + t.sum)) + (fl (s + x) - (s + x)) := by ring
      rw [this]; exact abs_add_le _ _
    have e2 : (P - 1) * (|fl (s + x)| + (t.map abs).sum) ≤ (P - 1) * ((1 + uro) * (|s| + |x|) + (t.map abs).sum) := by
      apply mul_le_mul_of_nonneg_left _ (by linarith)
      nlinarith
    have e3 : uro * |s + x| ≤ uro * (|s| + |x|) := mul_le_mul_of_nonneg_left hsx hu.le
    have e4 : 0 ≤ P * uro * (t.map abs).sum := mul_nonneg (mul_nonneg (by linarith) hu.le) hA
    nlinarith

/-! ### Powers -/

theorem pow_lower {n : ℕ} : 1 - n * uro ≤ (1 - uro) ^ n := by
  have := one_add_mul_le_pow (a := -uro) (by have := uro_lt_one; linarith) n
  have e : 1 + -uro = 1 - uro := by ring
  rw [e] at this
  linarith

theorem pow_upper {n : ℕ} (h : n * uro < 1) : (1 + uro) ^ n ≤ 1 / (1 - n * uro) := by
  have hu := uro_pos
  have hu1 := uro_lt_one
  have h1 : (1 + uro) ^ n * (1 - uro) ^ n ≤ 1 := by
    rw [← mul_pow]
    exact pow_le_one₀ (by nlinarith) (by nlinarith)
  rw [le_div_iff₀ (by linarith)]
  exact (mul_le_mul_of_nonneg_left pow_lower (pow_nonneg (by linarith) _)).trans h1

/-! ### The compensated sum -/

/-- The difference of floats that are at most a factor two apart is a float (Sterbenz). -/
theorem isFloat_sub {x y : ℚ} (hx : IsFloat x) (hy : IsFloat y) (h1 : y ≤ x) (h2 : x ≤ 2 * y) : IsFloat (x - y) := by
  obtain ⟨k, f, hk, hf, rfl⟩ := hx
  obtain ⟨m, e, hm, he, rfl⟩ := hy
  rcases le_total e f with h | h
  · have hp := two_pow_pos e
    have hfe : (2 : ℚ) ^ f = 2 ^ (f - e).toNat * 2 ^ e := by
      rw [← zpow_natCast, ← zpow_add₀ (by norm_num), Int.toNat_of_nonneg (by omega)]; congr 1; omega
    have he2 : (k : ℚ) * 2 ^ f - m * 2 ^ e = ((k * 2 ^ (f - e).toNat - m : ℤ) : ℚ) * 2 ^ e := by push_cast; rw [hfe]; ring
    refine ⟨k * 2 ^ (f - e).toNat - m, e, ?_, he, he2⟩
    have a1 : (0 : ℚ) ≤ ((k * 2 ^ (f - e).toNat - m : ℤ) : ℚ) := nonneg_of_mul_nonneg_left (by rw [← he2]; linarith) hp
    have a2 : ((k * 2 ^ (f - e).toNat - m : ℤ) : ℚ) ≤ m := le_of_mul_le_mul_right (by rw [← he2]; linarith) hp
    have a1' : 0 ≤ k * 2 ^ (f - e).toNat - m := by exact_mod_cast a1
    have a2' : k * 2 ^ (f - e).toNat - m ≤ m := by exact_mod_cast a2
    rw [abs_of_nonneg a1']
    exact lt_of_le_of_lt (a2'.trans (le_abs_self m)) hm
  · have hp := two_pow_pos f
    have hfe : (2 : ℚ) ^ e = 2 ^ (e - f).toNat * 2 ^ f := by
      rw [← zpow_natCast, ← zpow_add₀ (by norm_num), Int.toNat_of_nonneg (by omega)]; congr 1; omega
    have he2 : (k : ℚ) * 2 ^ f - m * 2 ^ e = ((k - m * 2 ^ (e - f).toNat : ℤ) : ℚ) * 2 ^ f := by push_cast; rw [hfe]; ring
    refine ⟨k - m * 2 ^ (e - f).toNat, f, ?_, hf, he2⟩
    have a1 : (0 : ℚ) ≤ ((k - m * 2 ^ (e - f).toNat : ℤ) : ℚ) := nonneg_of_mul_nonneg_left (by rw [← he2]; linarith) hp
    have a2 : ((k - m * 2 ^ (e - f).toNat : ℤ) : ℚ) ≤ k := le_of_mul_le_mul_right (by rw [← he2]; linarith) hp
    have a1' : 0 ≤ k - m * 2 ^ (e - f).toNat := by exact_mod_cast a1
    have a2' : k - m * 2 ^ (e - f).toNat ≤ k := by exact_mod_cast a2
    rw [abs_of_nonneg a1']
    exact lt_of_le_of_lt (a2'.trans (le_abs_self k)) hk

/-- A multiple of a power of two stays one when it is rounded. -/
theorem fl_multiple (k e : ℤ) (he : -1074 ≤ e) : ∃ j : ℤ, fl (k * 2 ^ e) = j * 2 ^ e := by
  set x := (k : ℚ) * 2 ^ e with hx
  rcases le_total e (ulpExp x) with h | h
  · refine ⟨roundEven (x / 2 ^ ulpExp x) * 2 ^ (ulpExp x - e).toNat, ?_⟩
    have : (2 : ℚ) ^ ulpExp x = 2 ^ (ulpExp x - e).toNat * 2 ^ e := by
      rw [← zpow_natCast, ← zpow_add₀ (by norm_num), Int.toNat_of_nonneg (by omega)]; congr 1; omega
    unfold fl
    push_cast
    rw [mul_assoc, ← this]
  · refine ⟨k, ?_⟩
    rw [← hx]
    apply fl_of_isFloat
    refine ⟨k * 2 ^ (e - ulpExp x).toNat, ulpExp x, ?_, ulpExp_ge x, ?_⟩
    · have hl := abs_lt_ulp x
      have hxe : x = ((k * 2 ^ (e - ulpExp x).toNat : ℤ) : ℚ) * 2 ^ ulpExp x := by
        have : (2 : ℚ) ^ e = 2 ^ (e - ulpExp x).toNat * 2 ^ ulpExp x := by
          rw [← zpow_natCast, ← zpow_add₀ (by norm_num), Int.toNat_of_nonneg (by omega)]; congr 1; omega
        push_cast
        rw [mul_assoc, ← this]
      rw [hxe, abs_mul, abs_of_pos (two_pow_pos _), ← hxe] at hl
      have := lt_of_mul_lt_mul_right hl (two_pow_pos _).le
      exact_mod_cast this
    · have : (2 : ℚ) ^ e = 2 ^ (e - ulpExp x).toNat * 2 ^ ulpExp x := by
        rw [← zpow_natCast, ← zpow_add₀ (by norm_num), Int.toNat_of_nonneg (by omega)]; congr 1; omega
      push_cast
      rw [mul_assoc, ← this]

/-- The rounding error of a sum of floats is a float. -/
theorem isFloat_error {a x : ℚ} (ha : IsFloat a) (hx : IsFloat x) (hx0 : 0 ≤ x) (hxa : x ≤ a) : IsFloat (a + x - fl (a + x)) := by
  have hn : |a + x - fl (a + x)| ≤ x := by
    have := fl_nearest (x := a + x) ha
    rw [abs_sub_comm, show a - (a + x) = -x by ring, abs_neg, abs_of_nonneg hx0] at this
    exact this
  obtain ⟨k, f, hk, hf, rfl⟩ := ha
  obtain ⟨m, e, hm, he, rfl⟩ := hx
  rcases le_total e f with h | h
  · have hfe : (2 : ℚ) ^ f = 2 ^ (f - e).toNat * 2 ^ e := by
      rw [← zpow_natCast, ← zpow_add₀ (by norm_num), Int.toNat_of_nonneg (by omega)]; congr 1; omega
    have hs : (k : ℚ) * 2 ^ f + m * 2 ^ e = ((k * 2 ^ (f - e).toNat + m : ℤ) : ℚ) * 2 ^ e := by push_cast; rw [hfe]; ring
    obtain ⟨j, hj⟩ := fl_multiple (k * 2 ^ (f - e).toNat + m) e he
    rw [hs, hj, ← sub_mul] at hn ⊢
    refine ⟨k * 2 ^ (f - e).toNat + m - j, e, ?_, he, by push_cast; ring⟩
    rw [abs_mul, abs_of_pos (two_pow_pos e)] at hn
    have := le_of_mul_le_mul_right hn (two_pow_pos e)
    have : |k * 2 ^ (f - e).toNat + m - j| ≤ m := by exact_mod_cast this
    exact lt_of_le_of_lt (this.trans (le_abs_self m)) hm
  · have hfe : (2 : ℚ) ^ e = 2 ^ (e - f).toNat * 2 ^ f := by
      rw [← zpow_natCast, ← zpow_add₀ (by norm_num), Int.toNat_of_nonneg (by omega)]; congr 1; omega
    have hs : (k : ℚ) * 2 ^ f + m * 2 ^ e = ((k + m * 2 ^ (e - f).toNat : ℤ) : ℚ) * 2 ^ f := by push_cast; rw [hfe]; ring
    obtain ⟨j, hj⟩ := fl_multiple (k + m * 2 ^ (e - f).toNat) f hf
    have hn := hn.trans hxa
    rw [hs, hj, ← sub_mul] at hn ⊢
    refine ⟨k + m * 2 ^ (e - f).toNat - j, f, ?_, hf, by push_cast; ring⟩
    rw [abs_mul, abs_of_pos (two_pow_pos f)] at hn
    have := le_of_mul_le_mul_right hn (two_pow_pos f)
    have : |k + m * 2 ^ (e - f).toNat - j| ≤ k := by exact_mod_cast this
    exact lt_of_le_of_lt (this.trans (le_abs_self k)) hk

theorem isFloat_double {x : ℚ} (hx : IsFloat x) : IsFloat (2 * x) := by
  obtain ⟨m, e, hm, he, rfl⟩ := hx
  exact ⟨m, e + 1, hm, by omega, by rw [zpow_add_one₀ (by norm_num)]; ring⟩

theorem error_exact {a x : ℚ} (ha : IsFloat a) (hx : IsFloat x) (hx0 : 0 ≤ x) (hxa : x ≤ a) :
    fl (fl (a - fl (a + x)) + x) = a + x - fl (a + x) := by
  have h1 : a ≤ fl (a + x) := le_fl ha (by linarith)
  have h2 : fl (a + x) ≤ 2 * a := fl_le (isFloat_double ha) (by linarith)
  have hs := (isFloat_sub (fl_isFloat (a + x)) ha h1 h2).neg
  rw [neg_sub] at hs
  rw [fl_of_isFloat hs, show a - fl (a + x) + x = a + x - fl (a + x) by ring]
  exact fl_of_isFloat (isFloat_error ha hx hx0 hxa)

/-- One round of the compensated sum collects the rounding error of the addition exactly. -/
theorem compStep_eq {f c x : ℚ} (hf : IsFloat f) (hf0 : 0 ≤ f) (hx : IsFloat x) (hx0 : 0 ≤ x) :
    compStep (f, c) x = (fl (f + x), fl (c + (f + x - fl (f + x)))) := by
  unfold compStep
  simp only [abs_of_nonneg hx0, abs_of_nonneg hf0]
  split
  · next h => rw [error_exact hf hx hx0 h]
  · next h =>
    have := error_exact hx hf hf0 (not_le.mp h).le
    rw [add_comm x f] at this
    rw [this]

/-- The rounding errors of a sum from left to right. -/
def errors : ℚ → List ℚ → List ℚ
  | _, [] => []
  | f, x :: t => (f + x - fl (f + x)) :: errors (fl (f + x)) t

theorem length_errors (l : List ℚ) : ∀ f, (errors f l).length = l.length := by
  induction l with
  | nil => intro f; rfl
  | cons x t ih => intro f; simp [errors, ih]

theorem errors_sum (l : List ℚ) : ∀ f, l.foldl (fun s x => fl (s + x)) f + (errors f l).sum = f + l.sum := by
  induction l with
  | nil => intro f; simp [errors]
  | cons x t ih =>
    intro f
    have := ih (fl (f + x))
    simp only [List.foldl_cons, errors, List.sum_cons]
    linarith

theorem errors_isFloat (l : List ℚ) (h0 : ∀ x ∈ l, 0 ≤ x) (hf : ∀ x ∈ l, IsFloat x) : ∀ f, 0 ≤ f → IsFloat f → ∀ e ∈ errors f l, IsFloat e := by
  induction l with
  | nil => intro f _ _ e he; simp [errors] at he
  | cons x t ih =>
    intro f hf0 hff e he
    have hx := hf x (by simp)
    have hx0 := h0 x (by simp)
    rcases List.mem_cons.mp he with rfl | he
    · rcases le_total x f with h | h
      · exact isFloat_error hff hx hx0 h
      · rw [add_comm f x]
        exact isFloat_error hx hff hf0 h
    · exact ih (fun y hy => h0 y (by simp [hy])) (fun y hy => hf y (by simp [hy])) _ (fl_nonneg (by linarith)) (fl_isFloat _) e he

theorem errors_abs (l : List ℚ) (h0 : ∀ x ∈ l, 0 ≤ x) (hf : ∀ x ∈ l, IsFloat x) : ∀ f, 0 ≤ f → IsFloat f →
    ((errors f l).map abs).sum ≤ ((1 + uro) ^ l.length - 1) * (f + l.sum) := by
  induction l with
  | nil => intro f _ _; simp [errors]
  | cons x t ih =>
    intro f hf0 hff
    have hx := hf x (by simp)
    have hx0 := h0 x (by simp)
    have hr := fl_add_rel hff hx
    have hr' := hr
    rw [abs_sub_comm] at hr
    rw [abs_of_nonneg (by linarith : 0 ≤ f + x)] at hr hr'
    have hr2 := (abs_le.mp hr').2
    have i := ih (fun y hy => h0 y (by simp [hy])) (fun y hy => hf y (by simp [hy])) (fl (f + x)) (fl_nonneg (by linarith)) (fl_isFloat _)
    have hu := uro_pos
    have hsum : 0 ≤ t.sum := List.sum_nonneg fun y hy => h0 y (by simp [hy])
    have p2 : 1 ≤ (1 + uro) ^ t.length := one_le_pow₀ (by linarith)
    simp only [errors, List.map_cons, List.sum_cons, List.length_cons, pow_succ]
    set P := (1 + uro) ^ t.length
    have e2 : (P - 1) * (fl (f + x) + t.sum) ≤ (P - 1) * ((1 + uro) * (f + x) + t.sum) := by
      apply mul_le_mul_of_nonneg_left _ (by linarith)
      nlinarith
    have e4 : 0 ≤ P * uro * t.sum := mul_nonneg (mul_nonneg (by linarith) hu.le) hsum
    nlinarith

theorem foldl_compStep (l : List ℚ) (h0 : ∀ x ∈ l, 0 ≤ x) (hf : ∀ x ∈ l, IsFloat x) : ∀ f c, 0 ≤ f → IsFloat f →
    l.foldl compStep (f, c) = (l.foldl (fun s x => fl (s + x)) f, (errors f l).foldl (fun s x => fl (s + x)) c) := by
  induction l with
  | nil => intro f c _ _; rfl
  | cons x t ih =>
    intro f c hf0 hff
    have hx0 := h0 x (by simp)
    rw [List.foldl_cons, compStep_eq hff hf0 (hf x (by simp)) hx0,
      ih (fun y hy => h0 y (by simp [hy])) (fun y hy => hf y (by simp [hy])) _ _ (fl_nonneg (by linarith)) (fl_isFloat _)]
    rfl

/-- Error of the compensated sum. -/
theorem compSum_error (l : List ℚ) (h0 : ∀ x ∈ l, 0 ≤ x) (hf : ∀ x ∈ l, IsFloat x) :
    |compSum l - l.sum| ≤ uro * l.sum + (1 + uro) * (((1 + uro) ^ l.length - 1) ^ 2 * l.sum) := by
  have hS : 0 ≤ l.sum := List.sum_nonneg h0
  unfold compSum
  rw [foldl_compStep l h0 hf 0 0 le_rfl isFloat_zero]
  have e1 := errors_sum l 0
  have e2 := errors_abs l h0 hf 0 le_rfl isFloat_zero
  have e3 := foldl_error (errors 0 l) (errors_isFloat l h0 hf 0 le_rfl isFloat_zero) 0 isFloat_zero
  rw [length_errors] at e3
  simp only [zero_add, abs_zero] at e1 e2 e3
  have hu := uro_pos
  have hC := foldl_isFloat (errors 0 l) 0 isFloat_zero
  have hF := foldl_isFloat l 0 isFloat_zero
  simp only
  generalize (errors 0 l).foldl (fun s x => fl (s + x)) 0 = C at *
  generalize l.foldl (fun s x => fl (s + x)) 0 = F at *
  have p2 : 1 ≤ (1 + uro) ^ l.length := one_le_pow₀ (by linarith)
  set G := (1 + uro) ^ l.length - 1
  have hG : 0 ≤ G := by simp only [G]; linarith
  have d1 : |F + C - l.sum| ≤ G ^ 2 * l.sum := by
    have : F + C - l.sum = C - (errors 0 l).sum := by linarith
    rw [this]
    calc _ ≤ G * ((errors 0 l).map abs).sum := e3
      _ ≤ G * (G * l.sum) := mul_le_mul_of_nonneg_left e2 hG
      _ = _ := by ring
  have d2 := fl_add_rel hF hC
  have d3 : |F + C| ≤ l.sum + G ^ 2 * l.sum := by
    have := abs_sub_abs_le_abs_sub (F + C) l.sum
    rw [abs_of_nonneg hS] at this
    linarith
  have d4 : |fl (F + C) - l.sum| ≤ |fl (F + C) - (F + C)| + |F + C - l.sum| := by
    have : fl (F + C) - l.sum = (fl (F + C) - (F + C)) + (F + C - l.sum) := by ring
    rw [this]; exact abs_add_le _ _
  have d5 : uro * |F + C| ≤ uro * (l.sum + G ^ 2 * l.sum) := mul_le_mul_of_nonneg_left d3 hu.le
  nlinarith

/-! ### Sums of rounded numbers that add up to one -/

/-- A number that rounds with a small relative error: zero, or not tiny. -/
def Roundable (q : ℚ) : Prop := q = 0 ∨ 2 ^ (-1022 : ℤ) ≤ q

theorem Roundable.nonneg {q : ℚ} (h : Roundable q) : 0 ≤ q := by
  rcases h with rfl | h
  · exact le_rfl
  · exact (two_pow_pos _).le.trans h

theorem Roundable.rel {q : ℚ} (h : Roundable q) : |fl q - q| ≤ uro * q := by
  rcases h with rfl | h
  · simp [fl_zero]
  · have := fl_rel (x := q) (h.trans (le_abs_self q))
    rwa [abs_of_nonneg ((two_pow_pos _).le.trans h)] at this

theorem sum_fl (l : List ℚ) (h : ∀ q ∈ l, Roundable q) : |(l.map fl).sum - l.sum| ≤ uro * l.sum := by
  induction l with
  | nil => simp
  | cons q t ih =>
    have i := ih fun x hx => h x (by simp [hx])
    have r := (h q (by simp)).rel
    simp only [List.map_cons, List.sum_cons]
    have : fl q + (t.map fl).sum - (q + t.sum) = (fl q - q) + ((t.map fl).sum - t.sum) := by ring
    rw [this]
    have := abs_add_le (fl q - q) ((t.map fl).sum - t.sum)
    nlinarith

/-- The number of summands for which the sums are proved to be accurate enough. -/
def maxItems : PyVer → ℕ
  | .plain => 8999999
  | .compensated => 2 ^ 37

theorem pySum_near (v : PyVer) (l m : List ℚ) (hm : m.Perm (l.map fl)) (h : ∀ q ∈ l, Roundable q) (hs : l.sum = 1) (hn : l.length ≤ maxItems v) :
    |pySum v m - 1| ≤ 9993 / 10 ^ 13 := by
  have h0 : ∀ x ∈ m, 0 ≤ x := by
    intro x hx; rw [hm.mem_iff] at hx; obtain ⟨q, hq, rfl⟩ := List.mem_map.mp hx; exact fl_nonneg (h q hq).nonneg
  have hf : ∀ x ∈ m, IsFloat x := by
    intro x hx; rw [hm.mem_iff] at hx; obtain ⟨q, hq, rfl⟩ := List.mem_map.mp hx; exact fl_isFloat _
  have hb := sum_fl l h
  rw [hs, mul_one, ← hm.sum_eq] at hb
  have hlen : m.length = l.length := by rw [hm.length_eq, List.length_map]
  have hb' := abs_le.mp hb
  have hu : uro = 1 / 9007199254740992 := by unfold uro; norm_num
  set S := m.sum with hS
  cases v with
  | plain =>
    have hb2 := foldl_bounds m h0 hf 0 le_rfl isFloat_zero
    rw [hlen, zero_add, ← hS] at hb2
    have hn' : (l.length : ℚ) ≤ 8999999 := by exact_mod_cast hn
    have hnu : (l.length : ℚ) * uro ≤ 8999999 * uro := mul_le_mul_of_nonneg_right hn' uro_pos.le
    have hl := pow_lower (n := l.length)
    have hup := pow_upper (n := l.length) (by rw [hu] at hnu ⊢; linarith)
    have hinv : 1 / (1 - (l.length : ℚ) * uro) ≤ 1 / (1 - 8999999 * uro) := by
      apply one_div_le_one_div_of_le
      · rw [hu]; norm_num
      · linarith
    show |plainSum m - 1| ≤ _
    unfold plainSum
    rw [abs_le]
    constructor
    · have : (1 - 8999999 * uro) * (1 - uro) ≤ (1 - uro) ^ l.length * S := by
        apply mul_le_mul (by linarith) (by linarith) (by rw [hu]; norm_num)
        exact pow_nonneg (by rw [hu]; norm_num) _
      have h2 : 1 - 9993 / 10 ^ 13 ≤ (1 - 8999999 * uro) * (1 - uro) := by rw [hu]; norm_num
      linarith [hb2.1]
    · have : (1 + uro) ^ l.length * S ≤ (1 / (1 - 8999999 * uro)) * (1 + uro) := by
        apply mul_le_mul (hup.trans hinv) (by linarith) (List.sum_nonneg h0)
        rw [hu]; norm_num
      have h2 : (1 / (1 - 8999999 * uro)) * (1 + uro) ≤ 1 + 9993 / 10 ^ 13 := by rw [hu]; norm_num
      linarith [hb2.2]
  | compensated =>
    have he := compSum_error m h0 hf
    rw [hlen, ← hS] at he
    have hn' : (l.length : ℚ) ≤ 2 ^ 37 := by exact_mod_cast hn
    have hnu : (l.length : ℚ) * uro ≤ 2 ^ 37 * uro := mul_le_mul_of_nonneg_right hn' uro_pos.le
    have hup := pow_upper (n := l.length) (by rw [hu] at hnu ⊢; linarith)
    have hinv : 1 / (1 - (l.length : ℚ) * uro) ≤ 1 / (1 - 2 ^ 37 * uro) := by
      apply one_div_le_one_div_of_le
      · rw [hu]; norm_num
      · linarith
    have hG : (1 + uro) ^ l.length - 1 ≤ 1 / 65535 := by
      have : 1 / (1 - 2 ^ 37 * uro) ≤ 1 + 1 / 65535 := by rw [hu]; norm_num
      linarith
    have hG0 : 0 ≤ (1 + uro) ^ l.length - 1 := by
      have : 1 ≤ (1 + uro) ^ l.length := one_le_pow₀ (by rw [hu]; norm_num)
      linarith
    have hG2 : ((1 + uro) ^ l.length - 1) ^ 2 ≤ (1 / 65535) ^ 2 := pow_le_pow_left₀ hG0 hG 2
    have hS2 : S ≤ 2 := by rw [hu] at hb'; linarith
    have hS0 : 0 ≤ S := List.sum_nonneg h0
    have hm2 : ((1 + uro) ^ l.length - 1) ^ 2 * S ≤ (1 / 65535) ^ 2 * (1 + uro) :=
      mul_le_mul hG2 (by linarith) hS0 (by norm_num)
    show |compSum m - 1| ≤ _
    have ht : |compSum m - 1| ≤ |compSum m - S| + |S - 1| := by
      have : compSum m - 1 = (compSum m - S) + (S - 1) := by ring
      rw [this]; exact abs_add_le _ _
    rw [hu] at hm2 he hb
    norm_num at hm2 he hb ⊢
    linarith

theorem nano_bounds : IsFloat nano ∧ 9993 / 10 ^ 13 ≤ nano ∧ nano ≤ 1 / 10 ^ 9 * (1 + uro) := by
  have h : (2 : ℚ) ^ (-1022 : ℤ) ≤ |1 / 10 ^ 9| := by
    rw [abs_of_pos (by norm_num)]
    calc (2 : ℚ) ^ (-1022 : ℤ) ≤ 2 ^ (-30 : ℤ) := zpow_le_zpow_right₀ (by norm_num) (by norm_num)
      _ ≤ _ := by norm_num
  have := abs_le.mp (fl_rel h)
  rw [abs_of_pos (by norm_num)] at this
  have hu : uro = 1 / 9007199254740992 := by unfold uro; norm_num
  refine ⟨fl_isFloat _, ?_, ?_⟩
  · unfold nano; rw [hu] at this; norm_num at this ⊢; linarith
  · unfold nano; linarith [this.2]

/-- `isclose(p_sum, 1.0, rel_tol=1e-9, abs_tol=0.0)` holds for sums that are near enough. -/
theorem isclose_of_near {s : ℚ} (h : |s - 1| ≤ 9993 / 10 ^ 13) : isclose s 1 nano 0 = true := by
  have hn := nano_bounds
  have h1 : |fl (1 - s)| ≤ nano := abs_fl_le hn.1 (by rw [abs_sub_comm]; linarith [hn.2.1])
  have h2 : |fl (nano * 1)| = nano := by
    rw [mul_one, fl_of_isFloat hn.1]
    exact abs_of_nonneg (by linarith [hn.2.1])
  unfold isclose
  rw [h2]
  simp [h1]

end Verif
