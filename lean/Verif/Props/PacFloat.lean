import Verif.Model.PacFloat
import Verif.Lemmas.FloatSum
import Verif.Props.PacAgents

/-! # C70: rounding in the sampling functions and ghosts of the demo game -/

namespace Verif.Pac

/-! ### Specification -/

/-- The exact share of the first `j` weights. -/
def share (p : List ℚ) (j : ℕ) : ℚ := (p.take j).sum / p.sum

/-- The bound for the influence of rounding, for `n` weights. -/
def slack (n : ℕ) : ℚ := 5 * n / 2 ^ 53

/-- Weights: floats that are not negative, not all zero, at most `2 ^ 20` of them. -/
structure Weights (p : List ℚ) : Prop where
  nonneg : ∀ x ∈ p, 0 ≤ x
  isFloat : ∀ x ∈ p, IsFloat x
  pos : 0 < p.sum
  few : p.length ≤ 2 ^ 20

/-! ### Loops -/

/-- Adding a float. -/
def addFl (s x : ℚ) : ℚ := fl (s + x)

theorem plainSum_eq (l : List ℚ) : plainSum l = l.foldl addFl 0 := rfl

theorem sampleLoopFl_ok (r : ℚ) (t : List ℚ) : ∀ (total : ℚ) (i k : ℕ), sampleLoopFl r total i t = .ok k ↔
    ∃ m ≤ t.length, k = i + m ∧ r ≤ (t.take m).foldl addFl total ∧ ∀ j < m, (t.take j).foldl addFl total < r := by
  induction t with
  | nil =>
    intro total i k
    unfold sampleLoopFl
    by_cases h : r > total
    · rw [if_pos h]
      simp only [reduceCtorEq, List.length_nil, Nat.le_zero, false_iff]
      rintro ⟨m, rfl, -, h2, -⟩
      simp only [List.take_nil, List.foldl_nil] at h2
      linarith
    · rw [if_neg h]
      simp only [Except.ok.injEq, List.length_nil, Nat.le_zero]
      constructor
      · rintro rfl
        exact ⟨0, rfl, rfl, by simpa using h, by simp⟩
      · rintro ⟨m, rfl, h1, -⟩; exact h1.symm
  | cons p t ih =>
    intro total i k
    unfold sampleLoopFl
    by_cases h : r > total
    · rw [if_pos h, ih]
      constructor
      · rintro ⟨m, h1, h2, h3, h4⟩
        refine ⟨m + 1, by simp; omega, by omega, by simpa [addFl] using h3, ?_⟩
        intro j hj
        cases j with
        | zero => simpa using h
        | succ j => simpa [addFl] using h4 j (by omega)
      · rintro ⟨m, h1, h2, h3, h4⟩
        cases m with
        | zero => simp only [List.take_zero, List.foldl_nil] at h3; linarith
        | succ m =>
          refine ⟨m, by simpa using h1, by omega, by simpa [addFl] using h3, fun j hj => ?_⟩
          simpa [addFl] using h4 (j + 1) (by omega)
    · rw [if_neg h]
      simp only [Except.ok.injEq]
      constructor
      · rintro rfl
        exact ⟨0, by simp, rfl, by simpa using h, by simp⟩
      · rintro ⟨m, -, h2, -, h4⟩
        cases m with
        | zero => exact h2.symm
        | succ m => exact absurd (by simpa using h4 0 (by omega)) h

theorem sampleLoopFl_err (r : ℚ) (t : List ℚ) : ∀ (total : ℚ) (i : ℕ) (e : PErr), sampleLoopFl r total i t = .error e ↔
    e = .index ∧ ∀ j ≤ t.length, (t.take j).foldl addFl total < r := by
  induction t with
  | nil =>
    intro total i e
    unfold sampleLoopFl
    by_cases h : r > total
    · rw [if_pos h]
      simp only [Except.error.injEq, List.length_nil, Nat.le_zero]
      exact ⟨fun h' => ⟨h'.symm, by rintro j rfl; simpa using h⟩, fun h' => h'.1.symm⟩
    · rw [if_neg h]
      simp only [reduceCtorEq, List.length_nil, Nat.le_zero, false_iff, not_and, not_forall]
      exact fun _ => ⟨0, rfl, by simpa using h⟩
  | cons p t ih =>
    intro total i e
    unfold sampleLoopFl
    by_cases h : r > total
    · rw [if_pos h, ih]
      refine and_congr_right fun _ => ⟨fun h' j hj => ?_, fun h' j hj => ?_⟩
      · cases j with
        | zero => simpa using h
        | succ j => simpa [addFl] using h' j (by simpa using hj)
      · simpa [addFl] using h' (j + 1) (by simpa using hj)
    · rw [if_neg h]
      simp only [reduceCtorEq, false_iff, not_and, not_forall]
      exact fun _ => ⟨0, by simp, by simpa using h⟩

theorem foldl_cons_float {q : ℚ} (hq : IsFloat q) (t : List ℚ) : t.foldl addFl q = plainSum (q :: t) := by
  rw [plainSum_eq, List.foldl_cons]
  unfold addFl
  rw [zero_add, fl_of_isFloat hq]

/-- The loop in terms of the accumulated totals. -/
theorem sampleIdxFl_ok {ver : PyVer} {p : List ℚ} (hf : ∀ x ∈ distFl ver p, IsFloat x) (r : ℚ) (i : ℕ) : sampleIdxFl ver p r = .ok i ↔
    i < (distFl ver p).length ∧ r ≤ plainSum ((distFl ver p).take (i + 1)) ∧ ∀ j < i, plainSum ((distFl ver p).take (j + 1)) < r := by
  unfold sampleIdxFl
  cases hd : distFl ver p with
  | nil => simp
  | cons q t =>
    rw [hd] at hf
    have hq := hf q (by simp)
    simp only
    rw [sampleLoopFl_ok]
    simp only [List.take_succ_cons, ← foldl_cons_float hq]
    constructor
    · rintro ⟨m, h1, h2, h3⟩
      rw [zero_add] at h2
      subst h2
      exact ⟨by simp; omega, h3⟩
    · rintro ⟨h1, h2⟩
      exact ⟨i, by simpa [Nat.lt_succ_iff] using h1, by omega, h2⟩

theorem sampleIdxFl_err {ver : PyVer} {p : List ℚ} (hf : ∀ x ∈ distFl ver p, IsFloat x) (r : ℚ) (e : PErr) :
    sampleIdxFl ver p r = .error e ↔ e = .index ∧ ∀ j < (distFl ver p).length, plainSum ((distFl ver p).take (j + 1)) < r := by
  unfold sampleIdxFl
  cases hd : distFl ver p with
  | nil => simp; exact eq_comm
  | cons q t =>
    rw [hd] at hf
    have hq := hf q (by simp)
    simp only
    rw [sampleLoopFl_err]
    simp only [List.take_succ_cons, ← foldl_cons_float hq]
    refine and_congr_right fun _ => ⟨fun h j hj => h j (by simpa [Nat.lt_succ_iff] using hj), fun h j hj => h j (by simp; omega)⟩

/-! ### The distribution -/

theorem length_distFl (ver : PyVer) (p : List ℚ) : (distFl ver p).length = p.length := by
  unfold distFl normalizeListFl
  split_ifs <;> simp

theorem distFl_isFloat {ver : PyVer} {p : List ℚ} (hf : ∀ x ∈ p, IsFloat x) : ∀ x ∈ distFl ver p, IsFloat x := by
  intro x hx
  unfold distFl normalizeListFl at hx
  split_ifs at hx
  · exact hf x hx
  · obtain ⟨y, -, rfl⟩ := List.mem_map.1 hx
    exact fl_isFloat _
  · exact hf x hx

/-- Rounding with underflow. -/
theorem fl_abs {q : ℚ} (h0 : 0 ≤ q) : |fl q - q| ≤ uro * q + uro ^ 2 := by
  rcases le_or_gt (2 ^ (-1022 : ℤ)) q with h | h
  · have := fl_rel (x := q) (by rwa [abs_of_nonneg h0])
    rw [abs_of_nonneg h0] at this
    have := pow_pos uro_pos 2
    linarith
  · rcases h0.eq_or_lt with rfl | h0
    · rw [fl_zero, sub_self, abs_zero, mul_zero, zero_add]; exact (pow_pos uro_pos 2).le
    · have hl : Int.log 2 |q| ≤ -1022 := by
        rw [abs_of_pos h0]
        have := (Int.lt_zpow_iff_log_lt (b := 2) (by norm_num) h0 (x := -1022)).1 (by exact_mod_cast h)
        omega
      have hu := fl_ulp q
      have he : ulpExp q = -1074 := by unfold ulpExp; rw [max_eq_right hl]; rfl
      rw [he] at hu
      have h1 : (2 : ℚ) ^ (-1074 : ℤ) ≤ 2 ^ (-106 : ℤ) := zpow_le_zpow_right₀ (by norm_num) (by norm_num)
      have h2 : (2 : ℚ) ^ (-106 : ℤ) = uro ^ 2 := by unfold uro; norm_num
      have h3 := mul_pos uro_pos h0
      have h4 := two_pow_pos (-1074)
      rw [h2] at h1
      linarith

theorem sum_div_fl (s : ℚ) (hs : 0 < s) (l : List ℚ) (h0 : ∀ x ∈ l, 0 ≤ x) :
    |(l.map fun x => fl (x / s)).sum - l.sum / s| ≤ uro * (l.sum / s) + l.length * uro ^ 2 := by
  induction l with
  | nil => simp
  | cons x t ih =>
    have i := ih fun y hy => h0 y (by simp [hy])
    have r := fl_abs (div_nonneg (h0 x (by simp)) hs.le)
    simp only [List.map_cons, List.sum_cons, List.length_cons]
    have e : fl (x / s) + (t.map fun x => fl (x / s)).sum - (x + t.sum) / s =
        (fl (x / s) - x / s) + ((t.map fun x => fl (x / s)).sum - t.sum / s) := by ring
    rw [e]
    have := abs_add_le (fl (x / s) - x / s) ((t.map fun x => fl (x / s)).sum - t.sum / s)
    push_cast
    have e2 : uro * ((x + t.sum) / s) + ((t.length : ℚ) + 1) * uro ^ 2 =
        (uro * (x / s) + uro ^ 2) + (uro * (t.sum / s) + (t.length : ℚ) * uro ^ 2) := by ring
    rw [e2]
    linarith

section
variable {p : List ℚ}

/-- The rounding unit times the number of weights. -/
theorem Weights.small (h : Weights p) : 0 < (p.length : ℚ) * uro ∧ (p.length : ℚ) * uro ≤ 1 / 2 ^ 33 ∧ uro ≤ (p.length : ℚ) * uro := by
  have h1 : 1 ≤ p.length := by
    rcases Nat.eq_zero_or_pos p.length with h0 | h0
    · have := h.pos
      rw [List.length_eq_zero_iff.1 h0] at this
      simp at this
    · exact h0
  have h2 : (1 : ℚ) ≤ p.length := by exact_mod_cast h1
  have h3 : (p.length : ℚ) ≤ 2 ^ 20 := by exact_mod_cast h.few
  have hu := uro_pos
  refine ⟨by positivity, ?_, by nlinarith⟩
  calc (p.length : ℚ) * uro ≤ 2 ^ 20 * uro := mul_le_mul_of_nonneg_right h3 hu.le
    _ = 1 / 2 ^ 33 := by unfold uro; norm_num

theorem pow_small {n : ℕ} {x : ℚ} (hx : n * uro ≤ x) (hx1 : x ≤ 1 / 2 ^ 33) : (1 + uro) ^ n - 1 ≤ 101 / 100 * x := by
  have hn0 : (0 : ℚ) ≤ n * uro := mul_nonneg (by positivity) uro_pos.le
  have hlt : n * uro < 1 := by
    have : (1 : ℚ) / 2 ^ 33 < 1 := by norm_num
    linarith
  have h := pow_upper hlt
  have h2 : 1 / (1 - n * uro) ≤ 1 + 101 / 100 * (n * uro) := by
    rw [div_le_iff₀ (by linarith)]
    have : (1 : ℚ) / 2 ^ 33 ≤ 1 / 1000 := by norm_num
    nlinarith
  linarith

theorem Weights.sum_near (h : Weights p) (ver : PyVer) : |pySum ver p - p.sum| ≤ 2 * (p.length * uro) * p.sum := by
  obtain ⟨h1, h2, h3⟩ := h.small
  have hp := pow_small (n := p.length) le_rfl h2
  have hl := pow_lower (n := p.length)
  have hS := h.pos
  have hu := uro_pos
  cases ver with
  | plain =>
    have hb := foldl_bounds p h.nonneg h.isFloat 0 le_rfl isFloat_zero
    rw [zero_add] at hb
    show |plainSum p - p.sum| ≤ _
    unfold plainSum
    rw [abs_le]
    constructor <;> nlinarith [hb.1, hb.2]
  | compensated =>
    have he := compSum_error p h.nonneg h.isFloat
    show |compSum p - p.sum| ≤ _
    have hG0 : 0 ≤ (1 + uro) ^ p.length - 1 := by
      have : 1 ≤ (1 + uro) ^ p.length := one_le_pow₀ (by linarith)
      linarith
    have hG2 : ((1 + uro) ^ p.length - 1) ^ 2 ≤ (101 / 100 * (p.length * uro)) ^ 2 := pow_le_pow_left₀ hG0 hp 2
    have hu1 : uro ≤ 1 / 2 ^ 33 := h3.trans h2
    have hx : (101 / 100 * ((p.length : ℚ) * uro)) ^ 2 ≤ 1 / 4 * (p.length * uro) := by
      have : ((p.length : ℚ) * uro) ^ 2 ≤ 1 / 2 ^ 33 * (p.length * uro) := by rw [sq]; exact mul_le_mul_of_nonneg_right h2 h1.le
      nlinarith
    have hm : ((1 + uro) ^ p.length - 1) ^ 2 * p.sum ≤ 1 / 4 * (p.length * uro) * p.sum := mul_le_mul_of_nonneg_right (hG2.trans hx) hS.le
    have hm0 : 0 ≤ ((1 + uro) ^ p.length - 1) ^ 2 * p.sum := by positivity
    have : (1 + uro) * (((1 + uro) ^ p.length - 1) ^ 2 * p.sum) ≤ 2 * (1 / 4 * (p.length * uro) * p.sum) :=
      mul_le_mul (by linarith [show (1:ℚ)/2^33 ≤ 1 by norm_num]) hm hm0 (by norm_num)
    have h5 : uro * p.sum ≤ p.length * uro * p.sum := mul_le_mul_of_nonneg_right h3 hS.le
    linarith

theorem share_bounds (h : Weights p) (j : ℕ) : 0 ≤ share p j ∧ share p j ≤ 1 := by
  unfold share
  have h1 : 0 ≤ (p.take j).sum := List.sum_nonneg fun x hx => h.nonneg x (List.mem_of_mem_take hx)
  have h2 : (p.take j).sum ≤ p.sum := by
    have := take_mono h.nonneg (le_max_left j p.length)
    rwa [List.take_of_length_le (le_max_right j p.length)] at this
  exact ⟨div_nonneg h1 h.pos.le, (div_le_one h.pos).2 h2⟩

/-- The distribution used is close to the shares. -/
theorem Weights.dist_near (h : Weights p) (ver : PyVer) (j : ℕ) :
    |((distFl ver p).take j).sum - share p j| ≤ 31 / 10 * (p.length * uro) := by
  obtain ⟨h1, h2, h3⟩ := h.small
  have hs := abs_le.1 (h.sum_near ver)
  have hS := h.pos
  obtain ⟨hc0, hc1⟩ := share_bounds h j
  have hP : (p.take j).sum = share p j * p.sum := by unfold share; field_simp
  set x := (p.length : ℚ) * uro with hx
  have hx1 : x ≤ 1 / 1000 := h2.trans (by norm_num)
  have hspos : 0 < pySum ver p := by nlinarith
  unfold distFl
  by_cases hone : pySum ver p = 1
  · rw [if_neg (not_not.2 hone), hP]
    rw [hone] at hs
    have e : share p j * p.sum - share p j = share p j * (p.sum - 1) := by ring
    have hSm : |p.sum - 1| ≤ 3 * x := by
      rw [abs_le]
      constructor <;> nlinarith
    rw [e, abs_mul, abs_of_nonneg hc0]
    have : share p j * |p.sum - 1| ≤ 1 * (3 * x) := mul_le_mul hc1 hSm (abs_nonneg _) (by norm_num)
    linarith
  · rw [if_pos hone]
    unfold normalizeListFl
    rw [if_neg hspos.ne', ← List.map_take]
    have hd := sum_div_fl _ hspos (p.take j) fun y hy => h.nonneg y (List.mem_of_mem_take hy)
    have hlen : ((p.take j).length : ℚ) ≤ p.length := by
      exact_mod_cast (List.length_take_le' j p)
    have hq : |(p.take j).sum / pySum ver p - share p j| ≤ 201 / 100 * x := by
      rw [hP]
      have e : share p j * p.sum / pySum ver p - share p j = share p j * ((p.sum - pySum ver p) / pySum ver p) := by
        field_simp
      rw [e, abs_mul, abs_of_nonneg hc0, abs_div, abs_of_pos hspos]
      have : |p.sum - pySum ver p| / pySum ver p ≤ 201 / 100 * x := by
        rw [div_le_iff₀ hspos, abs_le]
        constructor <;> nlinarith
      have h7 : share p j * (|p.sum - pySum ver p| / pySum ver p) ≤ 1 * (201 / 100 * x) :=
        mul_le_mul hc1 this (by positivity) (by norm_num)
      linarith
    have hq1 : (p.take j).sum / pySum ver p ≤ 101 / 100 := by
      have := (abs_le.1 hq).2
      linarith
    have hu2 : uro ^ 2 ≤ 1 / 1000 * uro := by rw [sq]; exact mul_le_mul_of_nonneg_right (h3.trans hx1) uro_pos.le
    have hlast : ((p.take j).length : ℚ) * uro ^ 2 ≤ 1 / 1000 * x := by
      calc ((p.take j).length : ℚ) * uro ^ 2 ≤ p.length * (1 / 1000 * uro) := mul_le_mul hlen hu2 (by positivity) (by positivity)
        _ = 1 / 1000 * x := by rw [hx]; ring
    have hfirst : uro * ((p.take j).sum / pySum ver p) ≤ x * (101 / 100) := by
      have h0 : 0 ≤ (p.take j).sum / pySum ver p := by rw [hP]; positivity
      exact mul_le_mul h3 hq1 h0 h1.le
    have hb : |((p.take j).map fun x => fl (x / pySum ver p)).sum - share p j| ≤
        |((p.take j).map fun x => fl (x / pySum ver p)).sum - (p.take j).sum / pySum ver p| +
          |(p.take j).sum / pySum ver p - share p j| := abs_sub_le _ _ _
    linarith

theorem distFl_nonneg (h : Weights p) (ver : PyVer) : ∀ x ∈ distFl ver p, 0 ≤ x := by
  obtain ⟨h1, h2, h3⟩ := h.small
  have hs := abs_le.1 (h.sum_near ver)
  have hS := h.pos
  have hx1 : (p.length : ℚ) * uro ≤ 1 / 1000 := h2.trans (by norm_num)
  have hspos : 0 < pySum ver p := by nlinarith
  intro x hx
  unfold distFl normalizeListFl at hx
  split_ifs at hx
  · exact h.nonneg x hx
  · obtain ⟨y, hy, rfl⟩ := List.mem_map.1 hx
    exact fl_nonneg (div_nonneg (h.nonneg y hy) hspos.le)
  · exact h.nonneg x hx

/-- The accumulated totals are close to the shares. -/
theorem Weights.total_near (h : Weights p) (ver : PyVer) (j : ℕ) : |plainSum ((distFl ver p).take j) - share p j| ≤ slack p.length := by
  obtain ⟨h1, h2, h3⟩ := h.small
  have hd := abs_le.1 (h.dist_near ver j)
  obtain ⟨hc0, hc1⟩ := share_bounds h j
  have hn0 : ∀ x ∈ (distFl ver p).take j, 0 ≤ x := fun x hx => distFl_nonneg h ver x (List.mem_of_mem_take hx)
  have he := foldl_error ((distFl ver p).take j) (fun x hx => distFl_isFloat h.isFloat x (List.mem_of_mem_take hx)) 0 isFloat_zero
  have habs : (((distFl ver p).take j).map abs).sum = ((distFl ver p).take j).sum := by
    congr 1
    conv_rhs => rw [← List.map_id ((distFl ver p).take j)]
    exact List.map_congr_left fun x hx => abs_of_nonneg (hn0 x hx)
  rw [habs, abs_zero, zero_add] at he
  have hle : ((((distFl ver p).take j).length : ℕ) : ℚ) * uro ≤ p.length * uro := by
    apply mul_le_mul_of_nonneg_right _ uro_pos.le
    have := List.length_take_le' j (distFl ver p)
    rw [length_distFl] at this
    exact_mod_cast this
  have hp := pow_small hle h2
  set x := (p.length : ℚ) * uro with hx
  have hx1 : x ≤ 1 / 1000 := h2.trans (by norm_num)
  have hS0 : 0 ≤ ((distFl ver p).take j).sum := List.sum_nonneg hn0
  have hS1 : ((distFl ver p).take j).sum ≤ 11 / 10 := by linarith
  have hm : ((1 + uro) ^ ((distFl ver p).take j).length - 1) * ((distFl ver p).take j).sum ≤ 101 / 100 * x * (11 / 10) :=
    mul_le_mul hp hS1 hS0 (by positivity)
  have hsl : slack p.length = 5 * x := by unfold slack; rw [hx]; unfold uro; ring
  rw [hsl]
  have : |plainSum ((distFl ver p).take j) - share p j| ≤
      |plainSum ((distFl ver p).take j) - ((distFl ver p).take j).sum| + |((distFl ver p).take j).sum - share p j| := abs_sub_le _ _ _
  have hd' := h.dist_near ver j
  unfold plainSum at this ⊢
  linarith

theorem plainSum_take_mono {d : List ℚ} (h0 : ∀ x ∈ d, 0 ≤ x) {i j : ℕ} (hij : i ≤ j) : plainSum (d.take i) ≤ plainSum (d.take j) := by
  have hstep : ∀ (l : List ℚ) (s : ℚ), IsFloat s → (∀ x ∈ l, 0 ≤ x) → s ≤ l.foldl addFl s := by
    intro l
    induction l with
    | nil => intro s _ _; exact le_rfl
    | cons x t ih =>
      intro s hs hl
      rw [List.foldl_cons]
      have h1 : s ≤ addFl s x := le_fl hs (by have := hl x (by simp); linarith)
      exact h1.trans (ih _ (fl_isFloat _) fun y hy => hl y (by simp [hy]))
  have : d.take j = d.take i ++ (d.take j).drop i := by
    conv_lhs => rw [← List.take_append_drop i (d.take j)]
    rw [List.take_take, min_eq_left hij]
  rw [this, plainSum_eq, plainSum_eq, List.foldl_append]
  apply hstep
  · exact foldl_isFloat _ _ isFloat_zero
  · exact fun x hx => h0 x (List.mem_of_mem_take (List.mem_of_mem_drop hx))

/-- **C70.** With floats `sample` chooses a position whose interval, widened by the slack, contains the random number; it returns unless the
random number is within the slack of one; and if no end of an interval is that near, it chooses what exact arithmetic would. -/
theorem C70_sample (h : Weights p) (ver : PyVer) (r : ℚ) :
    (∀ i, sampleIdxFl ver p r = .ok i →
      i < p.length ∧ r ≤ share p (i + 1) + slack p.length ∧ (i = 0 ∨ share p i - slack p.length < r)) ∧
    (r ≤ 1 - slack p.length → ∃ i, sampleIdxFl ver p r = .ok i) ∧
    (r ≤ 1 → (∀ j, 1 ≤ j → j ≤ p.length → slack p.length < |r - share p j|) → sampleIdxFl ver p r = sampleIdx p r) := by
  have hok := sampleIdxFl_ok (ver := ver) (p := p) (distFl_isFloat h.isFloat) r
  have herr := sampleIdxFl_err (ver := ver) (p := p) (distFl_isFloat h.isFloat) r
  rw [length_distFl] at herr
  have hlen : 0 < p.length := by
    rcases Nat.eq_zero_or_pos p.length with h0 | h0
    · have := h.pos
      rw [List.length_eq_zero_iff.1 h0] at this
      simp at this
    · exact h0
  refine ⟨?_, ?_, ?_⟩
  · intro i hi
    obtain ⟨h1, h2, h3⟩ := (hok i).1 hi
    rw [length_distFl] at h1
    refine ⟨h1, ?_, ?_⟩
    · have := (abs_le.1 (h.total_near ver (i + 1))).2
      linarith
    · cases i with
      | zero => exact Or.inl rfl
      | succ i =>
        right
        have := (abs_le.1 (h.total_near ver (i + 1))).1
        have := h3 i (by omega)
        linarith
  · intro hr
    cases hs : sampleIdxFl ver p r with
    | ok i => exact ⟨i, rfl⟩
    | error e =>
      exfalso
      have h1 := ((herr e).1 hs).2 (p.length - 1) (by omega)
      have h2 := (abs_le.1 (h.total_near ver (p.length - 1 + 1))).1
      have h3 : share p (p.length - 1 + 1) = 1 := by
        unfold share
        rw [List.take_of_length_le (by omega), div_self h.pos.ne']
      rw [h3] at h2
      linarith
  · intro hr hfar
    obtain ⟨⟨i, hi⟩, hiff⟩ := C57_sample h.nonneg h.pos hr
    rw [hi, hok]
    obtain ⟨h1, h2, h3⟩ := (hiff i).1 hi
    refine ⟨by rw [length_distFl]; exact h1, ?_, ?_⟩
    · have hf := hfar (i + 1) (by omega) (by omega)
      have hn := abs_le.1 (h.total_near ver (i + 1))
      have : r ≤ share p (i + 1) := by unfold share; rw [le_div_iff₀ h.pos]; exact h2
      rw [abs_of_nonpos (by linarith)] at hf
      linarith
    · intro j hj
      have hf := hfar (j + 1) (by omega) (by omega)
      have hn := abs_le.1 (h.total_near ver (j + 1))
      rcases h3 with rfl | h3
      · omega
      · have h4 := take_mono h.nonneg (show j + 1 ≤ i by omega)
        have : share p (j + 1) < r := by unfold share; rw [div_lt_iff₀ h.pos]; linarith
        rw [abs_of_pos (by linarith)] at hf
        linarith

/-- **C70.** A position of weight zero is not chosen, except for the random number zero: rounding does not change this. -/
theorem C70_sample_positive (h : Weights p) (ver : PyVer) {r : ℚ} (hr : 0 < r) {i : ℕ} (hi : sampleIdxFl ver p r = .ok i) :
    ∃ w, p[i]? = some w ∧ 0 < w := by
  obtain ⟨h1, h2, h3⟩ := (sampleIdxFl_ok (distFl_isFloat h.isFloat) r i).1 hi
  have hlt : plainSum ((distFl ver p).take i) < r := by
    cases i with
    | zero => simpa [plainSum] using hr
    | succ i => exact h3 i (by omega)
  have hil : i < p.length := by rwa [length_distFl] at h1
  refine ⟨p[i], List.getElem?_eq_getElem hil, lt_of_le_of_ne (h.nonneg _ (List.getElem_mem hil)) fun h0 => ?_⟩
  have hd : (distFl ver p)[i] = 0 := by
    unfold distFl normalizeListFl
    split_ifs
    · exact h0.symm
    · rw [List.getElem_map, ← h0, zero_div, fl_zero]
    · exact h0.symm
  have : plainSum ((distFl ver p).take (i + 1)) = plainSum ((distFl ver p).take i) := by
    rw [List.take_add_one, List.getElem?_eq_getElem h1, hd, plainSum_eq, List.foldl_append, ← plainSum_eq]
    simp only [Option.toList_some, List.foldl_cons, List.foldl_nil]
    unfold addFl
    rw [add_zero, fl_of_isFloat]
    exact foldl_isFloat _ _ isFloat_zero
  rw [this] at h2
  linarith

/-- **C70.** `sample` raises `IndexError` exactly if the random number exceeds the last accumulated total. -/
theorem C70_sample_raises (h : Weights p) (ver : PyVer) (r : ℚ) :
    (sampleIdxFl ver p r = .error .index ↔ plainSum (distFl ver p) < r) ∧ ∀ e, sampleIdxFl ver p r = .error e → e = .index := by
  have herr := sampleIdxFl_err (ver := ver) (p := p) (distFl_isFloat h.isFloat) r
  refine ⟨?_, fun e he => ((herr e).1 he).1⟩
  rw [herr]
  have hlen : 0 < p.length := by
    rcases Nat.eq_zero_or_pos p.length with h0 | h0
    · have := h.pos
      rw [List.length_eq_zero_iff.1 h0] at this
      simp at this
    · exact h0
  rw [length_distFl]
  constructor
  · rintro ⟨-, h1⟩
    have := h1 (p.length - 1) (by omega)
    rwa [List.take_of_length_le (by rw [length_distFl]; omega)] at this
  · intro h1
    refine ⟨rfl, fun j hj => lt_of_le_of_lt ?_ h1⟩
    have := plainSum_take_mono (distFl_nonneg h ver) (show j + 1 ≤ (distFl ver p).length by rw [length_distFl]; omega)
    rwa [List.take_length] at this

end

/-! ### The other functions -/

theorem plainSum_take_succ (d : List ℚ) {i : ℕ} (hi : i < d.length) : plainSum (d.take (i + 1)) = fl (plainSum (d.take i) + d[i]) := by
  rw [List.take_add_one, List.getElem?_eq_getElem hi, plainSum_eq, plainSum_eq, List.foldl_append]
  simp only [Option.toList_some, List.foldl_cons, List.foldl_nil]
  rfl

theorem nSampleLoopFl_spec {K : Type} (d : List ℚ) (vs : List K) (hlen : vs.length = d.length) (rs : List ℚ) :
    ∀ (i : ℕ), i < d.length → rs.Pairwise (· ≤ ·) → (∀ r ∈ rs, plainSum (d.take i) ≤ r ∧ r < plainSum d) →
    ∃ l, nSampleLoopFl (plainSum (d.take (i + 1))) (d.drop (i + 1)) (vs.drop i) rs = .ok l ∧ l.length = rs.length ∧
      ∀ (j : ℕ) v r, l[j]? = some v → rs[j]? = some r → ∃ m : ℕ, vs[m]? = some v ∧ plainSum (d.take m) ≤ r ∧ r < plainSum (d.take (m + 1)) := by
  induction rs with
  | nil => intro i _ _ _; exact ⟨[], by unfold nSampleLoopFl; rfl, rfl, by simp⟩
  | cons r rs ih =>
    intro i hi hsort hr
    obtain ⟨n, hn⟩ : ∃ n, n = d.length - i := ⟨_, rfl⟩
    induction n generalizing i with
    | zero => omega
    | succ n ihn =>
      have hr' := hr r List.mem_cons_self
      unfold nSampleLoopFl
      by_cases hc : r < plainSum (d.take (i + 1))
      · rw [if_pos hc]
        have hv : i < vs.length := by omega
        obtain ⟨l, h1, h2, h3⟩ := ih i hi (List.pairwise_cons.1 hsort).2 (fun x hx => hr x (List.mem_cons_of_mem _ hx))
        rw [List.drop_eq_getElem_cons hv] at h1 ⊢
        simp only [h1]
        refine ⟨_, rfl, by simp [h2], ?_⟩
        intro j v x hj hx
        cases j with
        | zero =>
          simp only [List.getElem?_cons_zero, Option.some.injEq] at hj hx
          subst hj; subst hx
          exact ⟨i, List.getElem?_eq_getElem hv, hr'.1, hc⟩
        | succ j =>
          simp only [List.getElem?_cons_succ] at hj hx
          exact h3 j v x hj hx
      · rw [if_neg hc]
        have hi2 : i + 1 < d.length := by
          rcases Nat.lt_or_ge (i + 1) d.length with h | h
          · exact h
          · exfalso
            rw [List.take_of_length_le h] at hc
            exact hc hr'.2
        rw [List.drop_eq_getElem_cons hi2]
        simp only [← plainSum_take_succ d hi2, List.tail_drop]
        refine ihn (i + 1) hi2 ?_ (by omega)
        intro x hx
        refine ⟨?_, (hr x hx).2⟩
        rcases List.mem_cons.1 hx with rfl | hx
        · exact not_lt.1 hc
        · exact le_trans (not_lt.1 hc) ((List.pairwise_cons.1 hsort).1 x hx)

theorem nSampleLoopFl_raises {K : Type} (d : List ℚ) (h0 : ∀ x ∈ d, 0 ≤ x) (vs : List K) (hlen : vs.length = d.length) (rs : List ℚ) :
    ∀ (i : ℕ), i < d.length → (∃ r ∈ rs, plainSum d ≤ r) →
    nSampleLoopFl (plainSum (d.take (i + 1))) (d.drop (i + 1)) (vs.drop i) rs = .error .index := by
  induction rs with
  | nil => rintro i _ ⟨r, hr, -⟩; cases hr
  | cons r rs ih =>
    intro i hi hr
    obtain ⟨n, hn⟩ : ∃ n, n = d.length - i := ⟨_, rfl⟩
    induction n generalizing i with
    | zero => omega
    | succ n ihn =>
      unfold nSampleLoopFl
      by_cases hc : r < plainSum (d.take (i + 1))
      · rw [if_pos hc]
        have hv : i < vs.length := by omega
        have hle : plainSum (d.take (i + 1)) ≤ plainSum d := by
          have := plainSum_take_mono h0 (show i + 1 ≤ d.length by omega)
          rwa [List.take_length] at this
        obtain ⟨x, hx, hxr⟩ := hr
        have h1 := ih i hi ⟨x, by
          rcases List.mem_cons.1 hx with rfl | hx
          · linarith
          · exact hx, hxr⟩
        rw [List.drop_eq_getElem_cons hv] at h1 ⊢
        simp only [h1]
      · rw [if_neg hc]
        rcases Nat.lt_or_ge (i + 1) d.length with hi2 | hi2
        · rw [List.drop_eq_getElem_cons hi2]
          simp only [← plainSum_take_succ d hi2, List.tail_drop]
          exact ihn (i + 1) hi2 (by omega)
        · rw [List.drop_of_length_le hi2]

/-- **C70.** `nSample` with floats: it returns exactly if all random numbers are below the last accumulated total, which is the case if they are below
one by the slack; each value returned is one whose interval, widened by the slack, contains the random number. -/
theorem C70_nSample {K : Type} {p : List ℚ} (h : Weights p) (ver : PyVer) {vs : List K} (hlen : vs.length = p.length) {rs : List ℚ}
    (hsort : rs.Pairwise (· ≤ ·)) (hr : ∀ r ∈ rs, 0 ≤ r) :
    ((∃ r ∈ rs, plainSum (distFl ver p) ≤ r) → nSampleFl ver p vs rs = .error .index) ∧
    ((∀ r ∈ rs, r < plainSum (distFl ver p)) → ∃ l, nSampleFl ver p vs rs = .ok l ∧ l.length = rs.length ∧
      ∀ (j : ℕ) v r, l[j]? = some v → rs[j]? = some r → ∃ m : ℕ, vs[m]? = some v ∧ share p m - slack p.length ≤ r ∧
        r < share p (m + 1) + slack p.length) ∧
    ((∀ r ∈ rs, r < 1 - slack p.length) → ∀ r ∈ rs, r < plainSum (distFl ver p)) := by
  have hl : 0 < (distFl ver p).length := by
    rw [length_distFl]
    rcases Nat.eq_zero_or_pos p.length with h0 | h0
    · have := h.pos
      rw [List.length_eq_zero_iff.1 h0] at this
      simp at this
    · exact h0
  have hdef : nSampleFl ver p vs rs = nSampleLoopFl (plainSum ((distFl ver p).take (0 + 1))) ((distFl ver p).drop (0 + 1)) (vs.drop 0) rs := by
    unfold nSampleFl
    have hfl := distFl_isFloat (ver := ver) h.isFloat
    cases hd : distFl ver p with
    | nil => rw [hd] at hl; cases hl
    | cons q t =>
      rw [hd] at hfl
      simp only [zero_add, List.take_succ_cons, List.take_zero, List.drop_succ_cons, List.drop_zero]
      rw [← foldl_cons_float (hfl q (by simp))]
      rfl
  have hlen' : vs.length = (distFl ver p).length := by rw [length_distFl, hlen]
  rw [hdef]
  refine ⟨nSampleLoopFl_raises _ (distFl_nonneg h ver) vs hlen' rs 0 hl, ?_, ?_⟩
  · intro hlt
    obtain ⟨l, h1, h2, h3⟩ := nSampleLoopFl_spec _ vs hlen' rs 0 hl hsort fun r hr' => ⟨by simpa [plainSum] using hr r hr', hlt r hr'⟩
    refine ⟨l, h1, h2, fun j v r hj hr' => ?_⟩
    obtain ⟨m, g1, g2, g3⟩ := h3 j v r hj hr'
    have n1 := abs_le.1 (h.total_near ver m)
    have n2 := abs_le.1 (h.total_near ver (m + 1))
    exact ⟨m, g1, by linarith, by linarith⟩
  · intro hlt r hr'
    have := (abs_le.1 (h.total_near ver p.length)).1
    rw [List.take_of_length_le (by rw [length_distFl])] at this
    have hs : share p p.length = 1 := by unfold share; rw [List.take_length, div_self h.pos.ne']
    rw [hs] at this
    have := hlt r hr'
    linarith

/-- **C70.** `chooseFromDistribution` for pairs returns `None` exactly if the random number exceeds the accumulated total, and it exceeds
the exact total, less the rounding of `n` additions, then. -/
theorem C70_choosePairs {K : Type} (r : ℚ) (l : List (ℚ × K)) (hne : l ≠ []) (h0 : ∀ e ∈ l, 0 ≤ e.1) (hf : ∀ e ∈ l, IsFloat e.1) :
    (choosePairsFl r 0 l = none ↔ plainSum (l.map Prod.fst) < r) ∧
    (choosePairsFl r 0 l = none → (1 - l.length * uro) * (l.map Prod.fst).sum < r) ∧
    ∀ v, choosePairsFl r 0 l = some v → ∃ j, (l[j]?).map Prod.snd = some v ∧ r ≤ plainSum ((l.map Prod.fst).take (j + 1)) ∧
      ∀ i < j, plainSum ((l.map Prod.fst).take (i + 1)) < r := by
  have gen : ∀ (l : List (ℚ × K)) (b : ℚ), (choosePairsFl r b l = none ↔ ∀ j < l.length, ((l.map Prod.fst).take (j + 1)).foldl addFl b < r) ∧
      ∀ v, choosePairsFl r b l = some v → ∃ j, (l[j]?).map Prod.snd = some v ∧ r ≤ ((l.map Prod.fst).take (j + 1)).foldl addFl b ∧
        ∀ i < j, ((l.map Prod.fst).take (i + 1)).foldl addFl b < r := by
    intro l
    induction l with
    | nil => intro b; simp [choosePairsFl]
    | cons e t ih =>
      intro b
      obtain ⟨p, w⟩ := e
      unfold choosePairsFl
      by_cases h : r ≤ fl (b + p)
      · rw [if_pos h]
        constructor
        · simp only [reduceCtorEq, false_iff, not_forall]
          exact ⟨0, by simp, by simpa [addFl] using h⟩
        · intro v hv
          cases hv
          exact ⟨0, by simp, by simpa [addFl] using h, by simp⟩
      · rw [if_neg h]
        obtain ⟨i1, i2⟩ := ih (fl (b + p))
        constructor
        · rw [i1]
          constructor
          · intro h' j hj
            cases j with
            | zero => simpa [addFl] using h
            | succ j => simpa [addFl] using h' j (by simpa using hj)
          · intro h' j hj
            simpa [addFl] using h' (j + 1) (by simpa using hj)
        · intro v hv
          obtain ⟨j, g1, g2, g3⟩ := i2 v hv
          refine ⟨j + 1, by simpa using g1, by simpa [addFl] using g2, fun i hi => ?_⟩
          cases i with
          | zero => simpa [addFl] using h
          | succ i => simpa [addFl] using g3 i (by omega)
  obtain ⟨g1, g2⟩ := gen l 0
  have h0' : ∀ x ∈ l.map Prod.fst, 0 ≤ x := by
    intro x hx
    obtain ⟨e, he, rfl⟩ := List.mem_map.1 hx
    exact h0 e he
  have hf' : ∀ x ∈ l.map Prod.fst, IsFloat x := by
    intro x hx
    obtain ⟨e, he, rfl⟩ := List.mem_map.1 hx
    exact hf e he
  have key : choosePairsFl r 0 l = none ↔ plainSum (l.map Prod.fst) < r := by
    rw [g1]
    have hl : 0 < l.length := List.length_pos_of_ne_nil hne
    constructor
    · intro h
      have := h (l.length - 1) (by omega)
      rwa [List.take_of_length_le (by simp; omega)] at this
    · intro h j hj
      refine lt_of_le_of_lt ?_ h
      have := plainSum_take_mono h0' (show j + 1 ≤ (l.map Prod.fst).length by rw [List.length_map]; exact hj)
      rwa [List.take_length] at this
  refine ⟨key, fun hn => ?_, g2⟩
  have hlt := key.1 hn
  have hb := (foldl_bounds _ h0' hf' 0 le_rfl isFloat_zero).1
  rw [zero_add] at hb
  have hp := pow_lower (n := (l.map Prod.fst).length)
  have hS : 0 ≤ (l.map Prod.fst).sum := List.sum_nonneg h0'
  rw [List.length_map] at hp hb
  have : (1 - l.length * uro) * (l.map Prod.fst).sum ≤ (1 - uro) ^ l.length * (l.map Prod.fst).sum := mul_le_mul_of_nonneg_right hp hS
  unfold plainSum at hlt
  linarith

/-! ### Witnesses -/

/-- Seven equal weights in Python 3.12: they sum to one and are used as they are, but the loop of `sample` accumulates `1 - 2 ^ -52`. The largest random
number makes `sample` read past the end. -/
theorem C70_sevenths : Weights (List.replicate 7 (fl (1 / 7))) ∧ IsRandom (1 - 1 / 2 ^ 53) ∧
    sampleIdxFl .compensated (List.replicate 7 (fl (1 / 7))) (1 - 1 / 2 ^ 53) = .error .index ∧
    sampleIdxFl .compensated (List.replicate 7 (fl (1 / 7))) (1 / 2) = .ok 3 := by
  refine ⟨⟨?_, ?_, by decide +kernel, by decide⟩, ⟨2 ^ 53 - 1, by decide, by norm_num⟩, by decide +kernel, by decide +kernel⟩
  · intro x hx; rw [List.eq_of_mem_replicate hx]; exact fl_nonneg (by norm_num)
  · intro x hx; rw [List.eq_of_mem_replicate hx]; exact fl_isFloat _

/-- The weights `0.7`, `0.9`, `0.8` before Python 3.12, normalised by `sample` itself. -/
theorem C70_three : Weights [fl (7 / 10), fl (9 / 10), fl (8 / 10)] ∧
    sampleIdxFl .plain [fl (7 / 10), fl (9 / 10), fl (8 / 10)] (1 - 1 / 2 ^ 53) = .error .index := by
  refine ⟨⟨?_, ?_, by decide +kernel, by decide⟩, by decide +kernel⟩
  · intro x hx
    simp only [List.mem_cons, List.not_mem_nil, or_false] at hx
    rcases hx with rfl | rfl | rfl <;> exact fl_nonneg (by norm_num)
  · intro x hx
    simp only [List.mem_cons, List.not_mem_nil, or_false] at hx
    rcases hx with rfl | rfl | rfl <;> exact fl_isFloat _

/-- Seven pairs of weight `1 / 7`: `chooseFromDistribution` returns `None` for the largest random number; with six pairs it returns the last value. -/
theorem C70_none : choosePairsFl (1 - 1 / 2 ^ 53) 0 ((List.range 7).map fun i => (fl (1 / 7), i)) = none ∧
    choosePairsFl (1 - 1 / 2 ^ 53) 0 ((List.range 6).map fun i => (fl (1 / 6), i)) = some 5 := by decide +kernel

/-- `nSample` fails in the same case and returns otherwise. -/
theorem C70_nSample_sevenths : nSampleFl .compensated (List.replicate 7 (fl (1 / 7))) (List.range 7) [1 / 8, 1 - 1 / 2 ^ 52] = .error .index ∧
    ∃ l, nSampleFl .compensated (List.replicate 7 (fl (1 / 7))) (List.range 7) [1 / 8, 1 / 2] = .ok l ∧ l.length = 2 := by
  obtain ⟨h1, h2, -⟩ := C70_nSample C70_sevenths.1 .compensated (vs := List.range 7) (by simp) (rs := [1 / 8, 1 - 1 / 2 ^ 52]) (by simp; norm_num)
    (by simp; norm_num)
  obtain ⟨-, h3, -⟩ := C70_nSample C70_sevenths.1 .compensated (vs := List.range 7) (by simp) (rs := [1 / 8, 1 / 2]) (by simp; norm_num) (by simp)
  refine ⟨h1 ⟨1 - 1 / 2 ^ 52, by simp, by decide +kernel⟩, ?_⟩
  obtain ⟨l, g1, g2, -⟩ := h3 (by decide +kernel)
  exact ⟨l, g1, g2⟩

end Verif.Pac
