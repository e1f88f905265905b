import Verif.Model.MarkovFloat
import Verif.Lemmas.FloatSum
import Mathlib.Algebra.BigOperators.Group.List.Basic
import Mathlib.Algebra.Order.BigOperators.Group.List

/-!
# Sums that are exact whatever the order
-/

namespace Verif

/-- Left to right is one of the orders. -/
theorem AddsTo.foldl (l : List ℚ) : ∀ m s, AddsTo m s → AddsTo (m ++ l) (l.foldl (fun s x => fl (s + x)) s) := by
  induction l with
  | nil => intro m s h; rw [List.append_nil]; exact h
  | cons x t ih =>
    intro m s h
    have := ih (m ++ [x]) _ (.add h (.one x))
    rwa [List.append_assoc] at this

/-- Adding from left to right. -/
def plainNp : NpSum := ⟨plainSum, fun l => AddsTo.foldl l [] 0 .none⟩

/-- Adding from right to left. -/
def reverseNp : NpSum := ⟨fun l => plainSum l.reverse, fun l => (AddsTo.foldl l.reverse [] 0 .none).perm l.reverse_perm⟩

theorem isFloat_grid {k : ℤ} {d : ℕ} (hk : |k| ≤ 2 ^ 53) (hd : d ≤ 1000) : IsFloat ((k : ℚ) * 2 ^ (-(d : ℤ))) := by
  rcases lt_or_eq_of_le hk with h | h
  · exact ⟨k, -d, h, by omega, rfl⟩
  · rcases (abs_eq (by norm_num)).1 h with h | h
    · exact ⟨1, 53 - d, by norm_num, by omega, by rw [h, sub_eq_add_neg, zpow_add₀ (by norm_num)]; norm_num⟩
    · exact ⟨-1, 53 - d, by norm_num, by omega, by rw [h, sub_eq_add_neg, zpow_add₀ (by norm_num)]; norm_num⟩

/-- The sum of a list of natural multiples of `2 ^ -d` is one. -/
theorem grid_sum {d : ℕ} (l : List ℚ) (h : ∀ x ∈ l, ∃ k : ℕ, x = k * 2 ^ (-(d : ℤ))) : ∃ k : ℕ, l.sum = k * 2 ^ (-(d : ℤ)) := by
  induction l with
  | nil => exact ⟨0, by simp⟩
  | cons x t ih =>
    obtain ⟨a, ha⟩ := h x (by simp)
    obtain ⟨b, hb⟩ := ih fun y hy => h y (List.mem_cons_of_mem _ hy)
    refine ⟨a + b, ?_⟩
    rw [List.sum_cons, ha, hb]
    push_cast
    ring

theorem grid_float {d k : ℕ} (hd : d ≤ 1000) (h : (k : ℚ) * 2 ^ (-(d : ℤ)) ≤ 2 ^ 53 * 2 ^ (-(d : ℤ))) : fl ((k : ℚ) * 2 ^ (-(d : ℤ))) = k * 2 ^ (-(d : ℤ)) := by
  have h1 : (k : ℚ) ≤ 2 ^ 53 := le_of_mul_le_mul_right h (two_pow_pos _)
  have := isFloat_grid (k := (k : ℤ)) (d := d) (by rw [abs_of_nonneg (by positivity)]; exact_mod_cast h1) hd
  rw [Int.cast_natCast] at this
  exact fl_of_isFloat this

/-- Natural multiples of `2 ^ -d` with a sum of at most `2 ^ 53` of them are added exactly, in any order. -/
theorem AddsTo.exact {d : ℕ} (hd : d ≤ 1000) {l : List ℚ} {s : ℚ} (h : AddsTo l s) : (∀ x ∈ l, ∃ k : ℕ, x = k * 2 ^ (-(d : ℤ))) →
    l.sum ≤ 2 ^ 53 * 2 ^ (-(d : ℤ)) → s = l.sum := by
  induction h with
  | none => intros; rfl
  | one x => intros; simp
  | perm _ hp ih =>
    intro h1 h2
    rw [← hp.sum_eq] at h2 ⊢
    exact ih (fun x hx => h1 x (hp.subset hx)) h2
  | add _ _ ih1 ih2 =>
    rename_i l m s t _ _
    intro h1 h2
    rw [List.sum_append] at h2 ⊢
    have hl : ∀ x ∈ l, ∃ k : ℕ, x = k * 2 ^ (-(d : ℤ)) := fun x hx => h1 x (List.mem_append_left _ hx)
    have hm : ∀ x ∈ m, ∃ k : ℕ, x = k * 2 ^ (-(d : ℤ)) := fun x hx => h1 x (List.mem_append_right _ hx)
    obtain ⟨a, ha⟩ := grid_sum l hl
    obtain ⟨b, hb⟩ := grid_sum m hm
    have hp := two_pow_pos (-(d : ℤ))
    have ha0 : 0 ≤ l.sum := by rw [ha]; positivity
    have hb0 : 0 ≤ m.sum := by rw [hb]; positivity
    rw [ih1 hl (by linarith), ih2 hm (by linarith)]
    have e : l.sum + m.sum = ((a + b : ℕ) : ℚ) * 2 ^ (-(d : ℤ)) := by rw [ha, hb]; push_cast; ring
    rw [e] at h2 ⊢
    exact grid_float hd h2

theorem nat_grid {l : List ℚ} (h : ∀ x ∈ l, ∃ k : ℕ, x = k) : ∀ x ∈ l, ∃ k : ℕ, x = k * 2 ^ (-((0 : ℕ) : ℤ)) := by
  intro x hx
  obtain ⟨k, rfl⟩ := h x hx
  exact ⟨k, by simp⟩

/-- Whole numbers with a sum of at most `2 ^ 53` are added exactly, in any order. -/
theorem AddsTo.exact_nat {l : List ℚ} {s : ℚ} (h : AddsTo l s) (h1 : ∀ x ∈ l, ∃ k : ℕ, x = k) (h2 : l.sum ≤ 2 ^ 53) : s = l.sum :=
  h.exact (d := 0) (by norm_num) (nat_grid h1) (by simpa using h2)

theorem foldl_compStep_nat (l : List ℚ) : ∀ s : ℚ, (∃ k : ℕ, s = k) → (∀ x ∈ l, ∃ k : ℕ, x = k) → s + l.sum ≤ 2 ^ 53 → l.foldl compStep (s, 0) = (s + l.sum, 0) := by
  induction l with
  | nil => intro s _ _ _; simp
  | cons x t ih =>
    intro s hs h1 h2
    obtain ⟨a, rfl⟩ := hs
    obtain ⟨b, hb⟩ := h1 x (by simp)
    subst hb
    have ht : ∀ x ∈ t, ∃ k : ℕ, x = k := fun x hx => h1 x (List.mem_cons_of_mem _ hx)
    have ht0 : 0 ≤ t.sum := by
      obtain ⟨k, hk⟩ := grid_sum (d := 0) t (nat_grid ht)
      rw [hk]; positivity
    rw [List.sum_cons] at h2
    have e1 : fl ((a : ℚ) + b) = ((a + b : ℕ) : ℚ) := by
      have := grid_float (d := 0) (k := a + b) (by norm_num) (by push_cast; simp only [neg_zero, zpow_zero, mul_one]; linarith)
      simpa using this
    have e2 : ∀ c : ℕ, (c : ℚ) ≤ 2 ^ 53 → fl (-(c : ℚ)) = -c := by
      intro c hc
      exact fl_of_isFloat (IsFloat.neg (by exact_mod_cast isFloat_int (k := (c : ℤ)) (by rw [abs_of_nonneg (by positivity)]; exact_mod_cast hc)))
    have ha0 : (0 : ℚ) ≤ a := by positivity
    have hb0 : (0 : ℚ) ≤ b := by positivity
    have e3 : fl ((a : ℚ) - ((a + b : ℕ) : ℚ)) = -b := by
      rw [show (a : ℚ) - ((a + b : ℕ) : ℚ) = -b by push_cast; ring]; exact e2 b (by linarith)
    have e4 : fl ((b : ℚ) - ((a + b : ℕ) : ℚ)) = -a := by
      rw [show (b : ℚ) - ((a + b : ℕ) : ℚ) = -a by push_cast; ring]; exact e2 a (by linarith)
    have hstep : compStep ((a : ℚ), 0) b = (((a + b : ℕ) : ℚ), 0) := by
      unfold compStep
      simp only [e1, e3, e4, neg_add_cancel, fl_zero, ite_self, add_zero]
    rw [List.foldl_cons, hstep, ih _ ⟨_, rfl⟩ ht (by push_cast; linarith), List.sum_cons]
    push_cast
    rw [add_assoc]

/-- Python's `sum` of whole numbers with a sum of at most `2 ^ 53` is exact, in both variants. -/
theorem pySum_nat (ver : PyVer) {l : List ℚ} (h1 : ∀ x ∈ l, ∃ k : ℕ, x = k) (h2 : l.sum ≤ 2 ^ 53) : pySum ver l = l.sum := by
  cases ver with
  | plain => exact (plainNp.adds l).exact_nat h1 h2
  | compensated =>
    show compSum l = l.sum
    unfold compSum
    rw [foldl_compStep_nat l 0 ⟨0, by simp⟩ h1 (by simpa using h2)]
    simp only [zero_add, add_zero]
    obtain ⟨k, hk⟩ := grid_sum (d := 0) l (nat_grid h1)
    rw [hk] at h2 ⊢
    exact grid_float (by norm_num) (by simpa using h2)

end Verif
