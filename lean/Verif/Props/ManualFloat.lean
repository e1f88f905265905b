import Verif.Model.ManualFloat
import Verif.Lemmas.FloatSum
import Verif.Props.ManualBayes

/-!
# Manual Bayesian inference in floating point (C102)
-/

namespace Verif.Manual

/-- `x` and `y` are the same up to `k` relative errors of 2^-53. -/
def Near (k : ℕ) (x y : ℚ) : Prop := (1 - 1 / 2 ^ 53) ^ k * y ≤ x ∧ (1 - 1 / 2 ^ 53) ^ k * x ≤ y

theorem cc_eq : (1 - 1 / 2 ^ 53 : ℚ) = 1 - uro := rfl
theorem cc_pos : (0 : ℚ) < 1 - 1 / 2 ^ 53 := by norm_num
theorem cc_le : (1 - 1 / 2 ^ 53 : ℚ) ≤ 1 := by norm_num

theorem Near.refl (x : ℚ) : Near 0 x x := by simp [Near]

theorem Near.trans {k l : ℕ} {x y z : ℚ} (h : Near k x y) (h' : Near l y z) : Near (k + l) x z := by
  have p1 := pow_pos cc_pos k
  have p2 := pow_pos cc_pos l
  unfold Near at *
  rw [pow_add]
  generalize (1 - 1 / 2 ^ 53 : ℚ) ^ k = a at *
  generalize (1 - 1 / 2 ^ 53 : ℚ) ^ l = b at *
  constructor
  · calc a * b * z = a * (b * z) := by ring
      _ ≤ a * y := mul_le_mul_of_nonneg_left h'.1 p1.le
      _ ≤ x := h.1
  · calc a * b * x = b * (a * x) := by ring
      _ ≤ b * y := mul_le_mul_of_nonneg_left h.2 p2.le
      _ ≤ z := h'.2

theorem Near.nonneg {k : ℕ} {x y : ℚ} (h : Near k x y) (hx : 0 ≤ x) : 0 ≤ y :=
  (mul_nonneg (pow_pos cc_pos k).le hx).trans h.2

theorem Near.zero_iff {k : ℕ} {x y : ℚ} (h : Near k x y) (hx : 0 ≤ x) : x = 0 ↔ y = 0 := by
  have p := pow_pos cc_pos k
  have hy := h.nonneg hx
  constructor
  · rintro rfl
    have := h.1
    by_contra hne
    have := mul_pos p (lt_of_le_of_ne hy (Ne.symm hne))
    linarith
  · rintro rfl
    have := h.2
    by_contra hne
    have := mul_pos p (lt_of_le_of_ne hx (Ne.symm hne))
    linarith

theorem Near.mono {k l : ℕ} (hkl : k ≤ l) {x y : ℚ} (h : Near k x y) (hx : 0 ≤ x) : Near l x y := by
  have hp : (1 - 1 / 2 ^ 53 : ℚ) ^ l ≤ (1 - 1 / 2 ^ 53) ^ k := pow_le_pow_of_le_one cc_pos.le cc_le hkl
  exact ⟨(mul_le_mul_of_nonneg_right hp (h.nonneg hx)).trans h.1, (mul_le_mul_of_nonneg_right hp hx).trans h.2⟩

theorem Near.mul {k l : ℕ} {x y z w : ℚ} (h : Near k x y) (h' : Near l z w) (hx : 0 ≤ x) (hz : 0 ≤ z) : Near (k + l) (x * z) (y * w) := by
  have p1 := pow_pos cc_pos k
  have p2 := pow_pos cc_pos l
  have hy := h.nonneg hx
  have hw := h'.nonneg hz
  unfold Near at *
  rw [pow_add]
  generalize (1 - 1 / 2 ^ 53 : ℚ) ^ k = a at *
  generalize (1 - 1 / 2 ^ 53 : ℚ) ^ l = b at *
  constructor
  · calc a * b * (y * w) = (a * y) * (b * w) := by ring
      _ ≤ x * z := mul_le_mul h.1 h'.1 (mul_nonneg p2.le hw) hx
  · calc a * b * (x * z) = (a * x) * (b * z) := by ring
      _ ≤ y * w := mul_le_mul h.2 h'.2 (mul_nonneg p2.le hz) hy

theorem Near.add {k : ℕ} {x y z w : ℚ} (h : Near k x y) (h' : Near k z w) : Near k (x + z) (y + w) := by
  unfold Near at *
  rw [mul_add, mul_add]
  exact ⟨add_le_add h.1 h'.1, add_le_add h.2 h'.2⟩

theorem Near.inv {k : ℕ} {x y : ℚ} (h : Near k x y) (hx : 0 < x) : Near k x⁻¹ y⁻¹ := by
  have p1 := pow_pos cc_pos k
  have hy : 0 < y := (mul_pos p1 hx).trans_le h.2
  unfold Near at *
  generalize (1 - 1 / 2 ^ 53 : ℚ) ^ k = a at *
  constructor
  · rw [← div_eq_mul_inv, div_le_iff₀ hy, inv_mul_eq_div, le_div_iff₀ hx]; exact h.2
  · rw [← div_eq_mul_inv, div_le_iff₀ hx, inv_mul_eq_div, le_div_iff₀ hy]; exact h.1

theorem Near.div {k l : ℕ} {x y z w : ℚ} (h : Near k x y) (h' : Near l z w) (hx : 0 ≤ x) (hz : 0 < z) : Near (k + l) (x / z) (y / w) := by
  rw [div_eq_mul_inv, div_eq_mul_inv]
  exact h.mul (h'.inv hz) hx (inv_pos.2 hz).le

theorem near_of_rel {x y : ℚ} (hy : 0 ≤ y) (h : |x - y| ≤ uro * y) : Near 1 x y := by
  rw [abs_le] at h
  unfold Near
  rw [cc_eq, pow_one]
  have hu := uro_pos
  have hu1 := uro_lt_one
  refine ⟨by linarith, ?_⟩
  have : x ≤ (1 + uro) * y := by linarith
  have h2 := mul_le_mul_of_nonneg_left this (by linarith : (0 : ℚ) ≤ 1 - uro)
  nlinarith [mul_nonneg (mul_nonneg hu.le hu.le) hy]

theorem Near.fl {x : ℚ} (h : Roundable x) : Near 1 (fl x) x := near_of_rel h.nonneg h.rel

/-- What this bound means: the relative difference is at most `2 k 2^-53`. -/
theorem Near.rel {k : ℕ} (hk : k ≤ 2 ^ 52) {x y : ℚ} (h : Near k x y) (hx : 0 ≤ x) : |x - y| ≤ 2 * k * (1 / 2 ^ 53) * y := by
  have hl := pow_lower (n := k)
  have hy := h.nonneg hx
  obtain ⟨h1, h2⟩ := h
  rw [cc_eq] at h1 h2
  have hk' : (k : ℚ) * uro ≤ 1 / 2 := by
    have : (k : ℚ) ≤ 2 ^ 52 := by exact_mod_cast hk
    unfold uro
    linarith
  have hk0 : 0 ≤ (k : ℚ) * uro := mul_nonneg (Nat.cast_nonneg _) uro_pos.le
  have e1 := mul_le_mul_of_nonneg_right hl hy
  have e2 := mul_le_mul_of_nonneg_right hl hx
  have hu : (1 / 2 ^ 53 : ℚ) = uro := rfl
  rw [hu]
  generalize hc : (k : ℚ) * uro = c at *
  have hc' : 2 * (k : ℚ) * uro * y = 2 * c * y := by rw [← hc]; ring
  rw [hc', abs_le]
  constructor
  · nlinarith [mul_nonneg hk0 hy]
  · -- (1 - c) x ≤ y, hence x ≤ 2 y and x - y ≤ c x ≤ 2 c y
    have h3 : (1 - c) * x ≤ y := e2.trans h2
    have h4 : x ≤ 2 * y := by nlinarith
    nlinarith [mul_le_mul_of_nonneg_left h4 hk0]

theorem near_pySum (ver : PyVer) (l : List ℚ) (h0 : ∀ x ∈ l, 0 ≤ x) (hf : ∀ x ∈ l, IsFloat x) (hn : l.length ≤ 2 ^ 26) :
    0 ≤ pySum ver l ∧ Near (l.length + 5) (pySum ver l) l.sum := by
  have hS : 0 ≤ l.sum := List.sum_nonneg h0
  have hu := uro_pos
  have hu1 := uro_lt_one
  cases ver with
  | plain =>
    obtain ⟨h1, h2⟩ := foldl_bounds l h0 hf 0 le_rfl isFloat_zero
    rw [zero_add] at h1 h2
    have hnn : 0 ≤ plainSum l := (mul_nonneg (pow_nonneg (by linarith) _) hS).trans h1
    refine ⟨hnn, ?_⟩
    refine Near.mono (Nat.le_add_right _ _) ⟨h1, ?_⟩ hnn
    show (1 - uro) ^ l.length * plainSum l ≤ l.sum
    calc (1 - uro) ^ l.length * plainSum l ≤ (1 - uro) ^ l.length * ((1 + uro) ^ l.length * l.sum) :=
          mul_le_mul_of_nonneg_left h2 (pow_nonneg (by linarith) _)
      _ = ((1 - uro) * (1 + uro)) ^ l.length * l.sum := by rw [mul_pow]; ring
      _ ≤ 1 * l.sum := mul_le_mul_of_nonneg_right (pow_le_one₀ (by nlinarith) (by nlinarith)) hS
      _ = l.sum := one_mul _
  | compensated =>
    have h := compSum_error l h0 hf
    have hG : (1 + uro) ^ l.length - 1 ≤ 1 / 2 ^ 26 := by
      have hnu : (l.length : ℚ) * uro ≤ 1 / 2 ^ 27 := by
        have : (l.length : ℚ) ≤ 2 ^ 26 := by exact_mod_cast hn
        unfold uro; linarith
      have := pow_upper (n := l.length) (by linarith)
      have h2 : (1 : ℚ) / (1 - l.length * uro) ≤ 1 + 1 / 2 ^ 26 := by
        rw [div_le_iff₀ (by linarith)]; nlinarith
      linarith
    have hG0 : 0 ≤ (1 + uro) ^ l.length - 1 := by
      have : 1 ≤ (1 + uro) ^ l.length := one_le_pow₀ (by linarith)
      linarith
    have hG2 : ((1 + uro) ^ l.length - 1) ^ 2 ≤ 2 * uro := by
      have := pow_le_pow_left₀ hG0 hG 2
      refine this.trans ?_
      unfold uro; norm_num
    have h4 : |compSum l - l.sum| ≤ 4 * uro * l.sum := by
      refine h.trans ?_
      have e1 : ((1 + uro) ^ l.length - 1) ^ 2 * l.sum ≤ 2 * uro * l.sum := mul_le_mul_of_nonneg_right hG2 hS
      have e2 : (1 + uro) * (((1 + uro) ^ l.length - 1) ^ 2 * l.sum) ≤ (1 + uro) * (2 * uro * l.sum) := mul_le_mul_of_nonneg_left e1 (by linarith)
      have e3 : 0 ≤ uro * l.sum := mul_nonneg hu.le hS
      have e4 : uro * (uro * l.sum) ≤ 1 / 2 * (uro * l.sum) := mul_le_mul_of_nonneg_right (by unfold uro; norm_num) e3
      nlinarith
    rw [abs_le] at h4
    have h5 : (1 - uro) ^ 5 ≤ 1 - 4 * uro := by unfold uro; norm_num
    have hnn : 0 ≤ compSum l := by
      have : 0 ≤ (1 - 4 * uro) * l.sum := mul_nonneg (by unfold uro; norm_num) hS
      linarith
    refine ⟨hnn, ?_⟩
    refine Near.mono (k := 5) (Nat.le_add_left _ _) ⟨?_, ?_⟩ hnn
    · rw [cc_eq]
      have := mul_le_mul_of_nonneg_right h5 hS
      show (1 - uro) ^ 5 * l.sum ≤ compSum l
      linarith
    · rw [cc_eq]
      show (1 - uro) ^ 5 * compSum l ≤ l.sum
      have h6 : compSum l ≤ (1 + 4 * uro) * l.sum := by linarith
      calc (1 - uro) ^ 5 * compSum l ≤ (1 - 4 * uro) * compSum l := mul_le_mul_of_nonneg_right h5 hnn
        _ ≤ (1 - 4 * uro) * ((1 + 4 * uro) * l.sum) := mul_le_mul_of_nonneg_left h6 (by unfold uro; norm_num)
        _ = l.sum - 16 * uro ^ 2 * l.sum := by ring
        _ ≤ l.sum := by have := mul_nonneg (mul_nonneg (by norm_num : (0:ℚ) ≤ 16) (sq_nonneg uro)) hS; linarith

/-! ### Tables -/

section dict
variable {K : Type}

/-- Two dictionaries with the same keys in the same order and related values. -/
def Alike (P : ℚ → ℚ → Prop) (x y : Dict K ℚ) : Prop := List.Forall₂ (fun p q => p.1 = q.1 ∧ P p.2 q.2) x.entries y.entries

theorem Alike.length {P : ℚ → ℚ → Prop} {x y : Dict K ℚ} (h : Alike P x y) : x.entries.length = y.entries.length := List.Forall₂.length_eq h

theorem Alike.imp {P Q : ℚ → ℚ → Prop} (hPQ : ∀ a b, P a b → Q a b) {x y : Dict K ℚ} (h : Alike P x y) : Alike Q x y :=
  List.Forall₂.imp (fun _ _ h => ⟨h.1, hPQ _ _ h.2⟩) h

theorem Alike.vals {P : ℚ → ℚ → Prop} {x y : Dict K ℚ} (h : Alike P x y) : List.Forall₂ P x.vals y.vals := by
  unfold Alike at h
  unfold Dict.vals
  rw [List.forall₂_map_left_iff, List.forall₂_map_right_iff]
  exact h.imp fun _ _ h => h.2

variable [DecidableEq K]

theorem Alike.mapVals {P Q : ℚ → ℚ → Prop} {f g : ℚ → ℚ} (hf : ∀ a b, P a b → Q (f a) (g b)) {x y : Dict K ℚ} (h : Alike P x y) :
    Alike Q (x.mapVals f) (y.mapVals g) := by
  unfold Alike Dict.mapVals at *
  simp only
  rw [List.forall₂_map_left_iff, List.forall₂_map_right_iff]
  exact h.imp fun _ _ h => ⟨h.1, hf _ _ h.2⟩

theorem alike_self {P : ℚ → ℚ → Prop} {f : ℚ → ℚ} {x : Dict K ℚ} (h : ∀ v ∈ x.vals, P (f v) v) : Alike P (x.mapVals f) x := by
  unfold Alike Dict.mapVals
  simp only
  rw [List.forall₂_map_left_iff, List.forall₂_same]
  intro p hp
  exact ⟨rfl, h _ (List.mem_map_of_mem hp)⟩

theorem Alike.set {P : ℚ → ℚ → Prop} {x y : Dict K ℚ} (h : Alike P x y) (k : K) {a b : ℚ} (hab : P a b) : Alike P (x.set k a) (y.set k b) := by
  unfold Alike at h
  show List.Forall₂ _ (assocSet x.entries k a) (assocSet y.entries k b)
  generalize x.entries = l at *
  generalize y.entries = m at *
  induction h with
  | nil => exact .cons ⟨rfl, hab⟩ .nil
  | @cons p q l m hpq _ ih =>
    obtain ⟨p1, p2⟩ := p
    obtain ⟨q1, q2⟩ := q
    obtain ⟨rfl, h2⟩ := hpq
    unfold assocSet
    split_ifs
    · exact .cons ⟨rfl, hab⟩ ‹_›
    · exact .cons ⟨rfl, h2⟩ ih

theorem Alike.get {P : ℚ → ℚ → Prop} {x y : Dict K ℚ} (h : Alike P x y) (k : K) :
    (x.get? k = none ∧ y.get? k = none) ∨ ∃ a b, x.get? k = some a ∧ y.get? k = some b ∧ P a b := by
  unfold Alike at h
  unfold Dict.get?
  generalize x.entries = l at *
  generalize y.entries = m at *
  induction h with
  | nil => exact Or.inl ⟨rfl, rfl⟩
  | @cons p q l m hpq _ ih =>
    obtain ⟨p1, p2⟩ := p
    obtain ⟨q1, q2⟩ := q
    obtain ⟨rfl, h2⟩ := hpq
    unfold assoc?
    split_ifs
    · exact Or.inr ⟨p2, q2, rfl, rfl, h2⟩
    · exact ih

theorem Alike.filterKeys {P : ℚ → ℚ → Prop} {x y : Dict K ℚ} (h : Alike P x y) (f : K → Bool) : Alike P (x.filterKeys f) (y.filterKeys f) := by
  unfold Alike at h
  show List.Forall₂ _ (x.entries.filter _) (y.entries.filter _)
  generalize x.entries = l at *
  generalize y.entries = m at *
  induction h with
  | nil => exact .nil
  | @cons p q l m hpq _ ih =>
    rw [List.filter_cons, List.filter_cons, hpq.1]
    split_ifs
    · exact .cons hpq ih
    · exact ih

theorem length_set_le (x : Dict K ℚ) (k : K) (a : ℚ) : (x.set k a).entries.length ≤ x.entries.length + 1 := by
  unfold Dict.set
  simp only
  induction x.entries with
  | nil => simp [assocSet]
  | cons p l ih =>
    obtain ⟨p1, p2⟩ := p
    unfold assocSet
    split_ifs <;> simp <;> omega

end dict

theorem Alike.product {P Q S : ℚ → ℚ → Prop} (hS : ∀ a b c d, P a b → Q c d → S (fl (a * c)) (b * d)) {x₁ y₁ x₂ y₂ : Table} (h₁ : Alike P x₁ y₁) (h₂ : Alike Q x₂ y₂) :
    Alike S (cpdProductFl x₁ x₂) (cpdProduct y₁ y₂) := by
  unfold cpdProductFl cpdProduct
  have inner : ∀ (p q : Finset Str × ℚ), p.1 = q.1 → P p.2 q.2 → ∀ (r s : Table), Alike S r s →
      Alike S (x₂.entries.foldl (fun res q => if ¬ Disjoint p.1 q.1 then res.set (p.1 ∪ q.1) (fl (p.2 * q.2)) else res) r)
        (y₂.entries.foldl (fun res t => if ¬ Disjoint q.1 t.1 then res.set (q.1 ∪ t.1) (q.2 * t.2) else res) s) := by
    intro p q hpq hP
    unfold Alike at h₂
    generalize x₂.entries = l at *
    generalize y₂.entries = m at *
    induction h₂ with
    | nil => intro r s h; exact h
    | @cons a b l m hab _ ih =>
      intro r s h
      rw [List.foldl_cons, List.foldl_cons]
      refine ih _ _ ?_
      rw [← hpq, ← hab.1]
      split_ifs
      · exact h
      · exact h.set _ (hS _ _ _ _ hP hab.2)
  have outer : ∀ (l m : List (Finset Str × ℚ)), List.Forall₂ (fun p q => p.1 = q.1 ∧ P p.2 q.2) l m → ∀ (r s : Table), Alike S r s →
      Alike S (l.foldl (fun res p => x₂.entries.foldl (fun res q => if ¬ Disjoint p.1 q.1 then res.set (p.1 ∪ q.1) (fl (p.2 * q.2)) else res) res) r)
        (m.foldl (fun res p => y₂.entries.foldl (fun res q => if ¬ Disjoint p.1 q.1 then res.set (p.1 ∪ q.1) (p.2 * q.2) else res) res) s) := by
    intro l m hlm
    induction hlm with
    | nil => intro r s h; exact h
    | @cons a b l m hab _ ih =>
      intro r s h
      rw [List.foldl_cons, List.foldl_cons]
      exact ih _ _ (inner a b hab.1 hab.2 r s h)
  exact outer _ _ h₁ _ _ .nil

theorem length_product_le (x₁ x₂ : Table) : (cpdProduct x₁ x₂).entries.length ≤ x₁.entries.length * x₂.entries.length := by
  have inner : ∀ (p : Finset Str × ℚ) (l : List (Finset Str × ℚ)) (r : Table),
      (l.foldl (fun res q => if ¬ Disjoint p.1 q.1 then res.set (p.1 ∪ q.1) (p.2 * q.2) else res) r).entries.length ≤ r.entries.length + l.length := by
    intro p l
    induction l with
    | nil => intro r; simp
    | cons a l ih =>
      intro r
      rw [List.foldl_cons, List.length_cons]
      refine (ih _).trans ?_
      split_ifs
      · omega
      · have := length_set_le r (p.1 ∪ a.1) (p.2 * a.2)
        omega
  have outer : ∀ (l : List (Finset Str × ℚ)) (r : Table),
      (l.foldl (fun res p => x₂.entries.foldl (fun res q => if ¬ Disjoint p.1 q.1 then res.set (p.1 ∪ q.1) (p.2 * q.2) else res) res) r).entries.length
        ≤ r.entries.length + l.length * x₂.entries.length := by
    intro l
    induction l with
    | nil => intro r; simp
    | cons a l ih =>
      intro r
      rw [List.foldl_cons, List.length_cons, Nat.add_mul, Nat.one_mul]
      have := ih (x₂.entries.foldl (fun res q => if ¬ Disjoint a.1 q.1 then res.set (a.1 ∪ q.1) (a.2 * q.2) else res) r)
      have h2 := inner a x₂.entries r
      omega
  have := outer x₁.entries Dict.empty
  simpa [cpdProduct, Dict.empty] using this

/-- The float `x` for the number `y`: not negative, at most 2^b, zero or at least 2^-a, and near `y`. -/
structure Ap (k a b : ℕ) (x y : ℚ) : Prop where
  float : IsFloat x
  lo : x = 0 ∨ 2 ^ (-(a : ℤ)) ≤ x
  hi : x ≤ 2 ^ (b : ℤ)
  near : Near k x y

theorem Ap.nonneg {k a b : ℕ} {x y : ℚ} (h : Ap k a b x y) : 0 ≤ x := by
  rcases h.lo with h | h
  · rw [h]
  · exact (two_pow_pos _).le.trans h

theorem isFloat_two_pow {e : ℤ} (he : -1074 ≤ e) : IsFloat (2 ^ e) := ⟨1, e, by norm_num, he, by simp⟩

theorem roundable_of_lo {a : ℕ} (ha : a ≤ 1022) {x : ℚ} (h : x = 0 ∨ 2 ^ (-(a : ℤ)) ≤ x) : Roundable x := by
  rcases h with h | h
  · exact Or.inl h
  · refine Or.inr (le_trans ?_ h)
    exact zpow_le_zpow_right₀ (by norm_num) (by omega)

theorem fl_ap {k a b : ℕ} (ha : a ≤ 1022) {x y : ℚ} (hlo : x = 0 ∨ 2 ^ (-(a : ℤ)) ≤ x) (hhi : x ≤ 2 ^ (b : ℤ)) (hn : Near k x y) : Ap (k + 1) a b (fl x) y := by
  refine ⟨fl_isFloat _, ?_, fl_le (isFloat_two_pow (by omega)) hhi, ?_⟩
  · rcases hlo with rfl | h
    · exact Or.inl fl_zero
    · exact Or.inr (le_fl (isFloat_two_pow (by omega)) h)
  · rw [Nat.add_comm]
    exact (Near.fl (roundable_of_lo ha hlo)).trans hn

theorem Ap.mul {k a b k' a' b' : ℕ} (ha : a + a' ≤ 1022) {x y z w : ℚ} (h : Ap k a b x y) (h' : Ap k' a' b' z w) :
    Ap (k + k' + 1) (a + a') (b + b') (fl (x * z)) (y * w) := by
  refine fl_ap ha ?_ ?_ (h.near.mul h'.near h.nonneg h'.nonneg)
  · rcases h.lo with h1 | h1
    · left; rw [h1, zero_mul]
    · rcases h'.lo with h2 | h2
      · left; rw [h2, mul_zero]
      · right
        push_cast
        rw [neg_add, zpow_add₀ (by norm_num)]
        exact mul_le_mul h1 h2 (two_pow_pos _).le h.nonneg
  · push_cast
    rw [zpow_add₀ (by norm_num)]
    exact mul_le_mul h.hi h'.hi h'.nonneg (two_pow_pos _).le

theorem near_sum {k : ℕ} {l m : List ℚ} (h : List.Forall₂ (Near k) l m) : Near k l.sum m.sum := by
  induction h with
  | nil => simp [Near]
  | cons h _ ih => rw [List.sum_cons, List.sum_cons]; exact h.add ih

theorem alike_and {K : Type} {P : ℚ → ℚ → Prop} {R : ℚ → Prop} {x y : Dict K ℚ} (h : Alike P x y) (hR : ∀ v ∈ x.vals, R v) : Alike (fun a b => P a b ∧ R a) x y := by
  unfold Alike at *
  unfold Dict.vals at hR
  generalize x.entries = l at *
  generalize y.entries = m at *
  induction h with
  | nil => exact .nil
  | @cons p q l m hpq _ ih =>
    exact .cons ⟨hpq.1, hpq.2, hR _ (by simp)⟩ (ih fun v hv => hR v (by rw [List.map_cons]; exact List.mem_cons_of_mem _ hv))

theorem forall₂_left {P : ℚ → ℚ → Prop} {l m : List ℚ} (h : List.Forall₂ P l m) : ∀ v ∈ l, ∃ w, P v w := by
  induction h with
  | nil => simp
  | @cons a b l m hab _ ih =>
    intro v hv
    rcases List.mem_cons.1 hv with rfl | hv
    · exact ⟨b, hab⟩
    · exact ih v hv

/-- Normalisation: both raise, or both return and the result is near. -/
theorem Alike.norm (ver : PyVer) {k a b n : ℕ} (ha : a + b + 28 ≤ 1022) {x y : Table} (h : Alike (Ap k a b) x y) (hn : y.entries.length ≤ n) (hn' : n ≤ 2 ^ 26) :
    (normFl ver x = .error .zeroDiv ∧ norm y = .error .zeroDiv) ∨
    ∃ x' y', normFl ver x = .ok x' ∧ norm y = .ok y' ∧ Alike (Ap (2 * k + n + 6) (a + b + 28) 1) x' y' ∧ y'.entries.length = y.entries.length := by
  have hap : ∀ v ∈ x.vals, ∃ w, Ap k a b v w := forall₂_left h.vals
  have h0 : ∀ v ∈ x.vals, 0 ≤ v := fun v hv => (hap v hv).choose_spec.nonneg
  have hlen : x.vals.length ≤ n := by
    unfold Dict.vals; rw [List.length_map, h.length]; exact hn
  obtain ⟨t0, ht⟩ := near_pySum ver x.vals h0 (fun v hv => (hap v hv).choose_spec.float) (hlen.trans hn')
  have hS : Near k x.vals.sum y.vals.sum := near_sum (h.vals.imp fun _ _ h => h.near)
  have hT := (ht.trans hS).mono (l := n + 5 + k) (by omega) t0
  have ht' := ht.mono (l := n + 5) (by omega) t0
  have hsum0 : 0 ≤ x.vals.sum := List.sum_nonneg h0
  have hsumle : x.vals.sum ≤ 2 ^ (26 + (b : ℤ)) := by
    have h1 := List.sum_le_card_nsmul x.vals (2 ^ (b : ℤ)) fun v hv => (hap v hv).choose_spec.hi
    rw [nsmul_eq_mul] at h1
    refine h1.trans ?_
    rw [zpow_add₀ (by norm_num)]
    refine mul_le_mul_of_nonneg_right ?_ (two_pow_pos _).le
    have : ((x.vals.length : ℕ) : ℚ) ≤ ((2 ^ 26 : ℕ) : ℚ) := by exact_mod_cast hlen.trans hn'
    refine this.trans (by norm_num)
  have hhalf : (1 / 2 : ℚ) ≤ (1 - 1 / 2 ^ 53) ^ (n + 5) := by
    have hl := pow_lower (n := n + 5)
    rw [cc_eq]
    have : ((n + 5 : ℕ) : ℚ) ≤ ((2 ^ 27 : ℕ) : ℚ) := by
      have : n + 5 ≤ 2 ^ 27 := by omega
      exact_mod_cast this
    have h2 : ((n + 5 : ℕ) : ℚ) * uro ≤ 1 / 2 := by
      unfold uro
      have h3 : (((2 ^ 27 : ℕ) : ℚ)) ≤ 2 ^ 52 := by norm_num
      linarith
    linarith
  have hz := hT.zero_iff t0
  by_cases he : x.entries = []
  · right
    have hy : y.entries = [] := List.length_eq_zero_iff.1 (by rw [← h.length, he]; rfl)
    refine ⟨_, _, by unfold normFl; simp only; rw [if_neg (fun h => h.2 he)], by unfold Manual.norm; simp only; rw [if_neg (fun h => h.2 hy)], ?_, ?_⟩
    · unfold Alike Dict.mapVals; simp only; rw [he, hy]; exact .nil
    · unfold Dict.mapVals; simp
  have hy : y.entries ≠ [] := fun hy => he (List.length_eq_zero_iff.1 (by rw [h.length, hy]; rfl))
  by_cases hte : pySum ver x.vals = 0
  · left
    exact ⟨by unfold normFl; simp only; rw [if_pos ⟨hte, he⟩], by unfold Manual.norm; simp only; rw [if_pos ⟨hz.1 hte, hy⟩]⟩
  right
  refine ⟨_, _, by unfold normFl; simp only; rw [if_neg (fun h => hte h.1)], by unfold Manual.norm; simp only; rw [if_neg (fun h => hte (hz.2 h.1))], ?_,
    by unfold Dict.mapVals; simp⟩
  have htpos : 0 < pySum ver x.vals := lt_of_le_of_ne t0 (Ne.symm hte)
  have hmem := alike_and h (R := fun v => v ≤ x.vals.sum) fun v hv => List.single_le_sum h0 v hv
  generalize pySum ver x.vals = t at *
  refine Alike.mapVals ?_ hmem
  rintro v w ⟨hv, hvS⟩
  have hdiv := hv.near.div hT hv.nonneg htpos
  have htle : t ≤ 2 ^ (27 + (b : ℤ)) := by
    have h1 := ht'.2
    have h2 := mul_le_mul_of_nonneg_right hhalf t0
    have h3 : (2 : ℚ) ^ (27 + (b : ℤ)) = 2 * 2 ^ (26 + (b : ℤ)) := by
      rw [← zpow_one_add₀ (by norm_num)]; congr 1; ring
    rw [h3]
    linarith
  have hap' := fl_ap (a := a + b + 28) (b := 1) (x := v / t) (y := w / y.vals.sum) ha ?_ ?_ hdiv
  · exact ⟨hap'.float, hap'.lo, hap'.hi, hap'.near.mono (by omega) hap'.nonneg⟩
  · rcases hv.lo with h1 | h1
    · left; rw [h1, zero_div]
    · right
      rw [le_div_iff₀ htpos]
      refine le_trans (mul_le_mul_of_nonneg_left htle (two_pow_pos _).le) (le_trans ?_ h1)
      rw [← zpow_add₀ (by norm_num)]
      refine zpow_le_zpow_right₀ (by norm_num) ?_
      push_cast; omega
  · rw [div_le_iff₀ htpos]
    have h1 := ht'.1
    have h2 := mul_le_mul_of_nonneg_right hhalf hsum0
    norm_num
    linarith

/-- Margins: `k` errors in the entries and one for each addition. -/
theorem Alike.margin (o : Order Str) (v : Str) {k a b n : ℕ} {x y : Table} (h : Alike (Ap k a b) x y) (hn : y.entries.length ≤ n) :
    Alike (fun p q => 0 ≤ p ∧ Near (k + n) p q) (marginFl o x v) (margin o y v) := by
  have key : ∀ (l m : List (Finset Str × ℚ)), List.Forall₂ (fun p q => p.1 = q.1 ∧ Ap k a b p.2 q.2) l m → ∀ (j : ℕ) (r s : Dict Str ℚ),
      Alike (fun p q => IsFloat p ∧ 0 ≤ p ∧ Near (k + j) p q) r s →
      Alike (fun p q => IsFloat p ∧ 0 ≤ p ∧ Near (k + j + l.length) p q) (l.foldl (marginStepFl o v) r) (m.foldl (marginStep o v) s) := by
    intro l m hlm
    induction hlm with
    | nil => intro j r s h; simpa using h
    | @cons p q l m hpq _ ih =>
      intro j r s h
      rw [List.foldl_cons, List.foldl_cons]
      have : Alike (fun p q => IsFloat p ∧ 0 ≤ p ∧ Near (k + (j + 1)) p q) (marginStepFl o v r p) (marginStep o v s q) := by
        unfold marginStepFl marginStep
        rw [← hpq.1]
        have hup : Alike (fun p q => IsFloat p ∧ 0 ≤ p ∧ Near (k + (j + 1)) p q) r s := h.imp fun _ _ h => ⟨h.1, h.2.1, h.2.2.mono (by omega) h.2.1⟩
        cases pick o v p.1 with
        | none => exact hup
        | some e =>
          refine hup.set e ?_
          have hq := hpq.2.near.mono (l := k + j) (by omega) hpq.2.nonneg
          have hr : ∃ c d, (r.get? e).getD 0 = c ∧ (s.get? e).getD 0 = d ∧ IsFloat c ∧ 0 ≤ c ∧ Near (k + j) c d := by
            rcases h.get e with ⟨h1, h2⟩ | ⟨c, d, h1, h2, h3⟩
            · exact ⟨0, 0, by rw [h1]; rfl, by rw [h2]; rfl, isFloat_zero, le_rfl, by simp [Near]⟩
            · exact ⟨c, d, by rw [h1]; rfl, by rw [h2]; rfl, h3⟩
          obtain ⟨c, d, h1, h2, h3, h4, h5⟩ := hr
          rw [h1, h2]
          have hnn : 0 ≤ c + p.2 := add_nonneg h4 hpq.2.nonneg
          refine ⟨fl_isFloat _, fl_nonneg hnn, ?_⟩
          have hrel := fl_add_rel h3 hpq.2.float
          rw [abs_of_nonneg hnn] at hrel
          have := (near_of_rel hnn hrel).trans (h5.add hq)
          rwa [show k + (j + 1) = 1 + (k + j) by omega]
      have := ih (j + 1) _ _ this
      rw [List.length_cons]
      rwa [show k + j + (l.length + 1) = k + (j + 1) + l.length by omega]
  have := key _ _ h 0 Dict.empty Dict.empty .nil
  refine this.imp fun p q hpq => ⟨hpq.2.1, hpq.2.2.mono ?_ hpq.2.1⟩
  have := h.length
  omega

/-! ### The script -/

/-- Every entry is 0 or between 2^-200 and 1. -/
def Probs (x : Table) : Prop := ∀ k v, x.get? k = some v → (v = 0 ∨ 1 / 2 ^ 200 ≤ v) ∧ v ≤ 1

/-- The floats nearest to the entries, as for the literals of the script (76-96). -/
def rounded (x : Table) : Table := x.mapVals fl

/-- Two dictionaries have the same keys, and the values of the first differ from those of the second by at most `k` times 2^-52, relatively. -/
def Close {K : Type} [DecidableEq K] (k : ℕ) (x y : Dict K ℚ) : Prop :=
  x.keys = y.keys ∧ ∀ e v w, x.get? e = some v → y.get? e = some w → |v - w| ≤ k * (1 / 2 ^ 52) * w

theorem alike_close {K : Type} [DecidableEq K] {k : ℕ} (hk : k ≤ 2 ^ 52) {x y : Dict K ℚ} (h : Alike (fun p q => 0 ≤ p ∧ Near k p q) x y) : Close k x y := by
  constructor
  · have h' := h
    unfold Alike at h'
    unfold Dict.keys
    generalize x.entries = l at *
    generalize y.entries = m at *
    induction h' with
    | nil => rfl
    | cons h _ ih => rw [List.map_cons, List.map_cons, h.1, ih]
  · intro e v w hv hw
    rcases h.get e with ⟨h1, -⟩ | ⟨a, b, h1, h2, h3, h4⟩
    · rw [h1] at hv; cases hv
    · rw [h1] at hv; rw [h2] at hw
      cases hv; cases hw
      have := h4.rel hk h3
      have e1 : 2 * (k : ℚ) * (1 / 2 ^ 53) * w = k * (1 / 2 ^ 52) * w := by ring
      rwa [e1] at this

theorem rounded_alike {x : Table} (h : Probs x) : Alike (Ap 1 200 0) (rounded x) x := by
  refine alike_self fun v hv => ?_
  obtain ⟨p, hp, rfl⟩ := List.mem_map.1 hv
  obtain ⟨h1, h2⟩ := h p.1 p.2 ((x.mem_entries' p).1 hp)
  refine fl_ap (k := 0) (by omega) ?_ (by simpa using h2) (Near.refl _)
  rcases h1 with h1 | h1
  · exact Or.inl h1
  · right
    refine le_trans (le_of_eq ?_) h1
    rw [zpow_neg]; norm_num

theorem Alike.close {k a b : ℕ} (hk : k ≤ 2 ^ 52) {x y : Table} (h : Alike (Ap k a b) x y) : Close k x y :=
  alike_close hk (h.imp fun _ _ h => ⟨h.nonneg, h.near⟩)

theorem length_filterKeys_le (x : Table) (p : Finset Str → Bool) : (x.filterKeys p).entries.length ≤ x.entries.length := List.length_filter_le _ _

/-- **C102.** The script in floating point, with the floats nearest to the entries of any three tables: it raises `ZeroDivisionError` exactly if the exact computation does, otherwise all four tables
have the keys of the exact ones, and the relative errors are bounded by the number of entries; so are those of the margins. Here `n` bounds the numbers of entries of the products. -/
theorem C102_script (ver : PyVer) (d i g : Table) (d₁ g₁ : Str) (hd : Probs d) (hi : Probs i) (hg : Probs g) (n : ℕ)
    (hn : d.entries.length * (d.entries.length * (i.entries.length * g.entries.length)) ≤ n) (hn' : n ≤ 2 ^ 26) :
    (scriptFl ver (rounded d) (rounded i) (rounded g) d₁ g₁ = .error .zeroDiv ∧ script d i g d₁ g₁ = .error .zeroDiv) ∨
    ∃ r' r, scriptFl ver (rounded d) (rounded i) (rounded g) d₁ g₁ = .ok r' ∧ script d i g d₁ g₁ = .ok r ∧
      Close 5 r'.joint r.joint ∧ Close (n + 16) r'.jointD r.jointD ∧ Close (n + 16) r'.jointG r.jointG ∧ Close (3 * n + 42) r'.jointGD r.jointGD ∧
      ∀ o v, Close (n + 5) (marginFl o r'.joint v) (margin o r.joint v) ∧ Close (2 * n + 16) (marginFl o r'.jointD v) (margin o r.jointD v) ∧
        Close (2 * n + 16) (marginFl o r'.jointG v) (margin o r.jointG v) ∧ Close (4 * n + 42) (marginFl o r'.jointGD v) (margin o r.jointGD v) := by
  have hD := rounded_alike hd
  have hI := rounded_alike hi
  have hG := rounded_alike hg
  have hD1 : Alike (Ap 1 200 0) (selectValue (rounded d) d₁) (selectValue d d₁) := hD.filterKeys _
  have hG1 : Alike (Ap 1 200 0) (selectValue (rounded g) g₁) (selectValue g g₁) := hG.filterKeys _
  have hIG : Alike (Ap 3 400 0) (cpdProductFl (rounded i) (rounded g)) (cpdProduct i g) := hI.product (fun _ _ _ _ h h' => h.mul (by omega) h') hG
  have hIG1 : Alike (Ap 3 400 0) (cpdProductFl (rounded i) (selectValue (rounded g) g₁)) (cpdProduct i (selectValue g g₁)) :=
    hI.product (fun _ _ _ _ h h' => h.mul (by omega) h') hG1
  have hJ : Alike (Ap 5 600 0) (cpdProductFl (rounded d) (cpdProductFl (rounded i) (rounded g))) (cpdProduct d (cpdProduct i g)) :=
    hD.product (fun _ _ _ _ h h' => h.mul (by omega) h') hIG
  have hJD : Alike (Ap 5 600 0) (cpdProductFl (selectValue (rounded d) d₁) (cpdProductFl (rounded i) (rounded g))) (cpdProduct (selectValue d d₁) (cpdProduct i g)) :=
    hD1.product (fun _ _ _ _ h h' => h.mul (by omega) h') hIG
  have hJG : Alike (Ap 5 600 0) (cpdProductFl (rounded d) (cpdProductFl (rounded i) (selectValue (rounded g) g₁))) (cpdProduct d (cpdProduct i (selectValue g g₁))) :=
    hD.product (fun _ _ _ _ h h' => h.mul (by omega) h') hIG1
  have sD : (selectValue d d₁).entries.length ≤ d.entries.length := length_filterKeys_le _ _
  have sG : (selectValue g g₁).entries.length ≤ g.entries.length := length_filterKeys_le _ _
  have hsmall : d.entries.length * (i.entries.length * g.entries.length) ≤ n := by
    refine le_trans ?_ hn
    rcases Nat.eq_zero_or_pos d.entries.length with h | h
    · rw [h]; simp
    · exact Nat.le_mul_of_pos_left _ h
  have lIG := length_product_le i g
  have lIG1 : (cpdProduct i (selectValue g g₁)).entries.length ≤ i.entries.length * g.entries.length :=
    (length_product_le _ _).trans (Nat.mul_le_mul_left _ sG)
  have lJ : (cpdProduct d (cpdProduct i g)).entries.length ≤ n := ((length_product_le _ _).trans (Nat.mul_le_mul_left _ lIG)).trans hsmall
  have lJD : (cpdProduct (selectValue d d₁) (cpdProduct i g)).entries.length ≤ n := ((length_product_le _ _).trans (Nat.mul_le_mul sD lIG)).trans hsmall
  have lJG' : (cpdProduct d (cpdProduct i (selectValue g g₁))).entries.length ≤ d.entries.length * (i.entries.length * g.entries.length) :=
    (length_product_le _ _).trans (Nat.mul_le_mul_left _ lIG1)
  have lJG := lJG'.trans hsmall
  unfold scriptFl script
  simp only
  rcases hJD.norm ver (by omega) lJD hn' with ⟨e1, e2⟩ | ⟨x1, y1, e1, e2, a1, l1⟩
  · left; rw [e1, e2]; exact ⟨rfl, rfl⟩
  rw [e1, e2]
  rcases hJG.norm ver (by omega) lJG hn' with ⟨e3, e4⟩ | ⟨x2, y2, e3, e4, a2, l2⟩
  · left; rw [e3, e4]; exact ⟨rfl, rfl⟩
  rw [e3, e4]
  have hGD : Alike (Ap (1 + (2 * 5 + n + 6) + 1) (200 + (600 + 0 + 28)) (0 + 1)) (cpdProductFl (selectValue (rounded d) d₁) x2) (cpdProduct (selectValue d d₁) y2) :=
    hD1.product (fun _ _ _ _ h h' => h.mul (by omega) h') a2
  have lGD : (cpdProduct (selectValue d d₁) y2).entries.length ≤ n := by
    refine ((length_product_le _ _).trans (Nat.mul_le_mul sD ?_)).trans hn
    rw [l2]; exact lJG'
  rcases hGD.norm ver (by omega) lGD hn' with ⟨e5, e6⟩ | ⟨x3, y3, e5, e6, a3, l3⟩
  · left
    show (normFl ver (cpdProductFl (selectValue (rounded d) d₁) x2) >>= _) = _ ∧ (Manual.norm (cpdProduct (selectValue d d₁) y2) >>= _) = _
    rw [e5, e6]; exact ⟨rfl, rfl⟩
  right
  refine ⟨⟨_, x1, x2, x3⟩, ⟨_, y1, y2, y3⟩, ?_, ?_, hJ.close (by omega), ?_, ?_, ?_, fun o v => ⟨?_, ?_, ?_, ?_⟩⟩
  · show (normFl ver (cpdProductFl (selectValue (rounded d) d₁) x2) >>= _) = _
    rw [e5]; rfl
  · show (Manual.norm (cpdProduct (selectValue d d₁) y2) >>= _) = _
    rw [e6]; rfl
  · have := a1.close (by omega); rwa [show 2 * 5 + n + 6 = n + 16 by omega] at this
  · have := a2.close (by omega); rwa [show 2 * 5 + n + 6 = n + 16 by omega] at this
  · have := a3.close (by omega); rwa [show 2 * (1 + (2 * 5 + n + 6) + 1) + n + 6 = 3 * n + 42 by omega] at this
  · have := alike_close (by omega) (hJ.margin o v lJ); rwa [show 5 + n = n + 5 by omega] at this
  · have := alike_close (by omega) (a1.margin o v (n := n) (by rw [l1]; exact lJD)); rwa [show 2 * 5 + n + 6 + n = 2 * n + 16 by omega] at this
  · have := alike_close (by omega) (a2.margin o v (n := n) (by rw [l2]; exact lJG)); rwa [show 2 * 5 + n + 6 + n = 2 * n + 16 by omega] at this
  · have := alike_close (by omega) (a3.margin o v (n := n) (by rw [l3]; exact lGD)); rwa [show 2 * (1 + (2 * 5 + n + 6) + 1) + n + 6 + n = 4 * n + 42 by omega] at this

/-- **C102.** For tables of a network `D → G ← I`: with floats the script computes the conditional distributions of the joint distribution up to these relative errors, or raises
`ZeroDivisionError` when one of the observations has entries that are all 0. -/
theorem C102_conditional {I : Type} [DecidableEq I] (ver : PyVer) (var : Str → I) (vd vi vg : I) (d i g : Table)
    (hd : TableOver var {vd} d) (hi : TableOver var {vi} i) (hg : TableOver var {vi, vd, vg} g) (d₁ g₁ : Str) (hd₁ : var d₁ = vd) (hg₁ : var g₁ = vg)
    (pd : Probs d) (pi : Probs i) (pg : Probs g) (n : ℕ)
    (hn : d.entries.length * (d.entries.length * (i.entries.length * g.entries.length)) ≤ n) (hn' : n ≤ 2 ^ 26) :
    ∃ joint : Table, (∀ k w, joint.get? k = some w ↔ Joint var vd vi vg d i g k w) ∧
    ((scriptFl ver (rounded d) (rounded i) (rounded g) d₁ g₁ = .error .zeroDiv ∧
        (Fails joint (fun k => d₁ ∈ k) ∨ Fails joint (fun k => g₁ ∈ k) ∨ Fails joint fun k => d₁ ∈ k ∧ g₁ ∈ k)) ∨
      (¬ (Fails joint (fun k => d₁ ∈ k) ∨ Fails joint (fun k => g₁ ∈ k) ∨ Fails joint fun k => d₁ ∈ k ∧ g₁ ∈ k) ∧
        ∃ r', scriptFl ver (rounded d) (rounded i) (rounded g) d₁ g₁ = .ok r' ∧ Close 5 r'.joint joint ∧
          (∃ y, Conditioned joint (fun k => d₁ ∈ k) y ∧ Close (n + 16) r'.jointD y) ∧ (∃ y, Conditioned joint (fun k => g₁ ∈ k) y ∧ Close (n + 16) r'.jointG y) ∧
          ∃ y, Conditioned joint (fun k => d₁ ∈ k ∧ g₁ ∈ k) y ∧ Close (3 * n + 42) r'.jointGD y)) := by
  obtain ⟨joint, hJ, h⟩ := C67_script var vd vi vg d i g hd hi hg d₁ g₁ hd₁ hg₁
  refine ⟨joint, hJ, ?_⟩
  rcases C102_script ver d i g d₁ g₁ pd pi pg n hn hn' with ⟨e1, e2⟩ | ⟨r', r, e1, e2, c1, c2, c3, c4, -⟩
  · rcases h with ⟨-, h2⟩ | ⟨-, r, h2, -⟩
    · exact Or.inl ⟨e1, h2⟩
    · rw [e2] at h2; cases h2
  · rcases h with ⟨h1, -⟩ | ⟨h1, s, h2, h3, h4, h5, h6⟩
    · rw [e2] at h1; cases h1
    · rw [e2] at h2
      cases h2
      exact Or.inr ⟨h1, r', e1, h3 ▸ c1, ⟨_, h4, c2⟩, ⟨_, h5, c3⟩, ⟨_, h6, c4⟩⟩

theorem probs_of {x : Table} (h : ∀ p ∈ x.entries, (p.2 = 0 ∨ 1 / 2 ^ 200 ≤ p.2) ∧ p.2 ≤ 1) : Probs x :=
  fun k v hv => h (k, v) ((x.mem_entries k v).2 hv)

/-- **C102.** The tables of the script itself (76-96), which meet the hypotheses of `C102_script`: nothing is raised, and every printed probability differs from the exact one by less than one part in 2^43. -/
theorem C102_case (ver : PyVer) : ∃ r' r, scriptFl ver (rounded cpdD) (rounded cpdI) (rounded cpdG) ['d', '1'] ['g', '1'] = .ok r' ∧
    script cpdD cpdI cpdG ['d', '1'] ['g', '1'] = .ok r ∧ Close 234 r'.jointGD r.jointGD ∧
    r.jointGD.get? {['i', '1'], ['d', '1'], ['g', '1']} = some (30 / 163) ∧ ∀ o v, Close 298 (marginFl o r'.jointGD v) (margin o r.jointGD v) := by
  have hval : (script cpdD cpdI cpdG ['d', '1'] ['g', '1']).toOption.map (fun r => r.jointGD.get? {['i', '1'], ['d', '1'], ['g', '1']}) = some (some (30 / 163)) := by
    decide +kernel
  rcases C102_script ver cpdD cpdI cpdG ['d', '1'] ['g', '1'] (probs_of (by decide +kernel)) (probs_of (by decide +kernel)) (probs_of (by decide +kernel)) 64 (by decide) (by norm_num) with
    ⟨-, h⟩ | ⟨r', r, h1, h2, -, -, -, h3, h4⟩
  · rw [h] at hval; cases hval
  · refine ⟨r', r, h1, h2, h3, ?_, fun o v => (h4 o v).2.2.2⟩
    rw [h2] at hval
    exact Option.some.inj hval

theorem zeroDiv_of {A : Type} {x : Py A} (h : (match x with | .error .zeroDiv => true | _ => false) = true) : x = .error .zeroDiv := by
  cases x with
  | ok a => cases h
  | error e => cases e <;> first | rfl | cases h

/-- **C102**, refutation without lower bound: three tables with positive entries, for which the exact computation returns, and with floats the products are zero and `ZeroDivisionError` is raised. -/
theorem C102_underflow (ver : PyVer) : ∃ d i g : Table, (∀ x ∈ [d, i, g], rounded x = x ∧ ∀ k v, x.get? k = some v → 0 < v ∧ v ≤ 1) ∧
    (∃ r, script d i g ['d', '0'] ['g', '0'] = .ok r) ∧ scriptFl ver d i g ['d', '0'] ['g', '0'] = .error .zeroDiv := by
  refine ⟨⟨[({['d', '0']}, 1 / 2 ^ 400)], by decide⟩, ⟨[({['i', '0']}, 1 / 2 ^ 400)], by decide⟩, ⟨[({['d', '0'], ['i', '0'], ['g', '0']}, 1 / 2 ^ 400)], by decide⟩, ?_, ?_, ?_⟩
  · have hf : fl (1 / 2 ^ 400) = 1 / 2 ^ 400 := by
      have : (1 / 2 ^ 400 : ℚ) = 2 ^ (-400 : ℤ) := by rw [zpow_neg]; norm_num
      rw [this]; exact fl_of_isFloat (isFloat_two_pow (by norm_num))
    have hone : ∀ (k : Finset Str) (h : _), rounded ⟨[(k, 1 / 2 ^ 400)], h⟩ = ⟨[(k, 1 / 2 ^ 400)], h⟩ ∧
        ∀ k' v, (⟨[(k, 1 / 2 ^ 400)], h⟩ : Table).get? k' = some v → 0 < v ∧ v ≤ 1 := by
      intro k h
      refine ⟨?_, fun k' v hv => ?_⟩
      · unfold rounded Dict.mapVals; simp only [List.map_cons, List.map_nil, hf]
      · rw [← Dict.mem_entries] at hv
        have := (Prod.ext_iff.1 (List.mem_singleton.1 hv)).2
        simp only at this
        rw [this]
        exact ⟨by positivity, (div_le_one (by positivity)).2 (one_le_pow₀ (by norm_num))⟩
    intro x hx
    simp only [List.mem_cons, List.not_mem_nil, or_false] at hx
    rcases hx with rfl | rfl | rfl <;> exact hone _ _
  · have : (script ⟨[({['d', '0']}, 1 / 2 ^ 400)], by decide⟩ ⟨[({['i', '0']}, 1 / 2 ^ 400)], by decide⟩ ⟨[({['d', '0'], ['i', '0'], ['g', '0']}, 1 / 2 ^ 400)], by decide⟩
        ['d', '0'] ['g', '0']).isOk = true := by decide +kernel
    cases h : script ⟨[({['d', '0']}, 1 / 2 ^ 400)], by decide⟩ ⟨[({['i', '0']}, 1 / 2 ^ 400)], by decide⟩ ⟨[({['d', '0'], ['i', '0'], ['g', '0']}, 1 / 2 ^ 400)], by decide⟩
        ['d', '0'] ['g', '0'] with
    | error e => rw [h] at this; cases this
    | ok r => exact ⟨r, rfl⟩
  · refine zeroDiv_of ?_
    cases ver <;> decide +kernel

end Verif.Manual
