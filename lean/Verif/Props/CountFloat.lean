import Verif.Model.PowerFloat
import Verif.Props.Count

/-!
# The number of outcomes computed with floats (C39, continued)
-/

set_option linter.unusedSectionVars false

namespace Verif
open Finset Relation

/-- What is assumed of the power of floats: it is exact for whole numbers up to `2 ^ 53`. -/
def PowExact (pw : ℕ → ℕ → ℚ) : Prop := ∀ b k : ℕ, b ^ k ≤ 2 ^ 53 → pw b k = (b : ℚ) ^ k

theorem fl_nat {n : ℕ} (h : n ≤ 2 ^ 53) : fl (n : ℚ) = n := by
  have := fl_of_isFloat (isFloat_int (k := (n : ℤ)) (by rw [abs_of_nonneg (by positivity)]; exact_mod_cast h))
  exact_mod_cast this

/-! ### The numbers of connected graphs -/

theorem cK_nat (r k : ℕ) : ∃ c : ℕ, cK r k = c ∧ c ≤ (r + 1) ^ (k * (k - 1) / 2) ∧ (1 ≤ r → 1 ≤ c) := by
  have h := card_conns (range r) (range k)
  rw [card_range, card_range] at h
  refine ⟨_, h.symm, ?_, fun hr => ?_⟩
  · have := card_cfgs (range r) (range k)
    rw [card_range, card_range] at this
    rw [← this]
    exact card_le_card fun E hE => ((mem_conns _ _ _).1 hE).1
  · rw [Nat.one_le_iff_ne_zero, Ne, card_eq_zero, ← Ne, ← nonempty_iff_ne_empty]
    -- a star
    refine ⟨(Finset.Ico 1 k).image fun i => (({0, i} : Finset ℕ), 0), (mem_conns _ _ _).2 ⟨(mem_cfgs _ _ _).2 ⟨?_, ?_⟩, ?_⟩⟩
    · intro e he
      obtain ⟨i, hi, rfl⟩ := mem_image.1 he
      rw [mem_Ico] at hi
      refine ⟨⟨?_, card_pair (by omega)⟩, mem_range.2 (by omega)⟩
      intro x hx
      rw [mem_insert, mem_singleton] at hx
      rw [mem_range]
      omega
    · intro e he e' he' hee
      obtain ⟨i, hi, rfl⟩ := mem_image.1 he
      obtain ⟨j, hj, rfl⟩ := mem_image.1 he'
      exact Prod.ext hee rfl
    · have hzero : ∀ a ∈ range k, ReflTransGen (Linked Prod.fst ((Finset.Ico 1 k).image fun i => (({0, i} : Finset ℕ), 0))) a 0 ∧
          ReflTransGen (Linked Prod.fst ((Finset.Ico 1 k).image fun i => (({0, i} : Finset ℕ), 0))) 0 a := by
        intro a ha
        rw [mem_range] at ha
        by_cases h0 : a = 0
        · subst h0; exact ⟨.refl, .refl⟩
        · have hm : (({0, a} : Finset ℕ), 0) ∈ (Finset.Ico 1 k).image fun i => (({0, i} : Finset ℕ), 0) := mem_image.2 ⟨a, mem_Ico.2 ⟨by omega, ha⟩, rfl⟩
          exact ⟨.single ⟨_, hm, by simp, by simp⟩, .single ⟨_, hm, by simp, by simp⟩⟩
      intro a ha b hb
      exact (hzero a ha).1.trans (hzero b hb).2

theorem choose_le_half {k i : ℕ} (h1 : 1 ≤ i) (h2 : i < k) : Nat.choose k i ≤ 2 ^ (k - 1) := by
  obtain ⟨j, rfl⟩ : ∃ j, i = j + 1 := ⟨i - 1, by omega⟩
  obtain ⟨m, rfl⟩ : ∃ m, k = m + 1 := ⟨k - 1, by omega⟩
  rw [Nat.choose_succ_succ, Nat.add_sub_cancel, ← Nat.sum_range_choose]
  have hsub : ({j, j + 1} : Finset ℕ) ⊆ range (m + 1) := by
    intro x hx
    rw [mem_insert, mem_singleton] at hx
    rw [mem_range]
    omega
  calc _ = ∑ x ∈ ({j, j + 1} : Finset ℕ), m.choose x := by rw [sum_pair (by omega)]
    _ ≤ _ := sum_le_sum_of_subset hsub

theorem half_split (a b : ℕ) : (a + b) * (a + b - 1) / 2 = a * (a - 1) / 2 + a * b + b * (b - 1) / 2 := by
  rw [← Nat.choose_two_right, ← Nat.choose_two_right, ← Nat.choose_two_right]
  induction b with
  | zero => simp
  | succ b ih =>
    have h1 : (a + (b + 1)).choose 2 = (a + b).choose 1 + (a + b).choose 2 := Nat.choose_succ_succ _ _
    have h2 : (b + 1).choose 2 = b.choose 1 + b.choose 2 := Nat.choose_succ_succ _ _
    rw [h1, h2, ih, Nat.choose_one_right, Nat.choose_one_right]
    ring

theorem choose_mul_le {r k i : ℕ} (hr : 1 ≤ r) (h1 : 1 ≤ i) (h2 : i < k) :
    i * Nat.choose k i * (r + 1) ^ ((k - i) * (k - i - 1) / 2) ≤ k * (r + 1) ^ (k * (k - 1) / 2) := by
  obtain ⟨b, rfl⟩ : ∃ b, k = i + b := ⟨k - i, by omega⟩
  rw [Nat.add_sub_cancel_left, half_split, pow_add, pow_add]
  have hc : Nat.choose (i + b) i ≤ (r + 1) ^ (i * b) := by
    refine (choose_le_half h1 h2).trans ((Nat.pow_le_pow_left (by omega : 2 ≤ r + 1) _).trans (Nat.pow_le_pow_right (by omega) ?_))
    obtain ⟨b', rfl⟩ : ∃ b', b = b' + 1 := ⟨b - 1, by omega⟩
    obtain ⟨i', rfl⟩ : ∃ i', i = i' + 1 := ⟨i - 1, by omega⟩
    have : (i' + 1) * (b' + 1) = i' * b' + i' + b' + 1 := by ring
    omega
  have hp : 1 ≤ (r + 1) ^ (i * (i - 1) / 2) := Nat.one_le_pow _ _ (by omega)
  calc _ ≤ (i + b) * (r + 1) ^ (i * b) * (r + 1) ^ (b * (b - 1) / 2) := by
        refine Nat.mul_le_mul_right _ (Nat.mul_le_mul (Nat.le_add_right _ _) hc)
    _ = (i + b) * (1 * (r + 1) ^ (i * b) * (r + 1) ^ (b * (b - 1) / 2)) := by ring
    _ ≤ _ := by gcongr

theorem half_mono {i k : ℕ} (h : i ≤ k) : i * (i - 1) / 2 ≤ k * (k - 1) / 2 :=
  Nat.div_le_div_right (Nat.mul_le_mul h (Nat.sub_le_sub_right h 1))

/-! ### Exactness -/

/-- Sums of whole numbers below `2 ^ 53` are exact. -/
theorem foldl_exact {A : Type} (f : A → ℚ) (g : A → ℕ) (l : List A) (hf : ∀ a ∈ l, f a = g a) (s : ℕ) (hs : s + (l.map g).sum ≤ 2 ^ 53) :
    l.foldl (fun st a => fl (st + f a)) (s : ℚ) = ((s + (l.map g).sum : ℕ) : ℚ) := by
  induction l generalizing s with
  | nil => simp
  | cons a t ih =>
    rw [List.map_cons, List.sum_cons] at hs
    rw [List.foldl_cons, hf a (by simp)]
    have : fl ((s : ℚ) + g a) = ((s + g a : ℕ) : ℚ) := by
      have := fl_nat (n := s + g a) (by omega)
      push_cast at this ⊢
      exact this
    rw [this, ih (fun x hx => hf x (by simp [hx])) (s + g a) (by omega)]
    simp [add_assoc]

theorem cKF_exact {pw : ℕ → ℕ → ℚ} (hpw : PowExact pw) {r : ℕ} (hr : 1 ≤ r) (k : ℕ) (hk : k * (r + 1) ^ (k * (k - 1) / 2) ≤ 2 ^ 53) : cKF pw r k = cK r k := by
  induction k using Nat.strong_induction_on with
  | _ k ih =>
    by_cases h0 : k = 0
    · subst h0; rw [cK_zero, cKF, if_pos rfl]
    have hpos : 0 < k := Nat.pos_of_ne_zero h0
    have hP : (r + 1) ^ (k * (k - 1) / 2) ≤ 2 ^ 53 := le_trans (Nat.le_mul_of_pos_left _ hpos) hk
    -- the numbers of connected graphs
    obtain ⟨c, hc⟩ : ∃ c : ℕ → ℕ, ∀ i, cK r i = c i ∧ c i ≤ (r + 1) ^ (i * (i - 1) / 2) ∧ (1 ≤ r → 1 ≤ c i) :=
      ⟨fun i => (cK_nat r i).choose, fun i => (cK_nat r i).choose_spec⟩
    set T : ℕ → ℕ := fun i => i * Nat.choose k i * (r + 1) ^ ((k - i) * (k - i - 1) / 2) * c i with hT
    have hrec := cK_pos r k h0
    have hsum : (∑ i ∈ Finset.Ico 1 k, (i : ℚ) * (Nat.choose k i : ℚ) * ((r : ℚ) + 1) ^ ((k - i) * (k - i - 1) / 2) * cK r i) =
        ((∑ i ∈ Finset.Ico 1 k, T i : ℕ) : ℚ) := by
      push_cast
      refine sum_congr rfl fun i _ => ?_
      rw [(hc i).1, hT]
      push_cast
      ring
    rw [hsum] at hrec
    have hst : (∑ i ∈ Finset.Ico 1 k, T i) + k * c k = k * (r + 1) ^ (k * (k - 1) / 2) := by
      have hkq : (k : ℚ) ≠ 0 := by exact_mod_cast h0
      rw [(hc k).1] at hrec
      field_simp at hrec
      have hq : ((∑ i ∈ Finset.Ico 1 k, T i : ℕ) : ℚ) + k * c k = k * ((r : ℚ) + 1) ^ (k * (k - 1) / 2) := by linarith
      exact_mod_cast hq
    have hlist : ((List.range' 1 (k - 1)).map T).sum = ∑ i ∈ Finset.Ico 1 k, T i := by
      rfl
    have hexp : ∀ i, 1 ≤ i → i < k → fl (fl (fl ((i * Nat.choose k i : ℕ) : ℚ) * pw (r + 1) ((k - i) * (k - i - 1) / 2)) * cKF pw r i) = ((T i : ℕ) : ℚ) := by
      intro i h1 h2
      have hle : T i ≤ 2 ^ 53 := by
        have : T i ≤ ∑ i ∈ Finset.Ico 1 k, T i := single_le_sum_of_canonicallyOrdered (f := T) (mem_Ico.2 ⟨h1, h2⟩)
        omega
      have hi : i * (r + 1) ^ (i * (i - 1) / 2) ≤ 2 ^ 53 :=
        (Nat.mul_le_mul h2.le (Nat.pow_le_pow_right (by omega) (half_mono h2.le))).trans hk
      have hm := (choose_mul_le hr h1 h2).trans hk
      have hp1 : 1 ≤ (r + 1) ^ ((k - i) * (k - i - 1) / 2) := Nat.one_le_pow _ _ (by omega)
      have ha : i * Nat.choose k i ≤ 2 ^ 53 := (Nat.le_mul_of_pos_right _ hp1).trans hm
      have hpw' : pw (r + 1) ((k - i) * (k - i - 1) / 2) = (((r + 1) ^ ((k - i) * (k - i - 1) / 2) : ℕ) : ℚ) := by
        rw [hpw _ _ ((Nat.pow_le_pow_right (by omega) (half_mono (Nat.sub_le k i))).trans hP)]
        push_cast
        rfl
      rw [ih i h2 hi, (hc i).1, fl_nat ha, hpw', ← Nat.cast_mul, fl_nat hm, ← Nat.cast_mul, fl_nat hle]
    have hfold : (List.range' 1 (k - 1)).attach.foldl (init := (0 : ℚ)) (fun st i =>
        fl (st + fl (fl (fl ((i.1 * Nat.choose k i.1 : ℕ) : ℚ) * pw (r + 1) ((k - i.1) * (k - i.1 - 1) / 2)) * cKF pw r i.1))) =
        ((∑ i ∈ Finset.Ico 1 k, T i : ℕ) : ℚ) := by
      have hmap : ((List.range' 1 (k - 1)).attach.map fun i => T i.1) = (List.range' 1 (k - 1)).map T := by
        rw [List.attach_map_val (f := T)]
      have := foldl_exact (fun i : {x // x ∈ List.range' 1 (k - 1)} => fl (fl (fl ((i.1 * Nat.choose k i.1 : ℕ) : ℚ) * pw (r + 1) ((k - i.1) * (k - i.1 - 1) / 2)) * cKF pw r i.1))
        (fun i => T i.1) (List.range' 1 (k - 1)).attach (by
          intro i _
          have := List.mem_range'_1.1 i.2
          exact hexp i.1 this.1 (by omega)) 0 (by rw [hmap, hlist]; omega)
      rw [hmap, hlist, Nat.zero_add] at this
      exact_mod_cast this
    rw [cKF, if_neg h0]
    simp only
    rw [hfold, hpw _ _ hP]
    -- the quotient is a whole number
    have hle : c k ≤ (r + 1) ^ (k * (k - 1) / 2) := (hc k).2.1
    have hdiv : ((∑ i ∈ Finset.Ico 1 k, T i : ℕ) : ℚ) / k = (((r + 1) ^ (k * (k - 1) / 2) - c k : ℕ) : ℚ) := by
      have hkq : (k : ℚ) ≠ 0 := by exact_mod_cast h0
      rw [div_eq_iff hkq, Nat.cast_sub hle]
      have hq : ((∑ i ∈ Finset.Ico 1 k, T i : ℕ) : ℚ) + k * c k = k * ((r + 1 : ℕ) : ℚ) ^ (k * (k - 1) / 2) := by exact_mod_cast hst
      push_cast at hq ⊢
      linarith
    rw [hdiv, fl_nat (by omega), (hc k).1]
    have : (((r + 1 : ℕ) : ℚ)) ^ (k * (k - 1) / 2) - (((r + 1) ^ (k * (k - 1) / 2) - c k : ℕ) : ℚ) = ((c k : ℕ) : ℚ) := by
      rw [Nat.cast_sub hle]
      push_cast
      ring
    rw [this, fl_nat (by omega)]

/-- **C39.** With floats, and with `int()` at the end: as long as the number of outcomes and `n` times the number of coloured graphs over `n` variables are at most `2 ^ 53` every number that is
computed is a whole number without error, and the result is that of the exact recurrence. -/
theorem C39_float {pw : ℕ → ℕ → ℚ} (hpw : PowExact pw) {n m r : ℕ} (hr : 1 ≤ r) (hm : 1 ≤ m) (hgraphs : n * (r + 1) ^ (n * (n - 1) / 2) ≤ 2 ^ 53)
    (hout : calcNumberOfOutcomes n (m + 1) r ≤ 2 ^ 53) : (calcNumberOfOutcomesF pw n (m + 1) r : ℚ) = calcNumberOfOutcomes n (m + 1) r := by
  obtain ⟨c, hc⟩ : ∃ c : ℕ → ℕ, ∀ i, cK r i = c i ∧ c i ≤ (r + 1) ^ (i * (i - 1) / 2) ∧ (1 ≤ r → 1 ≤ c i) :=
    ⟨fun i => (cK_nat r i).choose, fun i => (cK_nat r i).choose_spec⟩
  set T : ℕ → ℕ := fun k => Nat.choose n k * (c k * m ^ k) with hT
  have hcalc : calcNumberOfOutcomes n (m + 1) r = ((∑ k ∈ Finset.Ico 1 (n + 1), T k : ℕ) : ℚ) := by
    unfold calcNumberOfOutcomes
    push_cast
    refine sum_congr rfl fun k _ => ?_
    rw [(hc k).1, hT]
    push_cast
    ring
  rw [hcalc] at hout ⊢
  have hout : ∑ k ∈ Finset.Ico 1 (n + 1), T k ≤ 2 ^ 53 := by exact_mod_cast hout
  have hlist : ((List.range' 1 n).map T).sum = ∑ k ∈ Finset.Ico 1 (n + 1), T k := by
    show _ = (Multiset.map T (Multiset.ofList (List.range' 1 (n + 1 - 1)))).sum
    rw [Nat.add_sub_cancel]
    rfl
  have hterm : ∀ k ∈ List.range' 1 n, fl (fl (Nat.choose n k : ℚ) * fl (cKF pw r k * fl (((m + 1 - 1) ^ k : ℕ) : ℚ))) = ((T k : ℕ) : ℚ) := by
    intro k hk
    have hk' := List.mem_range'_1.1 hk
    have hkn : k ≤ n := by omega
    have hTk : T k ≤ 2 ^ 53 := by
      have : T k ≤ ∑ k ∈ Finset.Ico 1 (n + 1), T k := single_le_sum_of_canonicallyOrdered (f := T) (mem_Ico.2 ⟨hk'.1, by omega⟩)
      omega
    have hmk : 1 ≤ m ^ k := Nat.one_le_pow _ _ hm
    have hck := (hc k).2.2 hr
    have hch : 1 ≤ Nat.choose n k := Nat.choose_pos hkn
    have h2 : c k * m ^ k ≤ 2 ^ 53 := (Nat.le_mul_of_pos_left _ hch).trans hTk
    have h3 : m ^ k ≤ 2 ^ 53 := (Nat.le_mul_of_pos_left _ hck).trans h2
    have h4 : Nat.choose n k ≤ 2 ^ 53 := (Nat.le_mul_of_pos_right _ (Nat.mul_pos hck hmk)).trans hTk
    have hi : k * (r + 1) ^ (k * (k - 1) / 2) ≤ 2 ^ 53 := (Nat.mul_le_mul hkn (Nat.pow_le_pow_right (by omega) (half_mono hkn))).trans hgraphs
    rw [cKF_exact hpw hr k hi, (hc k).1, Nat.add_sub_cancel, fl_nat h3, ← Nat.cast_mul, fl_nat h2, fl_nat h4, ← Nat.cast_mul, fl_nat hTk]
  have hfold := foldl_exact (fun k => fl (fl (Nat.choose n k : ℚ) * fl (cKF pw r k * fl (((m + 1 - 1) ^ k : ℕ) : ℚ)))) T (List.range' 1 n) hterm 0 (by rw [hlist]; omega)
  rw [Nat.zero_add, hlist, Nat.cast_zero] at hfold
  unfold calcNumberOfOutcomesF nKF
  rw [hfold]
  unfold truncF
  rw [if_pos (Nat.cast_nonneg _), Int.floor_natCast]
  push_cast
  rfl

variable {V X R : Type} [DecidableEq V] [DecidableEq X] [DecidableEq R]

/-- **C39.** The assertion of the experiment holds as it is computed: for variables of `m` values each and `r` relation types the graph of all outcomes is made, and the number of its outcomes is the
number computed with floats, within the bounds of C39_float. -/
theorem C39_assertion {pw : ℕ → ℕ → ℚ} (hpw : PowExact pw) (o : GenOrders V X R) (prov : Nat) (vars : Dict V (Finset X)) (rels : Finset R) (hv : vars.keys ≠ []) (hr : rels.Nonempty) {m : ℕ}
    (hm : 1 ≤ m) (hcard : ∀ v xs, vars.get? v = some xs → xs.card = m)
    (hgraphs : vars.keys.length * (rels.card + 1) ^ (vars.keys.length * (vars.keys.length - 1) / 2) ≤ 2 ^ 53) (hout : calcNumberOfOutcomes vars.keys.length (m + 1) rels.card ≤ 2 ^ 53) :
    ∃ sp, allOutcomesGraph o prov vars rels = .ok sp ∧ (sp.outcomes.length : ℤ) = calcNumberOfOutcomesF pw vars.keys.length (m + 1) rels.card := by
  obtain ⟨sp, hsp⟩ := allOutcomesGraph_ok o prov vars rels (fun he => hv (by rw [Dict.keys, he]; rfl)) hr
    (fun v xs hx => card_pos.1 (by rw [hcard v xs hx]; exact hm))
  refine ⟨sp, hsp, ?_⟩
  have h1 := C39_recurrence o prov vars rels sp hsp m hcard
  have h2 := C39_float hpw hr.card_pos hm hgraphs hout
  rw [← h1] at h2
  exact_mod_cast h2.symm

/-- **C39.** In particular all the assertions of the experiment hold: up to four variables, values and relation types. -/
theorem C39_experiment {pw : ℕ → ℕ → ℚ} (hpw : PowExact pw) (o : GenOrders V X R) (prov : Nat) (vars : Dict V (Finset X)) (rels : Finset R) (hv : vars.keys ≠ []) (hr : rels.Nonempty) {m : ℕ}
    (hm : 1 ≤ m) (hcard : ∀ v xs, vars.get? v = some xs → xs.card = m) (h4 : vars.keys.length ≤ 4 ∧ m ≤ 4 ∧ rels.card ≤ 4) :
    ∃ sp, allOutcomesGraph o prov vars rels = .ok sp ∧ (sp.outcomes.length : ℤ) = calcNumberOfOutcomesF pw vars.keys.length (m + 1) rels.card := by
  obtain ⟨h1, h2, h3⟩ := h4
  have hpow : ∀ k ≤ 4, (rels.card + 1) ^ (k * (k - 1) / 2) ≤ 5 ^ 6 := fun k hk =>
    (Nat.pow_le_pow_left (by omega) _).trans (Nat.pow_le_pow_right (by omega) ((half_mono hk).trans (by decide)))
  refine C39_assertion hpw o prov vars rels hv hr hm hcard ?_ ?_
  · exact (Nat.mul_le_mul h1 (hpow _ h1)).trans (by norm_num)
  · unfold calcNumberOfOutcomes
    have : ∀ k ∈ Finset.Ico 1 (vars.keys.length + 1), (Nat.choose vars.keys.length k : ℚ) * (cK rels.card k * (((m + 1 : ℕ) : ℚ) - 1) ^ k) ≤ 6 * (5 ^ 6 * 4 ^ 4) := by
      intro k hk
      rw [mem_Ico] at hk
      obtain ⟨c, hc, hle, -⟩ := cK_nat rels.card k
      have hch : Nat.choose vars.keys.length k ≤ 6 :=
        (Nat.choose_le_choose k h1).trans ((by decide : ∀ k ≤ 4, Nat.choose 4 k ≤ 6) k (by omega))
      have hmk : m ^ k ≤ 4 ^ 4 := (Nat.pow_le_pow_left h2 k).trans (Nat.pow_le_pow_right (by omega) (by omega))
      have := Nat.mul_le_mul hch (Nat.mul_le_mul (hle.trans (hpow k (by omega))) hmk)
      rw [hc]
      push_cast
      rw [add_sub_cancel_right]
      exact_mod_cast this
    refine (sum_le_card_nsmul _ _ _ this).trans ?_
    rw [Nat.card_Ico, nsmul_eq_mul]
    have : ((vars.keys.length + 1 - 1 : ℕ) : ℚ) ≤ 4 := by exact_mod_cast (by omega : vars.keys.length + 1 - 1 ≤ 4)
    calc _ ≤ (4 : ℚ) * (6 * (5 ^ 6 * 4 ^ 4)) := by gcongr
      _ ≤ 2 ^ 53 := by norm_num

/-- Non-vacuity: a power that is rounded to the nearest float. -/
example : PowExact fun b k => fl ((b : ℚ) ^ k) := by
  intro b k h
  have := fl_nat h
  push_cast at this
  exact this

end Verif
