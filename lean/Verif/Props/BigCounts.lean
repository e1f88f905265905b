import Verif.Model.BigCounts
import Verif.Props.FloatProb

/-!
# C103: counts beyond the range of floats in `FoldedNode.marginal_distribution`
-/

set_option linter.unusedSectionVars false
set_option exponentiation.threshold 1100

namespace Verif
namespace BigCounts
variable {V X R : Type} [DecidableEq V] [DecidableEq X] [DecidableEq R]

theorem isFloat_top : IsFloat (2 ^ 1024) := ⟨1, 1024, by norm_num, by norm_num, by norm_num⟩

/-- The largest `float`. -/
theorem isFloat_max : IsFloat (2 ^ 1024 - 2 ^ 971) := ⟨2 ^ 53 - 1, 971, by norm_num, by norm_num, by norm_num⟩

theorem huge_of_le {q : ℚ} (h : 2 ^ 1024 ≤ q) : huge q := le_trans (le_fl isFloat_top h) (le_abs_self _)

theorem not_huge_of_le {q : ℚ} (h : |q| ≤ 2 ^ 1024 - 2 ^ 971) : ¬ huge q := by
  have h1 := abs_fl_le isFloat_max h
  unfold huge
  rw [not_le]
  refine lt_of_le_of_lt h1 ?_
  norm_num

theorem huge_mono {q r : ℚ} (h0 : 0 ≤ q) (h : q ≤ r) (hq : huge q) : huge r := by
  unfold huge at *
  rw [abs_of_nonneg (fl_nonneg h0)] at hq
  exact le_trans (hq.trans (fl_mono h)) (le_abs_self _)

theorem not_huge_unit {q : ℚ} (h0 : 0 ≤ q) (h1 : q ≤ 1) : ¬ huge q :=
  not_huge_of_le (by rw [abs_of_nonneg h0]; exact h1.trans (by norm_num))

theorem addCount_zero (c : ℤ) : addCount (some 0) c = if huge c then .error .overflow else .ok (some (fl c)) := by
  unfold addCount
  split
  · rfl
  · rename_i h
    have h1 : fl ((0 : ℚ) + fl c) = fl c := by rw [zero_add]; exact fl_of_isFloat (fl_isFloat _)
    have h2 : ¬ huge ((0 : ℚ) + fl c) := by unfold huge at *; rwa [h1]
    simp only [if_neg h2, h1]

/-- The loop over nodes with distinct values, each of which still has the sum `0.0`. -/
theorem loop_ok : ∀ (l : List (Node V X × ℤ)) (acc : Dict X (Option ℚ)) (total : ℤ), (l.map fun p => p.1.val).Nodup →
    (∀ p ∈ l, acc.get? p.1.val = some (some 0)) → (∀ p ∈ l, ¬ huge (p.2 : ℚ)) →
    ∃ acc', FoldedNode.distLoopOv l (acc, total) = .ok (acc', total + (l.map Prod.snd).sum) ∧
      (∀ p ∈ l, acc'.get? p.1.val = some (some (fl p.2))) ∧ ∀ x, (∀ p ∈ l, p.1.val ≠ x) → acc'.get? x = acc.get? x := by
  intro l
  induction l with
  | nil => intro acc total _ _ _; exact ⟨acc, by simp [FoldedNode.distLoopOv], by simp, by simp⟩
  | cons p t ih =>
    obtain ⟨n, c⟩ := p
    intro acc total hnd hz hh
    rw [List.map_cons, List.nodup_cons] at hnd
    have hne : ∀ p ∈ t, n.val ≠ p.1.val := fun p hp e => hnd.1 (e ▸ List.mem_map_of_mem (f := fun p : Node V X × ℤ => p.1.val) hp)
    obtain ⟨acc', h1, h2, h3⟩ := ih (acc.set n.val (some (fl c))) (total + c) hnd.2
      (fun p hp => by rw [Dict.get?_set, if_neg (hne p hp)]; exact hz p (List.mem_cons_of_mem _ hp))
      (fun p hp => hh p (List.mem_cons_of_mem _ hp))
    have hz0 := hz (n, c) List.mem_cons_self
    have hh0 := hh (n, c) List.mem_cons_self
    refine ⟨acc', ?_, ?_, ?_⟩
    · unfold FoldedNode.distLoopOv
      simp only at hz0 hh0
      rw [hz0]
      simp only [addCount_zero, if_neg hh0, h1, List.map_cons, List.sum_cons, add_assoc]
    · intro p hp
      rcases List.mem_cons.1 hp with rfl | hp
      · rw [h3 _ (fun q hq e => hne q hq e.symm), Dict.get?_set, if_pos rfl]
      · exact h2 p hp
    · intro x hx
      rw [h3 x (fun p hp => hx p (List.mem_cons_of_mem _ hp)), Dict.get?_set, if_neg (hx (n, c) List.mem_cons_self)]

theorem loop_overflow : ∀ (l : List (Node V X × ℤ)) (acc : Dict X (Option ℚ)) (total : ℤ), (l.map fun p => p.1.val).Nodup →
    (∀ p ∈ l, acc.get? p.1.val = some (some 0)) → (∃ p ∈ l, huge (p.2 : ℚ)) →
    FoldedNode.distLoopOv l (acc, total) = .error .overflow := by
  intro l
  induction l with
  | nil => rintro acc total _ _ ⟨p, hp, _⟩; simp at hp
  | cons p t ih =>
    obtain ⟨n, c⟩ := p
    intro acc total hnd hz hh
    rw [List.map_cons, List.nodup_cons] at hnd
    have hne : ∀ p ∈ t, n.val ≠ p.1.val := fun p hp e => hnd.1 (e ▸ List.mem_map_of_mem (f := fun p : Node V X × ℤ => p.1.val) hp)
    have hz0 := hz (n, c) List.mem_cons_self
    unfold FoldedNode.distLoopOv
    simp only at hz0
    rw [hz0]
    simp only [addCount_zero]
    by_cases hc : huge (c : ℚ)
    · simp only [if_pos hc]
    · simp only [if_neg hc]
      apply ih _ _ hnd.2 (fun p hp => by rw [Dict.get?_set, if_neg (hne p hp)]; exact hz p (List.mem_cons_of_mem _ hp))
      obtain ⟨p, hp, hp'⟩ := hh
      rcases List.mem_cons.1 hp with rfl | hp
      · exact absurd hp' hc
      · exact ⟨p, hp, hp'⟩

theorem divide_ok (n : ℤ) (f : AccNum → Option ℚ) : ∀ l : List (X × AccNum), (∀ p ∈ l, p.2.divBy n = .ok (f p.2)) →
    FoldedNode.divideOv n l = .ok (l.map fun p => (p.1, f p.2)) := by
  intro l
  induction l with
  | nil => intro _; rfl
  | cons p t ih =>
    intro h
    obtain ⟨x, a⟩ := p
    unfold FoldedNode.divideOv
    rw [h (x, a) List.mem_cons_self]
    simp only [ih fun p hp => h p (List.mem_cons_of_mem _ hp), List.map_cons]

theorem divide_error (n : ℤ) (e : OvErr) : ∀ l : List (X × AccNum), (∀ p ∈ l, p.2.divBy n = .error e ∨ ∃ q, p.2.divBy n = .ok q) →
    (∃ p ∈ l, p.2.divBy n = .error e) → FoldedNode.divideOv n l = .error e := by
  intro l
  induction l with
  | nil => rintro _ ⟨p, hp, _⟩; simp at hp
  | cons p t ih =>
    intro h hex
    obtain ⟨x, a⟩ := p
    unfold FoldedNode.divideOv
    rcases h (x, a) List.mem_cons_self with h0 | ⟨q, h0⟩
    · simp only at h0; rw [h0]
    · simp only at h0
      rw [h0]
      simp only
      rw [ih (fun p hp => h p (List.mem_cons_of_mem _ hp))]
      obtain ⟨p, hp, hp'⟩ := hex
      rcases List.mem_cons.1 hp with rfl | hp
      · rw [h0] at hp'; cases hp'
      · exact ⟨p, hp, hp'⟩

/-- The table before it is divided, as for exact numbers in `marginalDistribution_ok`: it can be computed unless a count is too large. -/
theorem table_ok (sp : Space V X R) (oX : Order X) (oN : Order (Node V X × ℤ)) (N : FoldedNode V X)
    (h : ExactNode sp N) (hs : Sound sp) (hsv : ∀ g, sp.outcomes.Occurs g → SingleValued g.nodes) :
    ((∃ x, huge (mass sp.outcomes (HasValue N.var x) : ℤ)) →
      FoldedNode.distLoopOv (oN.run N.valueNodes) (Dict.ofList ((oX.run N.values).map fun x => (x, some 0)), 0) = .error .overflow) ∧
    ((∀ x, ¬ huge (mass sp.outcomes (HasValue N.var x) : ℤ)) →
      ∃ acc, FoldedNode.distLoopOv (oN.run N.valueNodes) (Dict.ofList ((oX.run N.values).map fun x => (x, some 0)), 0) =
          .ok (acc, mass sp.outcomes (HasVar N.var)) ∧
        ∀ x q, acc.get? x = some q ↔ x ∈ N.values ∧ q = some (fl (mass sp.outcomes (HasValue N.var x) : ℤ))) := by
  have hnd : ((((oX.run N.values).map fun x => (x, (some 0 : Option ℚ)))).map Prod.fst).Nodup := by
    rw [List.map_map]
    show ((oX.run N.values).map id).Nodup
    rw [List.map_id]
    exact oX.nodup _
  have hget : ∀ x q, (Dict.ofList ((oX.run N.values).map fun x => (x, (some 0 : Option ℚ)))).get? x = some q ↔ x ∈ N.values ∧ q = some 0 := by
    intro x q
    rw [Dict.get?_ofList _ hnd]
    simp only [List.mem_map, oX.mem, Prod.mk.injEq]
    constructor
    · rintro ⟨y, hy, rfl, rfl⟩; exact ⟨hy, rfl⟩
    · rintro ⟨hx, rfl⟩; exact ⟨x, hx, rfl, rfl⟩
  have hmem : ∀ n c, (n, c) ∈ oN.run N.valueNodes ↔ N.nodes.get? n = some c := by
    intro n c
    rw [oN.mem, FoldedNode.valueNodes, List.mem_toFinset, Dict.mem_entries]
  have hval : ∀ n c, N.nodes.get? n = some c → n = ⟨N.var, n.val⟩ ∧ c = mass sp.outcomes (HasValue N.var n.val) := by
    intro n c hc
    obtain ⟨hv, -, hm⟩ := (h.2.2 n c).1 hc
    have hn : n = ⟨N.var, n.val⟩ := by cases n; simp_all
    refine ⟨hn, hm.trans (mass_congr _ _ _ fun g _ => ?_)⟩
    unfold HasValue
    rw [← hn]
  have hinv : ∀ n c, N.nodes.get? n = some c → n.val ∈ N.values := by
    intro n c hc
    obtain ⟨hv, ⟨g, hg, hn⟩, _⟩ := (h.2.2 n c).1 hc
    obtain ⟨xs, hxs, hx⟩ := (hs g hg).1 n hn
    rw [hv, h.2.1] at hxs
    cases hxs
    exact hx
  have hperm : (oN.run N.valueNodes).Perm N.nodes.entries := by
    rw [List.perm_ext_iff_of_nodup (oN.nodup _) N.nodes.nodup_entries]
    intro p; simp [oN.mem, FoldedNode.valueNodes]
  have hdist : ((oN.run N.valueNodes).map fun p => p.1.val).Nodup := by
    refine (List.nodup_map_iff_inj_on (oN.nodup _)).2 ?_
    rintro ⟨n, c⟩ hp ⟨n', c'⟩ hp' e
    rw [hmem] at hp hp'
    simp only at e
    have hnn : n = n' := by rw [(hval n c hp).1, (hval n' c' hp').1, e]
    subst hnn
    rw [hp] at hp'
    cases hp'
    rfl
  have hz : ∀ p ∈ oN.run N.valueNodes, (Dict.ofList ((oX.run N.values).map fun x => (x, (some 0 : Option ℚ)))).get? p.1.val = some (some 0) := by
    rintro ⟨n, c⟩ hp
    rw [hmem] at hp
    exact (hget _ _).2 ⟨hinv n c hp, rfl⟩
  have hocc : ∀ x, N.nodes.get? ⟨N.var, x⟩ = none → mass sp.outcomes (HasValue N.var x) = 0 := by
    intro x hc
    unfold mass
    apply Finset.sum_eq_zero
    rintro ⟨g, c⟩ hp
    rw [Finset.mem_filter, Samples.mem_items] at hp
    have := (h.2.2 ⟨N.var, x⟩ _).2 ⟨rfl, ⟨g, ⟨c, hp.1⟩, hp.2⟩, rfl⟩
    rw [hc] at this
    cases this
  refine ⟨?_, ?_⟩
  · rintro ⟨x, hx⟩
    apply loop_overflow _ _ _ hdist hz
    cases hc : N.nodes.get? ⟨N.var, x⟩ with
    | none =>
      rw [hocc x hc] at hx
      exact absurd hx (not_huge_unit (by simp) (by simp))
    | some c =>
      refine ⟨(⟨N.var, x⟩, c), (hmem _ _).2 hc, ?_⟩
      rw [(hval _ _ hc).2]
      exact hx
  · intro hb
    obtain ⟨acc, h1, h2, h3⟩ := loop_ok _ _ 0 hdist hz (by
      rintro ⟨n, c⟩ hp
      rw [hmem] at hp
      simp only
      rw [(hval n c hp).2]
      exact hb _)
    refine ⟨acc, ?_, ?_⟩
    · rw [h1, (hperm.map Prod.snd).sum_eq, zero_add]
      have := foldedNode_sum sp N h hsv
      unfold Dict.vals at this
      rw [this]
    · intro x q
      cases hc : N.nodes.get? ⟨N.var, x⟩ with
      | some c =>
        have h4 := h2 _ ((hmem _ _).2 hc)
        simp only at h4
        rw [h4, ← (hval _ _ hc).2]
        have := hinv _ _ hc
        simp only at this
        simp [this, eq_comm]
      | none =>
        rw [h3 x (by
          rintro ⟨n, c⟩ hp rfl
          rw [hmem] at hp
          rw [← (hval n c hp).1, hp] at hc
          cases hc), hget, hocc x hc]
        simp [fl_zero]

/-- **C103.** `marginal_distribution` of a folded node raises `OverflowError` exactly if the number of outcomes rounds to `2 ^ 1024` or more and a value
other than `'unobserved'` is declared, or the number of outcomes with the declared value `'unobserved'` does; otherwise it returns, and no entry is infinite:
the entry of a value is its rounded count over the rounded number of outcomes, the entry of `'unobserved'` is rounded once, all are between 0 and 1. -/
theorem C103_distribution (sp : Space V X R) (unobs : X) (oX : Order X) (oN : Order (Node V X × ℤ)) (N : FoldedNode V X)
    (h : ExactNode sp N) (hs : Sound sp) (hpos : Positive sp.outcomes)
    (hsv : ∀ g, sp.outcomes.Occurs g → SingleValued g.nodes) (hne : ∃ g, sp.outcomes.Occurs g) :
    let n := sp.outcomes.length
    let big := (huge n ∧ ∃ x ∈ N.values, x ≠ unobs) ∨ huge (mass sp.outcomes (HasValue N.var unobs) : ℤ)
    (big → N.marginalDistributionOv unobs oX oN = .error .overflow) ∧
    (¬ big → ∃ d, N.marginalDistributionOv unobs oX oN = .ok d ∧
      d.get? unobs = some (some (fl ((mass sp.outcomes (fun g => ¬ HasVar N.var g) : ℤ) / (n : ℚ)))) ∧
      (∀ x q, x ≠ unobs → (d.get? x = some q ↔
        x ∈ N.values ∧ q = some (fl (fl (mass sp.outcomes (HasValue N.var x) : ℤ) / fl n)))) ∧
      ∀ x q, d.get? x = some q → ∃ p, q = some p ∧ 0 ≤ p ∧ p ≤ 1) := by
  intro n big
  obtain ⟨hov, hok⟩ := table_ok sp oX oN N h hs hsv
  have hlen : 0 < n := by
    obtain ⟨g, c, hg⟩ := hne
    exact lt_of_lt_of_le (hpos g c hg) (count_le_length _ hpos g c hg)
  have hnq : (0 : ℚ) < (n : ℚ) := by exact_mod_cast hlen
  have hfn : (0 : ℚ) < fl (n : ℚ) := by
    have h1 : (1 : ℚ) ≤ (n : ℚ) := by exact_mod_cast hlen
    have h2 := fl_mono h1
    have h3 : fl (1 : ℚ) = 1 := by decide +kernel
    rw [h3] at h2
    linarith
  have hm0 : ∀ x, (0 : ℚ) ≤ (mass sp.outcomes (HasValue N.var x) : ℤ) := fun x => by exact_mod_cast mass_nonneg _ hpos _
  have hmn : ∀ x, ((mass sp.outcomes (HasValue N.var x) : ℤ) : ℚ) ≤ (n : ℚ) := fun x => by exact_mod_cast mass_le_length _ hpos _
  have hcompl : n - mass sp.outcomes (HasVar N.var) = mass sp.outcomes (fun g => ¬ HasVar N.var g) := by
    show sp.outcomes.length - _ = _
    rw [← mass_compl sp.outcomes (HasVar N.var)]; ring
  have hu0 : (0 : ℚ) ≤ ((mass sp.outcomes (fun g => ¬ HasVar N.var g) : ℤ) : ℚ) / (n : ℚ) :=
    div_nonneg (by exact_mod_cast mass_nonneg _ hpos _) hnq.le
  have hu1 : ((mass sp.outcomes (fun g => ¬ HasVar N.var g) : ℤ) : ℚ) / (n : ℚ) ≤ 1 :=
    (div_le_one hnq).2 (by exact_mod_cast mass_le_length _ hpos _)
  have hv0 : ∀ x, (0 : ℚ) ≤ fl (mass sp.outcomes (HasValue N.var x) : ℤ) / fl n := fun x => div_nonneg (fl_nonneg (hm0 x)) hfn.le
  have hv1 : ∀ x, fl (mass sp.outcomes (HasValue N.var x) : ℤ) / fl n ≤ 1 := fun x => (div_le_one hfn).2 (fl_mono (hmn x))
  have hunit : ∀ q : ℚ, 0 ≤ q → q ≤ 1 → 0 ≤ fl q ∧ fl q ≤ 1 := fun q h0 h1 =>
    ⟨fl_nonneg h0, by have := fl_mono h1; rwa [show fl (1 : ℚ) = 1 by decide +kernel] at this⟩
  have hint : (AccNum.int (n - mass sp.outcomes (HasVar N.var))).divBy n =
      .ok (some (fl (((mass sp.outcomes (fun g => ¬ HasVar N.var g) : ℤ) : ℚ) / (n : ℚ)))) := by
    simp only [AccNum.divBy, hcompl, if_neg hlen.ne', if_neg (not_huge_unit hu0 hu1)]
  have hnt : ¬ N.n < mass sp.outcomes (HasVar N.var) := by
    rw [h.1, not_lt]; exact mass_le_length _ hpos _
  by_cases hall : ∃ x, huge (mass sp.outcomes (HasValue N.var x) : ℤ)
  · have hbig : big := by
      obtain ⟨x, hx⟩ := hall
      by_cases hxu : x = unobs
      · exact Or.inr (hxu ▸ hx)
      · refine Or.inl ⟨huge_mono (hm0 x) (hmn x) hx, x, ?_, hxu⟩
        by_contra hxv
        have : mass sp.outcomes (HasValue N.var x) = 0 := by
          unfold mass
          apply Finset.sum_eq_zero
          rintro ⟨g, c⟩ hp
          rw [Finset.mem_filter, Samples.mem_items] at hp
          obtain ⟨xs, hxs, hx'⟩ := (hs g ⟨c, hp.1⟩).1 _ hp.2
          simp only at hxs hx'
          rw [h.2.1] at hxs
          cases hxs
          exact absurd hx' hxv
        rw [this] at hx
        exact absurd hx (not_huge_unit (by simp) (by simp))
    refine ⟨fun _ => ?_, fun hb => absurd hbig hb⟩
    unfold FoldedNode.marginalDistributionOv
    rw [hov hall]
  · have hall' : ∀ x, ¬ huge (mass sp.outcomes (HasValue N.var x) : ℤ) := fun x hx => hall ⟨x, hx⟩
    obtain ⟨acc, h1, h2⟩ := hok hall'
    have hents : ∀ p : X × AccNum, p ∈ ((acc.mapVals AccNum.float).set unobs (.int (n - mass sp.outcomes (HasVar N.var)))).entries ↔
        (p = (unobs, .int (n - mass sp.outcomes (HasVar N.var)))) ∨
        (p.1 ≠ unobs ∧ p.1 ∈ N.values ∧ p.2 = .float (some (fl (mass sp.outcomes (HasValue N.var p.1) : ℤ)))) := by
      rintro ⟨x, a⟩
      rw [Dict.mem_entries, Dict.get?_set]
      by_cases hx : unobs = x
      · subst hx; simp [eq_comm]
      · rw [if_neg hx, Dict.get?_mapVals, Option.map_eq_some_iff]
        constructor
        · rintro ⟨q, hq, rfl⟩
          obtain ⟨hxv, rfl⟩ := (h2 _ _).1 hq
          exact Or.inr ⟨fun e => hx e.symm, hxv, rfl⟩
        · rintro (e | ⟨-, hxv, e⟩)
          · cases e; exact absurd rfl hx
          · exact ⟨_, (h2 _ _).2 ⟨hxv, rfl⟩, e.symm⟩
    by_cases hn : huge (n : ℚ)
    · have hfl : ∀ q, (AccNum.float q).divBy n = .error .overflow := fun q => by simp only [AccNum.divBy, if_pos hn]
      by_cases hx : ∃ x ∈ N.values, x ≠ unobs
      · refine ⟨fun _ => ?_, fun hb => absurd (Or.inl ⟨hn, hx⟩) hb⟩
        unfold FoldedNode.marginalDistributionOv
        rw [h1]
        simp only [if_neg hnt]
        rw [show N.n = n from h.1, divide_error n .overflow]
        · intro p hp
          rcases (hents p).1 hp with rfl | ⟨-, -, e⟩
          · exact Or.inr ⟨_, hint⟩
          · rw [e]; exact Or.inl (hfl _)
        · obtain ⟨x, hxv, hxu⟩ := hx
          exact ⟨(x, .float (some (fl (mass sp.outcomes (HasValue N.var x) : ℤ)))), (hents _).2 (Or.inr ⟨hxu, hxv, rfl⟩), hfl _⟩
      · refine ⟨?_, fun _ => ?_⟩
        · rintro (⟨-, hb⟩ | hb)
          · exact absurd hb hx
          · exact absurd hb (hall' _)
        · have hall2 : ∀ x ∈ N.values, x = unobs := fun x hxv => by by_contra hxu; exact hx ⟨x, hxv, hxu⟩
          refine ⟨Dict.ofList (List.map (fun p : X × AccNum => (p.1, some (fl (((mass sp.outcomes (fun g => ¬ HasVar N.var g) : ℤ) : ℚ) / (n : ℚ)))))
            ((acc.mapVals AccNum.float).set unobs (.int (n - mass sp.outcomes (HasVar N.var)))).entries), ?_, ?_⟩
          · unfold FoldedNode.marginalDistributionOv
            rw [h1]
            simp only [if_neg hnt]
            rw [show N.n = n from h.1, divide_ok n (fun _ => some (fl (((mass sp.outcomes (fun g => ¬ HasVar N.var g) : ℤ) : ℚ) / (n : ℚ))))]
            intro p hp
            rcases (hents p).1 hp with rfl | ⟨hu, hv, -⟩
            · exact hint
            · exact absurd (hall2 _ hv) hu
          · have hd := fun k a => Dict.get?_ofList (List.map (fun p : X × AccNum => (p.1, some (fl (((mass sp.outcomes (fun g => ¬ HasVar N.var g) : ℤ) : ℚ) / (n : ℚ)))))
                ((acc.mapVals AccNum.float).set unobs (.int (n - mass sp.outcomes (HasVar N.var)))).entries) (by
              rw [List.map_map]; exact ((acc.mapVals AccNum.float).set unobs _).nodup) k a
            refine ⟨(hd _ _).2 (List.mem_map.2 ⟨_, (hents _).2 (Or.inl rfl), rfl⟩), ?_, ?_⟩
            · intro x q hxu
              constructor
              · intro hq
                obtain ⟨p, hp, e⟩ := List.mem_map.1 ((hd _ _).1 hq)
                rcases (hents p).1 hp with rfl | ⟨hu, hv, -⟩
                · cases e; exact absurd rfl hxu
                · exact absurd (hall2 _ hv) hu
              · rintro ⟨hv, -⟩; exact absurd (hall2 _ hv) hxu
            · intro x q hq
              obtain ⟨p, hp, e⟩ := List.mem_map.1 ((hd _ _).1 hq)
              cases e
              exact ⟨_, rfl, hunit _ hu0 hu1⟩
    · refine ⟨?_, fun _ => ?_⟩
      · rintro (⟨hb, -⟩ | hb)
        · exact absurd hb hn
        · exact absurd hb (hall' _)
      · let f : AccNum → Option ℚ := fun a => match a with
          | .int z => some (fl ((z : ℚ) / (n : ℚ)))
          | .float (some q) => some (fl (q / fl n))
          | .float none => none
        refine ⟨Dict.ofList (List.map (fun p : X × AccNum => (p.1, f p.2))
          ((acc.mapVals AccNum.float).set unobs (.int (n - mass sp.outcomes (HasVar N.var)))).entries), ?_, ?_⟩
        · unfold FoldedNode.marginalDistributionOv
          rw [h1]
          simp only [if_neg hnt]
          rw [show N.n = n from h.1, divide_ok n f]
          intro p hp
          rcases (hents p).1 hp with rfl | ⟨-, -, e⟩
          · rw [hint, hcompl]
          · rw [e]
            simp only [AccNum.divBy, if_neg hn, if_neg hlen.ne', if_neg (not_huge_unit (hv0 _) (hv1 _)), f]
        · have hd := fun k a => Dict.get?_ofList (List.map (fun p : X × AccNum => (p.1, f p.2))
              ((acc.mapVals AccNum.float).set unobs (.int (n - mass sp.outcomes (HasVar N.var)))).entries) (by
            rw [List.map_map]; exact ((acc.mapVals AccNum.float).set unobs _).nodup) k a
          refine ⟨(hd _ _).2 (List.mem_map.2 ⟨_, (hents _).2 (Or.inl rfl), by rw [hcompl]⟩), ?_, ?_⟩
          · intro x q hxu
            rw [hd, List.mem_map]
            constructor
            · rintro ⟨p, hp, e⟩
              rcases (hents p).1 hp with rfl | ⟨hu, hv, e'⟩
              · cases e; exact absurd rfl hxu
              · rw [e'] at e
                cases e
                exact ⟨hv, rfl⟩
            · rintro ⟨hv, rfl⟩
              exact ⟨(x, .float (some (fl (mass sp.outcomes (HasValue N.var x) : ℤ)))), (hents _).2 (Or.inr ⟨hxu, hv, rfl⟩), rfl⟩
          · intro x q hq
            obtain ⟨p, hp, e⟩ := List.mem_map.1 ((hd _ _).1 hq)
            rcases (hents p).1 hp with rfl | ⟨hu, hv, e'⟩
            · rw [hcompl] at e; cases e
              exact ⟨_, rfl, hunit _ hu0 hu1⟩
            · rw [e'] at e
              cases e
              exact ⟨_, rfl, hunit _ (hv0 _) (hv1 _)⟩

/-- **C103.** The folded graph of a space without the value `'unobserved'`: with `2 ^ 1024` outcomes or more `marginal_distribution` of each of its nodes raises
`OverflowError`; with at most as many as the largest `float` it returns finite numbers between 0 and 1 for each of them. -/
theorem C103_folded (sp : Space V X R) (unobs : X) (oI : Order (SampleGraph V X R × ℤ)) (oS : Order (Node V X)) (oE : Order (Edge V X R))
    (oX : Order X) (oN : Order (Node V X × ℤ)) (hs : Sound sp) (hpos : Positive sp.outcomes)
    (hsv : ∀ g, sp.outcomes.Occurs g → SingleValued g.nodes) (hu : ∀ v xs, sp.schema.vars.get? v = some xs → unobs ∉ xs) :
    ∃ f, sp.foldedGraph oI oS oE = .ok f ∧
      (2 ^ 1024 ≤ sp.outcomes.length → ∀ N ∈ f.nodes, N.marginalDistributionOv unobs oX oN = .error .overflow) ∧
      (sp.outcomes.length ≤ 2 ^ 1024 - 2 ^ 971 → ∀ N ∈ f.nodes, ∃ d, N.marginalDistributionOv unobs oX oN = .ok d ∧
        ∀ x q, d.get? x = some q → ∃ p, q = some p ∧ 0 ≤ p ∧ p ≤ 1) := by
  obtain ⟨f, hf, -, -, -, hvar, -, hex, -, -⟩ := C31_folded_graph sp oI oS oE hs
  refine ⟨f, hf, ?_, ?_⟩
  · intro hn N hN
    obtain ⟨g, hg, hv⟩ := (hvar N.var).1 ⟨N, hN, rfl⟩
    refine (C103_distribution sp unobs oX oN N (hex N hN) hs hpos hsv ⟨g, hg⟩).1 (Or.inl ⟨huge_of_le (by exact_mod_cast hn), ?_⟩)
    obtain ⟨m, hm, hmv⟩ := hv
    obtain ⟨xs, hxs, hx⟩ := (hs g hg).1 m hm
    rw [hmv, (hex N hN).2.1] at hxs
    cases hxs
    exact ⟨m.val, hx, fun e => hu _ _ (hex N hN).2.1 (e ▸ hx)⟩
  · intro hn N hN
    obtain ⟨g, hg, hv⟩ := (hvar N.var).1 ⟨N, hN, rfl⟩
    have hq : (sp.outcomes.length : ℚ) ≤ 2 ^ 1024 - 2 ^ 971 := by exact_mod_cast hn
    have hsmall : ∀ z : ℤ, 0 ≤ z → z ≤ sp.outcomes.length → ¬ huge (z : ℚ) := by
      intro z h0 h1
      refine not_huge_of_le ?_
      rw [abs_of_nonneg (by exact_mod_cast h0)]
      exact le_trans (by exact_mod_cast h1) hq
    obtain ⟨d, h1, -, -, h2⟩ := (C103_distribution sp unobs oX oN N (hex N hN) hs hpos hsv ⟨g, hg⟩).2 (by
      rintro (⟨hb, -⟩ | hb)
      · have h0 : 0 ≤ sp.outcomes.length := le_trans (mass_nonneg _ hpos (HasVar N.var)) (mass_le_length _ hpos _)
        exact hsmall _ h0 le_rfl hb
      · exact hsmall _ (mass_nonneg _ hpos _) (mass_le_length _ hpos _) hb)
    exact ⟨d, h1, h2⟩

/-- The demo space with `2 ^ 1023` for both counts: each count has a `float`, the number of outcomes has none. -/
def hugeSpace : Space ℕ ℕ ℕ :=
  ⟨demoSpace.schema, ⟨0, ⟨[(oneEdge ⟨0, 0⟩ ⟨1, 0⟩, 2 ^ 1023), (oneEdge ⟨0, 1⟩ ⟨2, 0⟩, 2 ^ 1023)], by decide⟩⟩, none⟩

theorem huge_get (g : SampleGraph ℕ ℕ ℕ) (c : ℤ) : hugeSpace.outcomes.samples.get? g = some c ↔
    (g = oneEdge ⟨0, 0⟩ ⟨1, 0⟩ ∨ g = oneEdge ⟨0, 1⟩ ⟨2, 0⟩) ∧ c = 2 ^ 1023 := by
  rw [← Dict.mem_entries]
  simp only [hugeSpace, List.mem_cons, Prod.mk.injEq, List.not_mem_nil, or_false]
  tauto

theorem huge_occurs (g : SampleGraph ℕ ℕ ℕ) : hugeSpace.outcomes.Occurs g ↔ demoSpace.outcomes.Occurs g := by
  rw [demoSpace_occurs]
  constructor
  · rintro ⟨c, hc⟩; exact ((huge_get g c).1 hc).1
  · intro h; exact ⟨_, (huge_get g _).2 ⟨h, rfl⟩⟩

/-- **C103**, a case, which also meets the hypotheses: `hugeSpace` has `2 ^ 1024` outcomes, no count of a sample is too large for a `float`, the folded graph is
made with a node for each of the three variables and `marginal_distribution` raises `OverflowError` for each. -/
theorem C103_case (oI : Order (SampleGraph ℕ ℕ ℕ × ℤ)) (oS : Order (Node ℕ ℕ)) (oE : Order (Edge ℕ ℕ ℕ)) (oX : Order ℕ) (oN : Order (Node ℕ ℕ × ℤ)) :
    (∀ g c, hugeSpace.outcomes.samples.get? g = some c → ¬ huge (c : ℚ)) ∧ hugeSpace.outcomes.length = 2 ^ 1024 ∧
    ∃ f, hugeSpace.foldedGraph oI oS oE = .ok f ∧ (∀ v, (∃ N ∈ f.nodes, N.var = v) ↔ v ≤ 2) ∧
      ∀ N ∈ f.nodes, N.marginalDistributionOv 2 oX oN = .error .overflow := by
  have hs : Sound hugeSpace := by
    intro g hg
    rw [huge_occurs] at hg
    refine ⟨?_, (demoSpace_wf g hg).good⟩
    rw [demoSpace_occurs] at hg
    rcases hg with rfl | rfl
    · intro n hn
      simp only [oneEdge, Finset.mem_insert, Finset.mem_singleton] at hn
      rcases hn with rfl | rfl
      · exact ⟨{0, 1}, rfl, by decide⟩
      · exact ⟨{0}, rfl, by decide⟩
    · intro n hn
      simp only [oneEdge, Finset.mem_insert, Finset.mem_singleton] at hn
      rcases hn with rfl | rfl
      · exact ⟨{0, 1}, rfl, by decide⟩
      · exact ⟨{0, 1}, rfl, by decide⟩
  have hpos : Positive hugeSpace.outcomes := by
    intro g c hg
    rw [((huge_get g c).1 hg).2]
    positivity
  have hlen : hugeSpace.outcomes.length = 2 ^ 1024 := by decide +kernel
  have hu : ∀ v xs, hugeSpace.schema.vars.get? v = some xs → 2 ∉ xs := by
    intro v xs h
    have h' := (Dict.mem_entries _ _ _).2 h
    simp only [hugeSpace, demoSpace, List.mem_cons, Prod.mk.injEq, List.not_mem_nil, or_false] at h'
    rcases h' with ⟨-, rfl⟩ | ⟨-, rfl⟩ | ⟨-, rfl⟩ <;> decide
  refine ⟨?_, hlen, ?_⟩
  · intro g c hg
    rw [((huge_get g c).1 hg).2]
    refine not_huge_of_le ?_
    push_cast
    rw [abs_of_nonneg (by positivity)]
    norm_num
  · obtain ⟨f, hf, h1, -⟩ := C103_folded hugeSpace 2 oI oS oE oX oN hs hpos
      (fun g hg => demoSpace_single g ((huge_occurs g).1 hg)) hu
    obtain ⟨f', hf', -, -, -, hvar, -⟩ := C31_folded_graph hugeSpace oI oS oE hs
    rw [hf] at hf'
    cases hf'
    refine ⟨f, hf, fun v => ?_, h1 hlen.ge⟩
    rw [hvar]
    simp only [huge_occurs, demoSpace_occurs]
    constructor
    · rintro ⟨g, rfl | rfl, n, hn, rfl⟩ <;> simp only [oneEdge, Finset.mem_insert, Finset.mem_singleton] at hn <;>
        rcases hn with rfl | rfl <;> decide
    · intro hv
      obtain rfl | rfl | rfl : v = 0 ∨ v = 1 ∨ v = 2 := by omega
      · exact ⟨_, Or.inl rfl, ⟨0, 0⟩, by simp [oneEdge], rfl⟩
      · exact ⟨_, Or.inl rfl, ⟨1, 0⟩, by simp [oneEdge], rfl⟩
      · exact ⟨_, Or.inr rfl, ⟨2, 0⟩, by simp [oneEdge], rfl⟩

end BigCounts
end Verif
