import Verif.Props.BayesFloatGraph
import Verif.Lemmas.NpSum
import Verif.Lemmas.TablesFloat

/-!
# The comparisons of the Bayesian network experiment in floating point (C77)
-/

set_option linter.unusedSectionVars false

namespace Verif.Bayes

/-! ### Specification -/

/-- A float passes the test of the experiment against the exact number `p`: it is `isclose` (with the relative tolerance 1e-15) to the float nearest to `p`. -/
def Close (x p : ℚ) : Prop := closeFl x (fl p) = true

/-- The float that `numpy` computes for the marginal of a factor. -/
def npMarginal (np : NpSum) (f : Factor) (v : Str) (j : ℕ) : ℚ :=
  np.run (summands f.value (f.vars.filter fun p => p.1 ≠ v) (Function.update (fun _ => 0) v j))

/-! ### The tolerance -/

theorem tol_bounds : 999999999 / 10 ^ 24 ≤ fl (1 / 10 ^ 15) ∧ fl (1 / 10 ^ 15) ≤ 1000000001 / 10 ^ 24 := by decide +kernel

theorem small_range : (2 : ℚ) ^ (-1022 : ℤ) ≤ 1 / 10 ^ 60 := by
  rw [zpow_neg, ← one_div]
  refine one_div_le_one_div_of_le (by positivity) ?_
  rw [show (1022 : ℤ) = ((1022 : ℕ) : ℤ) from rfl, zpow_natCast]
  have : (2 : ℚ) ^ 200 ≤ 2 ^ 1022 := pow_le_pow_right₀ (by norm_num) (by norm_num)
  refine le_trans ?_ this
  norm_num

/-- The bounds of rounding that are used here. -/
theorem fl_near {x : ℚ} (h : 1 / 10 ^ 60 ≤ x) : (1 - 1112 / 10 ^ 19) * x ≤ fl x ∧ fl x ≤ (1 + 1112 / 10 ^ 19) * x := by
  have hx : 0 < x := lt_of_lt_of_le (by norm_num) h
  have h1 := fl_rel (x := x) (by rw [abs_of_pos hx]; exact small_range.trans h)
  rw [abs_of_pos hx] at h1
  have hu : uro * x ≤ 1112 / 10 ^ 19 * x := by
    refine mul_le_mul_of_nonneg_right ?_ hx.le
    rw [show uro = 1 / 2 ^ 53 from rfl]
    norm_num
  have h2 := abs_le.1 h1
  constructor <;> linarith

theorem fl_near_abs {x : ℚ} (h : 1 / 10 ^ 60 ≤ |x|) : (1 - 1112 / 10 ^ 19) * |x| ≤ |fl x| ∧ |fl x| ≤ (1 + 1112 / 10 ^ 19) * |x| := by
  have h1 := fl_rel (x := x) (small_range.trans h)
  have hu : uro * |x| ≤ 1112 / 10 ^ 19 * |x| := by
    refine mul_le_mul_of_nonneg_right ?_ (abs_nonneg _)
    rw [show uro = 1 / 2 ^ 53 from rfl]
    norm_num
  have h2 := abs_abs_sub_abs_le (fl x) x
  have h3 := abs_le.1 (h2.trans (h1.trans hu))
  constructor <;> linarith

/-- **C77.** What passes the test: the deviations up to 8.88e-16 of the exact number pass, and what passes deviates by at most 1.112e-15 of it. -/
theorem C77_tolerance {x p : ℚ} (hp : 1 / 2 ^ 53 ≤ p) : (|x - p| ≤ 888 / 10 ^ 18 * p → Close x p) ∧ (Close x p → |x - p| ≤ 1112 / 10 ^ 18 * p) := by
  have hp0 : 0 < p := lt_of_lt_of_le (by norm_num) hp
  obtain ⟨b1, b2⟩ := fl_near (x := p) (le_trans (by norm_num) hp)
  obtain ⟨t1, t2⟩ := tol_bounds
  generalize hb : fl p = b at *
  generalize ht : fl (1 / 10 ^ 15) = t at *
  have hb0 : 0 < b := by linarith
  have ht0 : 0 < t := by linarith
  have htb1 : 999999999 / 10 ^ 24 * b ≤ t * b := mul_le_mul_of_nonneg_right t1 hb0.le
  have htb2 : t * b ≤ 1000000001 / 10 ^ 24 * b := mul_le_mul_of_nonneg_right t2 hb0.le
  have hsmall : (1 : ℚ) / 10 ^ 60 ≤ p / 10 ^ 40 := by linarith
  obtain ⟨c1, c2⟩ := fl_near (x := t * b) (by linarith)
  have hc0 : 0 ≤ fl (t * b) := fl_nonneg (mul_pos ht0 hb0).le
  unfold Close closeFl isclose
  rw [hb, ht]
  simp only [Bool.or_eq_true, decide_eq_true_eq]
  constructor
  · intro h
    refine Or.inl (Or.inl (Or.inr ?_))
    rw [abs_of_nonneg hc0]
    refine abs_fl_le (fl_isFloat _) ?_
    have h1 := abs_le.1 h
    rw [abs_le]
    constructor <;> linarith
  · intro h
    have hfin : |b - x| ≤ 10000001 / 10 ^ 22 * b → |x - p| ≤ 1112 / 10 ^ 18 * p := by
      intro h1
      have := abs_le.1 h1
      rw [abs_le]
      constructor <;> linarith
    have hsec : |fl (b - x)| ≤ fl (t * b) → |b - x| ≤ 10000001 / 10 ^ 22 * b := by
      intro h1
      by_cases h2 : 1 / 10 ^ 60 ≤ |b - x|
      · obtain ⟨d1, -⟩ := fl_near_abs h2
        linarith
      · linarith
    rcases h with ((h | h) | h) | h
    · apply hfin
      rw [h, sub_self, abs_zero]
      linarith
    · rw [abs_of_nonneg hc0] at h
      exact hfin (hsec h)
    · by_cases h3 : 1 / 10 ^ 60 ≤ |t * x|
      · obtain ⟨-, d2⟩ := fl_near_abs h3
        by_cases h2 : 1 / 10 ^ 60 ≤ |b - x|
        · obtain ⟨d1, -⟩ := fl_near_abs h2
          have hx : |x| ≤ b + |b - x| := by
            have := abs_sub_abs_le_abs_sub x b
            rw [abs_sub_comm, abs_of_pos hb0] at this
            linarith
          have htx : |t * x| ≤ 1000000001 / 10 ^ 24 * (b + |b - x|) := by
            rw [abs_mul, abs_of_pos ht0]
            exact mul_le_mul t2 hx (abs_nonneg _) (by norm_num)
          refine hfin ?_
          linarith
        · refine hfin ?_
          linarith
      · refine hfin (hsec (h.trans (abs_fl_le (fl_isFloat _) ?_)))
        linarith
    · exact hfin (hsec (h.trans hc0))

/-! ### Comparing dictionaries -/

theorem compareMapsFl_iff {K : Type} [DecidableEq K] (a b : Dict K ℚ) :
    (compareMapsFl a b = .ok () ↔ (∀ k, k ∈ a.keys ↔ k ∈ b.keys) ∧ ∀ k x y, a.get? k = some x → b.get? k = some y → closeFl x y = true) ∧
    (compareMapsFl a b = .ok () ∨ compareMapsFl a b = .error .assertion) := by
  unfold compareMapsFl
  by_cases h1 : a.keys.toFinset = b.keys.toFinset
  · rw [if_neg (not_not.2 h1)]
    have hk : ∀ k, k ∈ a.keys ↔ k ∈ b.keys := fun k => by rw [← List.mem_toFinset, h1, List.mem_toFinset]
    by_cases h2 : (a.keys.all fun k => closeFl ((a.get? k).getD 0) ((b.get? k).getD 0)) = true
    · rw [if_pos h2]
      refine ⟨⟨fun _ => ⟨hk, fun k x y hx hy => ?_⟩, fun _ => rfl⟩, Or.inl rfl⟩
      have := List.all_eq_true.1 h2 k ((a.mem_keys k).2 ⟨x, hx⟩)
      rwa [hx, hy] at this
    · rw [if_neg h2]
      refine ⟨⟨fun h => by simp at h, fun h => absurd ?_ h2⟩, Or.inr rfl⟩
      refine List.all_eq_true.2 fun k hka => ?_
      obtain ⟨x, hx⟩ := (a.mem_keys k).1 hka
      obtain ⟨y, hy⟩ := (b.mem_keys k).1 ((hk k).1 hka)
      rw [hx, hy]
      exact h.2 k x y hx hy
  · rw [if_pos h1]
    refine ⟨⟨fun h => by simp at h, fun h => absurd ?_ h1⟩, Or.inr rfl⟩
    ext k
    simp only [List.mem_toFinset, h.1 k]

/-- The comparison at one key. -/
def compareAtFl (a b : Dict Str (Dict Str ℚ)) (k : Str) : Py Unit := match a.get? k, b.get? k with
  | some x, some y => compareMapsFl x y
  | _, _ => .error .keyError

theorem compareMarginsFl_iff (a b : Dict Str (Dict Str ℚ)) :
    (compareMarginsFl a b = .ok () ↔ (∀ k, k ∈ a.keys ↔ k ∈ b.keys) ∧ ∀ k x y, a.get? k = some x → b.get? k = some y →
      (∀ q, q ∈ x.keys ↔ q ∈ y.keys) ∧ ∀ q s t, x.get? q = some s → y.get? q = some t → closeFl s t = true) ∧
    (compareMarginsFl a b = .ok () ∨ compareMarginsFl a b = .error .assertion) := by
  have hun : compareMarginsFl a b = if a.keys.toFinset ≠ b.keys.toFinset then .error .assertion else a.keys.forM (compareAtFl a b) := rfl
  rw [hun]
  by_cases h1 : a.keys.toFinset = b.keys.toFinset
  · rw [if_neg (not_not.2 h1)]
    have hk : ∀ k, k ∈ a.keys ↔ k ∈ b.keys := fun k => by rw [← List.mem_toFinset, h1, List.mem_toFinset]
    have hat : ∀ k ∈ a.keys, ∃ x y, a.get? k = some x ∧ b.get? k = some y ∧ compareAtFl a b k = compareMapsFl x y := by
      intro k hka
      obtain ⟨x, hx⟩ := (a.mem_keys k).1 hka
      obtain ⟨y, hy⟩ := (b.mem_keys k).1 ((hk k).1 hka)
      refine ⟨x, y, hx, hy, ?_⟩
      unfold compareAtFl
      rw [hx, hy]
    refine ⟨?_, ?_⟩
    · rw [forM_ok_iff]
      constructor
      · intro h
        refine ⟨hk, fun k x y hx hy => ?_⟩
        obtain ⟨x', y', hx', hy', e⟩ := hat k ((a.mem_keys k).2 ⟨x, hx⟩)
        rw [hx] at hx'; rw [hy] at hy'
        cases hx'; cases hy'
        have := h k ((a.mem_keys k).2 ⟨x, hx⟩)
        rw [e] at this
        exact (compareMapsFl_iff x y).1.1 this
      · rintro ⟨-, h⟩ k hka
        obtain ⟨x, y, hx, hy, e⟩ := hat k hka
        rw [e]
        exact (compareMapsFl_iff x y).1.2 (h k x y hx hy)
    · cases hf : a.keys.forM (compareAtFl a b) with
      | ok u => left; rfl
      | error er =>
        right
        obtain ⟨k, hka, e⟩ := forM_error _ _ hf
        obtain ⟨x, y, hx, hy, e'⟩ := hat k hka
        rw [e'] at e
        rcases (compareMapsFl_iff x y).2 with h | h
        · rw [h] at e; cases e
        · rw [h] at e; cases e; rfl
  · rw [if_pos h1]
    refine ⟨⟨fun h => by simp at h, fun h => absurd ?_ h1⟩, Or.inr rfl⟩
    ext k
    simp only [List.mem_toFinset, h.1 k]

/-! ### Marginals of the factor -/

theorem eraseIdx_filter : ∀ (l : List (Str × ℕ)) (i : ℕ) (v : Str) (c : ℕ), (l.map Prod.fst).Nodup → l[i]? = some (v, c) →
    l.eraseIdx i = l.filter fun p => p.1 ≠ v
  | [], i, v, c, _, h => by simp at h
  | p :: t, 0, v, c, hnd, h => by
    rw [List.map_cons, List.nodup_cons] at hnd
    have hp : p = (v, c) := by simpa using h
    subst hp
    rw [List.eraseIdx_cons_zero, List.filter_cons_of_neg (by simp)]
    symm
    rw [List.filter_eq_self]
    intro q hq
    simp only [ne_eq, decide_eq_true_eq]
    intro e
    exact hnd.1 (List.mem_map.2 ⟨q, hq, e⟩)
  | p :: t, i + 1, v, c, hnd, h => by
    rw [List.map_cons, List.nodup_cons] at hnd
    have h' : t[i]? = some (v, c) := by simpa using h
    have hne : p.1 ≠ v := by
      rintro rfl
      exact hnd.1 (List.mem_map.2 ⟨_, List.mem_of_getElem? h', rfl⟩)
    rw [List.eraseIdx_cons_succ, List.filter_cons_of_pos (by simpa using hne), eraseIdx_filter t i v c hnd.2 h']

theorem summands_eq (dom : Str → Finset ℕ) (g : (Str → ℕ) → ℚ) : ∀ (l : List (Str × ℕ)), (l.map Prod.fst).Nodup → (∀ p ∈ l, dom p.1 = Finset.range p.2) →
    ∀ a, ((summands g l a : List ℚ) : Multiset ℚ) =
      ∑ b ∈ assigns dom (l.map Prod.fst).toFinset, ({g fun w => if w ∈ l.map Prod.fst then b w else a w} : Multiset ℚ)
  | [], _, _, a => by
    have h0 : assigns dom (([] : List (Str × ℕ)).map Prod.fst).toFinset = {fun _ => 0} := by
      ext b
      rw [mem_assigns, Finset.mem_singleton]
      simp only [InDom, List.map_nil, List.toFinset_nil, Finset.notMem_empty, false_imp_iff, implies_true, true_and, not_false_eq_true, true_imp_iff]
      exact ⟨fun h => funext h, fun h v => by rw [h]⟩
    rw [h0, Finset.sum_singleton]
    simp [summands]
  | (v, c) :: t, hnd, hd, a => by
    rw [List.map_cons, List.nodup_cons] at hnd
    have hv : v ∉ (t.map Prod.fst).toFinset := by rw [List.mem_toFinset]; exact hnd.1
    rw [List.map_cons, List.toFinset_cons, sum_assigns_insert hv, Finset.sum_comm]
    have hdv : dom v = Finset.range c := hd (v, c) (by simp)
    have hflat : ∀ (F : ℕ → List ℚ) (n : ℕ), (((List.range n).flatMap F : List ℚ) : Multiset ℚ) = ∑ j ∈ Finset.range n, (F j : Multiset ℚ) := by
      intro F n
      induction n with
      | zero => rfl
      | succ n ih =>
        rw [List.range_succ, List.flatMap_append, ← Multiset.coe_add, ih, Finset.sum_range_succ]
        simp
    simp only [summands]
    rw [hdv, hflat]
    refine Finset.sum_congr rfl fun j _ => ?_
    rw [summands_eq dom g t hnd.2 (fun p hp => hd p (by simp [hp]))]
    refine Finset.sum_congr rfl fun b _ => ?_
    congr 2
    funext w
    by_cases e : w = v
    · subst e
      have h3 : w ∉ t.map Prod.fst := hnd.1
      simp [h3]
    · simp only [Function.update_of_ne e, List.mem_cons, e, false_or]

section
variable {cfg : Config} {S : Finset Str} {f : Factor} (hf : FactorOver cfg S f)
include hf

/-- **C77.** The marginal is obtained by adding the values of the factor, over the assignments with the value, with a rounding after each addition. -/
theorem C77_marginal (np : NpSum) {v : Str} (hvS : v ∈ S) {j : ℕ} (hj : j ∈ domOf cfg v) :
    AddsTo (((assigns (domOf cfg) S).filter fun a => a v = j).toList.map f.value) (npMarginal np f v j) := by
  have hperm : summands f.value (f.vars.filter fun p => p.1 ≠ v) (Function.update (fun _ => 0) v j) |>.Perm
      (((assigns (domOf cfg) S).filter fun a => a v = j).toList.map f.value) := by
    rw [← Multiset.coe_eq_coe]
    have hnd : ((f.vars.filter fun p => p.1 ≠ v).map Prod.fst).Nodup := (List.filter_sublist.map _).nodup hf.nodup
    have hv : v ∉ ((f.vars.filter fun p => p.1 ≠ v).map Prod.fst).toFinset := by
      rw [List.mem_toFinset, List.mem_map]
      rintro ⟨p, hp, rfl⟩
      simp at hp
    have hset : S = insert v ((f.vars.filter fun p => p.1 ≠ v).map Prod.fst).toFinset := by
      rw [← hf.names]
      ext w
      simp only [List.mem_toFinset, List.mem_map, Finset.mem_insert, List.mem_filter, ne_eq, decide_eq_true_eq]
      constructor
      · rintro ⟨p, hp, rfl⟩
        by_cases e : p.1 = v
        · exact Or.inl e
        · exact Or.inr ⟨p, ⟨hp, e⟩, rfl⟩
      · rintro (rfl | ⟨p, ⟨hp, -⟩, rfl⟩)
        · rw [← hf.names, List.mem_toFinset, List.mem_map] at hvS
          exact hvS
        · exact ⟨p, hp, rfl⟩
    rw [summands_eq (domOf cfg) f.value _ hnd (fun p hp => by rw [domOf, hf.cards p (List.mem_filter.1 hp).1])]
    have hr : ((((assigns (domOf cfg) S).filter fun a => a v = j).toList.map f.value : List ℚ) : Multiset ℚ) =
        ∑ a ∈ (assigns (domOf cfg) S).filter (fun a => a v = j), ({f.value a} : Multiset ℚ) := by
      rw [← Multiset.map_coe, Finset.coe_toList, Finset.sum, ← Multiset.sum_map_singleton (Multiset.map _ _), Multiset.map_map]
      rfl
    rw [hr, Finset.sum_filter]
    conv_rhs => rw [hset]
    rw [sum_assigns_insert hv]
    refine Finset.sum_congr rfl fun b hb => ?_
    simp only [Function.update_self, Finset.sum_ite_eq', hj, if_true]
    congr 1
    refine hf.loc _ _ fun w hw => ?_
    rw [hset] at hw
    by_cases e : w = v
    · subst e
      have h3 : w ∉ (f.vars.filter fun p => p.1 ≠ w).map Prod.fst := by rwa [List.mem_toFinset] at hv
      rw [if_neg h3, Function.update_self, Function.update_self]
    · have h3 : w ∈ (f.vars.filter fun p => p.1 ≠ v).map Prod.fst := by
        rcases Finset.mem_insert.1 hw with h | h
        · exact absurd h e
        · exact List.mem_toFinset.1 h
      rw [Function.update_of_ne e, Function.update_of_ne e]
      exact if_pos h3
  exact (np.adds _).perm hperm

/-- `_marginals_from_factor`. -/
theorem marginalsFromFactorFl_spec (np : NpSum) : (∀ v, v ∈ (marginalsFromFactorFl np f).keys ↔ v ∈ S) ∧
    ∀ v m, (marginalsFromFactorFl np f).get? v = some m → ∀ x q, m.get? x = some q ↔ ∃ j ∈ domOf cfg v, x = valName v j ∧ q = npMarginal np f v j := by
  let inner : ℕ → Str → ℕ → Dict Str ℚ := fun i v c => Dict.ofList ((List.range c).map fun j =>
    (valName v j, np.run (summands f.value (f.vars.eraseIdx i) (Function.update (fun _ => 0) v j))))
  have hin : ∀ (i : ℕ) (v : Str) (c : ℕ), f.vars[i]? = some (v, c) → ∀ x q, (inner i v c).get? x = some q ↔
      ∃ j ∈ domOf cfg v, x = valName v j ∧ q = npMarginal np f v j := by
    intro i v c hi x q
    have hc : c = cardOf cfg v := hf.cards (v, c) (List.mem_of_getElem? hi)
    simp only [inner]
    rw [eraseIdx_filter f.vars i v c hf.nodup hi, Dict.get?_ofList]
    · simp only [List.mem_map, List.mem_range, Prod.mk.injEq]
      constructor
      · rintro ⟨j, hj, rfl, rfl⟩
        have hj' : j ∈ domOf cfg v := by rw [domOf, Finset.mem_range, ← hc]; exact hj
        exact ⟨j, hj', rfl, rfl⟩
      · rintro ⟨j, hj, rfl, rfl⟩
        exact ⟨j, by rw [hc]; exact Finset.mem_range.1 hj, rfl, rfl⟩
    · rw [List.map_map]
      exact List.nodup_range.map fun j j' e => (valName_inj e).2
  have hd : marginalsFromFactorFl np f = Dict.ofList ((List.range f.vars.length).filterMap fun i => match f.vars[i]? with
    | none => none
    | some (v, c) => some (v, inner i v c)) := rfl
  have hmem : ∀ v m, (v, m) ∈ ((List.range f.vars.length).filterMap fun i => match f.vars[i]? with
      | none => none
      | some (v, c) => some (v, inner i v c)) ↔ ∃ (i : ℕ) (c : ℕ), f.vars[i]? = some (v, c) ∧ m = inner i v c := by
    intro v m
    rw [List.mem_filterMap]
    constructor
    · rintro ⟨i, -, h⟩
      cases hi : f.vars[i]? with
      | none => rw [hi] at h; cases h
      | some p =>
        obtain ⟨w, c⟩ := p
        rw [hi] at h
        simp only [Option.some.injEq, Prod.mk.injEq] at h
        obtain ⟨rfl, rfl⟩ := h
        exact ⟨i, c, hi, rfl⟩
    · rintro ⟨i, c, hi, rfl⟩
      refine ⟨i, List.mem_range.2 (List.getElem?_eq_some_iff.1 hi).1, ?_⟩
      rw [hi]
  have hidx : ∀ (i i' : ℕ) (v : Str) (c c' : ℕ), f.vars[i]? = some (v, c) → f.vars[i']? = some (v, c') → i = i' ∧ c = c' := by
    intro i i' v c c' h1 h2
    have e1 : (f.vars.map Prod.fst)[i]? = some v := by rw [List.getElem?_map, h1]; rfl
    have e2 : (f.vars.map Prod.fst)[i']? = some v := by rw [List.getElem?_map, h2]; rfl
    have hi : i = i' := by
      have hlt := (List.getElem?_eq_some_iff.1 e1).1
      exact (List.getElem?_inj hlt hf.nodup).1 (e1.trans e2.symm)
    subst hi
    rw [h1] at h2
    cases h2
    exact ⟨rfl, rfl⟩
  have hgd : ∀ v m, (marginalsFromFactorFl np f).get? v = some m ↔ ∃ (i : ℕ) (c : ℕ), f.vars[i]? = some (v, c) ∧ m = inner i v c := by
    intro v m
    rw [hd]
    unfold Dict.ofList
    rw [get?_foldl_set, hmem]
    · simp
    · rintro ⟨v1, m1⟩ h1 ⟨v2, m2⟩ h2 e
      obtain ⟨i, c, hi, rfl⟩ := (hmem _ _).1 h1
      obtain ⟨i', c', hi', rfl⟩ := (hmem _ _).1 h2
      simp only at e
      subst e
      obtain ⟨rfl, rfl⟩ := hidx i i' v1 c c' hi hi'
      rfl
  constructor
  · intro v
    rw [Dict.mem_keys, ← hf.names, List.mem_toFinset, List.mem_map]
    constructor
    · rintro ⟨m, hm⟩
      obtain ⟨i, c, hi, -⟩ := (hgd v m).1 hm
      exact ⟨(v, c), List.mem_of_getElem? hi, rfl⟩
    · rintro ⟨⟨w, c⟩, hp, rfl⟩
      obtain ⟨i, hi⟩ := List.mem_iff_getElem?.1 hp
      exact ⟨_, (hgd _ _).2 ⟨i, c, hi, rfl⟩⟩
  · intro v m hm
    obtain ⟨i, c, hi, rfl⟩ := (hgd v m).1 hm
    exact hin i v c hi

end

end Verif.Bayes
