import Verif.Lemmas.FloatSum
import Verif.Model.FloatProb
import Verif.Props.Activation

/-!
# C64: rounding of floats in the probabilities of `relnet`

`Samples.probabilitiesFl` and the other functions with the suffix `Fl` compute with floats; the functions without it are their exact counterparts.
-/

set_option linter.unusedSectionVars false
set_option exponentiation.threshold 1100

namespace Verif

/-! ### The operations -/

/-- **C64.** `fl` is rounding to the nearest `float`, half to even: the result is a float, no float is nearer, of two equally near neighbours the one
with even significand is taken; hence floats are not changed and the order is kept. -/
theorem C64_rounding (x : ℚ) : IsFloat (fl x) ∧ (∀ y, IsFloat y → |fl x - x| ≤ |y - x|) ∧
    (∀ y, IsFloat y → y ≠ fl x → |y - x| = |fl x - x| → ∃ m k e : ℤ, fl x = m * 2 ^ e ∧ y = k * 2 ^ e ∧ |m - k| = 1 ∧ m % 2 = 0) ∧
    (IsFloat x → fl x = x) ∧ ∀ y, x ≤ y → fl x ≤ fl y :=
  ⟨fl_isFloat x, fun _ h => fl_nearest h, fun _ h hne ht => fl_tie h ht hne, fl_of_isFloat, fun _ h => fl_mono h⟩

/-- Rounding of `1/10`, and a tie: `2 ^ 53 + 1` is rounded to `2 ^ 53`, `2 ^ 53 + 3` to `2 ^ 53 + 4`. -/
example : fl (1 / 10) = 3602879701896397 / 36028797018963968 ∧ fl (2 ^ 53 + 1) = 2 ^ 53 ∧ fl (2 ^ 53 + 3) = 2 ^ 53 + 4 := by decide +kernel

section
variable {V X R : Type} [DecidableEq V] [DecidableEq X] [DecidableEq R]

theorem roundable_div {c n : ℤ} (hc : 0 ≤ c) (hn : 0 < n) (hb : n ≤ 2 ^ 1022) : Roundable ((c : ℚ) / (n : ℚ)) := by
  rcases hc.eq_or_lt with rfl | hc
  · left; simp
  · right
    have hn' : (0 : ℚ) < (n : ℚ) := by exact_mod_cast hn
    rw [le_div_iff₀ hn', zpow_neg, inv_mul_le_iff₀ (two_pow_pos _)]
    have h1 : (n : ℚ) ≤ 2 ^ (1022 : ℤ) := by
      have : ((n : ℤ) : ℚ) ≤ ((2 ^ 1022 : ℤ) : ℚ) := by exact_mod_cast hb
      refine this.trans (le_of_eq ?_)
      norm_cast
    have h2 : (1 : ℚ) ≤ (c : ℚ) := by exact_mod_cast hc
    nlinarith [two_pow_pos 1022]

theorem fl_div_pos {c n : ℤ} (hc : 0 < c) (hn : 0 < n) (hb : n ≤ 2 ^ 1022) : 0 < fl ((c : ℚ) / (n : ℚ)) := by
  have h := roundable_div hc.le hn hb
  have hq : (0 : ℚ) < (c : ℚ) / (n : ℚ) := div_pos (by exact_mod_cast hc) (by exact_mod_cast hn)
  have := (abs_le.mp h.rel).1
  have hu := uro_lt_one
  nlinarith

theorem fl_div_le_one {c n : ℤ} (hcn : c ≤ n) (hn : 0 < n) : fl ((c : ℚ) / (n : ℚ)) ≤ 1 :=
  fl_le isFloat_one ((div_le_one (by exact_mod_cast hn)).2 (by exact_mod_cast hcn))

/-! ### `SampleSet.probabilities` -/

/-- **C64.** The assertion of `probabilities()` holds in spite of rounding, for both variants of `sum` and every order of the set, if there are not too many samples. Every
probability is the exact one, rounded once: it is in `(0, 1]`, agrees with `probability_of` and with C23 up to the relative error `2 ^ -53`. -/
theorem C64_probabilities (ver : PyVer) (o : Order (SampleGraph V X R × ℚ)) (a : Samples V X R) (h : Positive a)
    (hne : a.samples.entries ≠ []) (hlen : a.length ≤ 2 ^ 1022) (hn : a.samples.entries.length ≤ maxItems ver) :
    ∃ ps, a.probabilitiesFl ver o = .ok ps ∧
      (∀ g q, (g, q) ∈ ps ↔ ∃ c, a.samples.get? g = some c ∧ q = fl ((c : ℚ) / (a.length : ℚ))) ∧
      (∀ g q, (g, q) ∈ ps ↔ a.probabilityOfFl g = .ok q) ∧
      (∀ p ∈ ps, 0 < p.2 ∧ p.2 ≤ 1) ∧
      ∀ g q, (g, q) ∈ ps → ∃ e, a.probabilityOf g = .ok e ∧ |q - e| ≤ uro * e := by
  have hpos := length_pos a h hne
  have hposq : (0 : ℚ) < (a.length : ℚ) := by exact_mod_cast hpos
  set L : List (SampleGraph V X R × ℚ) := a.samples.entries.map fun p => (p.1, fl ((p.2 : ℚ) / (a.length : ℚ))) with hL
  have hnd : L.Nodup := by
    apply List.Nodup.of_map Prod.fst
    rw [hL, List.map_map]
    exact a.samples.nodup
  have hmem : ∀ g q, (g, q) ∈ L.toFinset ↔ ∃ c, a.samples.get? g = some c ∧ q = fl ((c : ℚ) / (a.length : ℚ)) := by
    intro g q
    rw [List.mem_toFinset, hL, List.mem_map]
    constructor
    · rintro ⟨p, hp, he⟩
      simp only [Prod.mk.injEq] at he
      exact ⟨p.2, by rw [← he.1]; exact (a.samples.mem_entries' p).1 hp, he.2.symm⟩
    · rintro ⟨c, hc, rfl⟩
      exact ⟨(g, c), (a.samples.mem_entries g c).2 hc, rfl⟩
  have hperm : (o.run L.toFinset).Perm L := by
    rw [List.perm_ext_iff_of_nodup (o.nodup _) hnd]
    intro p; rw [o.mem, List.mem_toFinset]
  have hsum : (a.samples.entries.map fun p => ((p.2 : ℤ) : ℚ) / (a.length : ℚ)).sum = 1 := by
    have h2 : ∀ l : List (SampleGraph V X R × ℤ), (l.map fun p => ((p.2 : ℤ) : ℚ) / (a.length : ℚ)).sum =
        (((l.map Prod.snd).sum : ℤ) : ℚ) / (a.length : ℚ) := by
      intro l
      induction l with
      | nil => simp
      | cons p t ih => simp only [List.map_cons, List.sum_cons, ih, Int.cast_add, add_div]
    rw [h2]
    exact div_self hposq.ne'
  refine ⟨L.toFinset, ?_, hmem, fun g q => ?_, fun p hp => ?_, fun g q hq => ?_⟩
  · unfold Samples.probabilitiesFl
    rw [if_neg (fun h' => hpos.ne' h'.2)]
    simp only
    rw [if_pos]
    apply isclose_of_near
    apply pySum_near ver _ _ _ _ hsum
    · rw [List.length_map]; exact hn
    · have := hperm.map Prod.snd
      rw [hL] at this
      rw [List.map_map] at this ⊢
      exact this
    · intro q hq
      obtain ⟨p, hp, rfl⟩ := List.mem_map.mp hq
      exact roundable_div (h p.1 p.2 ((a.samples.mem_entries' p).1 hp)).le hpos hlen
  · rw [hmem]
    unfold Samples.probabilityOfFl
    cases hg : a.samples.get? g with
    | none => simp
    | some c =>
      simp only [Option.some.injEq, exists_eq_left', hpos.ne', if_false, Except.ok.injEq]
      exact eq_comm
  · obtain ⟨c, hc, hq⟩ := (hmem p.1 p.2).1 hp
    rw [hq]
    exact ⟨fl_div_pos (h p.1 c hc) hpos hlen, fl_div_le_one (count_le_length a h p.1 c hc) hpos⟩
  · obtain ⟨c, hc, rfl⟩ := (hmem g q).1 hq
    refine ⟨(c : ℚ) / (a.length : ℚ), ?_, (roundable_div (h g c hc).le hpos hlen).rel⟩
    unfold Samples.probabilityOf
    simp only [hc, hpos.ne', if_false]

/-- **C64.** The empty set: `AssertionError`, as with exact numbers. -/
theorem C64_empty (ver : PyVer) (o : Order (SampleGraph V X R × ℚ)) (prov : ℕ) :
    (Samples.empty prov : Samples V X R).probabilitiesFl ver o = .error .assertion := by
  have h : isclose (pySum ver []) 1 nano 0 = false := by cases ver <;> decide +kernel
  simp only [Samples.probabilitiesFl, Samples.empty, Dict.empty, ne_eq, not_true_eq_false, false_and, if_false, List.map_nil, List.toFinset_nil, Order.run_empty]
  rw [h]; rfl

/-! ### `SampleSpace.marginal_variables_probability` -/

theorem mapVals_mapVals {K A B C : Type} [DecidableEq K] (d : Dict K A) (f : A → B) (g : B → C) : (d.mapVals f).mapVals g = d.mapVals fun a => g (f a) := by
  apply Dict.ext
  simp only [Dict.mapVals, List.map_map]
  rfl

/-- All normalised tables pass the check, so `marginalsFl` returns them. -/
theorem marginalsFl_ok (ver : PyVer) (sp : Space V X R) (u : X) (oI : Order (SampleGraph V X R × ℤ)) (oV : Order V) (oN : Order (Node V X))
    (req : Option (Finset V)) (unobserved : Bool) (g : Dict X ℤ → Dict X ℚ)
    (h : ∀ v m, (sp.groupAcc oI oV oN (sp.toCheck req)).get? v = some m →
      Space.normValuesFl u unobserved sp.outcomes.length m = .ok (g m) ∧ isclose (pySum ver (g m).vals) 1 nano 0 = true) :
    sp.marginalsFl ver u oI oV oN req unobserved = .ok ((sp.groupAcc oI oV oN (sp.toCheck req)).mapVals g) := by
  unfold Space.marginalsFl
  rw [mapM_ok _ (fun p => (p.1, g p.2))]
  · simp only
    have hnd : (((sp.groupAcc oI oV oN (sp.toCheck req)).entries.map fun p => (p.1, g p.2)).map Prod.fst).Nodup :=
      ((sp.groupAcc oI oV oN (sp.toCheck req)).mapVals g).nodup
    have : Dict.ofList ((sp.groupAcc oI oV oN (sp.toCheck req)).entries.map fun p => (p.1, g p.2)) =
        (sp.groupAcc oI oV oN (sp.toCheck req)).mapVals g := by
      apply Dict.ext
      rw [Dict.entries_ofList _ hnd]; rfl
    rw [this, if_pos]
    rw [List.all_eq_true]
    rintro ⟨v, m⟩ hm
    have hm' : (v, m) ∈ ((sp.groupAcc oI oV oN (sp.toCheck req)).entries.map fun p => (p.1, g p.2)) := hm
    rw [List.mem_map] at hm'
    obtain ⟨⟨w, m'⟩, hw, he⟩ := hm'
    cases he
    exact (h w m' ((Dict.mem_entries _ _ _).1 hw)).2
  · rintro ⟨v, m⟩ hm
    simp only [(h v m ((Dict.mem_entries _ _ _).1 hm)).1]
    rfl

theorem sum_div_list (l : List ℤ) (n : ℤ) : (l.map fun c => ((c : ℤ) : ℚ) / (n : ℚ)).sum = ((l.sum : ℤ) : ℚ) / (n : ℚ) := by
  induction l with
  | nil => simp
  | cons p t ih => simp only [List.map_cons, List.sum_cons, ih, Int.cast_add, add_div]

theorem table_close (ver : PyVer) (m : Dict X ℤ) (n : ℤ) (hn : 0 < n) (hb : n ≤ 2 ^ 1022) (hs : m.vals.sum = n) (h0 : ∀ x c, m.get? x = some c → 0 ≤ c)
    (hl : m.entries.length ≤ maxItems ver) : isclose (pySum ver (m.mapVals fun c => fl ((c : ℚ) / (n : ℚ))).vals) 1 nano 0 = true := by
  apply isclose_of_near
  have hv : (m.mapVals fun c => fl ((c : ℚ) / (n : ℚ))).vals = (m.vals.map fun c => ((c : ℤ) : ℚ) / (n : ℚ)).map fl := by
    rw [Dict.vals_mapVals, List.map_map]; rfl
  apply pySum_near ver (m.vals.map fun c => ((c : ℤ) : ℚ) / (n : ℚ)) _ (by rw [hv])
  · intro q hq
    obtain ⟨c, hc, rfl⟩ := List.mem_map.mp hq
    obtain ⟨⟨x, c'⟩, hp, rfl⟩ := List.mem_map.mp hc
    exact roundable_div (h0 x c' ((Dict.mem_entries _ _ _).1 hp)) hn hb
  · rw [sum_div_list, hs, div_self (by exact_mod_cast hn.ne')]
  · rw [List.length_map]
    unfold Dict.vals
    rw [List.length_map]
    exact hl

/-- The number of different values of a variable that occur. -/
def ValuesOf (sp : Space V X R) (v : V) (n : ℕ) : Prop := ∀ s : Finset X, (∀ x ∈ s, ∃ g, sp.outcomes.Occurs g ∧ HasValue v x g) → s.card ≤ n

theorem entries_le {sp : Space V X R} {v : V} {n : ℕ} (h : ValuesOf sp v n) (m : Dict X ℤ)
    (hm : ∀ x c, m.get? x = some c → ∃ g, sp.outcomes.Occurs g ∧ HasValue v x g) : m.entries.length ≤ n := by
  have h1 := h m.keys.toFinset (by
    intro x hx
    rw [List.mem_toFinset, Dict.mem_keys] at hx
    obtain ⟨c, hc⟩ := hx
    exact hm x c hc)
  rw [List.toFinset_card_of_nodup m.nodup_keys] at h1
  unfold Dict.keys at h1
  rwa [List.length_map] at h1

/-- **C64.** Without `unobserved`: no assertion fails; every entry is the exact relative frequency of C28, rounded once. -/
theorem C64_marginals (ver : PyVer) (sp : Space V X R) (u : X) (oI : Order (SampleGraph V X R × ℤ)) (oV : Order V) (oN : Order (Node V X))
    (req : Option (Finset V)) (hpos : Positive sp.outcomes) (hsv : ∀ g, sp.outcomes.Occurs g → SingleValued g.nodes)
    (hlen : sp.outcomes.length ≤ 2 ^ 1022) (hn : ∀ v, ValuesOf sp v (maxItems ver)) :
    ∃ d e, sp.marginalsFl ver u oI oV oN req false = .ok d ∧ sp.marginals u oI oV oN req false = .ok e ∧ d = e.mapVals (fun m => m.mapVals fl) ∧
      ∀ v m, e.get? v = some m → ∀ x q, m.get? x = some q → 0 < fl q ∧ fl q ≤ 1 ∧ |fl q - q| ≤ uro * q := by
  obtain ⟨hk, hm⟩ := groupAcc_spec sp oI oV oN (sp.toCheck req) hsv
  have hNpos : ∀ v m, (sp.groupAcc oI oV oN (sp.toCheck req)).get? v = some m → 0 < mass sp.outcomes (HasVar v) := by
    intro v m hv
    obtain ⟨_, g, hg, hgv⟩ := (hk v).1 ((Dict.mem_keys _ _).2 ⟨m, hv⟩)
    exact mass_pos _ hpos _ g hg hgv
  have hcpos : ∀ v m, (sp.groupAcc oI oV oN (sp.toCheck req)).get? v = some m → ∀ x c, m.get? x = some c → 0 < c ∧ c ≤ m.vals.sum := by
    intro v m hv x c hc
    obtain ⟨⟨g, hg, hgx⟩, rfl⟩ := ((hm v m hv).1 x c).1 hc
    refine ⟨mass_pos _ hpos _ g hg hgx, ?_⟩
    rw [(hm v m hv).2]
    unfold mass
    apply Finset.sum_le_sum_of_subset_of_nonneg
    · intro p hp
      rw [Finset.mem_filter] at hp ⊢
      exact ⟨hp.1, ⟨v, x⟩, hp.2, rfl⟩
    · intro p hp _
      rw [Finset.mem_filter, Samples.mem_items] at hp
      exact (hpos _ _ hp.1).le
  have hle : ∀ v m, (sp.groupAcc oI oV oN (sp.toCheck req)).get? v = some m → 0 < m.vals.sum ∧ m.vals.sum ≤ sp.outcomes.length := by
    intro v m hv
    rw [(hm v m hv).2]
    exact ⟨hNpos v m hv, mass_le_length sp.outcomes hpos (HasVar v)⟩
  have hE : sp.marginals u oI oV oN req false = .ok ((sp.groupAcc oI oV oN (sp.toCheck req)).mapVals fun m => m.mapVals fun c => (c : ℚ) / (m.vals.sum : ℚ)) := by
    apply marginals_ok
    intro v m hv
    obtain ⟨h1, h2⟩ := hle v m hv
    constructor
    · unfold Space.normValues Space.divide
      rw [if_neg (not_not.2 ⟨h1.le, h2⟩), if_neg (by simp), if_neg (by omega)]
    · rw [Dict.vals_mapVals, sum_map_div, div_self]
      exact_mod_cast h1.ne'
  have hF : sp.marginalsFl ver u oI oV oN req false =
      .ok ((sp.groupAcc oI oV oN (sp.toCheck req)).mapVals fun m => m.mapVals fun c => fl ((c : ℚ) / (m.vals.sum : ℚ))) := by
    apply marginalsFl_ok
    intro v m hv
    obtain ⟨h1, h2⟩ := hle v m hv
    constructor
    · unfold Space.normValuesFl Space.divideFl
      rw [if_neg (not_not.2 ⟨h1.le, h2⟩), if_neg (by simp), if_neg (by omega)]
    · exact table_close ver m _ h1 (h2.trans hlen) rfl (fun x c hc => (hcpos v m hv x c hc).1.le)
        (entries_le (hn v) m fun x c hc => (((hm v m hv).1 x c).1 hc).1)
  refine ⟨_, _, hF, hE, ?_, ?_⟩
  · simp only [mapVals_mapVals]
  · intro v m hv x q hq
    rw [Dict.get?_mapVals, Option.map_eq_some_iff] at hv
    obtain ⟨m0, hv, rfl⟩ := hv
    rw [Dict.get?_mapVals, Option.map_eq_some_iff] at hq
    obtain ⟨c, hc, rfl⟩ := hq
    obtain ⟨h1, h2⟩ := hle v m0 hv
    obtain ⟨h3, h4⟩ := hcpos v m0 hv x c hc
    exact ⟨fl_div_pos h3 h1 (h2.trans hlen), fl_div_le_one h4 h1, (roundable_div h3.le h1 (h2.trans hlen)).rel⟩

/-- **C64.** With `unobserved`, if `'u'` is not a value: no assertion fails; every entry is the exact frequency of C28, rounded once. -/
theorem C64_unobserved (ver : PyVer) (sp : Space V X R) (u : X) (oI : Order (SampleGraph V X R × ℤ)) (oV : Order V) (oN : Order (Node V X))
    (req : Option (Finset V)) (hpos : Positive sp.outcomes) (hsv : ∀ g, sp.outcomes.Occurs g → SingleValued g.nodes)
    (hu : ∀ g v, sp.outcomes.Occurs g → Requested sp req v → ¬ HasValue v u g)
    (hlen : sp.outcomes.length ≤ 2 ^ 1022) (hn : ∀ v, ValuesOf sp v (maxItems ver - 1)) :
    ∃ d e, sp.marginalsFl ver u oI oV oN req true = .ok d ∧ sp.marginals u oI oV oN req true = .ok e ∧ d = e.mapVals (fun m => m.mapVals fl) ∧
      ∀ v m, e.get? v = some m → ∀ x q, m.get? x = some q → 0 ≤ fl q ∧ fl q ≤ 1 ∧ |fl q - q| ≤ uro * q := by
  obtain ⟨hk, hm⟩ := groupAcc_spec sp oI oV oN (sp.toCheck req) hsv
  have hNpos : ∀ v m, (sp.groupAcc oI oV oN (sp.toCheck req)).get? v = some m →
      0 < mass sp.outcomes (HasVar v) ∧ m.get? u = none := by
    intro v m hv
    obtain ⟨hr, g, hg, hgv⟩ := (hk v).1 ((Dict.mem_keys _ _).2 ⟨m, hv⟩)
    refine ⟨mass_pos _ hpos _ g hg hgv, ?_⟩
    cases hx : m.get? u with
    | none => rfl
    | some c =>
      obtain ⟨⟨g', hg', h⟩, _⟩ := ((hm v m hv).1 u c).1 hx
      exact absurd h (hu g' v hg' ((mem_toCheck sp req v).1 hr))
  have hle : ∀ v m, (sp.groupAcc oI oV oN (sp.toCheck req)).get? v = some m → 0 < m.vals.sum ∧ m.vals.sum ≤ sp.outcomes.length := by
    intro v m hv
    rw [(hm v m hv).2]
    exact ⟨(hNpos v m hv).1, mass_le_length sp.outcomes hpos (HasVar v)⟩
  have hcpos : ∀ v m, (sp.groupAcc oI oV oN (sp.toCheck req)).get? v = some m → ∀ x c,
      (m.set u (sp.outcomes.length - m.vals.sum)).get? x = some c → 0 ≤ c ∧ c ≤ sp.outcomes.length := by
    intro v m hv x c hc
    obtain ⟨h1, h2⟩ := hle v m hv
    rw [Dict.get?_set] at hc
    split at hc
    · cases hc; constructor <;> omega
    · obtain ⟨⟨g, hg, hgx⟩, rfl⟩ := ((hm v m hv).1 x c).1 hc
      exact ⟨(mass_pos _ hpos _ g hg hgx).le, mass_le_length _ hpos _⟩
  have hsum : ∀ v m, (sp.groupAcc oI oV oN (sp.toCheck req)).get? v = some m →
      (m.set u (sp.outcomes.length - m.vals.sum)).vals.sum = sp.outcomes.length := by
    intro v m hv
    rw [Dict.sum_vals_set, (hNpos v m hv).2]
    simp
  have hE : sp.marginals u oI oV oN req true = .ok ((sp.groupAcc oI oV oN (sp.toCheck req)).mapVals
      fun m => (m.set u (sp.outcomes.length - m.vals.sum)).mapVals fun c => (c : ℚ) / (sp.outcomes.length : ℚ)) := by
    apply marginals_ok
    intro v m hv
    obtain ⟨h1, h2⟩ := hle v m hv
    constructor
    · unfold Space.normValues Space.divide
      rw [if_neg (not_not.2 ⟨h1.le, h2⟩), if_pos rfl, if_neg (by omega)]
    · rw [Dict.vals_mapVals, sum_map_div, hsum v m hv, div_self]
      exact_mod_cast (by omega : sp.outcomes.length ≠ 0)
  have hF : sp.marginalsFl ver u oI oV oN req true = .ok ((sp.groupAcc oI oV oN (sp.toCheck req)).mapVals
      fun m => (m.set u (sp.outcomes.length - m.vals.sum)).mapVals fun c => fl ((c : ℚ) / (sp.outcomes.length : ℚ))) := by
    apply marginalsFl_ok
    intro v m hv
    obtain ⟨h1, h2⟩ := hle v m hv
    constructor
    · unfold Space.normValuesFl Space.divideFl
      rw [if_neg (not_not.2 ⟨h1.le, h2⟩), if_pos rfl, if_neg (by omega)]
    · apply table_close ver _ _ (by omega) hlen (hsum v m hv) (fun x c hc => (hcpos v m hv x c hc).1)
      have h3 := entries_le (hn v) m fun x c hc => (((hm v m hv).1 x c).1 hc).1
      have h4 : (m.set u (sp.outcomes.length - m.vals.sum)).entries.length ≤ m.entries.length + 1 := by
        have : ∀ (l : List (X × ℤ)) (k : X) (c : ℤ), (assocSet l k c).length ≤ l.length + 1 := by
          intro l k c
          induction l with
          | nil => simp [assocSet]
          | cons p t ih =>
            simp only [assocSet]
            split
            · simp
            · simpa using ih
        exact this _ _ _
      have h5 : 1 ≤ maxItems ver := by cases ver <;> decide
      omega
  refine ⟨_, _, hF, hE, ?_, ?_⟩
  · simp only [mapVals_mapVals]
  · intro v m hv x q hq
    rw [Dict.get?_mapVals, Option.map_eq_some_iff] at hv
    obtain ⟨m0, hv, rfl⟩ := hv
    rw [Dict.get?_mapVals, Option.map_eq_some_iff] at hq
    obtain ⟨c, hc, rfl⟩ := hq
    obtain ⟨h1, h2⟩ := hle v m0 hv
    obtain ⟨h3, h4⟩ := hcpos v m0 hv x c hc
    have hr := roundable_div h3 (by omega : 0 < sp.outcomes.length) hlen
    exact ⟨fl_nonneg hr.nonneg, fl_div_le_one h4 (by omega), hr.rel⟩

/-! ### `FoldedNode.marginal_distribution` -/

theorem fl_int {k : ℤ} (h0 : 0 ≤ k) (h : k ≤ 2 ^ 53) : fl (k : ℚ) = k := fl_of_isFloat (isFloat_int (by rw [abs_of_nonneg h0]; exact h))

theorem distLoopFl_eq : ∀ (l : List (Node V X × ℤ)) (acc : Dict X ℚ) (total : ℤ), (∀ p ∈ l, 0 ≤ p.2) → total + (l.map Prod.snd).sum ≤ 2 ^ 53 →
    (∀ x q, acc.get? x = some q → ∃ k : ℤ, q = k ∧ 0 ≤ k ∧ k ≤ total) → FoldedNode.distLoopFl l (acc, total) = FoldedNode.distLoop l (acc, total) := by
  intro l
  induction l with
  | nil => intro acc total _ _ _; rfl
  | cons p t ih =>
    intro acc total h0 ht hk
    obtain ⟨n, c⟩ := p
    have hc : 0 ≤ c := h0 (n, c) (by simp)
    have hs : 0 ≤ (t.map Prod.snd).sum := List.sum_nonneg (by
      intro x hx
      obtain ⟨p, hp, rfl⟩ := List.mem_map.mp hx
      exact h0 p (by simp [hp]))
    rw [List.map_cons, List.sum_cons] at ht
    simp only at ht
    unfold FoldedNode.distLoopFl FoldedNode.distLoop
    cases ha : acc.get? n.val with
    | none => rfl
    | some a =>
      obtain ⟨k, rfl, hk0, hkt⟩ := hk _ _ ha
      have e : fl ((k : ℚ) + fl (c : ℚ)) = (k : ℚ) + (c : ℚ) := by
        rw [fl_int hc (by omega)]
        exact_mod_cast fl_int (k := k + c) (by omega) (by omega)
      simp only [e]
      apply ih
      · intro p hp; exact h0 p (by simp [hp])
      · omega
      · intro x q hq
        rw [Dict.get?_set] at hq
        split at hq
        · cases hq
          exact ⟨k + c, by push_cast; rfl, by omega, by omega⟩
        · obtain ⟨j, rfl, h1, h2⟩ := hk _ _ hq
          exact ⟨j, rfl, h1, by omega⟩

/-- **C64.** `marginal_distribution` of a folded node: up to `2 ^ 53` outcomes every entry is the exact one of C31, rounded once. -/
theorem C64_marginal_distribution (sp : Space V X R) (unobs : X) (oX : Order X) (oN : Order (Node V X × ℤ))
    (N : FoldedNode V X) (h : ExactNode sp N) (hs : Sound sp) (hpos : Positive sp.outcomes)
    (hsv : ∀ g, sp.outcomes.Occurs g → SingleValued g.nodes) (hne : ∃ g, sp.outcomes.Occurs g) (hlen : sp.outcomes.length ≤ 2 ^ 53) :
    ∃ d, N.marginalDistribution unobs oX oN = .ok d ∧ N.marginalDistributionFl unobs oX oN = .ok (d.mapVals fl) ∧
      ∀ x q, d.get? x = some q → 0 ≤ fl q ∧ fl q ≤ 1 ∧ |fl q - q| ≤ uro * q := by
  obtain ⟨acc, h1, h2, h3⟩ := marginalDistribution_ok sp unobs oX oN N h hs hpos hsv hne
  have hlen0 : 0 < sp.outcomes.length := by
    obtain ⟨g, c, hg⟩ := hne
    exact lt_of_lt_of_le (hpos g c hg) (count_le_length _ hpos g c hg)
  have hperm : (oN.run N.valueNodes).Perm N.nodes.entries := by
    unfold FoldedNode.valueNodes
    refine (List.perm_ext_iff_of_nodup (oN.nodup _) N.nodes.nodup_entries).2 fun p => ?_
    rw [oN.mem, List.mem_toFinset]
  have htot : ((oN.run N.valueNodes).map Prod.snd).sum = mass sp.outcomes (HasVar N.var) := by
    rw [(hperm.map Prod.snd).sum_eq]
    exact foldedNode_sum sp N h hsv
  have hle := mass_le_length sp.outcomes hpos (HasVar N.var)
  have hloop : FoldedNode.distLoopFl (oN.run N.valueNodes) (Dict.ofList ((oX.run N.values).map fun x => (x, (0 : ℚ))), 0) =
      FoldedNode.distLoop (oN.run N.valueNodes) (Dict.ofList ((oX.run N.values).map fun x => (x, 0)), 0) := by
    apply distLoopFl_eq
    · intro p hp
      rw [hperm.mem_iff, Dict.mem_entries'] at hp
      rw [((h.2.2 p.1 p.2).1 hp).2.2]
      exact mass_nonneg _ hpos _
    · omega
    · intro x q hq
      have hnd : ((((oX.run N.values).map fun x => (x, (0 : ℚ)))).map Prod.fst).Nodup := by
        rw [List.map_map]
        show ((oX.run N.values).map id).Nodup
        rw [List.map_id]
        exact oX.nodup _
      rw [Dict.get?_ofList _ hnd, List.mem_map] at hq
      obtain ⟨y, _, he⟩ := hq
      cases he
      exact ⟨0, by simp, le_rfl, le_rfl⟩
  refine ⟨_, h1, ?_, ?_⟩
  · unfold FoldedNode.marginalDistribution at h1
    unfold FoldedNode.marginalDistributionFl
    rw [hloop]
    cases hd : FoldedNode.distLoop (oN.run N.valueNodes) (Dict.ofList ((oX.run N.values).map fun x => (x, (0 : ℚ))), 0) with
    | error e => rw [hd] at h1; cases h1
    | ok st =>
      obtain ⟨acc', total⟩ := st
      rw [hd] at h1
      simp only at h1 ⊢
      by_cases c1 : N.n < total
      · rw [if_pos c1] at h1; cases h1
      by_cases c2 : N.n = 0
      · rw [if_neg c1, if_pos c2] at h1; cases h1
      rw [if_neg c1, if_neg c2] at h1 ⊢
      have h1' := Except.ok.inj h1
      rw [← h1', mapVals_mapVals, Dict.mapVals_set, h.1, fl_int hlen0.le hlen]
  · intro x q hq
    rw [Dict.get?_mapVals, Option.map_eq_some_iff] at hq
    obtain ⟨c, hc, rfl⟩ := hq
    have : ∃ k : ℤ, c = k ∧ 0 ≤ k ∧ k ≤ sp.outcomes.length := by
      rw [Dict.get?_set] at hc
      split at hc
      · cases hc
        exact ⟨_, rfl, mass_nonneg _ hpos _, mass_le_length _ hpos _⟩
      · obtain ⟨_, rfl⟩ := (h2 _ _).1 hc
        exact ⟨_, rfl, mass_nonneg _ hpos _, mass_le_length _ hpos _⟩
    obtain ⟨k, rfl, hk0, hk1⟩ := this
    have hr := roundable_div hk0 hlen0 (hlen.trans (by norm_num))
    exact ⟨fl_nonneg hr.nonneg, fl_div_le_one hk1 hlen0, hr.rel⟩

/-! ### `SampleGraph.similarity` -/

theorem similarityFl_eq (g other : SampleGraph V X R) : g.similarityFl other = (g.similarity other).map fl := by
  unfold SampleGraph.similarityFl SampleGraph.similarity
  simp only
  split <;> rfl

/-- **C64.** `similarity` is the exact value of C14, rounded once. Rounding does not create false extremes: for graphs of less than `2 ^ 53` components together the result is `1` only for
equal graphs and `0` only for graphs without common components. -/
theorem C64_similarity (g other : SampleGraph V X R) (hb : graphSize g + graphSize other ≤ 2 ^ 53) :
    g.similarityFl other = (g.similarity other).map fl ∧
    ∀ q, g.similarityFl other = .ok q → 0 ≤ q ∧ q ≤ 1 ∧ (q = 1 ↔ g.similarity other = .ok 1) ∧ (q = 0 ↔ g.similarity other = .ok 0) := by
  refine ⟨similarityFl_eq g other, ?_⟩
  intro q hq
  rw [similarityFl_eq] at hq
  have hv := C14_value g other
  cases he : g.similarity other with
  | error e => rw [he] at hq; cases hq
  | ok r =>
    rw [he] at hq
    have hq' : fl r = q := Except.ok.inj hq
    subst hq'
    obtain ⟨hne, hr⟩ := (hv.1 r).1 he
    set i := (g.nodes ∩ other.nodes).card + (g.edges ∩ other.edges).card with hi
    set j := (g.nodes ∪ other.nodes).card + (g.edges ∪ other.edges).card with hj
    have hij : i ≤ j := Nat.add_le_add (Finset.card_le_card Finset.inter_subset_union) (Finset.card_le_card Finset.inter_subset_union)
    have hjb : j ≤ 2 ^ 53 := by
      have h1 := Finset.card_union_le g.nodes other.nodes
      have h2 := Finset.card_union_le g.edges other.edges
      unfold graphSize at hb
      omega
    have hj0 : 0 < j := by
      by_contra hc
      have hj0 : j = 0 := by omega
      rw [hj, Nat.add_eq_zero_iff, Finset.card_eq_zero, Finset.card_eq_zero, Finset.union_eq_empty, Finset.union_eq_empty] at hj0
      obtain ⟨⟨a1, a2⟩, a3, a4⟩ := hj0
      exact hne ⟨by cases g; simp_all, by cases other; simp_all⟩
    have hjq : (0 : ℚ) < j := by exact_mod_cast hj0
    have hjbq : (j : ℚ) ≤ 9007199254740992 := by exact_mod_cast hjb
    have hr' : r = (i : ℚ) / (j : ℚ) := by rw [hr]
    have h0 : 0 ≤ r := by rw [hr']; positivity
    have h1 : r ≤ 1 := by rw [hr', div_le_one hjq]; exact_mod_cast hij
    refine ⟨fl_nonneg h0, fl_le isFloat_one h1, ?_, ?_⟩
    · constructor
      · intro hf
        by_contra hc
        have hlt : i < j := by
          rcases hij.lt_or_eq with h | h
          · exact h
          · exact absurd (by rw [hr', h, div_self hjq.ne'] : Except.ok (ε := Err) r = .ok 1) hc
        have h2 : r ≤ ((2 ^ 53 - 1 : ℤ) : ℚ) * 2 ^ (-53 : ℤ) := by
          rw [hr', div_le_iff₀ hjq]
          have : (i : ℚ) + 1 ≤ j := by exact_mod_cast hlt
          norm_num
          linarith
        have h3 : IsFloat (((2 ^ 53 - 1 : ℤ) : ℚ) * 2 ^ (-53 : ℤ)) := ⟨_, _, by norm_num, by norm_num, rfl⟩
        have h4 := fl_le h3 h2
        rw [hf] at h4
        norm_num at h4
      · intro h
        rw [Except.ok.inj h, fl_one]
    · constructor
      · intro hf
        by_contra hc
        have hlt : 0 < i := by
          rcases Nat.eq_zero_or_pos i with h | h
          · exact absurd (by rw [hr', h]; simp : Except.ok (ε := Err) r = .ok 0) hc
          · exact h
        have h2 : ((1 : ℤ) : ℚ) * 2 ^ (-53 : ℤ) ≤ r := by
          rw [hr', le_div_iff₀ hjq]
          have : (1 : ℚ) ≤ i := by exact_mod_cast hlt
          norm_num
          linarith
        have h3 : IsFloat (((1 : ℤ) : ℚ) * 2 ^ (-53 : ℤ)) := ⟨_, _, by norm_num, by norm_num, rfl⟩
        have h4 := le_fl h3 h2
        rw [hf] at h4
        norm_num at h4
      · intro h
        rw [Except.ok.inj h, fl_zero]

/-! ### The tolerance of the assertion -/

/-- **C64.** The tolerance is needed: up to Python 3.11 the sum of the probabilities of ten samples of equal count, in any order, is the float below `1`. -/
theorem C64_tolerance_needed (o : Order (SampleGraph V X R × ℚ)) (a : Samples V X R) (c : ℤ) (hc : 0 < c) (h : ∀ g k, a.samples.get? g = some k → k = c)
    (hn : a.samples.entries.length = 10) : ∃ ps, a.probabilitiesFl .plain o = .ok ps ∧ pySum .plain ((o.run ps).map Prod.snd) = 1 - uro := by
  have hv : a.samples.vals = List.replicate 10 c := by
    rw [List.eq_replicate_iff]
    refine ⟨by unfold Dict.vals; rw [List.length_map, hn], ?_⟩
    intro k hk
    obtain ⟨p, hp, rfl⟩ := List.mem_map.mp hk
    exact h p.1 p.2 ((a.samples.mem_entries' p).1 hp)
  have hlen : a.length = 10 * c := by unfold Samples.length; rw [hv]; simp only [List.sum_replicate, nsmul_eq_mul]; norm_num
  have hall : ∀ p ∈ (a.samples.entries.map fun p => (p.1, fl ((p.2 : ℚ) / (a.length : ℚ)))), p.2 = fl (1 / 10) := by
    intro p hp
    obtain ⟨q, hq, rfl⟩ := List.mem_map.mp hp
    have := h q.1 q.2 ((a.samples.mem_entries' q).1 hq)
    simp only [this, hlen]
    have hcq : (c : ℚ) ≠ 0 := by exact_mod_cast hc.ne'
    congr 1
    push_cast
    field_simp
  have hnd : (a.samples.entries.map fun p => (p.1, fl ((p.2 : ℚ) / (a.length : ℚ)))).Nodup := by
    apply List.Nodup.of_map Prod.fst
    rw [List.map_map]
    exact a.samples.nodup
  have hrun : (o.run (a.samples.entries.map fun p => (p.1, fl ((p.2 : ℚ) / (a.length : ℚ)))).toFinset).map Prod.snd = List.replicate 10 (fl (1 / 10)) := by
    rw [List.eq_replicate_iff]
    constructor
    · rw [List.length_map, o.length_run, List.toFinset_card_of_nodup hnd, List.length_map, hn]
    · intro q hq
      obtain ⟨p, hp, rfl⟩ := List.mem_map.mp hq
      rw [o.mem, List.mem_toFinset] at hp
      exact hall p hp
  refine ⟨(a.samples.entries.map fun p => (p.1, fl ((p.2 : ℚ) / (a.length : ℚ)))).toFinset, ?_, ?_⟩
  · unfold Samples.probabilitiesFl
    rw [if_neg (by rintro ⟨_, h0⟩; omega)]
    simp only
    rw [hrun, if_pos]
    decide +kernel
  · rw [hrun]
    decide +kernel

theorem multiple_of_half {x : ℚ} (h : IsFloat x) (hx : 1 / 2 ≤ x) : ∃ k : ℤ, x = k * 2 ^ (-53 : ℤ) := by
  obtain ⟨m, e, hm, he, rfl⟩ := h
  have h2 : -53 ≤ e := by
    by_contra hc
    have h3 : (2 : ℚ) ^ e ≤ 2 ^ (-54 : ℤ) := zpow_le_zpow_right₀ (by norm_num) (by omega)
    have h4 : (m : ℚ) ≤ 2 ^ 53 - 1 := by
      have : m ≤ 2 ^ 53 - 1 := by have := (abs_lt.mp hm).2; omega
      exact_mod_cast this
    have h5 := two_pow_pos e
    have h6 : (0 : ℚ) ≤ 2 ^ 53 - 1 - m := by linarith
    norm_num at h3
    nlinarith
  refine ⟨m * 2 ^ (e + 53).toNat, ?_⟩
  have : (2 : ℚ) ^ e = 2 ^ (e + 53).toNat * 2 ^ (-53 : ℤ) := by
    rw [← zpow_natCast, ← zpow_add₀ (by norm_num)]
    congr 1
    omega
  rw [this]
  push_cast
  ring

/-- A small addend is lost. -/
theorem fl_add_lost {s p : ℚ} (hs : IsFloat s) (h1 : 1 / 2 ≤ s) (hp0 : 0 ≤ p) (hp : p ≤ 2 ^ (-55 : ℤ)) : fl (s + p) = s := by
  have h2 : s ≤ fl (s + p) := le_fl hs (by linarith)
  have h3 := fl_nearest (x := s + p) hs
  rw [show s - (s + p) = -p by ring, abs_neg, abs_of_nonneg hp0] at h3
  have h4 : fl (s + p) - s ≤ 2 * p := by linarith [(abs_le.mp h3).2]
  obtain ⟨i, hi⟩ := multiple_of_half hs h1
  obtain ⟨j, hj⟩ := multiple_of_half (fl_isFloat (s + p)) (h1.trans h2)
  have h5 : ((j - i : ℤ) : ℚ) < 1 := by
    rw [hj, hi] at h4
    have := two_pow_pos (-53)
    have e : (2 : ℚ) ^ (-53 : ℤ) = 4 * 2 ^ (-55 : ℤ) := by norm_num
    push_cast
    have e2 : 0 < (2 : ℚ) ^ (-55 : ℤ) := two_pow_pos _
    by_contra hc
    have : (2 : ℚ) ^ (-53 : ℤ) ≤ ((j : ℚ) - i) * 2 ^ (-53 : ℤ) := by nlinarith
    nlinarith
  have h6 : j - i < 1 := by exact_mod_cast h5
  have h7 : i ≤ j := by
    rw [hj, hi] at h2
    have := le_of_mul_le_mul_right h2 (two_pow_pos (-53))
    exact_mod_cast this
  have : i = j := by omega
  rw [hj, hi, this]

theorem foldl_lost {s : ℚ} (hs : IsFloat s) (h1 : 1 / 2 ≤ s) (l : List ℚ) (h : ∀ p ∈ l, 0 ≤ p ∧ p ≤ 2 ^ (-55 : ℤ)) :
    l.foldl (fun s x => fl (s + x)) s = s := by
  induction l with
  | nil => rfl
  | cons p t ih =>
    rw [List.foldl_cons, fl_add_lost hs h1 (h p (by simp)).1 (h p (by simp)).2]
    exact ih fun q hq => h q (by simp [hq])

/-- An order of sets that begins with a given element. -/
noncomputable def orderFirst {α : Type} [DecidableEq α] (b : α) : Order α where
  run s := if b ∈ s then b :: (s.erase b).toList else s.toList
  nodup s := by
    split
    · rw [List.nodup_cons]
      exact ⟨by simp, Finset.nodup_toList _⟩
    · exact Finset.nodup_toList _
  mem s a := by
    split
    · rename_i hb
      rw [List.mem_cons, Finset.mem_toList, Finset.mem_erase]
      constructor
      · rintro (rfl | h)
        · exact hb
        · exact h.2
      · intro h
        by_cases he : a = b
        · exact Or.inl he
        · exact Or.inr ⟨he, h⟩
    · exact Finset.mem_toList

/-- **C64.** The bound on the number of samples is needed: up to Python 3.11 `probabilities()` of a correct sample set fails if one sample comes first that makes up at least half of all, each of the
others at most `2 ^ -55`, and the others together more than `1.1e-9`: adding them does not change the sum any more. -/
theorem C64_assertion_fails (a : Samples V X R) (h : Positive a) (big : SampleGraph V X R) (c : ℤ) (hbig : a.samples.get? big = some c)
    (hhalf : a.length ≤ 2 * c) (hsmall : ∀ g k, a.samples.get? g = some k → g ≠ big → k * 2 ^ 55 ≤ a.length)
    (hrest : 11 * a.length ≤ 10 ^ 10 * (a.length - c)) : ∃ o, a.probabilitiesFl .plain o = .error .assertion := by
  have hc : 0 < c := h _ _ hbig
  have hcl := count_le_length a h _ _ hbig
  have hpos : 0 < a.length := by omega
  have hposq : (0 : ℚ) < (a.length : ℚ) := by exact_mod_cast hpos
  refine ⟨orderFirst (big, fl ((c : ℚ) / (a.length : ℚ))), ?_⟩
  have hmem : ∀ g q, (g, q) ∈ (a.samples.entries.map fun p => (p.1, fl ((p.2 : ℚ) / (a.length : ℚ)))).toFinset ↔
      ∃ c, a.samples.get? g = some c ∧ q = fl ((c : ℚ) / (a.length : ℚ)) := by
    intro g q
    rw [List.mem_toFinset, List.mem_map]
    constructor
    · rintro ⟨p, hp, he⟩
      simp only [Prod.mk.injEq] at he
      exact ⟨p.2, by rw [← he.1]; exact (a.samples.mem_entries' p).1 hp, he.2.symm⟩
    · rintro ⟨c, hc, rfl⟩
      exact ⟨(g, c), (a.samples.mem_entries g c).2 hc, rfl⟩
  unfold Samples.probabilitiesFl
  rw [if_neg (fun h' => hpos.ne' h'.2)]
  simp only
  rw [if_neg]
  set S := (a.samples.entries.map fun p => (p.1, fl ((p.2 : ℚ) / (a.length : ℚ)))).toFinset with hS
  have hb : (big, fl ((c : ℚ) / (a.length : ℚ))) ∈ S := (hmem _ _).2 ⟨c, hbig, rfl⟩
  have hq2 : 1 / 2 ≤ fl ((c : ℚ) / (a.length : ℚ)) := by
    have h2 : IsFloat (((1 : ℤ) : ℚ) * 2 ^ (-1 : ℤ)) := ⟨_, _, by norm_num, by norm_num, rfl⟩
    have := le_fl h2 (x := (c : ℚ) / (a.length : ℚ)) (by
      rw [le_div_iff₀ hposq]
      have : (a.length : ℚ) ≤ 2 * c := by exact_mod_cast hhalf
      norm_num
      linarith)
    norm_num at this ⊢
    exact this
  have hsum : pySum .plain (((orderFirst (big, fl ((c : ℚ) / (a.length : ℚ)))).run S).map Prod.snd) = fl ((c : ℚ) / (a.length : ℚ)) := by
    have hrun : (orderFirst (big, fl ((c : ℚ) / (a.length : ℚ)))).run S =
      (big, fl ((c : ℚ) / (a.length : ℚ))) :: (S.erase (big, fl ((c : ℚ) / (a.length : ℚ)))).toList := if_pos hb
    rw [hrun]
    show plainSum _ = _
    unfold plainSum
    rw [List.map_cons, List.foldl_cons, zero_add, fl_of_isFloat (fl_isFloat _)]
    apply foldl_lost (fl_isFloat _) hq2
    intro p hp
    obtain ⟨⟨g, q⟩, hgq, rfl⟩ := List.mem_map.mp hp
    rw [Finset.mem_toList, Finset.mem_erase, hmem] at hgq
    obtain ⟨hne, k, hk, rfl⟩ := hgq
    have hgb : g ≠ big := by
      rintro rfl
      rw [hbig] at hk
      cases hk
      exact hne rfl
    have hk0 := h _ _ hk
    refine ⟨fl_nonneg (div_nonneg (by exact_mod_cast hk0.le) hposq.le), ?_⟩
    have h2 : IsFloat (((1 : ℤ) : ℚ) * 2 ^ (-55 : ℤ)) := ⟨_, _, by norm_num, by norm_num, rfl⟩
    have := fl_le h2 (x := (k : ℚ) / (a.length : ℚ)) (by
      rw [div_le_iff₀ hposq]
      have h3 : (k : ℚ) * 2 ^ 55 ≤ a.length := by exact_mod_cast hsmall g k hk hgb
      norm_num at h3 ⊢
      linarith)
    rwa [Int.cast_one, one_mul] at this
  rw [hsum]
  have hd : (c : ℚ) / (a.length : ℚ) ≤ 1 - 11 / 10 ^ 10 := by
    rw [div_le_iff₀ hposq]
    have : 11 * (a.length : ℚ) ≤ 10 ^ 10 * ((a.length : ℚ) - c) := by exact_mod_cast hrest
    linarith
  have hd0 : (0 : ℚ) ≤ (c : ℚ) / (a.length : ℚ) := div_nonneg (by exact_mod_cast hc.le) hposq.le
  have hu : uro = 1 / 9007199254740992 := by unfold uro; norm_num
  have hrel := (roundable_div hc.le hpos (n := a.length)) 
  generalize (c : ℚ) / (a.length : ℚ) = r at *
  have hf : fl r ≤ 1 - 109 / 10 ^ 11 := by
    have h3 : |r| ≤ 1 := by rw [abs_of_nonneg hd0]; linarith
    have h4 : |fl r - r| ≤ uro := by
      rcases le_or_gt (2 ^ (-1022 : ℤ)) |r| with h5 | h5
      · have := fl_rel h5
        nlinarith [uro_pos]
      · exfalso
        have h6 := fl_le (x := r) (y := ((1 : ℤ) : ℚ) * 2 ^ (-2 : ℤ)) ⟨_, _, by norm_num, by norm_num, rfl⟩ (by
          refine (le_abs_self r).trans (h5.le.trans ?_)
          rw [Int.cast_one, one_mul]
          exact zpow_le_zpow_right₀ (by norm_num) (by norm_num))
        norm_num at h6
        linarith
    have h5 := (abs_le.mp h4).2
    rw [hu] at h5
    norm_num at h5 hd ⊢
    linarith
  have hn := nano_bounds
  have hnano : nano ≤ 105 / 10 ^ 11 := by
    have := hn.2.2
    rw [hu] at this
    norm_num at this ⊢
    linarith
  have h1 : nano < |fl (1 - fl r)| := by
    have h7 : fl (106 / 10 ^ 11) ≤ fl (1 - fl r) := fl_mono (by norm_num at hf ⊢; linarith)
    have h8 : 105 / 10 ^ 11 < fl (106 / 10 ^ 11) := by decide +kernel
    exact lt_of_le_of_lt hnano (h8.trans_le (h7.trans (le_abs_self _)))
  have hn0 : 0 ≤ nano := by have := hn.2.1; norm_num at this; linarith
  have h2 : |fl (nano * 1)| = nano := by
    rw [mul_one, fl_of_isFloat hn.1]
    exact abs_of_nonneg hn0
  have hfr1 : fl r ≤ 1 := by norm_num at hf; linarith
  have h3 : |fl (nano * fl r)| ≤ nano := by
    apply abs_fl_le hn.1
    rw [abs_of_nonneg (mul_nonneg hn0 (by linarith))]
    nlinarith
  have hne : fl r ≠ 1 := by norm_num at hf; intro h0; rw [h0] at hf; norm_num at hf
  unfold isclose
  rw [h2]
  simp only [hne, decide_false, Bool.false_or, Bool.or_eq_true, decide_eq_true_eq, not_or, not_le]
  exact ⟨⟨h1, lt_of_le_of_lt h3 h1⟩, lt_of_le_of_lt hn0 h1⟩

/-- One sample of count `c` and `n` samples of count `1`. -/
def skewed (c : ℤ) (n : ℕ) : Samples ℕ ℕ ℕ :=
  ⟨0, Dict.ofList ((⟨{⟨0, 0⟩}, ∅⟩, c) :: (List.range n).map fun i => (⟨{⟨0, i + 1⟩}, ∅⟩, 1))⟩

theorem skewed_nodup (c : ℤ) (n : ℕ) : ((((⟨{⟨0, 0⟩}, ∅⟩, c) :: (List.range n).map fun i => (⟨{⟨0, i + 1⟩}, ∅⟩, 1)) : List (SampleGraph ℕ ℕ ℕ × ℤ)).map Prod.fst).Nodup := by
  rw [List.map_cons, List.nodup_cons, List.map_map]
  constructor
  · rw [List.mem_map]
    rintro ⟨i, _, h⟩
    simp only [Function.comp_apply, SampleGraph.mk.injEq, Finset.singleton_inj, Node.mk.injEq] at h
    omega
  · apply List.Nodup.map _ List.nodup_range
    intro i j h
    simp only [Function.comp_apply, SampleGraph.mk.injEq, Finset.singleton_inj, Node.mk.injEq] at h
    omega

theorem skewed_get (c : ℤ) (n : ℕ) (g : SampleGraph ℕ ℕ ℕ) (k : ℤ) (h : (skewed c n).samples.get? g = some k) : (g = ⟨{⟨0, 0⟩}, ∅⟩ ∧ k = c) ∨ k = 1 := by
  unfold skewed at h
  rw [Dict.get?_ofList _ (skewed_nodup c n), List.mem_cons, List.mem_map] at h
  rcases h with h | ⟨i, _, h⟩
  · cases h; exact Or.inl ⟨rfl, rfl⟩
  · cases h; exact Or.inr rfl

theorem skewed_length (c : ℤ) (n : ℕ) : (skewed c n).length = c + n := by
  unfold skewed Samples.length Dict.vals
  rw [Dict.entries_ofList _ (skewed_nodup c n), List.map_cons, List.sum_cons, List.map_map]
  congr 1
  induction n with
  | zero => rfl
  | succ n ih =>
    rw [List.range_succ, List.map_append, List.sum_append, ih]
    simp

/-- Non-vacuity: one sample of count `2 ^ 55` and `2 ^ 26` of count `1`. -/
theorem C64_skewed : ∃ o, (skewed (2 ^ 55) (2 ^ 26)).probabilitiesFl .plain o = .error .assertion := by
  have hget : (skewed (2 ^ 55) (2 ^ 26)).samples.get? ⟨{⟨0, 0⟩}, ∅⟩ = some (2 ^ 55) := by
    unfold skewed
    rw [Dict.get?_ofList _ (skewed_nodup _ _)]
    exact List.mem_cons_self
  apply C64_assertion_fails _ _ ⟨{⟨0, 0⟩}, ∅⟩ (2 ^ 55) hget
  · rw [skewed_length]; norm_num
  · intro g k hk hg
    rcases skewed_get _ _ _ _ hk with h | h
    · exact absurd h.1 hg
    · rw [skewed_length, h]; norm_num
  · rw [skewed_length]; norm_num
  · intro g k hk
    rcases skewed_get _ _ _ _ hk with h | h
    · rw [h.2]; norm_num
    · rw [h]; norm_num

theorem skewed_entries (c : ℤ) (n : ℕ) : (skewed c n).samples.entries.length = n + 1 := by
  unfold skewed
  rw [Dict.entries_ofList _ (skewed_nodup c n)]
  simp

/-- Non-vacuity of `C64_probabilities` and `C64_tolerance_needed`: ten samples of count `1`. -/
example : Positive (skewed 1 9) ∧ (skewed 1 9).samples.entries ≠ [] ∧ (skewed 1 9).length ≤ 2 ^ 1022 ∧ (∀ v, (skewed 1 9).samples.entries.length ≤ maxItems v) ∧
    (∀ g k, (skewed 1 9).samples.get? g = some k → k = 1) ∧ (skewed 1 9).samples.entries.length = 10 := by
  have h1 : ∀ g k, (skewed 1 9).samples.get? g = some k → k = 1 := by
    intro g k h
    rcases skewed_get _ _ _ _ h with h | h
    · exact h.2
    · exact h
  refine ⟨?_, ?_, ?_, ?_, h1, skewed_entries 1 9⟩
  · intro g k h; rw [h1 g k h]; norm_num
  · intro h; have := skewed_entries 1 9; rw [h] at this; simp at this
  · rw [skewed_length]; norm_num
  · intro v; rw [skewed_entries]; cases v <;> decide

/-- Non-vacuity of `C64_marginals`, `C64_unobserved` and `C64_marginal_distribution`: the demo space of C28 with three outcomes and at most two values per variable. -/
example : demoSpace.outcomes.length ≤ 2 ^ 53 ∧ ∀ v, ValuesOf demoSpace v 2 := by
  constructor
  · decide +kernel
  · intro v s hs
    have : s ⊆ {0, 1} := by
      intro x hx
      obtain ⟨g, hg, hv⟩ := hs x hx
      rw [demoSpace_occurs] at hg
      unfold HasValue at hv
      rcases hg with rfl | rfl
      · simp only [oneEdge, Finset.mem_insert, Finset.mem_singleton, Node.mk.injEq] at hv ⊢
        omega
      · simp only [oneEdge, Finset.mem_insert, Finset.mem_singleton, Node.mk.injEq] at hv ⊢
        omega
    exact (Finset.card_le_card this).trans (by decide)

/-! ### The factor 100 of the Bayesian experiment -/

/-- `count = int(prop * prop_factor)` followed by `assert count == (prop * prop_factor)` (comparing_with_bayes_network.py 111-112), for a float `prop` that is not negative and `prop_factor = 100`. -/
def percentFl (prop : ℚ) : Py ℤ := if (⌊fl (prop * 100)⌋ : ℚ) = fl (prop * 100) then .ok ⌊fl (prop * 100)⌋ else .error .assertion

/-- **C64.** Of the probabilities with two decimals, eight fail the assertion on the choice of `prop_factor` only because of rounding; for the others the count is exact. -/
theorem C64_percent (k : ℕ) (hk : k ≤ 100) :
    percentFl (fl ((k : ℚ) / 100)) = if k ∈ [7, 14, 28, 29, 55, 56, 57, 58] then .error .assertion else .ok (k : ℤ) := by
  have : ∀ k ∈ Finset.range 101, ((⌊fl (fl ((k : ℚ) / 100) * 100)⌋ : ℚ) = fl (fl ((k : ℚ) / 100) * 100) ↔ k ∉ [7, 14, 28, 29, 55, 56, 57, 58]) ∧
      (k ∉ [7, 14, 28, 29, 55, 56, 57, 58] → ⌊fl (fl ((k : ℚ) / 100) * 100)⌋ = k) := by decide +kernel
  obtain ⟨h1, h2⟩ := this k (by rw [Finset.mem_range]; omega)
  unfold percentFl
  by_cases h : k ∈ [7, 14, 28, 29, 55, 56, 57, 58]
  · rw [if_neg (fun hc => h1.1 hc h), if_pos h]
  · rw [if_pos (h1.2 h), if_neg h, h2 h]

end
end Verif
