import Verif.Props.BayesFloatCompare

/-!
# The Bayesian network experiment in floating point (C77)
-/

set_option linter.unusedSectionVars false

namespace Verif.Bayes

section
variable {cfg : Config} (hN : Net cfg) (hA : Acyclic cfg) (hS : Stochastic cfg)
include hN hA hS

theorem obs_total {k : ℚ} (hc : Countable k cfg) {vs : List Str} (hvs : ∀ v ∈ vs, v ∈ netVars cfg) :
    ((∑ a ∈ assigns (obsDom (domOf cfg) vs) (netVars cfg), ∏ v ∈ netVars cfg, famCount k cfg v a : ℤ) : ℚ) ≤ k ^ (netVars cfg).card := by
  have h1 : ((∑ a ∈ assigns (obsDom (domOf cfg) vs) (netVars cfg), ∏ v ∈ netVars cfg, famCount k cfg v a : ℤ) : ℚ) ≤
      ((∑ a ∈ assigns (domOf cfg) (netVars cfg), ∏ v ∈ netVars cfg, famCount k cfg v a : ℤ) : ℚ) := by
    have : ∑ a ∈ assigns (obsDom (domOf cfg) vs) (netVars cfg), ∏ v ∈ netVars cfg, famCount k cfg v a ≤
        ∑ a ∈ assigns (domOf cfg) (netVars cfg), ∏ v ∈ netVars cfg, famCount k cfg v a := by
      refine Finset.sum_le_sum_of_subset_of_nonneg ?_ fun a ha _ => (count_cast hN hc (mem_assigns.1 ha).1).2.le
      rw [assigns_obsDom fun v hv => ⟨hvs v hv, zero_mem_dom hN (hvs v hv)⟩]
      exact Finset.filter_subset _ _
    exact_mod_cast this
  refine h1.trans (le_of_eq ?_)
  rw [Int.cast_sum, Finset.sum_congr rfl fun a ha => (count_cast hN hc (mem_assigns.1 ha).1).1, ← Finset.mul_sum, sum_jointProb hN hA hS, mul_one]

/-- Marginals after observations, with rounding. -/
theorem whole_marginalsFl {k : ℚ} (hc : Countable k cfg) (hb : k ^ (netVars cfg).card ≤ 2 ^ 1022) (ver : PyVer)
    (hcard : ∀ v ∈ netVars cfg, cardOf cfg v ≤ maxItems ver) {prov : ℕ} {vs : List Str} (hvs : ∀ v ∈ vs, v ∈ netVars cfg) {sp : Space Str Str Str}
    (hW : Whole k cfg prov (obsDom (domOf cfg) vs) sp) (e : Env) :
    ∃ m, e.marginalsFl ver sp = .ok m ∧ (∀ v, v ∈ m.keys ↔ v ∈ netVars cfg) ∧
      ∀ v d, m.get? v = some d → ∀ x q, d.get? x = some q ↔ ∃ j ∈ obsDom (domOf cfg) vs v, x = valName v j ∧ q = fl (posterior cfg vs v j) := by
  obtain ⟨m, m1, m2, m3⟩ := whole_marginals hN hc hvs hW e
  have hsub : ∀ v ∈ netVars cfg, obsDom (domOf cfg) vs v ⊆ domOf cfg v := by
    intro v hv
    unfold obsDom
    split
    · exact Finset.singleton_subset_iff.2 (zero_mem_dom hN hv)
    · exact Finset.Subset.refl _
  have h := Tables.marginalsFl hW.2.2 (fun a ha => (count_cast hN hc (inDom_obs hN hvs ha)).2) ver e.u e.o.items e.o.vars e.o.nodes (by
      have := (obs_total hN hA hS hc hvs).trans hb
      exact_mod_cast this) (fun v hv => by
      refine (Finset.card_le_card (hsub v hv)).trans ?_
      rw [domOf, Finset.card_range]
      exact hcard v hv) m1
  refine ⟨_, h, ?_, ?_⟩
  · intro v
    rw [Dict.keys_mapVals]
    exact m2 v
  · intro v d hd x q
    rw [Dict.get?_mapVals, Option.map_eq_some_iff] at hd
    obtain ⟨d', hd', rfl⟩ := hd
    rw [Dict.get?_mapVals, Option.map_eq_some_iff]
    constructor
    · rintro ⟨r, hr, rfl⟩
      obtain ⟨j, hj, e1, rfl⟩ := (m3 v d' hd' x r).1 hr
      exact ⟨j, hj, e1, rfl⟩
    · rintro ⟨j, hj, e1, rfl⟩
      exact ⟨_, (m3 v d' hd' x _).2 ⟨j, hj, e1, rfl⟩, rfl⟩

end

/-! ### `comparing_joint_probability` -/

/-- Normalising whole numbers up to `2^53` with floats is rounding the exact quotients. -/
theorem normalizeFl_eq {K : Type} [DecidableEq K] {d : Dict K ℚ} (h : ∀ x ∈ d.vals, ∃ n : ℕ, x = n) (hb : d.vals.sum ≤ 2 ^ 53) {e : Dict K ℚ}
    (he : normalize d = .ok e) : normalizeFl d = .ok (e.mapVals fl) := by
  have hs : ∀ l : List ℚ, (∀ x ∈ l, ∃ n : ℕ, x = n) → ∃ n : ℕ, l.sum = n ∧ ∀ x ∈ l, x ≤ n := by
    intro l
    induction l with
    | nil => exact fun _ => ⟨0, by simp, by simp⟩
    | cons x t ih =>
      intro hl
      obtain ⟨n, hn, hle⟩ := ih fun y hy => hl y (by simp [hy])
      obtain ⟨m, rfl⟩ := hl x (by simp)
      refine ⟨m + n, by rw [List.sum_cons, hn]; push_cast; rfl, fun y hy => ?_⟩
      push_cast
      rcases List.mem_cons.1 hy with rfl | hy
      · linarith [(Nat.cast_nonneg n : (0 : ℚ) ≤ n)]
      · linarith [hle y hy, (Nat.cast_nonneg m : (0 : ℚ) ≤ m)]
  obtain ⟨n, hn, hle⟩ := hs d.vals h
  have hfl : ∀ m : ℕ, (m : ℚ) ≤ 2 ^ 53 → fl (m : ℚ) = m := by
    intro m hm
    have := fl_int (k := (m : ℤ)) (by positivity) (by exact_mod_cast hm)
    exact_mod_cast this
  rw [hn] at hb
  have htot : fl d.vals.sum = d.vals.sum := by rw [hn, hfl n hb]
  unfold normalize at he
  unfold normalizeFl
  simp only [htot]
  split at he
  · cases he
  · rename_i hz
    rw [if_neg hz]
    cases he
    rw [mapVals_mapVals]
    congr 1
    refine Dict.ext (List.map_congr_left fun p hp => ?_)
    have hpv : p.2 ∈ d.vals := List.mem_map_of_mem hp
    obtain ⟨m, hm⟩ := h _ hpv
    have : fl p.2 = p.2 := by
      rw [hm]
      refine hfl m ?_
      rw [← hm]
      exact (hle _ hpv).trans hb
    simp only [this]

theorem graphMapFl_spec {cfg : Config} (hN : Net cfg) {k : ℚ} (hc : Countable k cfg) {prov : ℕ} {sp : Space Str Str Str}
    (hW : Whole k cfg prov (domOf cfg) sp) (hA : Acyclic cfg) (hS : Stochastic cfg) (hb : k ^ (netVars cfg).card ≤ 2 ^ 53)
    (oI : Order (SampleGraph Str Str Str × ℤ)) :
    ∃ d, normalizeFl (valueMapFromGraph oI sp) = .ok d ∧
      ∀ key q, d.get? key = some q ↔ ∃ a, InDom (domOf cfg) (netVars cfg) a ∧ key = nameSet (netVars cfg) a ∧ q = fl (jointProb cfg a) := by
  obtain ⟨d, d1, d2⟩ := graphMap_spec hN hc hW hA hS oI
  obtain ⟨g1, hsum⟩ := graphCounts_spec hN hc hW hA hS oI
  have hvals : ∀ x ∈ (valueMapFromGraph oI sp).vals, ∃ n : ℕ, x = n := by
    intro x hx
    obtain ⟨p, hp, rfl⟩ := List.mem_map.1 hx
    obtain ⟨a, ha, -, e⟩ := (g1 p.1 p.2).1 ((Dict.mem_entries _ _ _).1 hp)
    obtain ⟨h1, h2⟩ := count_cast hN hc ha
    refine ⟨(∏ v ∈ netVars cfg, famCount k cfg v a).toNat, ?_⟩
    rw [e, ← h1, ← Int.cast_natCast (R := ℚ) (Int.toNat _), Int.toNat_of_nonneg h2.le]
  refine ⟨_, normalizeFl_eq hvals (by rw [hsum]; exact hb) d1, fun key q => ?_⟩
  rw [Dict.get?_mapVals, Option.map_eq_some_iff]
  constructor
  · rintro ⟨r, hr, rfl⟩
    obtain ⟨a, ha, e1, rfl⟩ := (d2 key r).1 hr
    exact ⟨a, ha, e1, rfl⟩
  · rintro ⟨a, ha, e1, rfl⟩
    exact ⟨_, (d2 key _).2 ⟨a, ha, e1, rfl⟩, rfl⟩

/-- Equality of the keys and closeness of the values, for two maps given by assignments. -/
theorem maps_close {A : Type} (P : A → Prop) {K : Type} [DecidableEq K] (key : A → K) (s t : A → ℚ) (hst : ∀ a b, P a → P b → key a = key b → s a = s b ∧ t a = t b)
    {d g : Dict K ℚ} (hd : ∀ k q, d.get? k = some q ↔ ∃ a, P a ∧ k = key a ∧ q = s a) (hg : ∀ k q, g.get? k = some q ↔ ∃ a, P a ∧ k = key a ∧ q = fl (t a)) :
    ((∀ k, k ∈ d.keys ↔ k ∈ g.keys) ∧ ∀ k x y, d.get? k = some x → g.get? k = some y → closeFl x y = true) ↔ ∀ a, P a → Close (s a) (t a) := by
  constructor
  · rintro ⟨-, h⟩ a ha
    exact h (key a) _ _ ((hd _ _).2 ⟨a, ha, rfl, rfl⟩) ((hg _ _).2 ⟨a, ha, rfl, rfl⟩)
  · intro h
    refine ⟨fun k => ?_, fun k x y hx hy => ?_⟩
    · rw [Dict.mem_keys, Dict.mem_keys]
      constructor
      · rintro ⟨q, hq⟩
        obtain ⟨a, ha, e, -⟩ := (hd k q).1 hq
        exact ⟨_, (hg _ _).2 ⟨a, ha, e, rfl⟩⟩
      · rintro ⟨q, hq⟩
        obtain ⟨a, ha, e, -⟩ := (hg k q).1 hq
        exact ⟨_, (hd _ _).2 ⟨a, ha, e, rfl⟩⟩
    · obtain ⟨a, ha, e1, rfl⟩ := (hd k x).1 hx
      obtain ⟨b, hb, e2, rfl⟩ := (hg k y).1 hy
      rw [(hst b a hb ha (e2.symm.trans e1)).2]
      exact h a ha

/-- Comparing the marginals of a factor with rounded ones. -/
theorem margins_close {cfg : Config} {S : Finset Str} {f : Factor} (hf : FactorOver cfg S f) (np : NpSum) (t : Str → ℕ → ℚ) {m : Dict Str (Dict Str ℚ)}
    (hk : ∀ v, v ∈ m.keys ↔ v ∈ S)
    (hm : ∀ v d, m.get? v = some d → ∀ x q, d.get? x = some q ↔ ∃ j ∈ domOf cfg v, x = valName v j ∧ q = fl (t v j)) :
    (compareMarginsFl (marginalsFromFactorFl np f) m = .ok () ↔ ∀ v ∈ S, ∀ j ∈ domOf cfg v, Close (npMarginal np f v j) (t v j)) ∧
    (compareMarginsFl (marginalsFromFactorFl np f) m = .ok () ∨ compareMarginsFl (marginalsFromFactorFl np f) m = .error .assertion) := by
  refine ⟨?_, (compareMarginsFl_iff _ _).2⟩
  obtain ⟨s1, s2⟩ := marginalsFromFactorFl_spec hf np
  rw [(compareMarginsFl_iff _ _).1]
  have hone : ∀ v x y, (marginalsFromFactorFl np f).get? v = some x → m.get? v = some y →
      (((∀ q, q ∈ x.keys ↔ q ∈ y.keys) ∧ ∀ q s t, x.get? q = some s → y.get? q = some t → closeFl s t = true) ↔
        ∀ j, j ∈ domOf cfg v → Close (npMarginal np f v j) (t v j)) := fun v x y hx hy =>
    maps_close (fun j => j ∈ domOf cfg v) (valName v) (fun j => npMarginal np f v j) (fun j => t v j)
      (fun a b _ _ e => by rw [(valName_inj e).2]; exact ⟨rfl, rfl⟩) (s2 v x hx) (hm v y hy)
  constructor
  · rintro ⟨-, h⟩ v hv
    obtain ⟨x, hx⟩ := (Dict.mem_keys _ _).1 ((s1 v).2 hv)
    obtain ⟨y, hy⟩ := (Dict.mem_keys _ _).1 ((hk v).2 hv)
    exact (hone v x y hx hy).1 (h v x y hx hy)
  · intro h
    refine ⟨fun v => (s1 v).trans (hk v).symm, fun v x y hx hy => (hone v x y hx hy).2 (h v ((s1 v).1 ((Dict.mem_keys _ _).2 ⟨x, hx⟩)))⟩

/-- **C77.** `comparing_joint_probability` with floats: it raises the exception of `make_joined` if that raises. Otherwise it succeeds exactly if every value of the factor of the
query is `isclose` to the rounded probability, and every marginal that `numpy` computes from the factor to the rounded marginal; if not it raises `AssertionError`. -/
theorem C77_comparing_joint {cfg : Config} (hN : Net cfg) (hA : Acyclic cfg) (hS : Stochastic cfg) (hshort : ShortNames cfg) {k : ℚ} {o : Order Str}
    {prov : ℕ} {sp : Space Str Str Str} (hsp : makeRelationGraph k o prov cfg = .ok sp) (hb : k ^ (netVars cfg).card ≤ 2 ^ 53) (ver : PyVer) (np : NpSum) (e : Env)
    {f : Factor} (hf : FactorOver cfg (netVars cfg) f) :
    (∀ er, sp.makeJoined e.o = .error er → comparingJointFl ver np e f sp = .error er) ∧
    (∀ sp', sp.makeJoined e.o = .ok sp' →
      (comparingJointFl ver np e f sp = .ok () ↔ (∀ a, InDom (domOf cfg) (netVars cfg) a → Close (f.value a) (jointProb cfg a)) ∧
        ∀ v ∈ netVars cfg, ∀ j ∈ domOf cfg v, Close (npMarginal np f v j) (posterior cfg [] v j)) ∧
      (comparingJointFl ver np e f sp = .ok () ∨ comparingJointFl ver np e f sp = .error .assertion)) := by
  constructor
  · intro er h
    unfold comparingJointFl
    rw [h]
    rfl
  · intro sp' hj
    have hc := (net_tables hN hsp).1
    have hW := whole_of_joined hN hsp e.o hj
    have hmax : ∀ v ∈ netVars cfg, cardOf cfg v ≤ maxItems ver := by
      intro v hv
      refine (hshort v hv).2.trans ?_
      cases ver <;> norm_num [maxItems]
    obtain ⟨d, d1, d2⟩ := valueMapFromFactor_spec hf (netVars_nonempty hN) hshort
    obtain ⟨g, g1, g2⟩ := graphMapFl_spec hN hc hW hA hS hb e.o.items
    obtain ⟨m, m1, m2, m3⟩ := whole_marginalsFl hN hA hS hc (hb.trans (pow_le_pow_right₀ (by norm_num) (by norm_num))) ver hmax (vs := []) (by simp)
      (by rw [obsDom_nil]; exact hW) e
    rw [obsDom_nil] at m3
    have hcard : (f.vars.map Prod.snd).prod = sp'.outcomes.items.card := by
      have h1 : sp'.outcomes.items.card = (assigns (domOf cfg) (netVars cfg)).card := by
        rw [Finset.card_eq_sum_ones, Finset.card_eq_sum_ones, hW.2.2.sum_items (fun _ => 1)]
      rw [h1, card_assigns, ← hf.names, ← List.prod_toFinset _ hf.nodup |>.symm, List.map_map]
      congr 1
      refine List.map_congr_left fun p hp => ?_
      simp [domOf, hf.cards p hp]
    have heq : comparingJointFl ver np e f sp = (do compareMapsFl d g; compareMarginsFl (marginalsFromFactorFl np f) m) := by
      unfold comparingJointFl
      simp only [hj, bind, Except.bind, pyAssert, hcard, decide_true, if_true, d1, g1, m1]
    have hmaps : compareMapsFl d g = .ok () ↔ ∀ a, InDom (domOf cfg) (netVars cfg) a → Close (f.value a) (jointProb cfg a) := by
      rw [(compareMapsFl_iff d g).1]
      refine maps_close (fun a => InDom (domOf cfg) (netVars cfg) a) (fun a => nameSet (netVars cfg) a) f.value (fun a => jointProb cfg a) ?_ d2 g2
      intro a b _ _ hab
      have hag := nameSet_inj hab
      refine ⟨hf.loc _ _ hag, ?_⟩
      unfold jointProb
      exact Finset.prod_congr rfl fun v hv => prob_local v (fun c hc => hN.fits v c hc) fun w hw => hag w (family_sub hN (List.mem_toFinset.1 hv) hw)
    obtain ⟨q1, q2⟩ := margins_close hf np (fun v j => posterior cfg [] v j) m2 m3
    rw [heq]
    rcases (compareMapsFl_iff d g).2 with h | h
    · rw [h]
      show (compareMarginsFl (marginalsFromFactorFl np f) m = .ok () ↔ _) ∧ (compareMarginsFl (marginalsFromFactorFl np f) m = .ok () ∨ _)
      rw [q1]
      refine ⟨⟨fun h' => ⟨hmaps.1 h, h'⟩, fun h' => h'.2⟩, ?_⟩
      rw [← q1]
      exact q2
    · rw [h]
      refine ⟨⟨fun h' => (by cases h'), fun h' => ?_⟩, Or.inr rfl⟩
      rw [hmaps.2 h'.1] at h
      cases h

/-! ### `comparing_inference` -/

/-- **C77.** Inference with floats: what `_run_inference_on` computes are the rounded posterior distributions, whenever joining succeeds. -/
theorem C77_inference {cfg : Config} (hN : Net cfg) (hA : Acyclic cfg) (hS : Stochastic cfg) {k : ℚ} {o : Order Str} {prov : ℕ} {sp : Space Str Str Str}
    (hsp : makeRelationGraph k o prov cfg = .ok sp) (hb : k ^ (netVars cfg).card ≤ 2 ^ 1022) (ver : PyVer)
    (hcard : ∀ v ∈ netVars cfg, cardOf cfg v ≤ maxItems ver) {vs : List Str} (hvs : ∀ v ∈ vs, v ∈ netVars cfg) (hne : vs ≠ []) (e : Env) :
    (∀ er, runInferenceFl ver e sp vs = .error er → er = .assertion) ∧
    (∀ m, runInferenceFl ver e sp vs = .ok m → (∀ v, v ∈ m.keys ↔ v ∈ netVars cfg) ∧
      ∀ v d, m.get? v = some d → ∀ x q, d.get? x = some q ↔
        ∃ j ∈ (if v ∈ vs then {0} else domOf cfg v), x = valName v j ∧ q = fl (posterior cfg vs v j)) ∧
    (Polytree cfg → ∃ m, runInferenceFl ver e sp vs = .ok m) := by
  have hc := (net_tables hN hsp).1
  obtain ⟨a1, a2, a3⟩ := observe_all hN hsp hvs hne e
  unfold runInferenceFl
  cases hf : vs.foldlM (observe e sp) sp with
  | error er =>
    refine ⟨fun er' h => ?_, fun m h => ?_, fun hP => ?_⟩
    · have : er = er' := by cases h; rfl
      rw [← this]; exact a1 er hf
    · cases h
    · obtain ⟨sp', h⟩ := a3 hP
      rw [hf] at h; cases h
  | ok sp1 =>
    obtain ⟨m, m1, m2, m3⟩ := whole_marginalsFl hN hA hS hc hb ver hcard hvs (a2 sp1 hf) e
    have hr : (do let s ← Except.ok sp1; e.marginalsFl ver s) = (.ok m : Py _) := m1
    rw [hr]
    refine ⟨fun er h => (by cases h), fun m' h => ?_, fun _ => ⟨m, rfl⟩⟩
    cases h
    refine ⟨m2, fun v d hd x q => ?_⟩
    have := m3 v d hd x q
    unfold obsDom at this
    by_cases hv : v ∈ vs
    · rwa [if_pos hv] at this ⊢
    · rwa [if_neg hv] at this ⊢

/-- **C77.** `comparing_inference` with floats: it raises the exception of the inference if that raises. Otherwise it succeeds exactly if every marginal that `numpy` computes from
the factor of the query is `isclose` to the rounded posterior probability; if not it raises `AssertionError`. -/
theorem C77_comparing_inference {cfg : Config} (hN : Net cfg) (hA : Acyclic cfg) (hS : Stochastic cfg) {k : ℚ} {o : Order Str} {prov : ℕ} {sp : Space Str Str Str}
    (hsp : makeRelationGraph k o prov cfg = .ok sp) (hb : k ^ (netVars cfg).card ≤ 2 ^ 1022) (ver : PyVer)
    (hcard : ∀ v ∈ netVars cfg, cardOf cfg v ≤ maxItems ver) (np : NpSum) {vs : List Str} (hvs : ∀ v ∈ vs, v ∈ netVars cfg) (hne : vs ≠ []) (hnd : vs.Nodup) (e : Env)
    {f : Factor} (hf : FactorOver cfg (netVars cfg \ vs.toFinset) f) :
    (∀ er, runInferenceFl ver e sp vs = .error er → comparingInferenceFl ver np e f vs sp = .error er) ∧
    (∀ m, runInferenceFl ver e sp vs = .ok m →
      (comparingInferenceFl ver np e f vs sp = .ok () ↔
        ∀ v ∈ netVars cfg \ vs.toFinset, ∀ j ∈ domOf cfg v, Close (npMarginal np f v j) (posterior cfg vs v j)) ∧
      (comparingInferenceFl ver np e f vs sp = .ok () ∨ comparingInferenceFl ver np e f vs sp = .error .assertion)) := by
  constructor
  · intro er h
    unfold comparingInferenceFl
    rw [h]
    rfl
  · intro m hm
    obtain ⟨m2, m3⟩ := (C77_inference hN hA hS hsp hb ver hcard hvs hne e).2.1 m hm
    obtain ⟨m', p1, p2⟩ := popKeys_ok vs m hnd (fun v hv => (m2 v).2 (hvs v hv))
    have heq : comparingInferenceFl ver np e f vs sp = compareMarginsFl (marginalsFromFactorFl np f) m' := by
      unfold comparingInferenceFl
      simp only [hm, bind, Except.bind, p1]
    have hkeys : ∀ v, v ∈ m'.keys ↔ v ∈ netVars cfg \ vs.toFinset := by
      intro v
      rw [Dict.mem_keys, Finset.mem_sdiff, List.mem_toFinset, ← m2, Dict.mem_keys]
      simp only [p2]
      by_cases h : v ∈ vs <;> simp [h]
    rw [heq]
    refine margins_close hf np (fun v j => posterior cfg vs v j) hkeys fun v d hd x q => ?_
    rw [p2] at hd
    by_cases hv : v ∈ vs
    · rw [if_pos hv] at hd; cases hd
    · rw [if_neg hv] at hd
      have := m3 v d hd x q
      rwa [if_neg hv] at this

end Verif.Bayes
