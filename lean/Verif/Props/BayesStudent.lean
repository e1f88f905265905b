import Verif.Props.BayesExperiment

/-!
# The student network of the experiment (C59)
-/

set_option linter.unusedSectionVars false

namespace Verif.Bayes

/-! ### Checking networks -/

theorem get?_of_all {cfg : Config} {P : Str → Cpd → Prop} (h : ∀ e ∈ cfg.entries, P e.1 e.2) : ∀ v c, cfg.get? v = some c → P v c :=
  fun v c hv => h (v, c) ((cfg.mem_entries v c).2 hv)

theorem inDom_of_assigns {cfg : Config} (hf : ∀ v c, cfg.get? v = some c → Fits cfg v c) {P : ℚ → Prop} {v : Str}
    (h : ∀ a ∈ assigns (domOf cfg) (family cfg v), P (prob cfg v a)) : ∀ a, InDom (domOf cfg) (family cfg v) a → P (prob cfg v a) := by
  intro a ha
  rw [prob_local v (hf v) (b := cut (family cfg v) a) fun w hw => (cut_apply hw).symm]
  exact h _ (cut_mem ha)

theorem student_fits : ∀ v c, studentConfig.get? v = some c → Fits studentConfig v c := by
  refine get?_of_all fun e he => ?_
  have h1 : e.2.card ≠ 0 ∧ e.2.parents.Nodup ∧ e.1 ∉ e.2.parents ∧ (∀ p ∈ e.2.parents, p ∈ studentConfig.keys) ∧
      e.2.pCards = e.2.parents.map (cardOf studentConfig) ∧ e.2.rows.length = e.2.card ∧ ∀ r ∈ e.2.rows, r.length = e.2.pCards.prod := by
    revert e
    decide +kernel
  exact ⟨Nat.pos_of_ne_zero h1.1, h1.2.1, h1.2.2.1, h1.2.2.2.1, h1.2.2.2.2.1, h1.2.2.2.2.2.1, h1.2.2.2.2.2.2⟩

theorem student_net : Net studentConfig where
  ne := by decide +kernel
  fits := student_fits
  two := by
    intro v p hp
    by_cases hv : v ∈ studentConfig.keys
    · revert p
      revert v
      decide +kernel
    · have : parentsOf studentConfig v = [] := by
        unfold parentsOf
        rw [(studentConfig.get?_eq_none v).2 hv]; rfl
      rw [this] at hp
      simp at hp
  names := by decide +kernel

theorem student_acyclic : Acyclic studentConfig := by
  refine ⟨fun v => if v = ['G'] ∨ v = ['S'] then 1 else if v = ['L'] then 2 else 0, fun v p hp => ?_⟩
  by_cases hv : v ∈ studentConfig.keys
  · revert p
    revert v
    decide +kernel
  · have : parentsOf studentConfig v = [] := by
      unfold parentsOf
      rw [(studentConfig.get?_eq_none v).2 hv]; rfl
    rw [this] at hp
    simp at hp

theorem student_countable : Countable propFactor studentConfig := by
  intro v hv
  have := inDom_of_assigns student_fits (P := fun q => 0 < q * propFactor ∧ (q * propFactor).den = 1) (v := v) (by
    revert v
    decide +kernel)
  intro a ha
  obtain ⟨h1, h2⟩ := this a ha
  have h3 : ((prob studentConfig v a * propFactor).num : ℚ) = prob studentConfig v a * propFactor := Rat.coe_int_num_of_den_eq_one h2
  have h4 : 0 < (prob studentConfig v a * propFactor).num := Rat.num_pos.2 h1
  refine ⟨(prob studentConfig v a * propFactor).num.toNat, by omega, ?_⟩
  rw [← Int.cast_natCast, Int.toNat_of_nonneg h4.le, h3]

theorem student_stochastic : Stochastic studentConfig := by
  intro v hv a ha
  have h : ∀ b ∈ assigns (domOf studentConfig) (family studentConfig v),
      ∑ j ∈ domOf studentConfig v, prob studentConfig v (Function.update b v j) = 1 := by
    clear ha
    revert v
    decide +kernel
  rw [← h _ (cut_mem ha)]
  refine Finset.sum_congr rfl fun j _ => prob_local v (student_fits v) fun w hw => ?_
  by_cases e : w = v
  · subst e; simp
  · rw [Function.update_of_ne e, Function.update_of_ne e, cut_apply hw]

theorem student_polytree : Polytree studentConfig := by
  refine ⟨[{['L'], ['G']}, {['S'], ['I']}, {['I']}, {['D']}, {['G'], ['I'], ['D']}], by decide +kernel, ?_⟩
  refine .add _ _ (.add _ _ (.add _ _ (.add _ _ (.one _ (by decide)) ?_) ?_) ?_) ?_ <;> decide +kernel

theorem student_short : ShortNames studentConfig := by
  unfold ShortNames
  decide +kernel

/-- **C59.** The graph of the student network is made and joined, whatever the iteration orders. -/
theorem C59_student (o : Order Str) (prov : ℕ) (os : Orders Str Str Str) :
    ∃ sp sp', makeRelationGraph propFactor o prov studentConfig = .ok sp ∧ sp.makeJoined os = .ok sp' := by
  obtain ⟨sp, h, -⟩ := (C59_make_relation_graph student_net propFactor o prov).2 student_countable
  obtain ⟨sp', h'⟩ := C59_polytree student_net student_polytree h os
  exact ⟨sp, sp', h, h'⟩

/-- The probabilities of the student network when `I` has its first value, computed by hand from the tables. -/
def studentAnswers : List (String × List (String × ℚ)) :=
  [("D", [("D(0)", 6 / 10), ("D(1)", 4 / 10)]), ("I", [("I(0)", 1)]), ("G", [("G(0)", 20 / 100), ("G(1)", 34 / 100), ("G(2)", 46 / 100)]),
   ("S", [("S(0)", 95 / 100), ("S(1)", 5 / 100)]), ("L", [("L(0)", 6114 / 10000), ("L(1)", 3886 / 10000)])]

/-- **C59.** The graph of the student network has the outcome `D(0)` 60 times and the outcome with a relation from `I(1)` to `S(1)` 80 times. Inference with `I` observed returns these
probabilities, whatever the iteration orders. -/
theorem C59_student_inference (o : Order Str) (prov : ℕ) (e : Env) :
    ∃ sp m, makeRelationGraph propFactor o prov studentConfig = .ok sp ∧
      sp.outcomes.samples.get? ⟨{⟨['D'], "D(0)".toList⟩}, ∅⟩ = some 60 ∧
      sp.outcomes.samples.get? ⟨{⟨['I'], "I(1)".toList⟩, ⟨['S'], "S(1)".toList⟩},
        {⟨{⟨['I'], "I(1)".toList⟩, ⟨['S'], "S(1)".toList⟩}, .directed ['I'] ['S'] ['r']⟩}⟩ = some 80 ∧
      runInference e sp [['I']] = .ok m ∧ m.keys.length = 5 ∧
      ∀ p ∈ studentAnswers, ∃ d, m.get? p.1.toList = some d ∧ ∀ x q, d.get? x = some q ↔ ∃ s ∈ p.2, x = s.1.toList ∧ q = s.2 := by
  obtain ⟨sp, h, -, -, -, hcount⟩ := (C59_make_relation_graph student_net propFactor o prov).2 student_countable
  have hc1 := (hcount ⟨{⟨['D'], "D(0)".toList⟩}, ∅⟩ 60).2 ⟨['D'], by decide +kernel, fun _ => 0, by unfold InDom; decide +kernel, by decide +kernel, by decide +kernel⟩
  have hc2 := (hcount ⟨{⟨['I'], "I(1)".toList⟩, ⟨['S'], "S(1)".toList⟩},
    {⟨{⟨['I'], "I(1)".toList⟩, ⟨['S'], "S(1)".toList⟩}, .directed ['I'] ['S'] ['r']⟩}⟩ 80).2
    ⟨['S'], by decide +kernel, fun _ => 1, by unfold InDom; decide +kernel, by decide +kernel, by decide +kernel⟩
  obtain ⟨-, h2, h3⟩ := C59_inference student_net h (vs := [['I']]) (by decide +kernel) (by simp) e
  obtain ⟨m, hm⟩ := h3 student_polytree
  obtain ⟨hk, hv⟩ := h2 m hm
  have hlen : m.keys.length = 5 := by
    rw [← List.toFinset_card_of_nodup m.nodup_keys, show m.keys.toFinset = netVars studentConfig by ext v; rw [List.mem_toFinset, hk]]
    decide +kernel
  refine ⟨sp, m, h, hc1, hc2, hm, hlen, fun p hp => ?_⟩
  have hp1 : p.1.toList ∈ netVars studentConfig := by
    revert p
    decide +kernel
  obtain ⟨d, hd⟩ := (Dict.mem_keys _ _).1 ((hk p.1.toList).2 hp1)
  refine ⟨d, hd, fun x q => ?_⟩
  rw [hv p.1.toList d hd]
  have hpost : ((if p.1.toList ∈ [['I']] then {0} else domOf studentConfig p.1.toList).image
      fun j => (valName p.1.toList j, posterior studentConfig [['I']] p.1.toList j)) = (p.2.map fun s => (s.1.toList, s.2)).toFinset := by
    clear hd hp1
    revert p
    unfold posterior
    decide +kernel
  have key := Finset.ext_iff.1 hpost (x, q)
  simp only [Finset.mem_image, List.mem_toFinset, List.mem_map, Prod.mk.injEq] at key
  constructor
  · rintro ⟨j, hj, rfl, rfl⟩
    obtain ⟨s, hs, e1, e2⟩ := key.1 ⟨j, hj, rfl, rfl⟩
    exact ⟨s, hs, e1.symm, e2.symm⟩
  · rintro ⟨s, hs, rfl, rfl⟩
    obtain ⟨j, hj, e1, e2⟩ := key.2 ⟨s, hs, rfl, rfl⟩
    exact ⟨j, hj, e1.symm, e2.symm⟩

/-! ### `comparing_d_separation` -/

/-- Comparing the marginals of a variable that is observed in neither graph. -/
theorem sameAt_eq {cfg : Config} {vs ws : List Str} {m m' : Dict Str (Dict Str ℚ)} {v : Str} (hv : v ∈ netVars cfg) (h1 : v ∉ vs) (h2 : v ∉ ws)
    (k1 : ∀ v, v ∈ m.keys ↔ v ∈ netVars cfg) (k2 : ∀ v, v ∈ m'.keys ↔ v ∈ netVars cfg)
    (e1 : ∀ v d, m.get? v = some d → ∀ x q, d.get? x = some q ↔ ∃ j ∈ obsDom (domOf cfg) vs v, x = valName v j ∧ q = posterior cfg vs v j)
    (e2 : ∀ v d, m'.get? v = some d → ∀ x q, d.get? x = some q ↔ ∃ j ∈ obsDom (domOf cfg) ws v, x = valName v j ∧ q = posterior cfg ws v j) :
    sameAt m m' v = .ok (decide (∀ j ∈ domOf cfg v, posterior cfg vs v j = posterior cfg ws v j)) := by
  obtain ⟨x, hx⟩ := (Dict.mem_keys _ _).1 ((k1 v).2 hv)
  obtain ⟨y, hy⟩ := (Dict.mem_keys _ _).1 ((k2 v).2 hv)
  have f1 := e1 v x hx
  have f2 := e2 v y hy
  simp only [obsDom, if_neg h1, if_neg h2] at f1 f2
  unfold sameAt
  rw [hx, hy]
  simp only
  congr 1
  rw [Bool.eq_iff_iff]
  simp only [Bool.and_eq_true, decide_eq_true_eq, List.all_eq_true]
  constructor
  · rintro ⟨-, h⟩ j hj
    have h3 := (f1 (valName v j) _).2 ⟨j, hj, rfl, rfl⟩
    rw [h _ ((Dict.mem_keys _ _).2 ⟨_, h3⟩)] at h3
    obtain ⟨j', -, e, h4⟩ := (f2 _ _).1 h3
    rw [h4, ← (valName_inj e).2]
  · intro h
    have hall : ∀ q, x.get? q = y.get? q := by
      intro q
      refine Option.ext fun r => ?_
      rw [f1, f2]
      exact exists_congr fun j => and_congr_right fun hj => and_congr_right fun _ => by rw [h j hj]
    refine ⟨?_, fun q _ => hall q⟩
    ext q
    simp only [List.mem_toFinset, Dict.mem_keys, hall]

theorem post_S : posterior studentConfig [] ['S'] 0 ≠ posterior studentConfig [['I']] ['S'] 0 := by
  unfold posterior
  decide +kernel

theorem post_GI : posterior studentConfig [['G']] ['D'] 0 ≠ posterior studentConfig [['G'], ['I']] ['D'] 0 := by
  unfold posterior
  decide +kernel

theorem post_LI : posterior studentConfig [['L']] ['D'] 0 ≠ posterior studentConfig [['L'], ['I']] ['D'] 0 := by
  unfold posterior
  decide +kernel

theorem post_I (j : ℕ) : posterior studentConfig [['I']] ['D'] j = posterior studentConfig [] ['D'] j := by
  refine C59_ancestral_independence student_net student_acyclic student_stochastic (A := {['D']}) (B := {['I']}) ?_ ?_ (by decide) (by simp)
    (by simp) j (by decide +kernel) <;> exact ⟨by decide +kernel, by decide +kernel⟩

/-- **C59.** The four checks of `comparing_d_separation` succeed, whatever the iteration orders: the posterior distributions computed by the graphs show
`D` independent of `I`, `S` dependent on `I`, and `D` dependent on `I` given `G` or given `L`. -/
theorem C59_d_separation {o : Order Str} {prov : ℕ} {sp : Space Str Str Str} (hsp : makeRelationGraph propFactor o prov studentConfig = .ok sp)
    (e : Env) : comparingDSeparation e sp = .ok () := by
  have hN := student_net
  have hP := student_polytree
  have hc := student_countable
  obtain ⟨-, t2, t3, -⟩ := net_tables hN hsp
  have hI : ['I'] ∈ netVars studentConfig := by decide +kernel
  have hG : ['G'] ∈ netVars studentConfig := by decide +kernel
  have hL : ['L'] ∈ netVars studentConfig := by decide +kernel
  have hD : ['D'] ∈ netVars studentConfig := by decide +kernel
  have hS : ['S'] ∈ netVars studentConfig := by decide +kernel
  obtain ⟨joint, j1⟩ := C59_polytree hN hP hsp e.o
  have jW := whole_of_joined hN hsp e.o j1
  obtain ⟨m, a1, a2, a3⟩ := whole_marginals hN hc (vs := []) (by simp) (by rw [obsDom_nil]; exact jW) e
  have first : ∀ v ∈ netVars studentConfig, ∃ sv mv, observe e sp sp v = .ok sv ∧ Whole propFactor studentConfig prov (obsDom (domOf studentConfig) [v]) sv ∧
      e.marginals sv = .ok mv ∧ (∀ w, w ∈ mv.keys ↔ w ∈ netVars studentConfig) ∧
      ∀ w d, mv.get? w = some d → ∀ x q, d.get? x = some q ↔
        ∃ j ∈ obsDom (domOf studentConfig) [v] w, x = valName w j ∧ q = posterior studentConfig [v] w j := by
    intro v hv
    obtain ⟨-, f2, f3⟩ := observe_first hN hsp hv e
    obtain ⟨sv, hs⟩ := f3 hP
    obtain ⟨mv, b1, b2, b3⟩ := whole_marginals hN hc (vs := [v]) (by simpa using hv) (f2 sv hs) e
    exact ⟨sv, mv, hs, f2 sv hs, b1, b2, b3⟩
  have second : ∀ u ∈ netVars studentConfig, ∀ su, Whole propFactor studentConfig prov (obsDom (domOf studentConfig) [u]) su →
      ∀ v ∈ netVars studentConfig, ∃ sv mv, observe e sp su.relationGraph v = .ok sv ∧
      e.marginals sv = .ok mv ∧ (∀ w, w ∈ mv.keys ↔ w ∈ netVars studentConfig) ∧
      ∀ w d, mv.get? w = some d → ∀ x q, d.get? x = some q ↔
        ∃ j ∈ obsDom (domOf studentConfig) [u, v] w, x = valName w j ∧ q = posterior studentConfig [u, v] w j := by
    intro u hu su hW v hv
    have hW' : Whole propFactor studentConfig prov (obsDom (domOf studentConfig) [u]) su.relationGraph := hW
    have h0 : 0 ∈ obsDom (domOf studentConfig) [u] v := by
      unfold obsDom
      split
      · simp
      · exact zero_mem_dom hN hv
    obtain ⟨sv, hs, hWv⟩ := observe_whole hN t2 t3 hW' hv h0 e
    rw [obsDom_snoc] at hWv
    obtain ⟨mv, b1, b2, b3⟩ := whole_marginals hN hc (vs := [u, v]) (by simp [hu, hv]) hWv e
    exact ⟨sv, mv, hs, b1, b2, b3⟩
  obtain ⟨spI, mI, i1, -, i3, i4, i5⟩ := first _ hI
  obtain ⟨spG, mG, g1, g2, g3, g4, g5⟩ := first _ hG
  obtain ⟨spL, mL, l1, l2, l3, l4, l5⟩ := first _ hL
  obtain ⟨spGI, mGI, p1, p3, p4, p5⟩ := second _ hG spG g2 _ hI
  obtain ⟨spLI, mLI, q1, q3, q4, q5⟩ := second _ hL spL l2 _ hI
  have s1 := sameAt_eq (vs := []) (ws := [['I']]) hD (by decide) (by decide) a2 i4 a3 i5
  have s2 := sameAt_eq (vs := []) (ws := [['I']]) hS (by decide) (by decide) a2 i4 a3 i5
  have s3 := sameAt_eq (vs := [['G']]) (ws := [['G'], ['I']]) hD (by decide) (by decide) g4 p4 g5 p5
  have s4 := sameAt_eq (vs := [['L']]) (ws := [['L'], ['I']]) hD (by decide) (by decide) l4 q4 l5 q5
  have z : ∀ v ∈ netVars studentConfig, 0 ∈ domOf studentConfig v := fun v hv => zero_mem_dom hN hv
  rw [decide_eq_true (fun j _ => (post_I j).symm)] at s1
  rw [decide_eq_false (fun h => post_S (h 0 (z _ hS)))] at s2
  rw [decide_eq_false (fun h => post_GI (h 0 (z _ hD)))] at s3
  rw [decide_eq_false (fun h => post_LI (h 0 (z _ hD)))] at s4
  unfold comparingDSeparation
  simp only [j1, a1, i1, i3, g1, g3, p1, p3, l1, l3, q1, q3, s1, s2, s3, s4, bind, Except.bind, pyAssert, Bool.not_false, if_true]

/-! ### The hypotheses are met -/

/-- The joint distribution as a factor. -/
def jointFactor (cfg : Config) : Factor := ⟨cfg.entries.map fun e => (e.1, e.2.card), jointProb cfg⟩

theorem student_factor : FactorOver studentConfig (netVars studentConfig) (jointFactor studentConfig) where
  nodup := by decide +kernel
  names := by decide +kernel
  cards := by decide +kernel
  loc a b h := Finset.prod_congr rfl fun v hv => prob_local v (student_fits v) fun w hw => h w (family_sub student_net (List.mem_toFinset.1 hv) hw)

/-- The first comparison of the experiment succeeds with the distribution of the network, and fails with another one. -/
example (o : Order Str) (prov : ℕ) (e : Env) : ∃ sp, makeRelationGraph propFactor o prov studentConfig = .ok sp ∧
    comparingJoint e (jointFactor studentConfig) sp = .ok () ∧
    comparingJoint e ⟨(jointFactor studentConfig).vars, fun _ => 1 / 48⟩ sp = .error .assertion := by
  obtain ⟨sp, sp', h1, h2⟩ := C59_student o prov e.o
  refine ⟨sp, h1, ?_, ?_⟩
  · exact ((C59_comparing_joint student_net student_acyclic student_stochastic student_short h1 e student_factor).2 sp' h2).1.2 fun _ _ => rfl
  · have hf : FactorOver studentConfig (netVars studentConfig) ⟨(jointFactor studentConfig).vars, fun _ => 1 / 48⟩ :=
      ⟨student_factor.nodup, student_factor.names, student_factor.cards, fun _ _ _ => rfl⟩
    obtain ⟨h3, h4⟩ := (C59_comparing_joint student_net student_acyclic student_stochastic student_short h1 e hf).2 sp' h2
    refine h4.resolve_left fun h => ?_
    have := h3.1 h (fun _ => 0) fun v hv => zero_mem_dom student_net hv
    revert this
    decide +kernel

/-- Inference with one and with two observed variables. -/
example (o : Order Str) (prov : ℕ) (e : Env) : ∃ sp m m', makeRelationGraph propFactor o prov studentConfig = .ok sp ∧
    runInference e sp [['G']] = .ok m ∧ runInference e sp [['I'], ['G']] = .ok m' ∧
    (∃ d, m.get? ['D'] = some d ∧ d.get? ['D', '(', '0', ')'] = some (288 / 362)) := by
  obtain ⟨sp, -, h1, -⟩ := C59_student o prov e.o
  obtain ⟨-, r2, r3⟩ := C59_inference student_net h1 (vs := [['G']]) (by decide +kernel) (by simp) e
  obtain ⟨-, -, r5⟩ := C59_inference student_net h1 (vs := [['I'], ['G']]) (by decide +kernel) (by simp) e
  obtain ⟨m, hm⟩ := r3 student_polytree
  obtain ⟨m', hm'⟩ := r5 student_polytree
  refine ⟨sp, m, m', h1, hm, hm', ?_⟩
  obtain ⟨k1, k2⟩ := r2 m hm
  obtain ⟨d, hd⟩ := (Dict.mem_keys _ _).1 ((k1 ['D']).2 (by decide +kernel))
  exact ⟨d, hd, (k2 _ d hd _ _).2 ⟨0, by decide +kernel, by decide +kernel, by unfold posterior; decide +kernel⟩⟩

/-- A zero probability: the graph is not made. -/
example (o : Order Str) (prov : ℕ) : makeRelationGraph propFactor o prov (Dict.ofList [(['A'], ⟨2, [[1], [0]], [], []⟩)]) = .error .assertion := by
  have hf : ∀ v c, (Dict.ofList [(['A'], (⟨2, [[1], [0]], [], []⟩ : Cpd))]).get? v = some c → Fits (Dict.ofList [(['A'], ⟨2, [[1], [0]], [], []⟩)]) v c := by
    refine get?_of_all fun e he => ?_
    have : e = (['A'], ⟨2, [[1], [0]], [], []⟩) := by simpa [Dict.ofList, Dict.set, assocSet] using he
    subst this
    exact ⟨by decide, by decide, by decide, by decide, by decide, by decide, by decide⟩
  have hp : ∀ v, parentsOf (Dict.ofList [(['A'], (⟨2, [[1], [0]], [], []⟩ : Cpd))]) v = [] := by
    intro v
    unfold parentsOf
    cases h : (Dict.ofList [(['A'], (⟨2, [[1], [0]], [], []⟩ : Cpd))]).get? v with
    | none => rfl
    | some c =>
      have := (Dict.mem_entries _ v c).2 h
      have : (v, c) = (['A'], ⟨2, [[1], [0]], [], []⟩) := by simpa [Dict.ofList, Dict.set, assocSet] using this
      have : c = ⟨2, [[1], [0]], [], []⟩ := (Prod.ext_iff.1 this).2
      rw [this]
      rfl
  refine (C59_make_relation_graph ⟨by decide +kernel, hf, fun v p h => ?_, by decide +kernel⟩ propFactor o prov).1 fun h => ?_
  · rw [hp] at h; simp at h
  · obtain ⟨n, hn, e⟩ := h ['A'] (by decide +kernel) (fun _ => 1) (by unfold InDom; decide +kernel)
    have : prob (Dict.ofList [(['A'], (⟨2, [[1], [0]], [], []⟩ : Cpd))]) ['A'] (fun _ => 1) = 0 := by decide +kernel
    rw [this, zero_mul] at e
    exact absurd (by exact_mod_cast e.symm) hn.ne'

end Verif.Bayes
