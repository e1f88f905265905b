import Verif.Props.BayesFloat

/-!
# The student network in floating point (C77)
-/

set_option linter.unusedSectionVars false

namespace Verif.Bayes

/-- Comparing the rounded marginals of a variable that is observed in neither graph. -/
theorem sameAt_fl {cfg : Config} {vs ws : List Str} {m m' : Dict Str (Dict Str ℚ)} {v : Str} (hv : v ∈ netVars cfg) (h1 : v ∉ vs) (h2 : v ∉ ws)
    (k1 : ∀ v, v ∈ m.keys ↔ v ∈ netVars cfg) (k2 : ∀ v, v ∈ m'.keys ↔ v ∈ netVars cfg)
    (e1 : ∀ v d, m.get? v = some d → ∀ x q, d.get? x = some q ↔ ∃ j ∈ obsDom (domOf cfg) vs v, x = valName v j ∧ q = fl (posterior cfg vs v j))
    (e2 : ∀ v d, m'.get? v = some d → ∀ x q, d.get? x = some q ↔ ∃ j ∈ obsDom (domOf cfg) ws v, x = valName v j ∧ q = fl (posterior cfg ws v j)) :
    sameAt m m' v = .ok (decide (∀ j ∈ domOf cfg v, fl (posterior cfg vs v j) = fl (posterior cfg ws v j))) := by
  obtain ⟨x, hx⟩ := (Dict.mem_keys _ _).1 ((k1 v).2 hv)
  obtain ⟨y, hy⟩ := (Dict.mem_keys _ _).1 ((k2 v).2 hv)
  have f1 := e1 v x hx
  have f2 := e2 v y hy
  simp only [obsDom, if_neg h1, if_neg h2] at f1 f2
  unfold sameAt
  rw [hx, hy]
  simp only
  congr 1
  rw [Bool.eq_iff_iff]
  simp only [Bool.and_eq_true, decide_eq_true_eq, List.all_eq_true]
  constructor
  · rintro ⟨-, h⟩ j hj
    have h3 := (f1 (valName v j) _).2 ⟨j, hj, rfl, rfl⟩
    rw [h _ ((Dict.mem_keys _ _).2 ⟨_, h3⟩)] at h3
    obtain ⟨j', -, e, h4⟩ := (f2 _ _).1 h3
    rw [h4, ← (valName_inj e).2]
  · intro h
    have hall : ∀ q, x.get? q = y.get? q := by
      intro q
      refine Option.ext fun r => ?_
      rw [f1, f2]
      exact exists_congr fun j => and_congr_right fun hj => and_congr_right fun _ => by rw [h j hj]
    refine ⟨?_, fun q _ => hall q⟩
    ext q
    simp only [List.mem_toFinset, Dict.mem_keys, hall]

theorem post_S_fl : fl (posterior studentConfig [] ['S'] 0) ≠ fl (posterior studentConfig [['I']] ['S'] 0) := by
  unfold posterior
  decide +kernel

theorem post_GI_fl : fl (posterior studentConfig [['G']] ['D'] 0) ≠ fl (posterior studentConfig [['G'], ['I']] ['D'] 0) := by
  unfold posterior
  decide +kernel

theorem post_LI_fl : fl (posterior studentConfig [['L']] ['D'] 0) ≠ fl (posterior studentConfig [['L'], ['I']] ['D'] 0) := by
  unfold posterior
  decide +kernel

theorem student_total : propFactor ^ (netVars studentConfig).card ≤ 2 ^ 53 := by decide +kernel

theorem student_cards (ver : PyVer) : ∀ v ∈ netVars studentConfig, cardOf studentConfig v ≤ maxItems ver := by
  intro v hv
  refine (student_short v hv).2.trans ?_
  cases ver <;> norm_num [maxItems]

/-- **C77.** The four checks of `comparing_d_separation` succeed with floats, whatever the iteration orders and the version of Python: the two marginals of `D` that are compared with
`==` are the same floats. -/
theorem C77_d_separation {o : Order Str} {prov : ℕ} {sp : Space Str Str Str} (hsp : makeRelationGraphFl propFactor o prov studentConfigFl = .ok sp)
    (ver : PyVer) (e : Env) : comparingDSeparationFl ver e sp = .ok () := by
  rw [C77_student_graph] at hsp
  have hN := student_net
  have hP := student_polytree
  have hc := student_countable
  have hb : propFactor ^ (netVars studentConfig).card ≤ 2 ^ 1022 := student_total.trans (pow_le_pow_right₀ (by norm_num) (by norm_num))
  have wm : ∀ {vs : List Str}, (∀ v ∈ vs, v ∈ netVars studentConfig) → ∀ {s : Space Str Str Str}, Whole propFactor studentConfig prov (obsDom (domOf studentConfig) vs) s →
      ∃ m, e.marginalsFl ver s = .ok m ∧ (∀ v, v ∈ m.keys ↔ v ∈ netVars studentConfig) ∧
      ∀ v d, m.get? v = some d → ∀ x q, d.get? x = some q ↔
        ∃ j ∈ obsDom (domOf studentConfig) vs v, x = valName v j ∧ q = fl (posterior studentConfig vs v j) :=
    fun {_} hvs {_} hW => whole_marginalsFl hN student_acyclic student_stochastic hc hb ver (student_cards ver) hvs hW e
  obtain ⟨-, t2, t3, -⟩ := net_tables hN hsp
  have hI : ['I'] ∈ netVars studentConfig := by decide +kernel
  have hG : ['G'] ∈ netVars studentConfig := by decide +kernel
  have hL : ['L'] ∈ netVars studentConfig := by decide +kernel
  have hD : ['D'] ∈ netVars studentConfig := by decide +kernel
  have hS : ['S'] ∈ netVars studentConfig := by decide +kernel
  obtain ⟨joint, j1⟩ := C59_polytree hN hP hsp e.o
  have jW := whole_of_joined hN hsp e.o j1
  obtain ⟨m, a1, a2, a3⟩ := wm (vs := []) (by simp) (s := joint) (by rw [obsDom_nil]; exact jW)
  have first : ∀ v ∈ netVars studentConfig, ∃ sv mv, observe e sp sp v = .ok sv ∧ Whole propFactor studentConfig prov (obsDom (domOf studentConfig) [v]) sv ∧
      e.marginalsFl ver sv = .ok mv ∧ (∀ w, w ∈ mv.keys ↔ w ∈ netVars studentConfig) ∧
      ∀ w d, mv.get? w = some d → ∀ x q, d.get? x = some q ↔
        ∃ j ∈ obsDom (domOf studentConfig) [v] w, x = valName w j ∧ q = fl (posterior studentConfig [v] w j) := by
    intro v hv
    obtain ⟨-, f2, f3⟩ := observe_first hN hsp hv e
    obtain ⟨sv, hs⟩ := f3 hP
    obtain ⟨mv, b1, b2, b3⟩ := wm (vs := [v]) (by simpa using hv) (f2 sv hs)
    exact ⟨sv, mv, hs, f2 sv hs, b1, b2, b3⟩
  have second : ∀ u ∈ netVars studentConfig, ∀ su, Whole propFactor studentConfig prov (obsDom (domOf studentConfig) [u]) su →
      ∀ v ∈ netVars studentConfig, ∃ sv mv, observe e sp su.relationGraph v = .ok sv ∧
      e.marginalsFl ver sv = .ok mv ∧ (∀ w, w ∈ mv.keys ↔ w ∈ netVars studentConfig) ∧
      ∀ w d, mv.get? w = some d → ∀ x q, d.get? x = some q ↔
        ∃ j ∈ obsDom (domOf studentConfig) [u, v] w, x = valName w j ∧ q = fl (posterior studentConfig [u, v] w j) := by
    intro u hu su hW v hv
    have hW' : Whole propFactor studentConfig prov (obsDom (domOf studentConfig) [u]) su.relationGraph := hW
    have h0 : 0 ∈ obsDom (domOf studentConfig) [u] v := by
      unfold obsDom
      split
      · simp
      · exact zero_mem_dom hN hv
    obtain ⟨sv, hs, hWv⟩ := observe_whole hN t2 t3 hW' hv h0 e
    rw [obsDom_snoc] at hWv
    obtain ⟨mv, b1, b2, b3⟩ := wm (vs := [u, v]) (by simp [hu, hv]) hWv
    exact ⟨sv, mv, hs, b1, b2, b3⟩
  obtain ⟨spI, mI, i1, -, i3, i4, i5⟩ := first _ hI
  obtain ⟨spG, mG, g1, g2, g3, g4, g5⟩ := first _ hG
  obtain ⟨spL, mL, l1, l2, l3, l4, l5⟩ := first _ hL
  obtain ⟨spGI, mGI, p1, p3, p4, p5⟩ := second _ hG spG g2 _ hI
  obtain ⟨spLI, mLI, q1, q3, q4, q5⟩ := second _ hL spL l2 _ hI
  have s1 := sameAt_fl (vs := []) (ws := [['I']]) hD (by decide) (by decide) a2 i4 a3 i5
  have s2 := sameAt_fl (vs := []) (ws := [['I']]) hS (by decide) (by decide) a2 i4 a3 i5
  have s3 := sameAt_fl (vs := [['G']]) (ws := [['G'], ['I']]) hD (by decide) (by decide) g4 p4 g5 p5
  have s4 := sameAt_fl (vs := [['L']]) (ws := [['L'], ['I']]) hD (by decide) (by decide) l4 q4 l5 q5
  have z : ∀ v ∈ netVars studentConfig, 0 ∈ domOf studentConfig v := fun v hv => zero_mem_dom hN hv
  rw [decide_eq_true (fun j _ => by rw [post_I j])] at s1
  rw [decide_eq_false (fun h => post_S_fl (h 0 (z _ hS)))] at s2
  rw [decide_eq_false (fun h => post_GI_fl (h 0 (z _ hD)))] at s3
  rw [decide_eq_false (fun h => post_LI_fl (h 0 (z _ hD)))] at s4
  unfold comparingDSeparationFl
  simp only [j1, a1, i1, i3, g1, g3, p1, p3, l1, l3, q1, q3, s1, s2, s3, s4, bind, Except.bind, pyAssert, Bool.not_false, if_true]

/-! ### The hypotheses are met -/

/-- The factor with the floats nearest to the joint distribution. -/
def nearestFactor (cfg : Config) : Factor := ⟨cfg.entries.map fun e => (e.1, e.2.card), fun a => fl (jointProb cfg a)⟩

theorem student_nearest : FactorOver studentConfig (netVars studentConfig) (nearestFactor studentConfig) :=
  ⟨student_factor.nodup, student_factor.names, student_factor.cards, fun a b h => congrArg fl (student_factor.loc a b h)⟩

theorem close_self (p : ℚ) : Close (fl p) p := by
  unfold Close closeFl isclose
  simp

/-- With the nearest floats, added in the order of the array or in the opposite order, the first comparison of the experiment succeeds; with a factor that is wrong it fails. -/
theorem C77_student_joint (o : Order Str) (prov : ℕ) (ver : PyVer) (e : Env) : ∃ sp, makeRelationGraphFl propFactor o prov studentConfigFl = .ok sp ∧
    comparingJointFl ver plainNp e (nearestFactor studentConfig) sp = .ok () ∧ comparingJointFl ver reverseNp e (nearestFactor studentConfig) sp = .ok () ∧
    ∀ np, comparingJointFl ver np e ⟨(nearestFactor studentConfig).vars, fun _ => fl (1 / 48)⟩ sp = .error .assertion := by
  obtain ⟨sp, sp', h1, h2⟩ := C59_student o prov e.o
  have main := fun (np : NpSum) {f : Factor} (hf : FactorOver studentConfig (netVars studentConfig) f) =>
    (C77_comparing_joint student_net student_acyclic student_stochastic student_short h1 student_total ver np e hf).2 sp' h2
  refine ⟨sp, by rw [C77_student_graph]; exact h1, ?_, ?_, fun np => ?_⟩
  · refine (main plainNp student_nearest).1.2 ⟨fun a _ => close_self _, ?_⟩
    unfold Close posterior
    decide +kernel
  · refine (main reverseNp student_nearest).1.2 ⟨fun a _ => close_self _, ?_⟩
    unfold Close posterior
    decide +kernel
  · have hf : FactorOver studentConfig (netVars studentConfig) ⟨(nearestFactor studentConfig).vars, fun _ => fl (1 / 48)⟩ :=
      ⟨student_factor.nodup, student_factor.names, student_factor.cards, fun _ _ _ => rfl⟩
    obtain ⟨h3, h4⟩ := main np hf
    refine h4.resolve_left fun h => ?_
    have := (h3.1 h).1 (fun _ => 0) fun v hv => zero_mem_dom student_net hv
    revert this
    unfold Close
    decide +kernel

/-- The floats nearest to the joint posterior distribution of the other variables. -/
def nearestPosterior (cfg : Config) (vs : List Str) : Factor :=
  ⟨(cfg.entries.map fun e => (e.1, e.2.card)).filter fun p => p.1 ∉ vs, fun a => fl (jointProb cfg (fun v => if v ∈ vs then 0 else a v) /
    ∑ a ∈ assigns (domOf cfg) (netVars cfg) with ∀ u ∈ vs, a u = 0, jointProb cfg a)⟩

theorem student_nearestPosterior (vs : List Str) (h : vs = [['I']] ∨ vs = [['I'], ['G']]) :
    FactorOver studentConfig (netVars studentConfig \ vs.toFinset) (nearestPosterior studentConfig vs) where
  nodup := by rcases h with rfl | rfl <;> decide +kernel
  names := by rcases h with rfl | rfl <;> decide +kernel
  cards := by rcases h with rfl | rfl <;> decide +kernel
  loc a b hab := by
    have : jointProb studentConfig (fun v => if v ∈ vs then 0 else a v) = jointProb studentConfig (fun v => if v ∈ vs then 0 else b v) :=
      student_factor.loc _ _ fun v hv => by
        by_cases hvs : v ∈ vs
        · simp [hvs]
        · simp only [hvs, if_false]
          exact hab v (by simp [hv, hvs])
    show fl (_ / _) = fl (_ / _)
    rw [this]

/-- The two comparisons of `comparing_inference` succeed with the nearest floats. -/
theorem C77_student_inference (o : Order Str) (prov : ℕ) (ver : PyVer) (e : Env) : ∃ sp, makeRelationGraphFl propFactor o prov studentConfigFl = .ok sp ∧
    comparingInferenceFl ver plainNp e (nearestPosterior studentConfig [['I']]) [['I']] sp = .ok () ∧
    comparingInferenceFl ver plainNp e (nearestPosterior studentConfig [['I'], ['G']]) [['I'], ['G']] sp = .ok () := by
  obtain ⟨sp, -, h1, -⟩ := C59_student o prov e.o
  have hb : propFactor ^ (netVars studentConfig).card ≤ 2 ^ 1022 := student_total.trans (pow_le_pow_right₀ (by norm_num) (by norm_num))
  refine ⟨sp, by rw [C77_student_graph]; exact h1, ?_, ?_⟩
  · obtain ⟨m, hm⟩ := (C77_inference student_net student_acyclic student_stochastic h1 hb ver (student_cards ver) (vs := [['I']]) (by decide +kernel) (by simp) e).2.2 student_polytree
    refine ((C77_comparing_inference student_net student_acyclic student_stochastic h1 hb ver (student_cards ver) plainNp (vs := [['I']]) (by decide +kernel) (by simp)
      (by decide) e (student_nearestPosterior _ (Or.inl rfl))).2 m hm).1.2 ?_
    unfold Close posterior
    decide +kernel
  · obtain ⟨m, hm⟩ := (C77_inference student_net student_acyclic student_stochastic h1 hb ver (student_cards ver) (vs := [['I'], ['G']]) (by decide +kernel) (by simp) e).2.2 student_polytree
    refine ((C77_comparing_inference student_net student_acyclic student_stochastic h1 hb ver (student_cards ver) plainNp (vs := [['I'], ['G']]) (by decide +kernel) (by simp)
      (by decide) e (student_nearestPosterior _ (Or.inr rfl))).2 m hm).1.2 ?_
    unfold Close posterior
    decide +kernel

end Verif.Bayes
