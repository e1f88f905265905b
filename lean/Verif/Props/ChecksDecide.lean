import Verif.Props.BayesStudent
import Verif.Props.MarkovJoint

/-!
# The checks of the experiments decide (C59, C60)

The checks of separation succeed on the networks they are meant for (`C59_d_separation`, `C60_markov_separation`, `C60_graph_separation`). Here is the other
half: on every network they succeed exactly if the distributions of the network have the property, and raise `AssertionError` otherwise. A check that never
fails would satisfy the first half.
-/

set_option linter.unusedSectionVars false

namespace Verif.Bayes

/-- Observing `I` changes the distribution of no value of `v`, where `vs` are observed already. -/
def Independent (cfg : Config) (vs : List Str) (v : Str) : Prop :=
  ∀ j ∈ domOf cfg v, posterior cfg vs v j = posterior cfg (vs ++ [['I']]) v j

instance (cfg : Config) (vs : List Str) (v : Str) : Decidable (Independent cfg vs v) :=
  inferInstanceAs (Decidable (∀ j ∈ domOf cfg v, posterior cfg vs v j = posterior cfg (vs ++ [['I']]) v j))

/-- **C59.** `comparing_d_separation` on any network whose families form a tree and which has the five variables: it succeeds exactly if `D` is independent of
`I`, `S` is not, and `D` is not independent of `I` given `G`, nor given `L`; otherwise it raises `AssertionError`. -/
theorem C59_d_separation_decides {cfg : Config} (hN : Net cfg) (hP : Polytree cfg) {k : ℚ} {o : Order Str} {prov : ℕ} {sp : Space Str Str Str}
    (hsp : makeRelationGraph k o prov cfg = .ok sp) (hD : ['D'] ∈ netVars cfg) (hI : ['I'] ∈ netVars cfg) (hS : ['S'] ∈ netVars cfg)
    (hG : ['G'] ∈ netVars cfg) (hL : ['L'] ∈ netVars cfg) (e : Env) :
    (comparingDSeparation e sp = .ok () ↔ Independent cfg [] ['D'] ∧ ¬ Independent cfg [] ['S'] ∧ ¬ Independent cfg [['G']] ['D'] ∧
      ¬ Independent cfg [['L']] ['D']) ∧
    (comparingDSeparation e sp = .ok () ∨ comparingDSeparation e sp = .error .assertion) := by
  obtain ⟨hc, t2, t3, -⟩ := net_tables hN hsp
  obtain ⟨joint, j1⟩ := C59_polytree hN hP hsp e.o
  have jW := whole_of_joined hN hsp e.o j1
  obtain ⟨m, a1, a2, a3⟩ := whole_marginals hN hc (vs := []) (by simp) (by rw [obsDom_nil]; exact jW) e
  have first : ∀ v ∈ netVars cfg, ∃ sv mv, observe e sp sp v = .ok sv ∧ Whole k cfg prov (obsDom (domOf cfg) [v]) sv ∧
      e.marginals sv = .ok mv ∧ (∀ w, w ∈ mv.keys ↔ w ∈ netVars cfg) ∧
      ∀ w d, mv.get? w = some d → ∀ x q, d.get? x = some q ↔
        ∃ j ∈ obsDom (domOf cfg) [v] w, x = valName w j ∧ q = posterior cfg [v] w j := by
    intro v hv
    obtain ⟨-, f2, f3⟩ := observe_first hN hsp hv e
    obtain ⟨sv, hs⟩ := f3 hP
    obtain ⟨mv, b1, b2, b3⟩ := whole_marginals hN hc (vs := [v]) (by simpa using hv) (f2 sv hs) e
    exact ⟨sv, mv, hs, f2 sv hs, b1, b2, b3⟩
  have second : ∀ u ∈ netVars cfg, ∀ su, Whole k cfg prov (obsDom (domOf cfg) [u]) su →
      ∀ v ∈ netVars cfg, ∃ sv mv, observe e sp su.relationGraph v = .ok sv ∧
      e.marginals sv = .ok mv ∧ (∀ w, w ∈ mv.keys ↔ w ∈ netVars cfg) ∧
      ∀ w d, mv.get? w = some d → ∀ x q, d.get? x = some q ↔
        ∃ j ∈ obsDom (domOf cfg) [u, v] w, x = valName w j ∧ q = posterior cfg [u, v] w j := by
    intro u hu su hW v hv
    have hW' : Whole k cfg prov (obsDom (domOf cfg) [u]) su.relationGraph := hW
    have h0 : 0 ∈ obsDom (domOf cfg) [u] v := by
      unfold obsDom
      split
      · simp
      · exact zero_mem_dom hN hv
    obtain ⟨sv, hs, hWv⟩ := observe_whole hN t2 t3 hW' hv h0 e
    rw [obsDom_snoc] at hWv
    obtain ⟨mv, b1, b2, b3⟩ := whole_marginals hN hc (vs := [u, v]) (by simp [hu, hv]) hWv e
    exact ⟨sv, mv, hs, b1, b2, b3⟩
  obtain ⟨spI, mI, i1, -, i3, i4, i5⟩ := first _ hI
  obtain ⟨spG, mG, g1, g2, g3, g4, g5⟩ := first _ hG
  obtain ⟨spL, mL, l1, l2, l3, l4, l5⟩ := first _ hL
  obtain ⟨spGI, mGI, p1, p3, p4, p5⟩ := second _ hG spG g2 _ hI
  obtain ⟨spLI, mLI, q1, q3, q4, q5⟩ := second _ hL spL l2 _ hI
  obtain ⟨b1, h1, s1⟩ : ∃ b, (Independent cfg [] ['D'] ↔ b = true) ∧ sameAt m mI ['D'] = .ok b :=
    ⟨_, decide_eq_true_iff.symm, sameAt_eq (vs := []) (ws := [['I']]) hD (by decide) (by decide) a2 i4 a3 i5⟩
  obtain ⟨b2, h2, s2⟩ : ∃ b, (Independent cfg [] ['S'] ↔ b = true) ∧ sameAt m mI ['S'] = .ok b :=
    ⟨_, decide_eq_true_iff.symm, sameAt_eq (vs := []) (ws := [['I']]) hS (by decide) (by decide) a2 i4 a3 i5⟩
  obtain ⟨b3, h3, s3⟩ : ∃ b, (Independent cfg [['G']] ['D'] ↔ b = true) ∧ sameAt mG mGI ['D'] = .ok b :=
    ⟨_, decide_eq_true_iff.symm, sameAt_eq (vs := [['G']]) (ws := [['G'], ['I']]) hD (by decide) (by decide) g4 p4 g5 p5⟩
  obtain ⟨b4, h4, s4⟩ : ∃ b, (Independent cfg [['L']] ['D'] ↔ b = true) ∧ sameAt mL mLI ['D'] = .ok b :=
    ⟨_, decide_eq_true_iff.symm, sameAt_eq (vs := [['L']]) (ws := [['L'], ['I']]) hD (by decide) (by decide) l4 q4 l5 q5⟩
  rw [h1, h2, h3, h4]
  unfold comparingDSeparation
  simp only [j1, a1, i1, i3, g1, g3, p1, p3, l1, l3, q1, q3, s1, s2, s3, s4, bind, Except.bind]
  cases b1 <;> cases b2 <;> cases b3 <;> cases b4 <;> simp [pyAssert]

/-- The student network meets the hypotheses, so it has the four properties. -/
theorem decides_demo : Net studentConfig ∧ Polytree studentConfig ∧ Countable propFactor studentConfig ∧
    (∀ v ∈ ([['D'], ['I'], ['S'], ['G'], ['L']] : List Str), v ∈ netVars studentConfig) :=
  ⟨student_net, student_polytree, student_countable, by decide +kernel⟩

end Verif.Bayes

namespace Verif.Markov

open Verif.Bayes

theorem pyAssert_decides (b : Bool) : (pyAssert b = (.ok () : Py Unit) ↔ b = true) ∧ (pyAssert b = .ok () ∨ pyAssert b = .error .assertion) := by
  cases b <;> simp [pyAssert]

/-- **C60.** `markov_separation` on any network: it succeeds exactly if observing `d` besides `vs` does not change the distribution of `t`, and raises
`AssertionError` otherwise. -/
theorem C60_markov_separation_decides {nodes : List Str} {edges : List MEdge} (hN : MNet nodes edges) {vars : List Str}
    (hnd : vars.Nodup) (hvars : vars.toFinset = mVars edges) {vs : List Str} (hvs : ∀ v ∈ vs, v ∈ mVars edges) {d : Str} (hd : d ∈ mVars edges) (t : Str) :
    (markovSeparation vars edges vs d t = .ok () ↔ ∀ j ∈ two t, posteriorM edges vs t j = posteriorM edges (vs ++ [d]) t j) ∧
    (markovSeparation vars edges vs d t = .ok () ∨ markovSeparation vars edges vs d t = .error .assertion) := by
  have hvs' : ∀ v ∈ vs ++ [d], v ∈ mVars edges := by
    intro v hv
    rcases List.mem_append.1 hv with h | h
    · exact hvs v h
    · rw [List.mem_singleton.1 h]; exact hd
  unfold markovSeparation
  refine ⟨?_, (pyAssert_decides _).2⟩
  rw [(pyAssert_decides _).1, List.all_eq_true]
  refine ⟨fun h j hj => ?_, fun h j hj => ?_⟩
  · have := h j (by simpa [two] using hj)
    rwa [decide_eq_true_eq, factorMarginal_eq hN hvs hnd hvars, factorMarginal_eq hN hvs' hnd hvars] at this
  · rw [decide_eq_true_eq, factorMarginal_eq hN hvs hnd hvars, factorMarginal_eq hN hvs' hnd hvars]
    exact h j (by simpa [two] using hj)

/-- **C60.** `relation_graph_separation` on any connected network with at most two edges at each variable: it succeeds exactly if observing `d` besides `vs`
does not change the distribution of `t`, and raises `AssertionError` otherwise. -/
theorem C60_graph_separation_decides {nodes : List Str} {edges : List MEdge} (hN : MNet nodes edges) {prov : ℕ} {sp : Space Str Str Str}
    (hsp : makeRelationGraph prov nodes edges = .ok sp) (hC : ChainOrCycle edges) {vs : List Str} (hvs : ∀ v ∈ vs, v ∈ mVars edges) {t d : Str}
    (hdv : d ∈ mVars edges) (htv : t ∈ mVars edges) (ht2 : t ∉ vs ++ [d]) (e : Env) :
    (separation e vs d t sp = .ok () ↔ ∀ j ∈ two t, posteriorM edges vs t j = posteriorM edges (vs ++ [d]) t j) ∧
    (separation e vs d t sp = .ok () ∨ separation e vs d t sp = .error .assertion) := by
  obtain ⟨hp, hT⟩ := tabs_of_make hN hsp
  have hT' : Tabs nodes edges prov (obsDom two []) sp := by rw [obsDom_nil]; exact hT
  obtain ⟨cs, c1, c2⟩ := conditions_ok hN hT.1 hT.2.1 e vs [] sp (fun v hv => mVars_nodes hN (hvs v hv)) hT'
  rw [List.nil_append] at c2
  obtain ⟨cs', k1, k2⟩ := condition_ok hN hT.1 hT.2.1 c2 (mVars_nodes hN hdv) (by unfold obsDom two; split <;> simp) e
  rw [obsDom_snoc] at k2
  obtain ⟨-, j2, j3, -⟩ := tabs_join hN c2 e.o
  obtain ⟨-, l2, l3, -⟩ := tabs_join hN k2 e.o
  have hvs' : ∀ v ∈ vs ++ [d], v ∈ mVars edges := by
    intro v hv
    rcases List.mem_append.1 hv with h | h
    · exact hvs v h
    · rw [List.mem_singleton.1 h]; exact hdv
  have ht1 : t ∉ vs := fun h => ht2 (List.mem_append_left _ h)
  obtain ⟨s, h⟩ := j3 hC
  obtain ⟨s', h'⟩ := l3 hC
  obtain ⟨m, m1, m2, m3⟩ := whole_marginals hN hp hvs (j2 s h) e
  obtain ⟨m', n1, n2, n3⟩ := whole_marginals hN hp hvs' (l2 s' h') e
  obtain ⟨x, hx⟩ := (Dict.mem_keys _ _).1 ((m2 t).2 htv)
  obtain ⟨y, hy⟩ := (Dict.mem_keys _ _).1 ((n2 t).2 htv)
  have f1 := m3 t x hx
  have f2 := n3 t y hy
  simp only [obsDom, if_neg ht1, if_neg ht2] at f1 f2
  unfold separation
  simp only [c1, h, k1, h', m1, n1, bind, Except.bind]
  unfold sameAt
  simp only [hx, hy]
  refine ⟨?_, (pyAssert_decides _).2⟩
  rw [(pyAssert_decides _).1, Bool.and_eq_true, decide_eq_true_eq, List.all_eq_true]
  constructor
  · rintro ⟨-, h⟩ j hj
    have h3 := (f1 (valName t j) _).2 ⟨j, hj, rfl, rfl⟩
    have h5 := h _ ((Dict.mem_keys _ _).2 ⟨_, h3⟩)
    rw [decide_eq_true_eq] at h5
    rw [h5] at h3
    obtain ⟨j', -, e, h4⟩ := (f2 _ _).1 h3
    rw [h4, ← (valName_inj e).2]
  · intro h
    have hall : ∀ q, x.get? q = y.get? q := by
      intro q
      refine Option.ext fun r => ?_
      rw [f1, f2]
      exact exists_congr fun j => and_congr_right fun hj => and_congr_right fun _ => by rw [h j hj]
    refine ⟨?_, fun q _ => decide_eq_true (hall q)⟩
    ext q
    simp only [List.mem_toFinset, Dict.mem_keys, hall]

/-- `P(a)` for the distribution proportional to the product of the factors. -/
def probM (edges : List MEdge) (a : Str → ℕ) : ℚ := weight edges a / ∑ b ∈ assigns two (mVars edges), (weight edges b : ℚ)

/-- Every assignment is one of the rows. -/
theorem exists_row : ∀ (vars : List Str) (a : Str → ℕ), vars.Nodup → InDom two vars.toFinset a →
    ∃ js ∈ joinedValues vars.length, ∀ v ∈ vars, kw vars js v = a v
  | [], a, _, _ => ⟨[], by simp [joinedValues], by simp⟩
  | v :: t, a, hnd, ha => by
    obtain ⟨js, h1, h2⟩ := exists_row t a (List.nodup_cons.1 hnd).2 fun w hw => ha w (by simp at hw ⊢; exact Or.inr hw)
    refine ⟨a v :: js, ?_, fun w hw => ?_⟩
    · have := ha v (by simp)
      simp only [joinedValues, List.length_cons, List.mem_flatMap, List.mem_map]
      exact ⟨a v, by simpa [two] using this, js, h1, rfl⟩
    · simp only [kw]
      by_cases e : w = v
      · subst e; simp
      · rw [Function.update_of_ne e]
        exact h2 w ((List.mem_cons.1 hw).resolve_left e)

/-- **C60.** `comparing_variable_joint_probability` with the factors of some network `edges'` over the same variables as the one the graph was made of: if the
graph can be joined, it succeeds exactly if both networks have the same distribution, and raises `AssertionError` otherwise. -/
theorem C60_comparing_joint_decides {nodes : List Str} {edges edges' : List MEdge} (hN : MNet nodes edges) (hN' : MNet nodes edges')
    (hp' : PositiveNet edges') (hsame : mVars edges' = mVars edges) {prov : ℕ} {sp sp' : Space Str Str Str} (hsp : makeRelationGraph prov nodes edges = .ok sp)
    {vars : List Str} (hnd : vars.Nodup) (hvars : vars.toFinset = mVars edges) (e : Env) (hj : sp.makeJoined e.o = .ok sp') :
    (comparingJoint e vars edges' sp = .ok () ↔ ∀ a, InDom two (mVars edges) a → probM edges' a = probM edges a) ∧
    (comparingJoint e vars edges' sp = .ok () ∨ comparingJoint e vars edges' sp = .error .assertion) := by
  obtain ⟨hp, hT⟩ := tabs_of_make hN hsp
  have hW := (tabs_join hN hT e.o).2.1 sp' hj
  rw [← obsDom_nil two] at hW
  obtain ⟨d, d1, d2⟩ := graphProp_spec hN (fun v _ => by rw [obsDom_nil]) hp hW hnd hvars e
  have m2 := markovProp_spec hN' hp' [] (by simp) hnd (hvars.trans hsame.symm)
  rw [setZero_nil] at m2
  simp only [obsDom_nil, hsame] at d2 m2
  unfold comparingJoint
  simp only [hj, d1, bind, Except.bind]
  refine ⟨?_, (pyAssert_decides _).2⟩
  rw [(pyAssert_decides _).1, sameDict_iff]
  constructor
  · intro h a ha
    obtain ⟨js, h1, h2⟩ := exists_row vars a hnd (by rw [hvars]; exact ha)
    have hd : InDom two (mVars edges) (kw vars js) := by rw [← hvars]; exact joined_two vars js h1
    have h3 := (m2 js _).2 ⟨h1, hd, rfl⟩
    rw [h js] at h3
    have h4 := ((d2 js _).1 h3).2.2
    have e1 : ∀ v ∈ mVars edges, kw vars js v = a v := fun v hv => h2 v (by rw [← hvars] at hv; exact List.mem_toFinset.1 hv)
    unfold probM
    rw [hsame, ← weight_local hN e1, ← weight_local hN' (fun v hv => e1 v (hsame ▸ hv))]
    exact h4
  · intro h js
    refine Option.ext fun q => ?_
    rw [m2, d2]
    refine and_congr_right fun _ => and_congr_right fun hd => ?_
    have := h _ hd
    unfold probM at this
    rw [hsame] at this
    rw [this]

/-- **C60.** `comparing_inference` with the factors of some network `edges'` over the same variables: if the graph in which `v` is observed can be joined, it
succeeds exactly if both networks have the same distribution given `v = 0`, and raises `AssertionError` otherwise. -/
theorem C60_comparing_inference_decides {nodes : List Str} {edges edges' : List MEdge} (hN : MNet nodes edges) (hN' : MNet nodes edges')
    (hp' : PositiveNet edges') (hsame : mVars edges' = mVars edges) {prov : ℕ} {sp : Space Str Str Str} (hsp : makeRelationGraph prov nodes edges = .ok sp)
    {vars : List Str} (hnd : vars.Nodup) (hvars : vars.toFinset = mVars edges) {v : Str} (hv : v ∈ mVars edges) (e : Env) :
    ∃ cs, condition e sp sp v = .ok cs ∧ ∀ sp', cs.makeJoined e.o = .ok sp' →
    (comparingInference e vars edges' v sp = .ok () ↔ ∀ a, InDom two (mVars edges) a → a v = 0 →
      (weight edges' a : ℚ) / ∑ b ∈ assigns two (mVars edges) with b v = 0, (weight edges' b : ℚ) =
        weight edges a / ∑ b ∈ assigns two (mVars edges) with b v = 0, (weight edges b : ℚ)) ∧
    (comparingInference e vars edges' v sp = .ok () ∨ comparingInference e vars edges' v sp = .error .assertion) := by
  obtain ⟨hp, hT⟩ := tabs_of_make hN hsp
  obtain ⟨cs, c1, c2⟩ := condition_ok hN hT.1 hT.2.1 hT (mVars_nodes hN hv) (by simp [two]) e
  have hd : Function.update two v {0} = obsDom two [v] := by
    rw [← obsDom_nil two, obsDom_snoc, obsDom_nil]; rfl
  rw [hd] at c2
  refine ⟨cs, c1, fun sp' hj => ?_⟩
  have hW : MWhole nodes edges prov (obsDom two [v]) sp'.relationGraph := (tabs_join hN c2 e.o).2.1 sp' hj
  obtain ⟨d, d1, d2⟩ := graphProp_spec hN (fun w _ => by unfold obsDom; split <;> simp [two]) hp hW hnd hvars e
  have m2 := markovProp_spec hN' hp' [v] (by simpa [hsame] using hv) hnd (hvars.trans hsame.symm)
  have hobs : ∀ a, InDom two (mVars edges) a → (InDom (obsDom two [v]) (mVars edges) a ↔ a v = 0) := fun a ha => by
    rw [inDom_obsDom hN (vs := [v]) (by simpa using hv) ha]; simp
  have hsum : assigns (obsDom two [v]) (mVars edges) = (assigns two (mVars edges)).filter fun b => b v = 0 := by
    rw [assigns_obsDom fun w hw => ⟨by rw [List.mem_singleton.1 hw]; exact hv, by simp [two]⟩]
    exact Finset.filter_congr fun b _ => by simp
  simp only [hsame, hsum] at d2 m2
  unfold comparingInference
  simp only [c1, hj, d1, bind, Except.bind]
  refine ⟨?_, (pyAssert_decides _).2⟩
  rw [(pyAssert_decides _).1, sameDict_iff]
  constructor
  · intro h a ha h0
    obtain ⟨js, h1, h2⟩ := exists_row vars a hnd (by rw [hvars]; exact ha)
    have hd : InDom two (mVars edges) (kw vars js) := by rw [← hvars]; exact joined_two vars js h1
    have e1 : ∀ v ∈ mVars edges, kw vars js v = a v := fun v hv => h2 v (by rw [← hvars] at hv; exact List.mem_toFinset.1 hv)
    have h3 := (m2 js _).2 ⟨h1, (hobs _ hd).2 ((e1 v hv).trans h0), rfl⟩
    rw [h js] at h3
    have h4 := ((d2 js _).1 h3).2.2
    rw [← weight_local hN e1, ← weight_local hN' (fun v hv => e1 v (hsame ▸ hv))]
    exact h4
  · intro h js
    refine Option.ext fun q => ?_
    rw [m2, d2]
    refine and_congr_right fun hjs => and_congr_right fun hd => ?_
    have hin : InDom two (mVars edges) (kw vars js) := by rw [← hvars]; exact joined_two vars js hjs
    rw [h _ hin ((hobs _ hin).1 hd)]

/-- The network of the script is a network of the kind the theorems speak about, without separation of `A` from `B` nothing is claimed to be equal: observing
`A` changes the distribution of `B`. -/
theorem markovDecides_demo : MNet exampleNodes exampleEdges ∧ PositiveNet exampleEdges ∧ ChainOrCycle exampleEdges ∧
    markovSeparation exampleNodes exampleEdges [] ['A'] ['B'] = .error .assertion := by
  refine ⟨example_net, example_positive, example_cycle, by decide +kernel⟩

end Verif.Markov
