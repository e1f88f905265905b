import Verif.Props.BayesCompare

/-!
# The Bayesian network experiment (C59): joint distribution, inference and independence
-/

set_option linter.unusedSectionVars false

namespace Verif.Bayes

section
variable {cfg : Config} (hN : Net cfg)
include hN

/-! ### Marginals of the joined graph -/

theorem declared_mem {v : Str} (hv : v ∈ netVars cfg) : v ∈ (schemaOf cfg).vars.keys := by
  obtain ⟨xs, h, -⟩ := declared_value (List.mem_toFinset.1 hv) (zero_mem_dom hN hv)
  exact (Dict.mem_keys _ _).2 ⟨xs, h⟩

theorem inDom_obs {vs : List Str} (hvs : ∀ v ∈ vs, v ∈ netVars cfg) {a : Str → ℕ} (ha : InDom (obsDom (domOf cfg) vs) (netVars cfg) a) :
    InDom (domOf cfg) (netVars cfg) a := by
  intro v hv
  have := ha v hv
  unfold obsDom at this
  split at this
  · rename_i h
    rw [Finset.mem_singleton.1 this]
    exact zero_mem_dom hN hv
  · exact this

/-- Marginals after observations. -/
theorem whole_marginals {k : ℚ} (hc : Countable k cfg) {prov : ℕ} {vs : List Str} (hvs : ∀ v ∈ vs, v ∈ netVars cfg) {sp : Space Str Str Str}
    (hW : Whole k cfg prov (obsDom (domOf cfg) vs) sp) (e : Env) :
    ∃ m, e.marginals sp = .ok m ∧ (∀ v, v ∈ m.keys ↔ v ∈ netVars cfg) ∧
      ∀ v d, m.get? v = some d → ∀ x q, d.get? x = some q ↔ ∃ j ∈ obsDom (domOf cfg) vs v, x = valName v j ∧ q = posterior cfg vs v j := by
  obtain ⟨h1, -, hT⟩ := hW
  obtain ⟨m, e1, e2, e3⟩ := hT.marginals (fun a ha => (count_cast hN hc (inDom_obs hN hvs ha)).2) e.u e.o.items e.o.vars e.o.nodes
    (fun v hv => by rw [h1]; exact declared_mem hN hv)
  refine ⟨m, e1, e2, fun v d hd x q => ?_⟩
  rw [e3 v d hd]
  refine exists_congr fun j => and_congr_right fun _ => and_congr_right fun _ => ?_
  have hk : k ^ (netVars cfg).card ≠ 0 := pow_ne_zero _ (factor_ne_zero hN hc)
  have hs : ∀ P : (Str → ℕ) → Prop, [DecidablePred P] → ∑ a ∈ (assigns (obsDom (domOf cfg) vs) (netVars cfg)).filter P,
      ((∏ v ∈ netVars cfg, famCount k cfg v a : ℤ) : ℚ) =
      k ^ (netVars cfg).card * ∑ a ∈ ((assigns (domOf cfg) (netVars cfg)).filter fun a => ∀ v ∈ vs, a v = 0).filter P, jointProb cfg a := by
    intro P _
    rw [Finset.mul_sum, assigns_obsDom fun v hv => ⟨hvs v hv, zero_mem_dom hN (hvs v hv)⟩]
    refine Finset.sum_congr rfl fun a ha => (count_cast hN hc ?_).1
    exact (mem_assigns.1 (Finset.mem_filter.1 (Finset.mem_filter.1 ha).1).1).1
  have h2 := hs (fun _ => True)
  simp only [Finset.filter_true] at h2
  rw [hs, h2, mul_div_mul_left _ _ hk, Finset.filter_filter]
  rfl

/-! ### Observing -/

theorem evidence_ok {v : Str} (hv : v ∈ netVars cfg) (prov : ℕ) :
    (Builder.new prov).buildSingleNode (schemaOf cfg) v (valName v 0) = .ok ⟨prov, valueEvidence v (valName v 0)⟩ := by
  have hd : (schemaOf cfg).declared v (valName v 0) = true :=
    (declared_iff _ _ _).2 (declared_value (List.mem_toFinset.1 hv) (zero_mem_dom hN hv))
  unfold Builder.buildSingleNode Schema.getNode
  simp [hd, Builder.new, valueEvidence]

theorem observe_eq {sp0 sp : Space Str Str Str} {v : Str} (hv : v ∈ netVars cfg) (h0 : sp0.schema = schemaOf cfg)
    (hp : sp.outcomes.prov = sp0.outcomes.prov) (e : Env) :
    ∃ cs, sp.conditionalGraph e.o.items ⟨sp0.outcomes.prov, valueEvidence v (valName v 0)⟩ = .ok cs ∧ cs.schema = sp.schema ∧
      cs.outcomes.prov = sp.outcomes.prov ∧ observe e sp0 sp v = cs.relationGraph.makeJoined e.o := by
  obtain ⟨cs, h1, h2, -, h4, -⟩ := (C34_conditional_graph sp e.o.items ⟨sp0.outcomes.prov, valueEvidence v (valName v 0)⟩).1 hp.symm
  refine ⟨cs, h1, h2, h4, ?_⟩
  unfold observe
  rw [h0, evidence_ok hN hv]
  simp only [bind, Except.bind, h1]

/-- Observing in the graph of the whole network never fails. -/
theorem observe_whole {k : ℚ} {prov : ℕ} {dom : Str → Finset ℕ} {sp0 sp : Space Str Str Str} (h0 : sp0.schema = schemaOf cfg)
    (hp0 : sp0.outcomes.prov = prov) (hW : Whole k cfg prov dom sp) {v : Str} (hv : v ∈ netVars cfg) (hd : 0 ∈ dom v) (e : Env) :
    ∃ sp', observe e sp0 sp v = .ok sp' ∧ Whole k cfg prov (Function.update dom v {0}) sp' := by
  obtain ⟨w1, w2, w3⟩ := hW
  obtain ⟨cs, h1, h2, h3, h4⟩ := observe_eq hN hv h0 (w2.trans hp0.symm) e
  have hT := w3.conditioned e.o.items hd (ev := ⟨sp0.outcomes.prov, valueEvidence v (valName v 0)⟩) rfl h1
  obtain ⟨sp', r1, r2, r3, r4⟩ := Tables.rejoined (sp := cs.relationGraph) hT e.o
  refine ⟨sp', h4.trans r1, ?_, ?_, r4⟩
  · rw [r2]; exact h2.trans w1
  · rw [r3]; exact h3.trans w2

/-- Observing in the relation graph: joining is what may fail. -/
theorem observe_first {k : ℚ} {o : Order Str} {prov : ℕ} {sp : Space Str Str Str} (hsp : makeRelationGraph k o prov cfg = .ok sp) {v : Str}
    (hv : v ∈ netVars cfg) (e : Env) :
    (∀ er, observe e sp sp v = .error er → er = .assertion) ∧
    (∀ sp', observe e sp sp v = .ok sp' → Whole k cfg prov (obsDom (domOf cfg) [v]) sp') ∧
    (Polytree cfg → ∃ sp', observe e sp sp v = .ok sp') := by
  obtain ⟨-, t2, t3, hT⟩ := net_tables hN hsp
  obtain ⟨cs, h1, h2, h3, h4⟩ := observe_eq hN hv t2 rfl e
  have hC := hT.conditioned e.o.items (zero_mem_dom hN hv) (ev := ⟨sp.outcomes.prov, valueEvidence v (valName v 0)⟩) rfl h1
  have hJ := C42_make_joined e.o cs.relationGraph hC.good hC.complete
  rw [h4]
  refine ⟨hJ.1, fun sp' hm => ?_, ?_⟩
  · have hG : joinedGraph valName (netVars cfg) (family cfg) (famGraph cfg) = netGraph cfg := funext fun a => joinedGraph_net hN a
    have := hT.observed (netVars_nonempty hN) e.o.items e.o (zero_mem_dom hN hv) rfl h1 hm
    rw [allVars_net hN, hG] at this
    have hd : Function.update (domOf cfg) v {0} = obsDom (domOf cfg) [v] := by
      rw [← obsDom_nil (domOf cfg), obsDom_snoc, obsDom_nil]; rfl
    rw [hd] at this
    obtain ⟨q1, q2, -⟩ := hJ.2 sp' hm
    exact ⟨q1.trans (h2.trans t2), q2.trans (h3.trans t3), this⟩
  · rintro ⟨L, l1, l2⟩
    exact Tables.joins (sp := cs.relationGraph) hC e.o L l1 l2

theorem observe_rest {k : ℚ} {prov : ℕ} {sp0 : Space Str Str Str} (h0 : sp0.schema = schemaOf cfg) (hp0 : sp0.outcomes.prov = prov) (e : Env) :
    ∀ (vs ws : List Str) (sp : Space Str Str Str), (∀ v ∈ vs, v ∈ netVars cfg) → Whole k cfg prov (obsDom (domOf cfg) ws) sp →
      ∃ sp', vs.foldlM (observe e sp0) sp = .ok sp' ∧ Whole k cfg prov (obsDom (domOf cfg) (ws ++ vs)) sp'
  | [], ws, sp, _, hW => ⟨sp, rfl, by rwa [List.append_nil]⟩
  | v :: t, ws, sp, hvs, hW => by
    have hd : 0 ∈ obsDom (domOf cfg) ws v := by
      unfold obsDom
      split
      · simp
      · exact zero_mem_dom hN (hvs v (by simp))
    obtain ⟨sp1, e1, e2⟩ := observe_whole hN h0 hp0 hW (hvs v (by simp)) hd e
    rw [obsDom_snoc] at e2
    obtain ⟨sp', r1, r2⟩ := observe_rest h0 hp0 e t (ws ++ [v]) sp1 (fun w hw => hvs w (by simp [hw])) e2
    refine ⟨sp', by rw [List.foldlM_cons, e1]; exact r1, ?_⟩
    rwa [List.append_assoc, List.singleton_append] at r2

theorem observe_all {k : ℚ} {o : Order Str} {prov : ℕ} {sp : Space Str Str Str} (hsp : makeRelationGraph k o prov cfg = .ok sp) {vs : List Str}
    (hvs : ∀ v ∈ vs, v ∈ netVars cfg) (hne : vs ≠ []) (e : Env) :
    (∀ er, vs.foldlM (observe e sp) sp = .error er → er = .assertion) ∧
    (∀ sp', vs.foldlM (observe e sp) sp = .ok sp' → Whole k cfg prov (obsDom (domOf cfg) vs) sp') ∧
    (Polytree cfg → ∃ sp', vs.foldlM (observe e sp) sp = .ok sp') := by
  obtain ⟨-, t2, t3, -⟩ := net_tables hN hsp
  obtain ⟨v, t, rfl⟩ := List.exists_cons_of_ne_nil hne
  obtain ⟨f1, f2, f3⟩ := observe_first hN hsp (hvs v (by simp)) e
  rw [List.foldlM_cons]
  cases hv : observe e sp sp v with
  | error er =>
    refine ⟨fun er' h => ?_, fun sp' h => ?_, fun hP => ?_⟩
    · have : er = er' := by cases h; rfl
      rw [← this]; exact f1 er hv
    · cases h
    · obtain ⟨sp', h⟩ := f3 hP
      rw [hv] at h; cases h
  | ok sp1 =>
    obtain ⟨sp', r1, r2⟩ := observe_rest hN (k := k) t2 t3 e t [v] sp1 (fun w hw => hvs w (by simp [hw])) (f2 sp1 hv)
    have hr : (do let s ← Except.ok sp1; List.foldlM (observe e sp) s t) = (.ok sp' : Py _) := r1
    rw [hr]
    refine ⟨fun er h => (by cases h), fun sp'' h => ?_, fun _ => ⟨sp', rfl⟩⟩
    cases h
    exact r2

end

/-- **C59.** Inference: with some observed variables (value 0 each), what `_run_inference_on` computes are the posterior distributions of the network,
for all variables, whenever joining succeeds; it does if the families form a tree, and otherwise `AssertionError` is raised. -/
theorem C59_inference {cfg : Config} (hN : Net cfg) {k : ℚ} {o : Order Str} {prov : ℕ} {sp : Space Str Str Str}
    (hsp : makeRelationGraph k o prov cfg = .ok sp) {vs : List Str} (hvs : ∀ v ∈ vs, v ∈ netVars cfg) (hne : vs ≠ []) (e : Env) :
    (∀ er, runInference e sp vs = .error er → er = .assertion) ∧
    (∀ m, runInference e sp vs = .ok m → (∀ v, v ∈ m.keys ↔ v ∈ netVars cfg) ∧
      ∀ v d, m.get? v = some d → ∀ x q, d.get? x = some q ↔
        ∃ j ∈ (if v ∈ vs then {0} else domOf cfg v), x = valName v j ∧ q = posterior cfg vs v j) ∧
    (Polytree cfg → ∃ m, runInference e sp vs = .ok m) := by
  have hc := (net_tables hN hsp).1
  obtain ⟨a1, a2, a3⟩ := observe_all hN hsp hvs hne e
  unfold runInference
  cases hf : vs.foldlM (observe e sp) sp with
  | error er =>
    refine ⟨fun er' h => ?_, fun m h => ?_, fun hP => ?_⟩
    · have : er = er' := by cases h; rfl
      rw [← this]; exact a1 er hf
    · cases h
    · obtain ⟨sp', h⟩ := a3 hP
      rw [hf] at h; cases h
  | ok sp1 =>
    obtain ⟨m, m1, m2, m3⟩ := whole_marginals hN hc hvs (a2 sp1 hf) e
    have hr : (do let s ← Except.ok sp1; e.marginals s) = (.ok m : Py _) := m1
    rw [hr]
    refine ⟨fun er h => (by cases h), fun m' h => ?_, fun _ => ⟨m, rfl⟩⟩
    cases h
    refine ⟨m2, fun v d hd x q => ?_⟩
    have := m3 v d hd x q
    unfold obsDom at this
    by_cases hv : v ∈ vs
    · rwa [if_pos hv] at this ⊢
    · rwa [if_neg hv] at this ⊢

/-! ### `comparing_joint_probability` -/

theorem nameSet_values (cfg : Config) (a : Str → ℕ) : (netGraph cfg a).values.image Prod.snd = nameSet (netVars cfg) a := by
  unfold SampleGraph.values netGraph nameSet
  simp only [Finset.image_image]
  rfl

theorem graphCounts_spec {cfg : Config} (hN : Net cfg) {k : ℚ} (hc : Countable k cfg) {prov : ℕ} {sp : Space Str Str Str}
    (hW : Whole k cfg prov (domOf cfg) sp) (hA : Acyclic cfg) (hS : Stochastic cfg) (oI : Order (SampleGraph Str Str Str × ℤ)) :
    (∀ key q, (valueMapFromGraph oI sp).get? key = some q ↔ ∃ a, InDom (domOf cfg) (netVars cfg) a ∧ key = nameSet (netVars cfg) a ∧
      q = k ^ (netVars cfg).card * jointProb cfg a) ∧
    (valueMapFromGraph oI sp).vals.sum = k ^ (netVars cfg).card := by
  obtain ⟨-, -, hT⟩ := hW
  let l := (oI.run sp.outcomes.items).map fun p => (p.1.values.image Prod.snd, (p.2 : ℚ))
  have hl : valueMapFromGraph oI sp = Dict.ofList l := rfl
  have hmem : ∀ key q, (key, q) ∈ l ↔ ∃ a, InDom (domOf cfg) (netVars cfg) a ∧ key = nameSet (netVars cfg) a ∧
      q = k ^ (netVars cfg).card * jointProb cfg a := by
    intro key q
    simp only [l, List.mem_map, oI.mem, Prod.mk.injEq]
    constructor
    · rintro ⟨p, hp, rfl, rfl⟩
      obtain ⟨-, -, a, ha, rfl⟩ := hT.item.1 hp
      exact ⟨a, ha, nameSet_values cfg a, (count_cast hN hc ha).1⟩
    · rintro ⟨a, ha, rfl, rfl⟩
      exact ⟨_, hT.item.2 ⟨(), by simp, a, ha, rfl⟩, nameSet_values cfg a, (count_cast hN hc ha).1⟩
  have hget : ∀ key q, (valueMapFromGraph oI sp).get? key = some q ↔ ∃ a, InDom (domOf cfg) (netVars cfg) a ∧ key = nameSet (netVars cfg) a ∧
      q = k ^ (netVars cfg).card * jointProb cfg a := by
    intro key q
    rw [hl]
    unfold Dict.ofList
    rw [get?_foldl_set, hmem]
    · simp
    · rintro ⟨k1, q1⟩ h1 ⟨k2, q2⟩ h2 e
      obtain ⟨a, -, rfl, rfl⟩ := (hmem _ _).1 h1
      obtain ⟨b, -, rfl, rfl⟩ := (hmem _ _).1 h2
      have hag := nameSet_inj e
      simp only
      congr 1
      unfold jointProb
      exact Finset.prod_congr rfl fun v hv => prob_local v (fun c hc => hN.fits v c hc) fun w hw => hag w (family_sub hN (List.mem_toFinset.1 hv) hw)
  have hsum : (valueMapFromGraph oI sp).vals.sum = k ^ (netVars cfg).card := by
    have h1 : (valueMapFromGraph oI sp).vals.sum = ∑ e ∈ (valueMapFromGraph oI sp).entries.toFinset, e.2 := by
      rw [← Dict.sum_entries_eq]; rfl
    have h2 : ∑ e ∈ (valueMapFromGraph oI sp).entries.toFinset, e.2 =
        ∑ a ∈ assigns (domOf cfg) (netVars cfg), k ^ (netVars cfg).card * jointProb cfg a := by
      symm
      refine Finset.sum_bij (fun a _ => (nameSet (netVars cfg) a, k ^ (netVars cfg).card * jointProb cfg a)) ?_ ?_ ?_ ?_
      · intro a ha
        rw [List.mem_toFinset, Dict.mem_entries, hget]
        exact ⟨a, (mem_assigns.1 ha).1, rfl, rfl⟩
      · intro a ha b hb e
        have hag := nameSet_inj (Prod.ext_iff.1 e).1
        funext v
        by_cases hv : v ∈ netVars cfg
        · exact hag v hv
        · rw [(mem_assigns.1 ha).2 v hv, (mem_assigns.1 hb).2 v hv]
      · rintro ⟨key, q⟩ he
        rw [List.mem_toFinset, Dict.mem_entries, hget] at he
        obtain ⟨a, ha, rfl, rfl⟩ := he
        refine ⟨cut (netVars cfg) a, cut_mem ha, ?_⟩
        have hag : ∀ v ∈ netVars cfg, cut (netVars cfg) a v = a v := fun v hv => cut_apply hv
        refine Prod.ext ?_ ?_
        · exact Finset.image_congr fun w hw => by show valName w (cut (netVars cfg) a w) = valName w (a w); rw [hag w hw]
        · show _ * jointProb cfg (cut (netVars cfg) a) = _ * jointProb cfg a
          congr 1
          unfold jointProb
          exact Finset.prod_congr rfl fun v hv => prob_local v (fun c hc => hN.fits v c hc) fun w hw =>
            hag w (family_sub hN (List.mem_toFinset.1 hv) hw)
      · intro a _; rfl
    rw [h1, h2, ← Finset.mul_sum, sum_jointProb hN hA hS, mul_one]
  exact ⟨hget, hsum⟩

theorem graphMap_spec {cfg : Config} (hN : Net cfg) {k : ℚ} (hc : Countable k cfg) {prov : ℕ} {sp : Space Str Str Str}
    (hW : Whole k cfg prov (domOf cfg) sp) (hA : Acyclic cfg) (hS : Stochastic cfg) (oI : Order (SampleGraph Str Str Str × ℤ)) :
    ∃ d, normalize (valueMapFromGraph oI sp) = .ok d ∧
      ∀ key q, d.get? key = some q ↔ ∃ a, InDom (domOf cfg) (netVars cfg) a ∧ key = nameSet (netVars cfg) a ∧ q = jointProb cfg a := by
  have hk : k ^ (netVars cfg).card ≠ 0 := pow_ne_zero _ (factor_ne_zero hN hc)
  obtain ⟨hget, hsum⟩ := graphCounts_spec hN hc hW hA hS oI
  refine ⟨(valueMapFromGraph oI sp).mapVals fun v => v / (valueMapFromGraph oI sp).vals.sum, ?_, ?_⟩
  · unfold normalize
    rw [if_neg]
    rw [hsum]
    exact fun h => hk h.2
  · intro key q
    rw [Dict.get?_mapVals, Option.map_eq_some_iff]
    simp only [hget, hsum]
    constructor
    · rintro ⟨r, ⟨a, ha, hkey, rfl⟩, rfl⟩
      exact ⟨a, ha, hkey, by field_simp⟩
    · rintro ⟨a, ha, hkey, rfl⟩
      exact ⟨_, ⟨a, ha, hkey, rfl⟩, by field_simp⟩

theorem marginalOf_joint {cfg : Config} (hN : Net cfg) (hA : Acyclic cfg) (hS : Stochastic cfg) {f : Factor}
    (h : ∀ a, InDom (domOf cfg) (netVars cfg) a → f.value a = jointProb cfg a) (v : Str) (j : ℕ) :
    marginalOf cfg (netVars cfg) f v j = posterior cfg [] v j := by
  unfold marginalOf posterior
  simp only [List.not_mem_nil, false_imp_iff, implies_true, Finset.filter_true, true_and]
  rw [sum_jointProb hN hA hS, div_one]
  exact Finset.sum_congr rfl fun a ha => h a (mem_assigns.1 (Finset.mem_filter.1 ha).1).1

/-- **C59.** `comparing_joint_probability` raises the exception of `make_joined` if that raises; otherwise it succeeds exactly if the factor of the
query is the joint distribution of the network (the product of the conditional probabilities), and raises `AssertionError` if not. -/
theorem C59_comparing_joint {cfg : Config} (hN : Net cfg) (hA : Acyclic cfg) (hS : Stochastic cfg) (hshort : ShortNames cfg) {k : ℚ} {o : Order Str}
    {prov : ℕ} {sp : Space Str Str Str} (hsp : makeRelationGraph k o prov cfg = .ok sp) (e : Env) {f : Factor} (hf : FactorOver cfg (netVars cfg) f) :
    (∀ er, sp.makeJoined e.o = .error er → comparingJoint e f sp = .error er) ∧
    (∀ sp', sp.makeJoined e.o = .ok sp' →
      (comparingJoint e f sp = .ok () ↔ ∀ a, InDom (domOf cfg) (netVars cfg) a → f.value a = jointProb cfg a) ∧
      (comparingJoint e f sp = .ok () ∨ comparingJoint e f sp = .error .assertion)) := by
  constructor
  · intro er h
    unfold comparingJoint
    rw [h]
    rfl
  · intro sp' hj
    have hc := (net_tables hN hsp).1
    have hW := whole_of_joined hN hsp e.o hj
    obtain ⟨d, d1, d2⟩ := valueMapFromFactor_spec hf (netVars_nonempty hN) hshort
    obtain ⟨g, g1, g2⟩ := graphMap_spec hN hc hW hA hS e.o.items
    obtain ⟨m, m1, m2, m3⟩ := whole_marginals hN hc (vs := []) (by simp) (by rw [obsDom_nil]; exact hW) e
    rw [obsDom_nil] at m3
    have hcard : (f.vars.map Prod.snd).prod = sp'.outcomes.items.card := by
      have h1 : sp'.outcomes.items.card = (assigns (domOf cfg) (netVars cfg)).card := by
        rw [Finset.card_eq_sum_ones, Finset.card_eq_sum_ones, hW.2.2.sum_items (fun _ => 1)]
      rw [h1, card_assigns, ← hf.names, ← List.prod_toFinset _ hf.nodup |>.symm, List.map_map]
      congr 1
      refine List.map_congr_left fun p hp => ?_
      simp [domOf, hf.cards p hp]
    have heq : comparingJoint e f sp = (do compareMaps d g; compareMargins (marginalsFromFactor f) m) := by
      unfold comparingJoint
      simp only [hj, bind, Except.bind, pyAssert, hcard, decide_true, if_true, d1, g1, m1]
    have hmaps : compareMaps d g = .ok () ↔ ∀ a, InDom (domOf cfg) (netVars cfg) a → f.value a = jointProb cfg a := by
      rw [(compareMaps_iff d g).1]
      constructor
      · intro h a ha
        have h1 := (d2 (nameSet (netVars cfg) a) (f.value a)).2 ⟨a, ha, rfl, rfl⟩
        rw [h] at h1
        obtain ⟨b, -, hb, hq⟩ := (g2 _ _).1 h1
        rw [hq]
        have hag := nameSet_inj hb
        unfold jointProb
        exact Finset.prod_congr rfl fun v hv => prob_local v (fun c hc => hN.fits v c hc) fun w hw =>
          (hag w (family_sub hN (List.mem_toFinset.1 hv) hw)).symm
      · intro h key
        refine Option.ext fun q => ?_
        rw [d2, g2]
        exact exists_congr fun a => and_congr_right fun ha => and_congr_right fun _ => by rw [h a ha]
    have hmarg : (∀ a, InDom (domOf cfg) (netVars cfg) a → f.value a = jointProb cfg a) → compareMargins (marginalsFromFactor f) m = .ok () := by
      intro h
      obtain ⟨s1, s2⟩ := marginalsFromFactor_spec hf
      refine (compareMargins_iff _ _).1.2 ⟨fun v => (s1 v).trans (m2 v).symm, fun v x y hx hy q => Option.ext fun r => ?_⟩
      rw [s2 v x hx, m3 v y hy]
      exact exists_congr fun j => and_congr_right fun _ => and_congr_right fun _ => by rw [marginalOf_joint hN hA hS h]
    rw [heq]
    rcases (compareMaps_iff d g).2 with h | h
    · have hh := hmarg (hmaps.1 h)
      rw [h, hh]
      exact ⟨⟨fun _ => hmaps.1 h, fun _ => rfl⟩, Or.inl rfl⟩
    · rw [h]
      refine ⟨⟨fun h' => (by cases h'), fun h' => ?_⟩, Or.inr rfl⟩
      rw [hmaps.2 h'] at h
      cases h

/-! ### `comparing_inference` -/

theorem popKeys_ok {A : Type} : ∀ (vs : List Str) (d : Dict Str A), vs.Nodup → (∀ v ∈ vs, v ∈ d.keys) →
    ∃ d', vs.foldlM popKey d = .ok d' ∧ ∀ k, d'.get? k = if k ∈ vs then none else d.get? k
  | [], d, _, _ => ⟨d, rfl, by simp⟩
  | v :: t, d, hnd, hk => by
    rw [List.nodup_cons] at hnd
    have hv : d.has v = true := (d.has_iff v).2 (hk v (by simp))
    obtain ⟨d', h1, h2⟩ := popKeys_ok t (d.erase v) hnd.2 (fun w hw => (d.mem_keys_erase v w).2 ⟨by rintro rfl; exact hnd.1 hw, hk w (by simp [hw])⟩)
    refine ⟨d', ?_, fun k => ?_⟩
    · rw [List.foldlM_cons]
      have : popKey d v = .ok (d.erase v) := by unfold popKey; rw [if_pos hv]
      rw [this]
      exact h1
    · rw [h2, d.get?_erase]
      by_cases h3 : k ∈ t
      · simp [h3]
      · by_cases h4 : k = v
        · subst h4; simp
        · have h4' : v ≠ k := fun e => h4 e.symm
          simp [h3, h4, h4']

/-- **C59.** `comparing_inference`, with the result of the query given: it raises the exception of the inference if that raises; otherwise it succeeds
exactly if the marginals of the factor are the posterior distributions of the network, and raises `AssertionError` if not. -/
theorem C59_comparing_inference {cfg : Config} (hN : Net cfg) {k : ℚ} {o : Order Str} {prov : ℕ} {sp : Space Str Str Str}
    (hsp : makeRelationGraph k o prov cfg = .ok sp) {vs : List Str} (hvs : ∀ v ∈ vs, v ∈ netVars cfg) (hne : vs ≠ []) (hnd : vs.Nodup) (e : Env)
    {f : Factor} (hf : FactorOver cfg (netVars cfg \ vs.toFinset) f) :
    (∀ er, runInference e sp vs = .error er → comparingInference e f vs sp = .error er) ∧
    (∀ m, runInference e sp vs = .ok m →
      (comparingInference e f vs sp = .ok () ↔
        ∀ v ∈ netVars cfg \ vs.toFinset, ∀ j ∈ domOf cfg v, marginalOf cfg (netVars cfg \ vs.toFinset) f v j = posterior cfg vs v j) ∧
      (comparingInference e f vs sp = .ok () ∨ comparingInference e f vs sp = .error .assertion)) := by
  constructor
  · intro er h
    unfold comparingInference
    rw [h]
    rfl
  · intro m hm
    obtain ⟨m2, m3⟩ := (C59_inference hN hsp hvs hne e).2.1 m hm
    obtain ⟨m', p1, p2⟩ := popKeys_ok vs m hnd (fun v hv => (m2 v).2 (hvs v hv))
    have heq : comparingInference e f vs sp = compareMargins (marginalsFromFactor f) m' := by
      unfold comparingInference
      simp only [hm, bind, Except.bind, p1]
    obtain ⟨s1, s2⟩ := marginalsFromFactor_spec hf
    have hkeys : ∀ v, v ∈ m'.keys ↔ v ∈ netVars cfg \ vs.toFinset := by
      intro v
      rw [Dict.mem_keys, Finset.mem_sdiff, List.mem_toFinset, ← m2, Dict.mem_keys]
      simp only [p2]
      by_cases h : v ∈ vs <;> simp [h]
    rw [heq]
    refine ⟨?_, (compareMargins_iff _ _).2⟩
    rw [(compareMargins_iff _ _).1]
    have hrest : ∀ v d, m'.get? v = some d → v ∉ vs ∧ m.get? v = some d := by
      intro v d h
      rw [p2] at h
      by_cases hv : v ∈ vs
      · rw [if_pos hv] at h; cases h
      · rw [if_neg hv] at h; exact ⟨hv, h⟩
    constructor
    · rintro ⟨-, h⟩ v hv j hj
      obtain ⟨x, hx⟩ := (Dict.mem_keys _ _).1 ((s1 v).2 hv)
      obtain ⟨y, hy⟩ := (Dict.mem_keys _ _).1 ((hkeys v).2 hv)
      obtain ⟨hvv, hy'⟩ := hrest v y hy
      have h1 := (s2 v x hx (valName v j) _).2 ⟨j, hj, rfl, rfl⟩
      rw [h v x y hx hy] at h1
      obtain ⟨j', -, e1, e2⟩ := (m3 v y hy' _ _).1 h1
      rw [e2, ← (valName_inj e1).2]
    · intro h
      refine ⟨fun v => (s1 v).trans (hkeys v).symm, fun v x y hx hy q => Option.ext fun r => ?_⟩
      obtain ⟨hvv, hy'⟩ := hrest v y hy
      have hvS := (s1 v).1 ((Dict.mem_keys _ _).2 ⟨x, hx⟩)
      rw [s2 v x hx, m3 v y hy', if_neg hvv]
      exact exists_congr fun j => and_congr_right fun hj => and_congr_right fun _ => by rw [h v hvS j hj]

/-! ### Independence -/

/-- **C59.** Variables without common ancestors (each variable counts as its own ancestor) are independent: if `A` and `B` are disjoint ancestral sets,
observing variables of `B` does not change the distribution of a variable of `A`. (The first check of `comparing_d_separation`.) -/
theorem C59_ancestral_independence {cfg : Config} (hN : Net cfg) (hA : Acyclic cfg) (hS : Stochastic cfg) {A B : Finset Str} (hAa : Ancestral cfg A)
    (hBa : Ancestral cfg B) (hdis : Disjoint A B) {v : Str} (hv : v ∈ A) {vs : List Str} (hvs : ∀ u ∈ vs, u ∈ B) (j : ℕ)
    (hpos : (∑ a ∈ assigns (domOf cfg) (netVars cfg) with ∀ u ∈ vs, a u = 0, jointProb cfg a) ≠ 0) :
    posterior cfg vs v j = posterior cfg [] v j := by
  have hAB : Ancestral cfg (A ∪ B) := by
    refine ⟨Finset.union_subset hAa.1 hBa.1, fun w hw p hp => ?_⟩
    rcases Finset.mem_union.1 hw with h | h
    · exact Finset.mem_union_left _ (hAa.2 w h p hp)
    · exact Finset.mem_union_right _ (hBa.2 w h p hp)
  let P : (Str → ℕ) → ℚ := fun a => if a v = j then 1 else 0
  let Q : (Str → ℕ) → ℚ := fun a => if ∀ u ∈ vs, a u = 0 then 1 else 0
  have hP : ∀ a b : Str → ℕ, (∀ w ∈ A, a w = b w) → P a = P b := fun a b h => by simp only [P, h v hv]
  have hQ : ∀ a b : Str → ℕ, (∀ w ∈ B, a w = b w) → Q a = Q b := fun a b h => by
    have : (∀ u ∈ vs, a u = 0) ↔ ∀ u ∈ vs, b u = 0 := forall₂_congr fun u hu => by rw [h u (hvs u hu)]
    simp only [Q, this]
  have hloc : ∀ S, Ancestral cfg S → ∀ a b : Str → ℕ, (∀ w ∈ S, a w = b w) → ∏ w ∈ S, prob cfg w a = ∏ w ∈ S, prob cfg w b := by
    intro S hSa a b h
    refine Finset.prod_congr rfl fun w hw => prob_local w (fun c hc => hN.fits w c hc) fun u hu => h u ?_
    rcases Finset.mem_insert.1 hu with rfl | hu
    · exact hw
    · exact hSa.2 w hw u (List.mem_toFinset.1 hu)
  have hone : ∑ a ∈ assigns (domOf cfg) (netVars cfg), jointProb cfg a = 1 := sum_jointProb hN hA hS
  have h1 : ∑ a ∈ assigns (domOf cfg) (netVars cfg) with (∀ u ∈ vs, a u = 0) ∧ a v = j, jointProb cfg a =
      ∑ a ∈ assigns (domOf cfg) (netVars cfg), (P a * Q a) * jointProb cfg a := by
    rw [Finset.sum_filter]
    refine Finset.sum_congr rfl fun a _ => ?_
    by_cases x : a v = j <;> by_cases y : ∀ u ∈ vs, a u = 0 <;> simp [P, Q, x, y]
  have h2 : ∑ a ∈ assigns (domOf cfg) (netVars cfg) with ∀ u ∈ vs, a u = 0, jointProb cfg a =
      ∑ a ∈ assigns (domOf cfg) (netVars cfg), Q a * jointProb cfg a := by
    rw [Finset.sum_filter]
    refine Finset.sum_congr rfl fun a _ => ?_
    by_cases y : ∀ u ∈ vs, a u = 0 <;> simp [Q, y]
  have h3 : ∑ a ∈ assigns (domOf cfg) (netVars cfg) with a v = j, jointProb cfg a =
      ∑ a ∈ assigns (domOf cfg) (netVars cfg), P a * jointProb cfg a := by
    rw [Finset.sum_filter]
    refine Finset.sum_congr rfl fun a _ => ?_
    by_cases x : a v = j <;> simp [P, x]
  have hsplit : ∑ a ∈ assigns (domOf cfg) (netVars cfg), (P a * Q a) * jointProb cfg a =
      (∑ a ∈ assigns (domOf cfg) (netVars cfg), P a * jointProb cfg a) * ∑ a ∈ assigns (domOf cfg) (netVars cfg), Q a * jointProb cfg a := by
    rw [sum_ancestral' hN hA hS hAB (fun a => P a * Q a) (fun a b h => by
        rw [hP a b fun w hw => h w (Finset.mem_union_left _ hw), hQ a b fun w hw => h w (Finset.mem_union_right _ hw)]),
      sum_ancestral' hN hA hS hAa P hP, sum_ancestral' hN hA hS hBa Q hQ, sum_assigns_union hdis, Finset.sum_mul_sum]
    refine Finset.sum_congr rfl fun a _ => Finset.sum_congr rfl fun b _ => ?_
    have eA : ∀ w ∈ A, (if w ∈ B then b w else a w) = a w := fun w hw => if_neg (Finset.disjoint_left.1 hdis hw)
    have eB : ∀ w ∈ B, (if w ∈ B then b w else a w) = b w := fun w hw => if_pos hw
    rw [Finset.prod_union hdis, hloc A hAa _ a eA, hloc B hBa _ b eB, hP _ a eA, hQ _ b eB]
    ring
  unfold posterior
  simp only [List.not_mem_nil, false_imp_iff, implies_true, Finset.filter_true, true_and]
  rw [h2] at hpos
  rw [h1, h2, h3, hone, hsplit, mul_div_assoc, div_self hpos, div_one, mul_one]

end Verif.Bayes
