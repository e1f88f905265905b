import Verif.Props.JoinMany
import Mathlib.Algebra.Order.BigOperators.Ring.Finset

/-!
# C89: exact inference in networks with cycles

Conditioning on the observed values, `joined_on_variables` and `marginal_variables_probability` give the posterior of the product distribution.
-/

set_option linter.unusedSectionVars false

namespace Verif

section
variable {V X R : Type} [DecidableEq V] [DecidableEq X] [DecidableEq R]

/-! ### Specification: summing the product of the factors over all assignments -/

/-- The values of an outcome are those of the assignment. -/
def HasAssigned {W : Finset V} (a : ∀ v ∈ W, X) (g : SampleGraph V X R) : Prop := ∀ n ∈ g.nodes, ∀ h : n.var ∈ W, a n.var h = n.val

open scoped Classical in
/-- The weight of an assignment: the product of its counts in the factors. -/
noncomputable def productWeight (F : Finset (ItemSet V X R)) {W : Finset V} (a : ∀ v ∈ W, X) : ℤ := ∏ f ∈ F, ∑ q ∈ f with HasAssigned a q.1, q.2

/-- The weight of all assignments of values from `D` to the variables `W` that have the values `es`. -/
noncomputable def totalWeight (F : Finset (ItemSet V X R)) (W : Finset V) (D : V → Finset X) (es : List (V × X)) : ℤ :=
  ∑ a ∈ W.pi D with ∀ q ∈ es, ∀ h : q.1 ∈ W, a q.1 h = q.2, productWeight F a

/-! ### Helper lemmas -/

/-- The joins that have some values weigh as much as the assignments that have them. -/
theorem joins_total {F : Finset (ItemSet V X R)} (hs : JoinSystem F id) (I : ItemSet V X R) (hj : ∀ p, p ∈ I ↔ IsJoin F id p) (hX : Nonempty X)
    (W : Finset V) (D : V → Finset X) (hW : ∀ p ∈ I, ∀ v, HasVar v p.1 ↔ v ∈ W) (hD : ∀ p ∈ I, ∀ v x, HasValue v x p.1 → x ∈ D v)
    (hF : ∀ f ∈ F, ∀ q ∈ f, ∀ v, HasVar v q.1 → v ∈ W) (l : List (V × X)) (hl : ∀ q ∈ l, q.1 ∈ W) :
    ∑ p ∈ I with ∀ q ∈ l, HasValue q.1 q.2 p.1, p.2 = totalWeight F W D l := by
  classical
  let val : SampleGraph V X R × ℤ → ∀ v ∈ W, X := fun p v _ => if h : ∃ x, HasValue v x p.1 then h.choose else hX.some
  have hval : ∀ p ∈ I, ∀ v (hv : v ∈ W) x, val p v hv = x ↔ HasValue v x p.1 := by
    intro p hp v hv x
    have hex : ∃ x, HasValue v x p.1 := by
      obtain ⟨⟨w, y⟩, hn, rfl⟩ := (hW p hp v).2 hv
      exact ⟨y, hn⟩
    have hsv : SingleValued p.1.nodes := by obtain ⟨-, -, h, -⟩ := (hj p).1 hp; exact h
    have e : val p v hv = hex.choose := dif_pos hex
    have hc : HasValue v (val p v hv) p.1 := by rw [e]; exact hex.choose_spec
    constructor
    · rintro rfl; exact hc
    · intro h; exact (Node.mk.inj (hsv _ hc _ h rfl)).2
  have hagree : ∀ p ∈ I, ∀ a : ∀ v ∈ W, X, HasAssigned a p.1 ↔ val p = a := by
    intro p hp a
    constructor
    · intro h
      funext v hv
      obtain ⟨⟨w, y⟩, hn, rfl⟩ := (hW p hp v).2 hv
      rw [hval p hp _ hv]
      have := h _ hn hv
      simp only at this
      rw [this]; exact hn
    · rintro rfl ⟨w, y⟩ hn hw
      exact (hval p hp w hw y).2 hn
  unfold totalWeight
  rw [← Finset.sum_fiberwise_of_maps_to (s := I.filter fun p => ∀ q ∈ l, HasValue q.1 q.2 p.1)
    (t := (W.pi D).filter fun a => ∀ q ∈ l, ∀ h : q.1 ∈ W, a q.1 h = q.2) (g := val)]
  · refine Finset.sum_congr (by ext; simp only [Finset.mem_filter]) fun a ha => ?_
    obtain ⟨-, ha⟩ := Finset.mem_filter.1 ha
    let asg : V → X := fun v => if h : v ∈ W then a v h else hX.some
    have hfol : ∀ g : SampleGraph V X R, (∀ v, HasVar v g → v ∈ W) → (Follows asg g ↔ HasAssigned a g) := by
      intro g hg
      refine forall_congr' fun n => forall_congr' fun hn => ?_
      have hv := hg n.var ⟨n, hn, rfl⟩
      have : asg n.var = a n.var hv := dif_pos hv
      rw [this]
      exact ⟨fun h _ => h.symm, fun h => (h hv).symm⟩
    have h1 := joins_product hs I hj asg
    have h2 : I.filter (fun p => Follows asg p.1) = (I.filter fun p => ∀ q ∈ l, HasValue q.1 q.2 p.1).filter (fun p => val p = a) := by
      ext p
      simp only [Finset.mem_filter, and_assoc]
      refine and_congr_right fun hp => ?_
      rw [hfol p.1 fun v hv => (hW p hp v).1 hv, hagree p hp a]
      constructor
      · rintro rfl
        exact ⟨fun q hq => (hval p hp q.1 (hl q hq) q.2).1 (ha q hq (hl q hq)), rfl⟩
      · exact And.right
    rw [← h2, h1]
    unfold productWeight
    refine Finset.prod_congr rfl fun f hf => Finset.sum_congr ?_ fun _ _ => rfl
    refine Finset.filter_congr fun q hq => ?_
    exact hfol q.1 (hF f hf q hq)
  · intro p hp
    rw [Finset.mem_filter] at hp ⊢
    obtain ⟨hp, hpl⟩ := hp
    refine ⟨Finset.mem_pi.2 fun v hv => hD p hp v _ ((hval p hp v hv _).1 rfl), fun q hq h => (hval p hp q.1 h q.2).2 (hpl q hq)⟩

/-- The joins after conditioning are the joins that have the values. -/
theorem conditionAll_isJoin (o : Orders V X R) (oI : Order (SampleGraph V X R × ℤ)) (es : List (V × X)) (pr : ℕ) (cs : Space V X R) (F' : Finset (ItemSet V X R))
    (hF' : AreFactors cs.outcomes F') (p : SampleGraph V X R × ℤ) : ∀ (sp : Space V X R) (F : Finset (ItemSet V X R)), AllGood sp.outcomes → Factorizable sp.outcomes →
    CompleteFactors sp.outcomes → AreFactors sp.outcomes F → (es.map Prod.fst).Nodup → (∀ q ∈ es, ∃ g, sp.outcomes.Occurs g ∧ HasValue q.1 q.2 g) →
    es.foldlM (init := sp) (fun s q => (s.conditionalGraph oI ⟨pr, valueEvidence q.1 q.2⟩).map Space.relationGraph) = .ok cs →
    (IsJoin F' id p ↔ IsJoin F id p ∧ ∀ q ∈ es, HasValue q.1 q.2 p.1) := by
  induction es with
  | nil =>
    intro sp F hg hf hc hF _ _ h
    have : sp = cs := Except.ok.inj h
    subst this
    have : F = F' := by ext f; rw [hF, hF']
    simp [this]
  | cons q t ih =>
    intro sp F hg hf hc hF hes hx h
    rw [List.foldlM_cons] at h
    cases hq : sp.conditionalGraph oI ⟨pr, valueEvidence q.1 q.2⟩ with
    | error e => rw [hq] at h; simp [Except.map, bind, Except.bind] at h
    | ok s =>
      rw [hq] at h
      have hb : ∀ g c, s.relationGraph.outcomes.samples.get? g = some c ↔
          sp.outcomes.samples.get? g = some c ∧ (HasValue q.1 q.2 g ∨ ¬ HasVar q.1 g) := fun g c => condition_get rfl hq g c
      have hxq := hx q (by simp)
      obtain ⟨k1, k2, k3, k4⟩ := condition_keeps hb hg hf hc hxq
      obtain ⟨F₁, hF₁⟩ := factors_exist o s.relationGraph k1 k2
      rw [List.map_cons, List.nodup_cons] at hes
      have hxt : ∀ r ∈ t, ∃ g, s.relationGraph.outcomes.Occurs g ∧ HasValue r.1 r.2 g := by
        intro r hr
        refine (k4 r.1 r.2).2 ⟨hx r (by simp [hr]), fun he => ?_⟩
        exact absurd (he ▸ List.mem_map_of_mem hr) hes.1
      rw [ih s.relationGraph F₁ k1 k2 k3 hF₁ hes.2 hxt h, condition_isJoin hb hg hf hc hxq F F₁ hF hF₁]
      simp only [List.mem_cons, forall_eq_or_imp, and_assoc]

/-- Conditioning on values always returns. -/
theorem conditionAll_returns (oI : Order (SampleGraph V X R × ℤ)) (es : List (V × X)) (pr : ℕ) : ∀ (sp : Space V X R), sp.outcomes.prov = pr →
    ∃ cs, es.foldlM (init := sp) (fun s q => (s.conditionalGraph oI ⟨pr, valueEvidence q.1 q.2⟩).map Space.relationGraph) = .ok cs ∧ cs.schema = sp.schema := by
  induction es with
  | nil => exact fun sp _ => ⟨sp, rfl, rfl⟩
  | cons q t ih =>
    intro sp hpr
    obtain ⟨s, h, h1, -, h2, -⟩ := (C34_conditional_graph sp oI ⟨pr, valueEvidence q.1 q.2⟩).1 hpr.symm
    obtain ⟨cs, hcs, h3⟩ := ih s.relationGraph (h2.trans hpr)
    refine ⟨cs, ?_, h3.trans h1⟩
    rw [List.foldlM_cons, h]
    exact hcs

theorem default_vars (a : Samples V X R) (v : V) : v ∈ a.graphs.biUnion graphVars ↔ ∃ g, a.Occurs g ∧ HasVar v g := by
  simp only [Finset.mem_biUnion, Samples.mem_graphs, mem_graphVars]
  rfl

theorem joinedOn_schema (iter : V → Option (Finset V)) (o : Orders V X R) (sp : Space V X R) (vs : Option (Finset V)) (sp' : Space V X R)
    (h : sp.joinedOnVariables iter o vs = .ok sp') : sp'.schema = sp.schema := by
  unfold Space.joinedOnVariables at h
  simp only at h
  split at h
  · simp at h
  · rw [Except.ok.injEq] at h
    rw [← h]

theorem CondKeeps.hang {a b : Samples V X R} {es : List (V × X)} (h : CondKeeps a b es) (hg : AllGood a) (hh : HangTogether a) : HangTogether b :=
  (hang_iff_linked h.good).2 (h.linked_iff.2 ((hang_iff_linked hg).1 hh))

theorem CondKeeps.exists_occurs {a b : Samples V X R} {es : List (V × X)} (h : CondKeeps a b es) (hne : ∃ k, a.Occurs k) : ∃ k, b.Occurs k := by
  obtain ⟨k, hk⟩ := hne
  obtain ⟨k', h', -⟩ := h.scope k hk
  exact ⟨k', h'⟩

/-! ### Properties -/

/-- **C89.** Observing never makes joining impossible: if `joined_on_variables` returns for some orders, it returns after observing any values, whatever the orders. -/
theorem C89_returns (iter : V → Option (Finset V)) (o o' : Orders V X R) (oI : Order (SampleGraph V X R × ℤ)) (sp : Space V X R) (hg : AllGood sp.outcomes)
    (hf : Factorizable sp.outcomes) (hc : CompleteFactors sp.outcomes) (es : List (V × X)) (hes : (es.map Prod.fst).Nodup)
    (hx : ∀ q ∈ es, ∃ g, sp.outcomes.Occurs g ∧ HasValue q.1 q.2 g) (hiter : ∀ v s, iter v = some s → v ∈ s → s = {v})
    (h₁ : ∃ sp₁, sp.joinedOnVariables iter o none = .ok sp₁) :
    ∃ cs sp₂, conditionAll oI sp es = .ok cs ∧ cs.joinedOnVariables iter o' none = .ok sp₂ := by
  obtain ⟨cs, h, -⟩ := conditionAll_returns oI es sp.outcomes.prov sp rfl
  have hk := conditionAll_keeps oI es sp.outcomes.prov sp cs hg hf hc hes hx h
  obtain ⟨F, hF⟩ := factors_exist o sp hg hf
  obtain ⟨F', hF'⟩ := factors_exist o cs hk.good hk.fact
  rw [C41_default iter o sp _ (default_vars _), C88_returns iter o sp hg hf F hF (C88_complete _ hg hf hc F hF) _ (fun v _ => hiter v)] at h₁
  have hret := (C88_returns iter o' cs hk.good hk.fact F' hF' (C88_complete _ hk.good hk.fact hk.comp F' hF') (cs.outcomes.graphs.biUnion graphVars)
    (fun v _ => hiter v)).2 ⟨fun g g1 g2 v _ hgv => h₁.1 g (hk.sub g g1) g2 v ((default_vars _ v).2 ⟨g, hk.sub g g1, hgv⟩) hgv,
      fun g k g1 k1 g2 k2 hw ⟨v, _, hv⟩ => h₁.2 g k (hk.sub g g1) (hk.sub k k1) g2 k2 hw ⟨v, (default_vars _ v).2 ⟨g, hk.sub g g1, hv⟩, hv⟩⟩
  rw [← C41_default iter o' cs _ (default_vars _)] at hret
  obtain ⟨sp₂, h₂⟩ := hret
  exact ⟨cs, sp₂, h, h₂⟩

/-- **C89.** Observing and then joining gives the same outcomes with the same counts as joining and then selecting the outcomes that have the observed values. -/
theorem C89_inference (iter : V → Option (Finset V)) (o o' : Orders V X R) (oI : Order (SampleGraph V X R × ℤ)) (sp cs sp₁ sp₂ : Space V X R)
    (hg : AllGood sp.outcomes) (hf : Factorizable sp.outcomes) (hc : CompleteFactors sp.outcomes) (hh : HangTogether sp.outcomes)
    (es : List (V × X)) (hes : (es.map Prod.fst).Nodup) (hx : ∀ q ∈ es, ∃ g, sp.outcomes.Occurs g ∧ HasValue q.1 q.2 g) (hne : ∃ k, sp.outcomes.Occurs k)
    (h : conditionAll oI sp es = .ok cs) (h₁ : sp.joinedOnVariables iter o none = .ok sp₁) (h₂ : cs.joinedOnVariables iter o' none = .ok sp₂)
    (g : SampleGraph V X R) (c : ℤ) :
    sp₂.outcomes.samples.get? g = some c ↔ sp₁.outcomes.samples.get? g = some c ∧ ∀ q ∈ es, HasValue q.1 q.2 g := by
  have hk := conditionAll_keeps oI es sp.outcomes.prov sp cs hg hf hc hes hx h
  obtain ⟨F, hF⟩ := factors_exist o sp hg hf
  obtain ⟨F', hF'⟩ := factors_exist o cs hk.good hk.fact
  rw [C88_all iter o' cs hk.good hk.fact F' hF' (C88_complete _ hk.good hk.fact hk.comp F' hF') (hk.hang hg hh) sp₂ h₂,
    C88_all iter o sp hg hf F hF (C88_complete _ hg hf hc F hF) hh sp₁ h₁, conditionAll_isJoin o oI es _ cs F' hF' (g, c) sp F hg hf hc hF hes hx h]
  simp only [hne, hk.exists_occurs hne, true_and]

/-- Observing, joining and asking for the marginal probabilities, with what is known of the joined outcomes. -/
theorem posterior_full (iter : V → Option (Finset V)) (o o' : Orders V X R) (oI oI' : Order (SampleGraph V X R × ℤ)) (oV : Order V) (oN : Order (Node V X)) (u : X)
    (req : Option (Finset V)) (sp : Space V X R) (hg : AllGood sp.outcomes) (hf : Factorizable sp.outcomes) (hc : CompleteFactors sp.outcomes)
    (hh : HangTogether sp.outcomes) (hpos : Positive sp.outcomes) (hne : ∃ k, sp.outcomes.Occurs k) (es : List (V × X)) (hes : (es.map Prod.fst).Nodup)
    (hx : ∀ q ∈ es, ∃ g, sp.outcomes.Occurs g ∧ HasValue q.1 q.2 g) (hiter : ∀ v s, iter v = some s → v ∈ s → s = {v})
    (h₁ : ∃ sp₁, sp.joinedOnVariables iter o none = .ok sp₁) (F : Finset (ItemSet V X R)) (hF : AreFactors sp.outcomes F)
    (W : Finset V) (hW : ∀ v, v ∈ W ↔ ∃ g, sp.outcomes.Occurs g ∧ HasVar v g)
    (D : V → Finset X) (hD : ∀ v x, x ∈ D v ↔ ∃ g, sp.outcomes.Occurs g ∧ HasValue v x g) :
    ∃ cs sp₂ d, conditionAll oI sp es = .ok cs ∧ cs.joinedOnVariables iter o' none = .ok sp₂ ∧ sp₂.marginals u oI' oV oN req false = .ok d ∧
      (Positive sp₂.outcomes ∧ (∀ g, sp₂.outcomes.Occurs g → SingleValued g.nodes) ∧ sp₂.outcomes.length = totalWeight F W D es ∧
        ∀ v x g, sp₂.outcomes.Occurs g → HasValue v x g → x ∈ D v) ∧
      0 < totalWeight F W D es ∧ (∀ v, v ∈ d.keys ↔ Requested sp req v ∧ v ∈ W) ∧
      ∀ v m, d.get? v = some m → m.vals.sum = 1 ∧ ∀ x q, m.get? x = some q ↔ x ∈ D v ∧ (∀ e ∈ es, e.1 = v → e.2 = x) ∧
        q = (totalWeight F W D ((v, x) :: es) : ℚ) / (totalWeight F W D es : ℚ) := by
  classical
  obtain ⟨cs, sp₂, h, h₂⟩ := C89_returns iter o o' oI sp hg hf hc es hes hx hiter h₁
  obtain ⟨sp₁, h₁⟩ := h₁
  have hinf := C89_inference iter o o' oI sp cs sp₁ sp₂ hg hf hc hh es hes hx hne h h₁ h₂
  have hj₁ := C88_all iter o sp hg hf F hF (C88_complete _ hg hf hc F hF) hh sp₁ h₁
  simp only [hne, true_and] at hj₁
  have hs := factorSys_of sp.outcomes hg hf hc F hF
  have ha : FactorFacts sp.outcomes F := ⟨hg, hf, hF, C88_complete _ hg hf hc F hF⟩
  have hX : Nonempty X := by
    obtain ⟨k, hk⟩ := hne
    obtain ⟨n, -⟩ := (hg k hk).2.1
    exact ⟨n.val⟩
  have hI : ∀ p, p ∈ sp₁.outcomes.items ↔ IsJoin F id p := by
    intro p; rw [Samples.mem_items, hj₁]
  have hblock : ∀ v, BlockVar F v ↔ v ∈ W := by
    intro v
    rw [hW]
    constructor
    · rintro ⟨f, hf', q, hq, hv⟩; exact ⟨q.1, ha.occ hf' hq, hv⟩
    · rintro ⟨g, ⟨c, hc'⟩, hv⟩
      obtain ⟨f, hf', hgf⟩ := ha.mem_factor hc'
      exact ⟨f, hf', _, hgf, hv⟩
  have hvars : ∀ p ∈ sp₁.outcomes.items, ∀ v, HasVar v p.1 ↔ v ∈ W := by
    intro p hp v
    rw [hs.join_vars (Finset.Subset.refl F) ((hI p).1 hp) v, hblock]
  have hvals : ∀ p ∈ sp₁.outcomes.items, ∀ v x, HasValue v x p.1 → x ∈ D v := by
    intro p hp v x hv
    obtain ⟨sel, s1, -, s3, -⟩ := (hI p).1 hp
    unfold HasValue at hv
    rw [s3, Finset.mem_biUnion] at hv
    obtain ⟨f, hf', hn⟩ := hv
    exact (hD v x).2 ⟨(sel f).1, ha.occ hf' (s1 f hf'), hn⟩
  have hFW : ∀ f ∈ F, ∀ q ∈ f, ∀ v, HasVar v q.1 → v ∈ W := fun f hf' q hq v hv => (hW v).2 ⟨q.1, ha.occ hf' hq, hv⟩
  have hesW : ∀ q ∈ es, q.1 ∈ W := by
    intro q hq
    obtain ⟨g, g1, g2⟩ := hx q hq
    exact (hW q.1).2 ⟨g, g1, _, g2, rfl⟩
  have htot := joins_total ha.sys sp₁.outcomes.items hI hX W D hvars hvals hFW
  -- the joined outcomes
  have hitems : ∀ p, p ∈ sp₂.outcomes.items ↔ p ∈ sp₁.outcomes.items ∧ ∀ q ∈ es, HasValue q.1 q.2 p.1 := by
    intro p
    rw [Samples.mem_items, Samples.mem_items, hinf]
  have hocc : ∀ g, sp₂.outcomes.Occurs g → ∃ c, (g, c) ∈ sp₂.outcomes.items := fun g ⟨c, hc'⟩ => ⟨c, (Samples.mem_items _ _).2 hc'⟩
  have hpos₂ : Positive sp₂.outcomes := by
    intro g c hgc
    obtain ⟨sel, s1, -, -, -, s4⟩ := (hj₁ g c).1 ((hinf g c).1 hgc).1
    change c = _ at s4
    rw [s4]
    refine Finset.prod_pos fun f hf' => ?_
    have hq := s1 f hf'
    obtain ⟨r, -, hr⟩ := (hF f).1 hf'
    exact hpos _ _ ((Samples.mem_items _ _).1 ((hr _).1 hq).1)
  have hsv : ∀ g, sp₂.outcomes.Occurs g → SingleValued g.nodes := by
    rintro g ⟨c, hgc⟩
    obtain ⟨-, -, hs', -⟩ := (hj₁ g c).1 ((hinf g c).1 hgc).1
    exact hs'
  -- every allowed value occurs
  have hex : ∀ v ∈ W, ∀ x ∈ D v, (∀ e ∈ es, e.1 = v → e.2 = x) → ∃ g, sp₂.outcomes.Occurs g ∧ HasValue v x g := by
    intro v hv x hxD hcons
    obtain ⟨asg₀, hasg₀⟩ := BlockInv.exists_asg hs
    let asg : V → X := fun w => if w = v then x else if hw : ∃ q ∈ es, q.1 = w then hw.choose.2 else asg₀ w
    have hasg : ∀ w, BlockVar F w → asg w ∈ occVals sp.outcomes w := by
      intro w hw
      rw [mem_occVals]
      by_cases e : w = v
      · subst e; simp only [asg, if_true]; exact (hD _ _).1 hxD
      · by_cases hq : ∃ q ∈ es, q.1 = w
        · simp only [asg, if_neg e, dif_pos hq]
          obtain ⟨c1, c2⟩ := hq.choose_spec
          have := hx _ c1
          rw [c2] at this; exact this
        · simp only [asg, if_neg e, dif_neg hq]
          exact (mem_occVals _ _ _).1 (hasg₀ w hw)
    obtain ⟨p, hp, hpn⟩ := hs.join_complete (Finset.Subset.refl F) asg hasg
    have hpI := (hI p).2 hp
    have hhas : ∀ w ∈ W, HasValue w (asg w) p.1 := by
      intro w hw
      obtain ⟨⟨k, z⟩, hn, rfl⟩ := (hvars p hpI w).2 hw
      have := hpn _ hn
      simp only at this
      rw [this] at hn; exact hn
    have hesval : ∀ q ∈ es, asg q.1 = q.2 := by
      intro q hq
      by_cases e : q.1 = v
      · simp only [asg, if_pos e]; exact (hcons q hq e).symm
      · have hq' : ∃ r ∈ es, r.1 = q.1 := ⟨q, hq, rfl⟩
        simp only [asg, if_neg e, dif_pos hq']
        obtain ⟨c1, c2⟩ := hq'.choose_spec
        rw [List.inj_on_of_nodup_map hes c1 hq c2]
    refine ⟨p.1, ⟨p.2, (Samples.mem_items _ p).1 ((hitems p).2 ⟨hpI, fun q hq => ?_⟩)⟩, ?_⟩
    · rw [← hesval q hq]; exact hhas q.1 (hesW q hq)
    · have := hhas v hv
      simpa [asg] using this
  obtain ⟨d, hd, hkeys, hd'⟩ := C28_marginals sp₂ u oI' oV oN req hpos₂ hsv
  have hschema : sp₂.schema = sp.schema := by
    obtain ⟨cs', h', hsch⟩ := conditionAll_returns oI es sp.outcomes.prov sp rfl
    have e : cs' = cs := by
      unfold conditionAll at h
      rw [h] at h'; exact (Except.ok.inj h').symm
    subst e
    rw [← hsch]
    exact joinedOn_schema iter o' cs' none sp₂ h₂
  have hreq : ∀ v, Requested sp₂ req v ↔ Requested sp req v := by
    intro v; unfold Requested; rw [hschema]
  have hne₁ : ∃ v, v ∈ W := by
    obtain ⟨k, hk⟩ := hne
    obtain ⟨n, hn⟩ := (hg k hk).2.1
    exact ⟨n.var, (hW _).2 ⟨k, hk, n, hn, rfl⟩⟩
  have hany : ∀ v ∈ W, ∃ x, x ∈ D v ∧ ∀ e ∈ es, e.1 = v → e.2 = x := by
    intro v hv
    by_cases hq : ∃ q ∈ es, q.1 = v
    · obtain ⟨q, hq, rfl⟩ := hq
      refine ⟨q.2, (hD _ _).2 (hx q hq), fun e he hev => ?_⟩
      rw [List.inj_on_of_nodup_map hes he hq hev]
    · obtain ⟨g, g1, ⟨w, y⟩, hn, rfl⟩ := (hW v).1 hv
      exact ⟨y, (hD _ _).2 ⟨g, g1, hn⟩, fun e he hev => absurd ⟨e, he, hev⟩ hq⟩
  have hmassAll : ∑ p ∈ sp₂.outcomes.items, p.2 = totalWeight F W D es := by
    rw [← htot es hesW]
    refine Finset.sum_congr ?_ fun _ _ => rfl
    ext p
    rw [hitems, Finset.mem_filter]
  have hmassVal : ∀ v ∈ W, ∀ x, mass sp₂.outcomes (HasValue v x) = totalWeight F W D ((v, x) :: es) := by
    intro v hv x
    rw [← htot ((v, x) :: es) (by
      intro q hq
      rcases List.mem_cons.1 hq with rfl | hq
      · exact hv
      · exact hesW q hq)]
    unfold mass
    refine Finset.sum_congr ?_ fun _ _ => rfl
    ext p
    simp only [Finset.mem_filter, hitems, List.mem_cons, forall_eq_or_imp, and_assoc]
    tauto
  have hmassVar : ∀ v ∈ W, mass sp₂.outcomes (HasVar v) = totalWeight F W D es := by
    intro v hv
    rw [← hmassAll]
    unfold mass
    rw [Finset.filter_true_of_mem]
    intro p hp
    exact (hvars p ((hitems p).1 hp).1 v).2 hv
  have hpos_tot : 0 < totalWeight F W D es := by
    rw [← hmassAll]
    obtain ⟨v, hv⟩ := hne₁
    obtain ⟨x, x1, x2⟩ := hany v hv
    obtain ⟨g, hgo, -⟩ := hex v hv x x1 x2
    obtain ⟨c, hc'⟩ := hocc g hgo
    exact Finset.sum_pos (fun p hp => hpos₂ _ _ ((Samples.mem_items _ p).1 hp)) ⟨_, hc'⟩
  have hvarocc : ∀ v, (∃ g, sp₂.outcomes.Occurs g ∧ HasVar v g) ↔ v ∈ W := by
    intro v
    constructor
    · rintro ⟨g, hgo, hv⟩
      obtain ⟨c, hc'⟩ := hocc g hgo
      exact (hvars _ ((hitems _).1 hc').1 v).1 hv
    · intro hv
      obtain ⟨x, x1, x2⟩ := hany v hv
      obtain ⟨g, hgo, hgv⟩ := hex v hv x x1 x2
      exact ⟨g, hgo, _, hgv, rfl⟩
  have hlen : sp₂.outcomes.length = totalWeight F W D es := by
    rw [← hmassAll]
    exact length_eq_sum _
  have hvals₂ : ∀ v x g, sp₂.outcomes.Occurs g → HasValue v x g → x ∈ D v := by
    intro v x g hgo hgv
    obtain ⟨c, hc'⟩ := hocc g hgo
    exact hvals _ ((hitems _).1 hc').1 v x hgv
  refine ⟨cs, sp₂, d, h, h₂, hd, ⟨hpos₂, hsv, hlen, hvals₂⟩, hpos_tot, fun v => by rw [hkeys, hreq, hvarocc], fun v m hm => ?_⟩
  have hv : v ∈ W := by
    have : v ∈ d.keys := (Dict.mem_keys _ _).2 ⟨m, hm⟩
    exact (hvarocc v).1 ((hkeys v).1 this).2
  obtain ⟨m1, m2⟩ := hd' v m hm
  refine ⟨m1, fun x q => ?_⟩
  rw [m2, hmassVal v hv, hmassVar v hv, ← and_assoc]
  refine and_congr_left fun _ => ⟨?_, fun ⟨x1, x2⟩ => hex v hv x x1 x2⟩
  rintro ⟨g, hgo, hgv⟩
  obtain ⟨c, hc'⟩ := hocc g hgo
  obtain ⟨p1, p2⟩ := (hitems _).1 hc'
  refine ⟨hvals _ p1 v x hgv, fun e he hev => ?_⟩
  subst hev
  exact (Node.mk.inj (hsv g hgo _ (p2 e he) _ hgv rfl)).2

/-- **C89.** Observing, joining and asking for the marginal probabilities gives the posterior of the product distribution of the factors: for the values that can still occur, the weight
of the assignments with the value and the observed ones, divided by the weight of the assignments with the observed ones. -/
theorem C89_posterior (iter : V → Option (Finset V)) (o o' : Orders V X R) (oI oI' : Order (SampleGraph V X R × ℤ)) (oV : Order V) (oN : Order (Node V X)) (u : X)
    (req : Option (Finset V)) (sp : Space V X R) (hg : AllGood sp.outcomes) (hf : Factorizable sp.outcomes) (hc : CompleteFactors sp.outcomes)
    (hh : HangTogether sp.outcomes) (hpos : Positive sp.outcomes) (hne : ∃ k, sp.outcomes.Occurs k) (es : List (V × X)) (hes : (es.map Prod.fst).Nodup)
    (hx : ∀ q ∈ es, ∃ g, sp.outcomes.Occurs g ∧ HasValue q.1 q.2 g) (hiter : ∀ v s, iter v = some s → v ∈ s → s = {v})
    (h₁ : ∃ sp₁, sp.joinedOnVariables iter o none = .ok sp₁) (F : Finset (ItemSet V X R)) (hF : AreFactors sp.outcomes F)
    (W : Finset V) (hW : ∀ v, v ∈ W ↔ ∃ g, sp.outcomes.Occurs g ∧ HasVar v g)
    (D : V → Finset X) (hD : ∀ v x, x ∈ D v ↔ ∃ g, sp.outcomes.Occurs g ∧ HasValue v x g) :
    ∃ cs sp₂ d, conditionAll oI sp es = .ok cs ∧ cs.joinedOnVariables iter o' none = .ok sp₂ ∧ sp₂.marginals u oI' oV oN req false = .ok d ∧
      0 < totalWeight F W D es ∧ (∀ v, v ∈ d.keys ↔ Requested sp req v ∧ v ∈ W) ∧
      ∀ v m, d.get? v = some m → m.vals.sum = 1 ∧ ∀ x q, m.get? x = some q ↔ x ∈ D v ∧ (∀ e ∈ es, e.1 = v → e.2 = x) ∧
        q = (totalWeight F W D ((v, x) :: es) : ℚ) / (totalWeight F W D es : ℚ) := by
  obtain ⟨cs, sp₂, d, h1, h2, h3, -, h4⟩ := posterior_full iter o o' oI oI' oV oN u req sp hg hf hc hh hpos hne es hes hx hiter h₁ F hF W hW D hD
  exact ⟨cs, sp₂, d, h1, h2, h3, h4⟩

/-- **C89.** A connected pairwise network with whatever cycles: observing, joining and asking for the marginal probabilities always returns, for every order, and gives the posterior of
the product of the potentials, if variables can be iterated (as strings). -/
theorem C89_pairs (iter : V → Option (Finset V)) (o : Orders V X R) (oI oI' : Order (SampleGraph V X R × ℤ)) (oV : Order V) (oN : Order (Node V X)) (u : X)
    (req : Option (Finset V)) (sp : Space V X R) (hg : AllGood sp.outcomes) (hc : CompleteFactors sp.outcomes) (h2 : OneOrTwo sp.outcomes)
    (hl : AllLinked sp.outcomes) (hpos : Positive sp.outcomes) (hne : ∃ k, sp.outcomes.Occurs k) (es : List (V × X)) (hes : (es.map Prod.fst).Nodup)
    (hx : ∀ q ∈ es, ∃ g, sp.outcomes.Occurs g ∧ HasValue q.1 q.2 g) (hiter : ∀ v, ∃ s, iter v = some s ∧ (v ∈ s → s = {v}))
    (F : Finset (ItemSet V X R)) (hF : AreFactors sp.outcomes F) (W : Finset V) (hW : ∀ v, v ∈ W ↔ ∃ g, sp.outcomes.Occurs g ∧ HasVar v g)
    (D : V → Finset X) (hD : ∀ v x, x ∈ D v ↔ ∃ g, sp.outcomes.Occurs g ∧ HasValue v x g) :
    ∃ cs sp₂ d, conditionAll oI sp es = .ok cs ∧ cs.joinedOnVariables iter o none = .ok sp₂ ∧ sp₂.marginals u oI' oV oN req false = .ok d ∧
      0 < totalWeight F W D es ∧ (∀ v, v ∈ d.keys ↔ Requested sp req v ∧ v ∈ W) ∧
      ∀ v m, d.get? v = some m → m.vals.sum = 1 ∧ ∀ x q, m.get? x = some q ↔ x ∈ D v ∧ (∀ e ∈ es, e.1 = v → e.2 = x) ∧
        q = (totalWeight F W D ((v, x) :: es) : ℚ) / (totalWeight F W D es : ℚ) := by
  have hi : ∀ v s, iter v = some s → v ∈ s → s = {v} := by
    intro v s hs hv
    obtain ⟨s', h1, h2⟩ := hiter v
    rw [hs, Option.some.injEq] at h1
    exact h1 ▸ h2 (h1 ▸ hv)
  obtain ⟨sp₁, h₁, -⟩ := C88_pairs iter o sp hg hc h2 hl hiter hne
  exact C89_posterior iter o o oI oI' oV oN u req sp hg (factorizable_of_two hg h2) hc ((hang_iff_linked hg).2 hl) hpos hne es hes hx hi ⟨sp₁, h₁⟩ F hF W hW D hD

end

/-! ### Non-vacuity -/

/-- The triangle with a potential on each variable, where `make_joined` always fails: observing the first variable, joining and asking for the marginals always returns. -/
theorem cycle_posterior : ∃ sp : Space ℕ ℕ ℕ, (∀ o, sp.makeJoined o = .error .assertion) ∧
    ∀ (o : Orders ℕ ℕ ℕ) oI oI' oV oN, ∃ cs sp₂ d, conditionAll oI sp [(0, 0)] = .ok cs ∧ cs.joinedOnVariables (fun v => some {v}) o none = .ok sp₂ ∧
      sp₂.marginals 9 oI' oV oN (some {0, 1}) false = .ok d ∧ 0 ∈ d.keys := by
  obtain ⟨sp, hg, hc, h2, hl, ⟨k, hk, hk0⟩, hpos, hno, -⟩ := cycle_joined
  refine ⟨sp, hno, fun o oI oI' oV oN => ?_⟩
  obtain ⟨F, hF⟩ := factors_exist o sp hg (factorizable_of_two hg h2)
  obtain ⟨cs, sp₂, d, h1, h2, h3, -, h5, -⟩ := C89_pairs (fun v => some {v}) o oI oI' oV oN 9 (some {0, 1}) sp hg hc h2 hl hpos ⟨k, hk⟩ [(0, 0)] (by simp)
    (by simp only [List.mem_singleton, forall_eq]; exact ⟨k, hk, hk0⟩) (fun v => ⟨{v}, rfl, fun _ => rfl⟩) F hF _ (default_vars _) (occVals sp.outcomes) (mem_occVals _)
  exact ⟨cs, sp₂, d, h1, h2, h3, (h5 0).2 ⟨Or.inl ⟨_, rfl, by simp⟩, (default_vars _ 0).2 ⟨k, hk, _, hk0, rfl⟩⟩⟩

end Verif
