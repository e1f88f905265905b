import Verif.Props.MakeJoinedShapes
import Verif.Props.Conditional

/-!
# `is_joined` and inference by conditioning (C44, C45)
-/

set_option linter.unusedSectionVars false

namespace Verif

section
variable {V X R : Type} [DecidableEq V] [DecidableEq X] [DecidableEq R]

/-! ### C44 -/

/-- **C44.** `is_joined` is `True` exactly when all outcomes have the same variables, whatever the order. -/
theorem C44_is_joined (sp : Space V X R) (oG : Order (SampleGraph V X R)) :
    sp.isJoined oG = true ↔ ∀ g h, sp.outcomes.Occurs g → sp.outcomes.Occurs h → ∀ v, HasVar v g ↔ HasVar v h := by
  have hmem : ∀ g, g ∈ oG.run sp.outcomes.graphs ↔ sp.outcomes.Occurs g := by
    intro g; rw [oG.mem, Samples.mem_graphs]; rfl
  unfold Space.isJoined
  cases hr : oG.run sp.outcomes.graphs with
  | nil =>
    simp only [hr, List.not_mem_nil, false_iff] at hmem
    simp only [List.all_nil, true_iff]
    intro g h hg
    exact absurd hg (hmem g)
  | cons a t =>
    have ha : sp.outcomes.Occurs a := (hmem a).1 (by rw [hr]; simp)
    have hb : sp.outcomes.bool = true := by
      unfold Samples.bool
      rw [decide_eq_true_eq]
      intro h0
      obtain ⟨c, hc⟩ := ha
      rw [← Dict.mem_entries, h0] at hc
      simp at hc
    simp only [hb, if_true, List.all_eq_true, decide_eq_true_eq]
    constructor
    · intro h g g' hg hg' v
      have e1 := h g (by rw [← hr, hmem]; exact hg)
      have e2 := h g' (by rw [← hr, hmem]; exact hg')
      rw [← hasVar_iff, ← hasVar_iff, ← e1, ← e2]
    · intro h g hg
      ext v
      rw [hasVar_iff, hasVar_iff]
      exact h a g ha ((hmem g).1 (by rw [hr]; exact hg)) v

/-- **C44.** The result of `make_joined` with complete factors is joined. -/
theorem C44_make_joined (o : Orders V X R) (oG : Order (SampleGraph V X R)) (sp sp' : Space V X R) (hg : AllGood sp.outcomes)
    (hc : CompleteFactors sp.outcomes) (h : sp.makeJoined o = .ok sp') : sp'.isJoined oG = true := by
  have hf : Factorizable sp.outcomes := by
    by_contra hf
    rw [makeJoined_not_factorizable o sp hf] at h
    simp at h
  obtain ⟨F, hF⟩ := factors_exist o sp hg hf
  have hs := factorSys_of _ hg hf hc F hF
  have hj := ((C42_make_joined o sp hg hc).2 sp' h).2.2.2 F hF
  rw [C44_is_joined]
  rintro g g' ⟨c, hc⟩ ⟨c', hc'⟩ v
  have e1 := hs.join_vars (Finset.Subset.refl _) ((hj g c).1 hc).2 v
  have e2 := hs.join_vars (Finset.Subset.refl _) ((hj g' c').1 hc').2 v
  exact e1.trans e2.symm

/-! ### C45 -/

/-- The evidence: variable `v` has value `x`. -/
def valueEvidence (v : V) (x : X) : SampleGraph V X R := ⟨{⟨v, x⟩}, ∅⟩

theorem keptBy_value (v : V) (x : X) (g : SampleGraph V X R) :
    KeptBy (valueEvidence v x) g ↔ HasValue v x g ∨ ¬ HasVar v g := by
  unfold KeptBy ContainsGraph NoCommonVariable valueEvidence HasValue HasVar
  simp only [Finset.singleton_subset_iff, Finset.empty_subset, and_true, Finset.mem_singleton, forall_eq, not_exists, not_and]
  refine or_congr Iff.rfl ⟨fun h n hn e => h n hn e.symm, fun h n hn e => h n hn e.symm⟩

/-- Conditioning on a value. -/
theorem condition_get {sp cs : Space V X R} {oI : Order (SampleGraph V X R × ℤ)} {ev : Sample V X R} {v : V} {x : X}
    (hev : ev.graph = valueEvidence v x) (h : sp.conditionalGraph oI ev = .ok cs) (g : SampleGraph V X R) (c : ℤ) :
    cs.outcomes.samples.get? g = some c ↔ sp.outcomes.samples.get? g = some c ∧ (HasValue v x g ∨ ¬ HasVar v g) := by
  obtain ⟨h1, h2⟩ := C34_conditional_graph sp oI ev
  by_cases hp : ev.prov = sp.outcomes.prov
  · obtain ⟨cs', e1, -, -, -, e2⟩ := h1 hp
    rw [h] at e1
    rw [Except.ok.inj e1, e2, hev, keptBy_value]
  · rw [h2 hp] at h; simp at h

section
variable {a b : Samples V X R} {v : V} {x : X}

theorem condition_occurs (hb : ∀ g c, b.samples.get? g = some c ↔ a.samples.get? g = some c ∧ (HasValue v x g ∨ ¬ HasVar v g))
    (g : SampleGraph V X R) : b.Occurs g ↔ a.Occurs g ∧ (HasValue v x g ∨ ¬ HasVar v g) := by
  constructor
  · rintro ⟨c, hc⟩; exact ⟨⟨c, ((hb g c).1 hc).1⟩, ((hb g c).1 hc).2⟩
  · rintro ⟨⟨c, hc⟩, h⟩; exact ⟨c, (hb g c).2 ⟨hc, h⟩⟩

/-- Conditioning on a value keeps the factors complete, and the values of the other variables. -/
theorem condition_keeps (hb : ∀ g c, b.samples.get? g = some c ↔ a.samples.get? g = some c ∧ (HasValue v x g ∨ ¬ HasVar v g))
    (hg : AllGood a) (hf : Factorizable a) (hc : CompleteFactors a) (hx : ∃ g, a.Occurs g ∧ HasValue v x g) :
    AllGood b ∧ Factorizable b ∧ CompleteFactors b ∧
    ∀ w y, (∃ g, b.Occurs g ∧ HasValue w y g) ↔ (∃ g, a.Occurs g ∧ HasValue w y g) ∧ (w = v → y = x) := by
  classical
  have hocc := condition_occurs hb
  have hval : ∀ w y, (∃ g, b.Occurs g ∧ HasValue w y g) ↔ (∃ g, a.Occurs g ∧ HasValue w y g) ∧ (w = v → y = x) := by
    intro w y
    constructor
    · rintro ⟨g, hgb, hgv⟩
      obtain ⟨hga, hk⟩ := (hocc g).1 hgb
      refine ⟨⟨g, hga, hgv⟩, ?_⟩
      rintro rfl
      rcases hk with hk | hk
      · have := (hg g hga).2.2 _ hgv _ hk rfl
        exact (Node.mk.inj this).2
      · exact absurd ⟨_, hgv, rfl⟩ hk
    · rintro ⟨⟨g, hga, hgv⟩, hwv⟩
      by_cases hv : HasVar v g
      · let asg : V → X := fun u => if u = v then x else if u = w then y else
          if hu : ∃ z, HasValue u z g then hu.choose else x
        obtain ⟨h, h1, h2, h3⟩ := hc g hga asg (by
          intro u hu
          simp only [asg]
          by_cases huv : u = v
          · subst huv; simpa using hx
          · rw [if_neg huv]
            by_cases huw : u = w
            · subst huw; simp only [if_true]; exact ⟨g, hga, hgv⟩
            · rw [if_neg huw]
              have hex : ∃ z, HasValue u z g := by
                obtain ⟨⟨k, z⟩, hn, rfl⟩ := hu
                exact ⟨z, hn⟩
              rw [dif_pos hex]
              exact ⟨g, hga, hex.choose_spec⟩)
        have hvar : ∀ u, HasVar u g → HasValue u (asg u) h := by
          intro u hu
          obtain ⟨⟨k, z⟩, hn, rfl⟩ := sameFactor_hasVar (hg g hga).1 (hg h h1).1 h2 hu
          have := h3 _ hn
          simp only at this
          rw [this] at hn
          exact hn
        refine ⟨h, (hocc h).2 ⟨h1, Or.inl ?_⟩, ?_⟩
        · have := hvar v hv
          simpa [asg] using this
        · have := hvar w ⟨_, hgv, rfl⟩
          by_cases hwv' : w = v
          · subst hwv'; rw [hwv rfl]; simpa [asg] using this
          · simpa [asg, hwv'] using this
      · exact ⟨g, (hocc g).2 ⟨hga, Or.inr hv⟩, hgv⟩
  refine ⟨fun g h => hg g ((hocc g).1 h).1, ⟨fun g h => hf.nonempty g ((hocc g).1 h).1, fun g h hg' hh => hf.pairs g h ((hocc g).1 hg').1 ((hocc h).1 hh).1⟩, ?_, hval⟩
  intro g hgb asg ha
  obtain ⟨hga, hk⟩ := (hocc g).1 hgb
  obtain ⟨h, h1, h2, h3⟩ := hc g hga asg fun u hu => ((hval u (asg u)).1 (ha u hu)).1
  refine ⟨h, (hocc h).2 ⟨h1, ?_⟩, h2, h3⟩
  by_cases hv : HasVar v h
  · left
    obtain ⟨⟨k, z⟩, hn, rfl⟩ := hv
    have e1 := h3 _ hn
    have hgk : HasVar k g := sameFactor_hasVar (hg h h1).1 (hg g hga).1 (sameFactor_symm h2) ⟨_, hn, rfl⟩
    have e2 := ((hval k (asg k)).1 (ha k hgk)).2 rfl
    simp only at e1
    rw [← e2, ← e1]; exact hn
  · exact Or.inr hv

/-- The entries of a factor kept by conditioning on a value. -/
noncomputable def restrictTo (v : V) (x : X) (f : ItemSet V X R) : ItemSet V X R :=
  open Classical in f.filter fun q => HasValue v x q.1 ∨ ¬ HasVar v q.1

theorem mem_restrictTo {v : V} {x : X} {f : ItemSet V X R} {q : SampleGraph V X R × ℤ} :
    q ∈ restrictTo v x f ↔ q ∈ f ∧ (HasValue v x q.1 ∨ ¬ HasVar v q.1) := by
  classical
  unfold restrictTo; rw [Finset.mem_filter]

/-- The factors after conditioning are the restricted factors. -/
theorem condition_factors (hb : ∀ g c, b.samples.get? g = some c ↔ a.samples.get? g = some c ∧ (HasValue v x g ∨ ¬ HasVar v g))
    (hg : AllGood a) (hf : Factorizable a) (hc : CompleteFactors a) (hx : ∃ g, a.Occurs g ∧ HasValue v x g)
    (F F' : Finset (ItemSet V X R)) (hF : AreFactors a F) (hF' : AreFactors b F') :
    (∀ f ∈ F, (restrictTo v x f).Nonempty) ∧ (∀ f ∈ F, ∀ f' ∈ F, restrictTo v x f = restrictTo v x f' → f = f') ∧
    F' = F.image (restrictTo v x) := by
  classical
  have hocc := condition_occurs hb
  have hgood : ∀ p ∈ a.items, a.Occurs p.1 ∧ WellFormed p.1 ∧ p.1.nodes.Nonempty ∧ SingleValued p.1.nodes :=
    fun p hp => ⟨⟨p.2, (Samples.mem_items a p).1 hp⟩, hg _ ⟨p.2, (Samples.mem_items a p).1 hp⟩⟩
  have hitems : ∀ q, q ∈ b.items ↔ q ∈ a.items ∧ (HasValue v x q.1 ∨ ¬ HasVar v q.1) := by
    intro q; rw [Samples.mem_items, Samples.mem_items, hb]
  let res := restrictTo (R := R) v x
  have hs := factorSys_of a hg hf hc F hF
  have hin : ∀ f ∈ F, ∀ q ∈ f, q ∈ a.items := by
    intro f hf q hq
    obtain ⟨r, hr, hrf⟩ := (hF f).1 hf
    exact ((hrf q).1 hq).1
  have hresne : ∀ f ∈ F, (res f).Nonempty := by
    intro f hf'
    obtain ⟨r, hr⟩ := hs.nonempty f hf'
    have hra := hin f hf' r hr
    by_cases hv : HasVar v r.1
    · have hX : Nonempty X := ⟨x⟩
      obtain ⟨asg, hasg⟩ := BlockInv.exists_asg hs
      obtain ⟨q, hq, hqn⟩ := hs.complete f hf' (Function.update asg v x) (by
        intro q hq u hu
        by_cases huv : u = v
        · subst huv; rw [Function.update_self, mem_occVals]; exact hx
        · rw [Function.update_of_ne huv]; exact hasg u ⟨f, hf', q, hq, hu⟩)
      refine ⟨q, mem_restrictTo.2 ⟨hq, Or.inl ?_⟩⟩
      obtain ⟨⟨k, z⟩, hn, rfl⟩ := hs.sameVars f hf' r hr q hq v hv
      have := hqn _ hn
      simp only [Function.update_self] at this
      rw [this] at hn
      exact hn
    · exact ⟨r, mem_restrictTo.2 ⟨hr, Or.inr hv⟩⟩
  have hinj : ∀ f ∈ F, ∀ f' ∈ F, res f = res f' → f = f' := by
    intro f hf1 f' hf2 he
    by_contra hne
    obtain ⟨q, hq⟩ := hresne f hf1
    have hq' := hq
    rw [he] at hq'
    have q1 := (mem_restrictTo.1 hq).1
    have q2 := (mem_restrictTo.1 hq').1
    exact hs.sys.apart f hf1 f' hf2 hne q q1 q q2 (sharesPair_self _ (hgood q (hin f hf1 q q1)).2.2.1)
  have hFF : F' = F.image res := by
    ext f'
    rw [hF', Finset.mem_image]
    constructor
    · rintro ⟨r, hr, hrf⟩
      have hra := ((hitems r).1 hr).1
      refine ⟨a.items.filter fun q => SameFactor r.1 q.1, (hF _).2 ⟨r, hra, fun q => by rw [Finset.mem_filter]⟩, ?_⟩
      ext q
      rw [hrf, hitems, mem_restrictTo, Finset.mem_filter]
      tauto
    · rintro ⟨f, hf', rfl⟩
      obtain ⟨q, hq⟩ := hresne f hf'
      obtain ⟨q1, q2⟩ := mem_restrictTo.1 hq
      refine ⟨q, (hitems q).2 ⟨hin f hf' q q1, q2⟩, fun s => ?_⟩
      obtain ⟨r, hr, hrf⟩ := (hF f).1 hf'
      have hrq := ((hrf q).1 q1).2
      rw [mem_restrictTo, hrf, hitems]
      have : SameFactor r.1 s.1 ↔ SameFactor q.1 s.1 :=
        ⟨fun h => sameFactor_trans (hgood r hr).2.1 (sameFactor_symm hrq) h,
          fun h => sameFactor_trans (hgood q (hin f hf' q q1)).2.1 hrq h⟩
      rw [this]
      tauto
  exact ⟨hresne, hinj, hFF⟩

/-- The joins after conditioning are the joins that have the value. -/
theorem condition_isJoin (hb : ∀ g c, b.samples.get? g = some c ↔ a.samples.get? g = some c ∧ (HasValue v x g ∨ ¬ HasVar v g))
    (hg : AllGood a) (hf : Factorizable a) (hc : CompleteFactors a) (hx : ∃ g, a.Occurs g ∧ HasValue v x g)
    (F F' : Finset (ItemSet V X R)) (hF : AreFactors a F) (hF' : AreFactors b F') (p : SampleGraph V X R × ℤ) :
    IsJoin F' id p ↔ IsJoin F id p ∧ HasValue v x p.1 := by
  classical
  have hs := factorSys_of a hg hf hc F hF
  obtain ⟨hresne, hinj, hFF⟩ := condition_factors hb hg hf hc hx F F' hF hF'
  rw [hFF, isJoin_image F _ id hinj]
  constructor
  · rintro ⟨sel, s1, s2, s3, s4⟩
    refine ⟨⟨sel, fun f hf' => (mem_restrictTo.1 (s1 f hf')).1, s2, s3, s4⟩, ?_⟩
    obtain ⟨g, hga, hgv⟩ := hx
    obtain ⟨f, hf', c, hcf⟩ := exists_factor hg hF hga
    obtain ⟨m1, m2⟩ := mem_restrictTo.1 (s1 f hf')
    have hv := hs.sameVars f hf' _ hcf _ m1 v ⟨_, hgv, rfl⟩
    rcases m2 with m2 | m2
    · unfold HasValue
      rw [s3]; exact Finset.mem_biUnion.2 ⟨f, hf', m2⟩
    · exact absurd hv m2
  · rintro ⟨⟨sel, s1, s2, s3, s4⟩, hpv⟩
    refine ⟨sel, fun f hf' => mem_restrictTo.2 ⟨s1 f hf', ?_⟩, s2, s3, s4⟩
    by_cases hv : HasVar v (sel f).1
    · left
      obtain ⟨⟨k, z⟩, hn, rfl⟩ := hv
      have hnp : (⟨k, z⟩ : Node V X) ∈ p.1.nodes := by rw [s3]; exact Finset.mem_biUnion.2 ⟨f, hf', hn⟩
      have := s2 _ hnp _ hpv rfl
      rw [this] at hn
      exact hn
    · exact Or.inr hv

end

/-- Conditioning on values one after the other, each time going back to a relation graph. -/
def conditionAll (oI : Order (SampleGraph V X R × ℤ)) (sp : Space V X R) (es : List (V × X)) : Py (Space V X R) :=
  es.foldlM (init := sp) fun s q =>
    (s.conditionalGraph oI ⟨sp.outcomes.prov, valueEvidence q.1 q.2⟩).map Space.relationGraph

/-- **C45.** Conditioning a relation graph with complete factors on a value and then joining gives the same outcomes with the same
counts as joining and then selecting the outcomes that have the value. -/
theorem C45_inference (o o' : Orders V X R) (oI : Order (SampleGraph V X R × ℤ)) (sp cs sp₁ sp₂ : Space V X R)
    (hg : AllGood sp.outcomes) (hc : CompleteFactors sp.outcomes) (v : V) (x : X) (ev : Sample V X R)
    (hev : ev.graph = valueEvidence v x) (hx : ∃ g, sp.outcomes.Occurs g ∧ HasValue v x g)
    (h : sp.conditionalGraph oI ev = .ok cs) (h₁ : sp.makeJoined o = .ok sp₁) (h₂ : cs.relationGraph.makeJoined o' = .ok sp₂)
    (g : SampleGraph V X R) (c : ℤ) :
    sp₂.outcomes.samples.get? g = some c ↔ sp₁.outcomes.samples.get? g = some c ∧ HasValue v x g := by
  have hf : Factorizable sp.outcomes := by
    by_contra hf
    rw [makeJoined_not_factorizable o sp hf] at h₁
    simp at h₁
  have hb : ∀ g c, cs.relationGraph.outcomes.samples.get? g = some c ↔
      sp.outcomes.samples.get? g = some c ∧ (HasValue v x g ∨ ¬ HasVar v g) := fun g c => condition_get hev h g c
  obtain ⟨k1, k2, k3, k4⟩ := condition_keeps hb hg hf hc hx
  obtain ⟨F, hF⟩ := factors_exist o sp hg hf
  obtain ⟨F', hF'⟩ := factors_exist o cs.relationGraph k1 k2
  rw [((C42_make_joined o' cs.relationGraph k1 k3).2 sp₂ h₂).2.2.2 F' hF' g c,
    ((C42_make_joined o sp hg hc).2 sp₁ h₁).2.2.2 F hF g c, condition_isJoin hb hg hf hc hx F F' hF hF']
  have e1 : ∃ h, sp.outcomes.Occurs h := by obtain ⟨g, hg, -⟩ := hx; exact ⟨g, hg⟩
  have e2 : ∃ h, cs.relationGraph.outcomes.Occurs h := by
    obtain ⟨g, hg, -⟩ := (k4 v x).2 ⟨hx, fun _ => rfl⟩; exact ⟨g, hg⟩
  simp only [e1, e2, true_and]

/-- Fewer variables with two or more values: less can go wrong. -/
theorem elimOk_mono {T T' : Finset V} (h : T' ⊆ T) (vs : List V) (L : List (Finset V)) (hok : elimOk T vs L = true) :
    elimOk T' vs L = true := by
  induction vs generalizing L with
  | nil => exact hok
  | cons v vs ih =>
    simp only [elimOk, Bool.and_eq_true, decide_eq_true_eq] at hok ⊢
    exact ⟨fun w hw => hok.1 w (h hw), ih _ hok.2⟩

/-- Conditioning does not change the variables of the factors. -/
theorem condition_factorVars {a b : Samples V X R} {v : V} {x : X}
    (hb : ∀ g c, b.samples.get? g = some c ↔ a.samples.get? g = some c ∧ (HasValue v x g ∨ ¬ HasVar v g))
    (hg : AllGood a) (hf : Factorizable a) (hc : CompleteFactors a) (hx : ∃ g, a.Occurs g ∧ HasValue v x g)
    (F F' : Finset (ItemSet V X R)) (hF : AreFactors a F) (hF' : AreFactors b F') (L : List (Finset V))
    (hL : (L : Multiset (Finset V)) = F.val.map factorVars) : (L : Multiset (Finset V)) = F'.val.map factorVars := by
  classical
  have k1 := (condition_keeps hb hg hf hc hx).1
  obtain ⟨r1, r2, r3⟩ := condition_factors hb hg hf hc hx F F' hF hF'
  have e : F'.val = F.val.map (restrictTo v x) := by
    rw [r3, Finset.image_val_of_injOn]
    intro f hf f' hf' e
    exact r2 f hf f' hf' e
  rw [e, Multiset.map_map]
  refine hL.trans (Multiset.map_congr rfl fun f hf => ?_)
  obtain ⟨q, hq⟩ := r1 f hf
  have hq1 := (mem_restrictTo.1 hq).1
  have hfF' : restrictTo v x f ∈ F' := by rw [r3]; exact Finset.mem_image_of_mem _ hf
  ext w
  rw [Function.comp_apply, mem_factorVars hg hF hf hq1, mem_factorVars k1 hF' hfF' hq]

/-- **C45.** When joining the relation graph returns, joining the conditioned one returns too, if the variables are eliminated in
the same order. -/
theorem C45_returns (o o' : Orders V X R) (oI : Order (SampleGraph V X R × ℤ)) (sp cs : Space V X R)
    (hg : AllGood sp.outcomes) (hc : CompleteFactors sp.outcomes) (v : V) (x : X) (ev : Sample V X R)
    (hev : ev.graph = valueEvidence v x) (hx : ∃ g, sp.outcomes.Occurs g ∧ HasValue v x g)
    (h : sp.conditionalGraph oI ev = .ok cs)
    (hord : (o'.incl.run (cs.includedVariables o'.graphs o'.nodes)).map Prod.fst =
      (o.incl.run (sp.includedVariables o.graphs o.nodes)).map Prod.fst)
    (h₁ : ∃ sp₁, sp.makeJoined o = .ok sp₁) : ∃ sp₂, cs.relationGraph.makeJoined o' = .ok sp₂ := by
  classical
  have hf : Factorizable sp.outcomes := by
    by_contra hf
    rw [makeJoined_not_factorizable o sp hf] at h₁
    simp at h₁
  have hb : ∀ g c, cs.relationGraph.outcomes.samples.get? g = some c ↔
      sp.outcomes.samples.get? g = some c ∧ (HasValue v x g ∨ ¬ HasVar v g) := fun g c => condition_get hev h g c
  obtain ⟨k1, k2, k3, k4⟩ := condition_keeps hb hg hf hc hx
  obtain ⟨F, hF⟩ := factors_exist o sp hg hf
  obtain ⟨F', hF'⟩ := factors_exist o cs.relationGraph k1 k2
  obtain ⟨T, hT⟩ := manyVals_exist sp.outcomes
  obtain ⟨T', hT'⟩ := manyVals_exist cs.relationGraph.outcomes
  obtain ⟨L, hL⟩ : ∃ L : List (Finset V), (L : Multiset (Finset V)) = F.val.map factorVars := Quot.exists_rep _
  have hL' := condition_factorVars hb hg hf hc hx F F' hF hF' L hL
  rw [(C43_returns_iff o' _ k1 k2 k3 F' hF' T' hT' L hL').1]
  rw [(C43_returns_iff o _ hg hf hc F hF T hT L hL).1, ← hord] at h₁
  refine elimOk_mono ?_ _ _ h₁
  intro w hw
  obtain ⟨y, z, g, g', hyz, g1, g2, g3, g4⟩ := (hT' w).1 hw
  obtain ⟨⟨a1, b1, c1⟩, -⟩ := (k4 w y).1 ⟨g, g1, g2⟩
  obtain ⟨⟨a2, b2, c2⟩, -⟩ := (k4 w z).1 ⟨g', g3, g4⟩
  exact (hT w).2 ⟨y, z, _, _, hyz, b1, c1, b2, c2⟩

/-- **C45.** When the factors form a tree, conditioning on an occurring value and joining always returns. -/
theorem C45_tree (o : Orders V X R) (oI : Order (SampleGraph V X R × ℤ)) (sp : Space V X R) (hg : AllGood sp.outcomes)
    (hf : Factorizable sp.outcomes) (hc : CompleteFactors sp.outcomes) (F : Finset (ItemSet V X R))
    (hF : AreFactors sp.outcomes F) (L : List (Finset V)) (hL : (L : Multiset (Finset V)) = F.val.map factorVars)
    (ht : TreeShape L) (v : V) (x : X) (hx : ∃ g, sp.outcomes.Occurs g ∧ HasValue v x g) :
    ∃ cs sp₂, sp.conditionalGraph oI ⟨sp.outcomes.prov, valueEvidence v x⟩ = .ok cs ∧ cs.relationGraph.makeJoined o = .ok sp₂ := by
  obtain ⟨cs, h, -⟩ := (C34_conditional_graph sp oI ⟨sp.outcomes.prov, valueEvidence v x⟩).1 rfl
  have hb : ∀ g c, cs.relationGraph.outcomes.samples.get? g = some c ↔
      sp.outcomes.samples.get? g = some c ∧ (HasValue v x g ∨ ¬ HasVar v g) := fun g c => condition_get rfl h g c
  obtain ⟨k1, k2, k3, -⟩ := condition_keeps hb hg hf hc hx
  obtain ⟨F', hF'⟩ := factors_exist o cs.relationGraph k1 k2
  obtain ⟨sp₂, h₂⟩ := C42_tree o _ k1 k2 k3 F' hF' L (condition_factorVars hb hg hf hc hx F F' hF hF' L hL) ht
  exact ⟨cs, sp₂, h, h₂⟩

/-- **C45.** The same with any number of observed variables. -/
theorem C45_inference_all (o o' : Orders V X R) (oI : Order (SampleGraph V X R × ℤ)) (sp cs sp₁ sp₂ : Space V X R)
    (hg : AllGood sp.outcomes) (hc : CompleteFactors sp.outcomes) (es : List (V × X)) (hes : (es.map Prod.fst).Nodup)
    (hx : ∀ q ∈ es, ∃ g, sp.outcomes.Occurs g ∧ HasValue q.1 q.2 g) (hne : ∃ g, sp.outcomes.Occurs g)
    (h : conditionAll oI sp es = .ok cs) (h₁ : sp.makeJoined o = .ok sp₁) (h₂ : cs.makeJoined o' = .ok sp₂)
    (g : SampleGraph V X R) (c : ℤ) :
    sp₂.outcomes.samples.get? g = some c ↔ sp₁.outcomes.samples.get? g = some c ∧ ∀ q ∈ es, HasValue q.1 q.2 g := by
  have hf : Factorizable sp.outcomes := by
    by_contra hf
    rw [makeJoined_not_factorizable o sp hf] at h₁
    simp at h₁
  obtain ⟨F, hF⟩ := factors_exist o sp hg hf
  rw [((C42_make_joined o sp hg hc).2 sp₁ h₁).2.2.2 F hF g c]
  simp only [hne, true_and]
  clear h₁
  unfold conditionAll at h
  generalize sp.outcomes.prov = pr at h
  induction es generalizing sp F with
  | nil =>
    have : sp = cs := Except.ok.inj h
    subst this
    rw [((C42_make_joined o' sp hg hc).2 sp₂ h₂).2.2.2 F hF g c]
    simp [hne]
  | cons q t ih =>
    rw [List.foldlM_cons] at h
    cases hq : sp.conditionalGraph oI ⟨pr, valueEvidence q.1 q.2⟩ with
    | error e => rw [hq] at h; simp [Except.map, bind, Except.bind] at h
    | ok s =>
      rw [hq] at h
      have hb : ∀ g c, s.relationGraph.outcomes.samples.get? g = some c ↔
          sp.outcomes.samples.get? g = some c ∧ (HasValue q.1 q.2 g ∨ ¬ HasVar q.1 g) := fun g c => condition_get rfl hq g c
      have hxq := hx q (by simp)
      obtain ⟨k1, k2, k3, k4⟩ := condition_keeps hb hg hf hc hxq
      obtain ⟨F', hF'⟩ := factors_exist o s.relationGraph k1 k2
      rw [List.map_cons, List.nodup_cons] at hes
      have e2 : ∃ h, s.relationGraph.outcomes.Occurs h := by
        obtain ⟨g, hg, -⟩ := (k4 q.1 q.2).2 ⟨hxq, fun _ => rfl⟩; exact ⟨g, hg⟩
      have hxt : ∀ r ∈ t, ∃ g, s.relationGraph.outcomes.Occurs g ∧ HasValue r.1 r.2 g := by
        intro r hr
        refine (k4 r.1 r.2).2 ⟨hx r (by simp [hr]), fun he => ?_⟩
        exact absurd (he ▸ List.mem_map_of_mem hr) hes.1
      have hi := ih s.relationGraph k1 k3 hes.2 hxt e2 k2 F' hF' h
      refine hi.trans ?_
      rw [condition_isJoin hb hg hf hc hxq F F' hF hF']
      simp only [List.mem_cons, forall_eq_or_imp, and_assoc]

end

/-- Non-vacuity of `C44_make_joined`, `C45_inference`, `C45_returns`, `C45_tree` and `C45_inference_all`: the chain 0 - 1 - 2 with
values 0 and 1, observed 0 for variable 1. -/
example : ∃ sp : Space ℕ ℕ ℕ, AllGood sp.outcomes ∧ CompleteFactors sp.outcomes ∧ (∃ g, sp.outcomes.Occurs g ∧ HasValue 1 0 g) ∧
    ∀ o o' oI, ∃ cs sp₁ sp₂, sp.conditionalGraph oI ⟨sp.outcomes.prov, valueEvidence 1 0⟩ = .ok cs ∧
      conditionAll oI sp [(1, 0)] = .ok cs.relationGraph ∧
      sp.makeJoined o = .ok sp₁ ∧ cs.relationGraph.makeJoined o' = .ok sp₂ := by
  have hE : ∀ e ∈ [(0, 1), (1, 2)], e.1 < e.2 := by decide
  have hn : [(0, 1), (1, 2)].Nodup := by decide
  have hd : ((pairEntries [(0, 1), (1, 2)]).map Prod.fst).Nodup := by decide +kernel
  have hx : ∃ g, (pairSpace _ hd).outcomes.Occurs g ∧ HasValue 1 0 g :=
    ⟨_, (pair_occurs _).2 ⟨(0, 1), by simp, 0, by omega, 0, by omega, rfl⟩, by simp [HasValue, oneEdge]⟩
  refine ⟨pairSpace _ hd, pair_good hE, pair_complete, hx, ?_⟩
  intro o o' oI
  obtain ⟨F, hF, hL⟩ := pair_factors (h := hd) hE hn
  have ht : TreeShape ([(0, 1), (1, 2)].map fun e : ℕ × ℕ => ({e.1, e.2} : Finset ℕ)) := .add _ _ (.one _ (by simp)) (by decide)
  obtain ⟨sp₁, h₁⟩ := C42_tree o _ (pair_good hE) pair_factorizable pair_complete F hF _ hL ht
  obtain ⟨cs, sp₂, h, h₂⟩ := C45_tree o' oI _ (pair_good hE) pair_factorizable pair_complete F hF _ hL ht 1 0 hx
  refine ⟨cs, sp₁, sp₂, h, ?_, h₁, h₂⟩
  unfold conditionAll
  rw [List.foldlM_cons, h]
  rfl

end Verif
