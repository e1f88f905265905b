import Verif.Lemmas.Elimination

/-!
# Which factor graphs `make_joined` can join (C42, C43)
-/

set_option linter.unusedSectionVars false

namespace Verif

section
variable {V X R : Type} [DecidableEq V] [DecidableEq X] [DecidableEq R]

/-! ### Helper lemmas -/

theorem mem_factorVars {a : Samples V X R} (hg : AllGood a) {F : Finset (ItemSet V X R)} (hF : AreFactors a F) {f : ItemSet V X R}
    (hf : f ∈ F) {p : SampleGraph V X R × ℤ} (hp : p ∈ f) (v : V) : v ∈ factorVars f ↔ HasVar v p.1 := by
  have hgood : ∀ p ∈ a.items, WellFormed p.1 ∧ p.1.nodes.Nonempty ∧ SingleValued p.1.nodes :=
    fun p hp => hg _ ⟨p.2, (Samples.mem_items a p).1 hp⟩
  obtain ⟨r, hr, hrf⟩ := (hF f).1 hf
  obtain ⟨p1, p2⟩ := (hrf p).1 hp
  unfold factorVars
  rw [Finset.mem_biUnion]
  constructor
  · rintro ⟨q, hq, hv⟩
    obtain ⟨q1, q2⟩ := (hrf q).1 hq
    obtain ⟨n, hn, rfl⟩ := Finset.mem_image.1 hv
    exact sameFactor_hasVar (hgood q q1).1 (hgood p p1).1 (sameFactor_trans (hgood r hr).1 (sameFactor_symm q2) p2) ⟨n, hn, rfl⟩
  · rintro ⟨n, hn, rfl⟩
    exact ⟨p, hp, Finset.mem_image_of_mem _ hn⟩

/-- Each outcome is in a factor. -/
theorem exists_factor {a : Samples V X R} (hg : AllGood a) {F : Finset (ItemSet V X R)} (hF : AreFactors a F) {g : SampleGraph V X R}
    (h : a.Occurs g) : ∃ f ∈ F, ∃ c, (g, c) ∈ f := by
  classical
  obtain ⟨c, hc⟩ := h
  have hp : (g, c) ∈ a.items := (Samples.mem_items a _).2 hc
  refine ⟨a.items.filter fun q => SameFactor g q.1, (hF _).2 ⟨(g, c), hp, fun q => ?_⟩, c, ?_⟩
  · rw [Finset.mem_filter]
  · rw [Finset.mem_filter]
    exact ⟨hp, sameFactor_refl (hg g ⟨c, hc⟩).2.1⟩

theorem mem_included_fst (o : Orders V X R) (sp : Space V X R) (v : V) :
    v ∈ (o.incl.run (sp.includedVariables o.graphs o.nodes)).map Prod.fst ↔ ∃ g, sp.outcomes.Occurs g ∧ HasVar v g := by
  rw [List.mem_map]
  constructor
  · rintro ⟨q, hq, rfl⟩
    rw [o.incl.mem, included_pair] at hq
    exact hq.1
  · intro h
    exact ⟨(v, occVals sp.outcomes v), by rw [o.incl.mem, included_pair]; exact ⟨h, rfl⟩, rfl⟩

theorem nodup_included_fst (o : Orders V X R) (sp : Space V X R) :
    ((o.incl.run (sp.includedVariables o.graphs o.nodes)).map Prod.fst).Nodup := by
  refine List.Nodup.map_on ?_ (o.incl.nodup _)
  intro p hp q hq hpq
  rw [o.incl.mem, included_pair] at hp hq
  exact Prod.ext hpq (by rw [hp.2, hq.2, hpq])

theorem factors_exist (o : Orders V X R) (sp : Space V X R) (hg : AllGood sp.outcomes) (hf : Factorizable sp.outcomes) :
    ∃ F, AreFactors sp.outcomes F := by
  obtain ⟨F, hF⟩ := (C33_factorized_iff sp o.items o.nodes o.graphs).1 ((C33_is_factorized sp o.graphs).2 hf)
  exact ⟨F, fun f => mem_factors_iff sp o.items o.nodes (edgeless_card hg) F hF f⟩

theorem manyVals_exist (a : Samples V X R) : ∃ T : Finset V, ∀ w, w ∈ T ↔ ∃ x y g h, x ≠ y ∧ a.Occurs g ∧ HasValue w x g ∧
    a.Occurs h ∧ HasValue w y h := by
  classical
  refine ⟨(a.graphs.biUnion fun g => g.nodes.image Node.var).filter fun w => ∃ x y g h, x ≠ y ∧ a.Occurs g ∧ HasValue w x g ∧
    a.Occurs h ∧ HasValue w y h, fun w => ?_⟩
  rw [Finset.mem_filter]
  refine ⟨fun h => h.2, fun h => ⟨?_, h⟩⟩
  obtain ⟨x, y, g, h, -, g1, g2, -⟩ := h
  rw [Finset.mem_biUnion]
  refine ⟨g, (Samples.mem_graphs a g).2 g1, ?_⟩
  exact Finset.mem_image.2 ⟨⟨w, x⟩, g2, rfl⟩

theorem makeJoined_not_factorizable (o : Orders V X R) (sp : Space V X R) (hf : ¬ Factorizable sp.outcomes) :
    sp.makeJoined o = .error .assertion := by
  unfold Space.makeJoined
  have hfalse : sp.isFactorized o.graphs = false := by
    rw [Bool.eq_false_iff, ne_eq, C33_is_factorized]; exact hf
  rw [(C33_factorized_iff sp o.items o.nodes o.graphs).2 hfalse]

/-! ### C42 -/

/-- **C42.** When the factors form a tree, `make_joined` returns for every order. -/
theorem C42_tree (o : Orders V X R) (sp : Space V X R) (hg : AllGood sp.outcomes) (hf : Factorizable sp.outcomes)
    (hc : CompleteFactors sp.outcomes) (F : Finset (ItemSet V X R)) (hF : AreFactors sp.outcomes F) (L : List (Finset V))
    (hL : (L : Multiset (Finset V)) = F.val.map factorVars) (ht : TreeShape L) : ∃ sp', sp.makeJoined o = .ok sp' := by
  obtain ⟨T, hT⟩ := manyVals_exist sp.outcomes
  rw [(C43_returns_iff o sp hg hf hc F hF T hT L hL).1]
  obtain ⟨h1, h2, -⟩ := forest_of_tree ht
  have hmem : ∀ s, s ∈ L ↔ ∃ f ∈ F, factorVars f = s := by
    intro s; rw [← Multiset.mem_coe, hL, Multiset.mem_map]; rfl
  refine elimOk_tree T _ L h1 h2 ?_ ?_
  · intro v hv
    obtain ⟨g, g1, g2⟩ := (mem_included_fst o sp v).1 hv
    obtain ⟨f, hf', c, hc'⟩ := exists_factor hg hF g1
    exact ⟨_, (hmem _).2 ⟨f, hf', rfl⟩, (mem_factorVars hg hF hf' hc' v).2 g2⟩
  · intro v hv
    left
    obtain ⟨s, hs, hvs⟩ := (mem_unionL _ _).1 hv
    obtain ⟨f, hf', rfl⟩ := (hmem _).1 hs
    rw [mem_included_fst]
    obtain ⟨p, hp, hpf⟩ := (hF f).1 hf'
    have hpm : p ∈ f := (hpf p).2 ⟨hp, sameFactor_refl (hg _ ⟨p.2, (Samples.mem_items _ p).1 hp⟩).2.1⟩
    exact ⟨p.1, ⟨p.2, (Samples.mem_items _ p).1 hp⟩, (mem_factorVars hg hF hf' hpm v).1 hvs⟩

/-- **C42.** Orders that return, return the same outcomes. -/
theorem C42_order (o o' : Orders V X R) (sp : Space V X R) (hg : AllGood sp.outcomes) (hc : CompleteFactors sp.outcomes)
    (sp₁ sp₂ : Space V X R) (h₁ : sp.makeJoined o = .ok sp₁) (h₂ : sp.makeJoined o' = .ok sp₂) :
    sp₁.schema = sp₂.schema ∧ sp₁.evidence = sp₂.evidence ∧ sp₁.outcomes.prov = sp₂.outcomes.prov ∧
      ∀ g, sp₁.outcomes.samples.get? g = sp₂.outcomes.samples.get? g := by
  have hf : Factorizable sp.outcomes := by
    by_contra hf
    rw [makeJoined_not_factorizable o sp hf] at h₁
    simp at h₁
  obtain ⟨F, hF⟩ := factors_exist o sp hg hf
  obtain ⟨a1, a2, a3, a4⟩ := (C42_make_joined o sp hg hc).2 sp₁ h₁
  obtain ⟨b1, b2, b3, b4⟩ := (C42_make_joined o' sp hg hc).2 sp₂ h₂
  refine ⟨by rw [a1, b1], by rw [a3, b3], by rw [a2, b2], fun g => ?_⟩
  refine Option.ext fun c => ?_
  have := (a4 F hF g c).trans (b4 F hF g c).symm
  simpa [Option.mem_def] using this

/-! ### C43 -/

/-- **C43.** Complete factors that split into two parts without common variable are never joined: independent variables make
`make_joined` fail. -/
theorem C43_disconnected (o : Orders V X R) (sp : Space V X R) (hg : AllGood sp.outcomes) (hc : CompleteFactors sp.outcomes)
    (P : Finset V) (hP : ∀ g, sp.outcomes.Occurs g → (∀ v, HasVar v g → v ∈ P) ∨ (∀ v, HasVar v g → v ∉ P))
    (h1 : ∃ g v, sp.outcomes.Occurs g ∧ HasVar v g ∧ v ∈ P) (h2 : ∃ g v, sp.outcomes.Occurs g ∧ HasVar v g ∧ v ∉ P) :
    sp.makeJoined o = .error .assertion := by
  by_cases hf : Factorizable sp.outcomes
  · obtain ⟨F, hF⟩ := factors_exist o sp hg hf
    obtain ⟨T, hT⟩ := manyVals_exist sp.outcomes
    obtain ⟨L, hL⟩ := Quot.exists_rep (F.val.map factorVars)
    have hmem : ∀ s, s ∈ L ↔ ∃ f ∈ F, factorVars f = s := by
      intro s
      have : s ∈ (L : Multiset (Finset V)) ↔ s ∈ F.val.map factorVars := by rw [← hL]; rfl
      rw [Multiset.mem_coe] at this
      rw [this, Multiset.mem_map]; rfl
    obtain ⟨r1, r2⟩ := C43_returns_iff o sp hg hf hc F hF T hT L hL
    apply r2
    rw [r1]
    have hset : ∀ g, sp.outcomes.Occurs g → ∃ s ∈ L, ∀ v, v ∈ s ↔ HasVar v g := by
      intro g g1
      obtain ⟨f, hf', c, hc'⟩ := exists_factor hg hF g1
      exact ⟨factorVars f, (hmem _).2 ⟨f, hf', rfl⟩, fun v => mem_factorVars hg hF hf' hc' v⟩
    have hset' : ∀ s ∈ L, ∃ g, sp.outcomes.Occurs g ∧ ∀ v, v ∈ s ↔ HasVar v g := by
      intro s hs
      obtain ⟨f, hf', rfl⟩ := (hmem s).1 hs
      obtain ⟨p, hp, hpf⟩ := (hF f).1 hf'
      have hocc : sp.outcomes.Occurs p.1 := ⟨p.2, (Samples.mem_items _ p).1 hp⟩
      have hpm : p ∈ f := (hpf p).2 ⟨hp, sameFactor_refl (hg _ hocc).2.1⟩
      exact ⟨p.1, hocc, fun v => mem_factorVars hg hF hf' hpm v⟩
    have := elimOk_disconnected T P ((o.incl.run (sp.includedVariables o.graphs o.nodes)).map Prod.fst) L ?_ ?_ ?_
    · rw [this]; simp
    · intro s hs
      obtain ⟨g, g1, g2⟩ := hset' s hs
      rcases hP g g1 with h | h
      · exact Or.inl fun v hv => h v ((g2 v).1 hv)
      · exact Or.inr (Finset.disjoint_left.2 fun v hv => h v ((g2 v).1 hv))
    · obtain ⟨g, v, g1, g2, g3⟩ := h1
      obtain ⟨s, hs, hsv⟩ := hset g g1
      refine ⟨s, hs, ⟨v, (hsv v).2 g2⟩, ?_⟩
      rcases hP g g1 with h | h
      · exact fun v hv => h v ((hsv v).1 hv)
      · exact absurd g3 (h v g2)
    · obtain ⟨g, v, g1, g2, g3⟩ := h2
      obtain ⟨s, hs, hsv⟩ := hset g g1
      refine ⟨s, hs, ?_⟩
      rcases hP g g1 with h | h
      · exact absurd (h v g2) g3
      · exact Finset.disjoint_left.2 fun v hv => h v ((hsv v).1 hv)
  · exact makeJoined_not_factorizable o sp hf

/-- **C43.** A network of four variables or more (with two values or more each) in which each two variables have a factor of their
own — a complete pairwise Markov network, `K4` and up — is never joined: `AssertionError` whatever the orders. -/
theorem C43_clique (o : Orders V X R) (sp : Space V X R) (hg : AllGood sp.outcomes) (hc : CompleteFactors sp.outcomes)
    (hpair : ∀ v w, v ≠ w → (∃ g, sp.outcomes.Occurs g ∧ HasVar v g) → (∃ g, sp.outcomes.Occurs g ∧ HasVar w g) →
      ∃ g, sp.outcomes.Occurs g ∧ ∀ u, HasVar u g ↔ u = v ∨ u = w)
    (htwo : ∀ v, (∃ g, sp.outcomes.Occurs g ∧ HasVar v g) →
      ∃ x y g h, x ≠ y ∧ sp.outcomes.Occurs g ∧ HasValue v x g ∧ sp.outcomes.Occurs h ∧ HasValue v y h)
    (W : Finset V) (hW : ∀ v ∈ W, ∃ g, sp.outcomes.Occurs g ∧ HasVar v g) (h4 : 4 ≤ W.card) :
    sp.makeJoined o = .error .assertion := by
  by_cases hf : Factorizable sp.outcomes
  · obtain ⟨F, hF⟩ := factors_exist o sp hg hf
    obtain ⟨T, hT⟩ := manyVals_exist sp.outcomes
    obtain ⟨L, hL⟩ := Quot.exists_rep (F.val.map factorVars)
    have hmem : ∀ s, s ∈ L ↔ ∃ f ∈ F, factorVars f = s := by
      intro s
      have : s ∈ (L : Multiset (Finset V)) ↔ s ∈ F.val.map factorVars := by rw [← hL]; rfl
      rw [Multiset.mem_coe] at this
      rw [this, Multiset.mem_map]; rfl
    obtain ⟨r1, r2⟩ := C43_returns_iff o sp hg hf hc F hF T hT L hL
    apply r2
    rw [r1]
    have hnd := nodup_included_fst o sp
    have hin := mem_included_fst o sp
    generalize (o.incl.run (sp.includedVariables o.graphs o.nodes)).map Prod.fst = vs at hnd hin
    have hlen : 4 ≤ vs.length := by
      rw [← List.toFinset_card_of_nodup hnd]
      refine le_trans h4 (Finset.card_le_card fun v hv => ?_)
      rw [List.mem_toFinset, hin]; exact hW v hv
    obtain ⟨v₁, v₂, rest, rfl⟩ : ∃ v₁ v₂ rest, vs = v₁ :: v₂ :: rest := by
      match vs, hlen with
      | a :: b :: r, _ => exact ⟨a, b, r, rfl⟩
    have h12 : v₁ ≠ v₂ := by
      rintro rfl
      simp at hnd
    obtain ⟨s, hs, t, ht, hst⟩ := Finset.one_lt_card.1 (show 1 < ((W.erase v₁).erase v₂).card by
      have e1 := Finset.pred_card_le_card_erase (s := W) (a := v₁)
      have e2 := Finset.pred_card_le_card_erase (s := W.erase v₁) (a := v₂)
      omega)
    rw [Finset.mem_erase, Finset.mem_erase] at hs ht
    have o1 := (hin v₁).1 (by simp)
    have o2 := (hin v₂).1 (by simp)
    have os := hW s hs.2.2
    have ot := hW t ht.2.2
    have hset : ∀ v w, v ≠ w → (∃ g, sp.outcomes.Occurs g ∧ HasVar v g) → (∃ g, sp.outcomes.Occurs g ∧ HasVar w g) →
        ({v, w} : Finset V) ∈ L := by
      intro v w hvw hv hw
      obtain ⟨g, g1, g2⟩ := hpair v w hvw hv hw
      obtain ⟨f, hf', c, hc'⟩ := exists_factor hg hF g1
      rw [hmem]
      refine ⟨f, hf', ?_⟩
      ext u
      rw [mem_factorVars hg hF hf' hc', g2]
      simp
    rw [elimOk_clique T v₁ v₂ s t rest L h12 hs.2.1 hs.1 ht.2.1 hst ((hT s).2 (htwo s os)) (hset _ _ h12 o1 o2)
      (hset _ _ hs.2.1.symm o1 os) (hset _ _ hs.1.symm o2 os) (hset _ _ ht.1.symm o2 ot)]
    simp
  · exact makeJoined_not_factorizable o sp hf

end

/-! ### Complete pairwise networks over given pairs -/

/-- All outcomes of the pairs, with values 0 and 1. -/
def pairEntries (E : List (ℕ × ℕ)) : List (SampleGraph ℕ ℕ ℕ × ℤ) :=
  E.flatMap fun e => [(0, 0), (0, 1), (1, 0), (1, 1)].map fun x => (oneEdge ⟨e.1, x.1⟩ ⟨e.2, x.2⟩, (1 + x.1 + 2 * x.2 : ℕ))

/-- The space with these outcomes. -/
def pairSpace (E : List (ℕ × ℕ)) (h : ((pairEntries E).map Prod.fst).Nodup) : Space ℕ ℕ ℕ :=
  ⟨⟨Dict.ofList ((E.flatMap fun e => [e.1, e.2]).map fun v => (v, {0, 1})), {0}⟩, ⟨0, ⟨pairEntries E, h⟩⟩, none⟩

section
variable {E : List (ℕ × ℕ)} {h : ((pairEntries E).map Prod.fst).Nodup}

theorem pair_mem (p : SampleGraph ℕ ℕ ℕ × ℤ) : p ∈ (pairSpace E h).outcomes.items ↔
    ∃ e ∈ E, ∃ x < 2, ∃ y < 2, p = (oneEdge ⟨e.1, x⟩ ⟨e.2, y⟩, ((1 + x + 2 * y : ℕ) : ℤ)) := by
  have : p ∈ (pairSpace E h).outcomes.items ↔ p ∈ pairEntries E := by
    rw [Samples.mem_items, ← Dict.mem_entries]; rfl
  rw [this, pairEntries, List.mem_flatMap]
  refine exists_congr fun e => and_congr_right fun _ => ?_
  simp only [List.mem_map, List.mem_cons, List.not_mem_nil, or_false]
  constructor
  · rintro ⟨x, rfl | rfl | rfl | rfl, rfl⟩
    · exact ⟨0, by omega, 0, by omega, rfl⟩
    · exact ⟨0, by omega, 1, by omega, rfl⟩
    · exact ⟨1, by omega, 0, by omega, rfl⟩
    · exact ⟨1, by omega, 1, by omega, rfl⟩
  · rintro ⟨x, hx, y, hy, rfl⟩
    refine ⟨(x, y), ?_, rfl⟩
    simp only [Prod.mk.injEq]
    omega

theorem pair_occurs (g : SampleGraph ℕ ℕ ℕ) : (pairSpace E h).outcomes.Occurs g ↔
    ∃ e ∈ E, ∃ x < 2, ∃ y < 2, g = oneEdge ⟨e.1, x⟩ ⟨e.2, y⟩ := by
  constructor
  · rintro ⟨c, hc⟩
    obtain ⟨e, he, x, hx, y, hy, hp⟩ := (pair_mem (h := h) (g, c)).1 ((Samples.mem_items _ _).2 hc)
    exact ⟨e, he, x, hx, y, hy, (Prod.ext_iff.1 hp).1⟩
  · rintro ⟨e, he, x, hx, y, hy, rfl⟩
    exact ⟨_, (Samples.mem_items _ _).1 ((pair_mem (h := h) _).2 ⟨e, he, x, hx, y, hy, rfl⟩)⟩

theorem oneEdge_hasVar (a b : Node ℕ ℕ) (v : ℕ) : HasVar v (oneEdge a b) ↔ v = a.var ∨ v = b.var := by
  simp only [HasVar, oneEdge, Finset.mem_insert, Finset.mem_singleton]
  constructor
  · rintro ⟨n, rfl | rfl, rfl⟩ <;> simp
  · rintro (rfl | rfl)
    · exact ⟨a, by simp, rfl⟩
    · exact ⟨b, by simp, rfl⟩

theorem oneEdge_links (a b : Node ℕ ℕ) (P : Finset ℕ) : LinksPair (oneEdge a b) P ↔ {a.var, b.var} = P := by
  simp [LinksPair, oneEdge]

theorem oneEdge_same (a b a' b' : Node ℕ ℕ) : SameFactor (oneEdge a b) (oneEdge a' b') ↔
    ({a.var, b.var} : Finset ℕ) = {a'.var, b'.var} := by
  unfold SameFactor
  simp only [oneEdge_links]
  constructor
  · rintro (⟨-, -, h⟩ | ⟨h, -⟩)
    · exact ((h _).2 rfl)
    · simp [oneEdge] at h
  · intro h
    left
    refine ⟨by simp [oneEdge], by simp [oneEdge], fun P => by rw [h]⟩

theorem pair_eq {e e' : ℕ × ℕ} (h1 : e.1 < e.2) (h2 : e'.1 < e'.2) (h : ({e.1, e.2} : Finset ℕ) = {e'.1, e'.2}) : e = e' := by
  have m1 : e.1 ∈ ({e'.1, e'.2} : Finset ℕ) := by rw [← h]; simp
  have m2 : e.2 ∈ ({e'.1, e'.2} : Finset ℕ) := by rw [← h]; simp
  have m3 : e'.1 ∈ ({e.1, e.2} : Finset ℕ) := by rw [h]; simp
  simp only [Finset.mem_insert, Finset.mem_singleton] at m1 m2 m3
  refine Prod.ext ?_ ?_ <;> omega

theorem pair_good (hE : ∀ e ∈ E, e.1 < e.2) : AllGood (pairSpace E h).outcomes := by
  intro g hg
  obtain ⟨e, he, x, hx, y, hy, rfl⟩ := (pair_occurs g).1 hg
  have hne : (⟨e.1, x⟩ : Node ℕ ℕ).var ≠ (⟨e.2, y⟩ : Node ℕ ℕ).var := (hE e he).ne
  exact ⟨oneEdge_wf _ _ hne, by simp [oneEdge], oneEdge_single _ _ hne⟩

theorem pair_factorizable : Factorizable (pairSpace E h).outcomes := by
  refine ⟨?_, ?_⟩
  · intro g hg
    obtain ⟨e, he, x, hx, y, hy, rfl⟩ := (pair_occurs g).1 hg
    simp [oneEdge]
  · intro g g' hg hg'
    obtain ⟨e, he, x, hx, y, hy, rfl⟩ := (pair_occurs g).1 hg
    obtain ⟨e', he', x', hx', y', hy', rfl⟩ := (pair_occurs g').1 hg'
    simp only [oneEdge_links]
    rintro ⟨P, h1, h2⟩ Q
    rw [h1, h2]

theorem pair_complete : CompleteFactors (pairSpace E h).outcomes := by
  intro g hg asg ha
  obtain ⟨e, he, x, hx, y, hy, rfl⟩ := (pair_occurs g).1 hg
  have hval : ∀ v, HasVar v (oneEdge ⟨e.1, x⟩ ⟨e.2, y⟩) → asg v < 2 := by
    intro v hv
    obtain ⟨g', hg', hn⟩ := ha v hv
    obtain ⟨e', he', x', hx', y', hy', rfl⟩ := (pair_occurs g').1 hg'
    simp only [HasValue, oneEdge, Finset.mem_insert, Finset.mem_singleton, Node.mk.injEq] at hn
    omega
  refine ⟨oneEdge ⟨e.1, asg e.1⟩ ⟨e.2, asg e.2⟩, (pair_occurs _).2 ⟨e, he, _, hval _ ((oneEdge_hasVar _ _ _).2 (Or.inl rfl)),
    _, hval _ ((oneEdge_hasVar _ _ _).2 (Or.inr rfl)), rfl⟩, (oneEdge_same _ _ _ _).2 rfl, ?_⟩
  intro n hn
  simp only [oneEdge, Finset.mem_insert, Finset.mem_singleton] at hn
  rcases hn with rfl | rfl <;> rfl

open scoped Classical in
theorem pair_factors (hE : ∀ e ∈ E, e.1 < e.2) (hn : E.Nodup) : ∃ F, AreFactors (pairSpace E h).outcomes F ∧
    ((E.map fun e => ({e.1, e.2} : Finset ℕ) : List (Finset ℕ)) : Multiset (Finset ℕ)) = F.val.map factorVars := by
  let cls : ℕ × ℕ → ItemSet ℕ ℕ ℕ := fun e =>
    (pairSpace E h).outcomes.items.filter fun q => SameFactor (oneEdge ⟨e.1, 0⟩ ⟨e.2, 0⟩) q.1
  have hcls : ∀ e ∈ E, (oneEdge ⟨e.1, 0⟩ ⟨e.2, 0⟩, 1) ∈ cls e := by
    intro e he
    rw [Finset.mem_filter]
    exact ⟨(pair_mem _).2 ⟨e, he, 0, by omega, 0, by omega, rfl⟩, (oneEdge_same _ _ _ _).2 rfl⟩
  have hF : AreFactors (pairSpace E h).outcomes (E.toFinset.image cls) := by
    intro f
    rw [Finset.mem_image]
    constructor
    · rintro ⟨e, he, rfl⟩
      rw [List.mem_toFinset] at he
      exact ⟨_, (Finset.mem_filter.1 (hcls e he)).1, fun q => by rw [Finset.mem_filter]⟩
    · rintro ⟨p, hp, hq⟩
      obtain ⟨e, he, x, hx, y, hy, rfl⟩ := (pair_mem p).1 hp
      refine ⟨e, List.mem_toFinset.2 he, ?_⟩
      ext q
      rw [hq, Finset.mem_filter]
      refine and_congr_right fun hq' => ?_
      obtain ⟨e', he', x', hx', y', hy', rfl⟩ := (pair_mem q).1 hq'
      rw [oneEdge_same, oneEdge_same]
  refine ⟨_, hF, ?_⟩
  have hinj : ∀ e ∈ E, ∀ e' ∈ E, cls e = cls e' → e = e' := by
    intro e he e' he' hee
    have := hcls e he
    rw [hee, Finset.mem_filter, oneEdge_same] at this
    exact (pair_eq (hE e' he') (hE e he) this.2).symm
  rw [Finset.image_val_of_injOn (fun e he e' he' => hinj e (by simpa using he) e' (by simpa using he')), Multiset.map_map,
    List.toFinset_val, hn.dedup, Multiset.map_coe]
  congr 1
  refine List.map_congr_left fun e he => ?_
  ext v
  have hmem : cls e ∈ E.toFinset.image cls := Finset.mem_image_of_mem _ (List.mem_toFinset.2 he)
  rw [Function.comp_apply, mem_factorVars (pair_good hE) hF hmem (hcls e he), oneEdge_hasVar]
  simp

/-- When `make_joined` returns for a pairwise network. -/
theorem pair_returns (hE : ∀ e ∈ E, e.1 < e.2) (hn : E.Nodup) (o : Orders ℕ ℕ ℕ) :
    ((∃ sp', (pairSpace E h).makeJoined o = .ok sp') ↔ elimOk (E.flatMap fun e => [e.1, e.2]).toFinset
      ((o.incl.run ((pairSpace E h).includedVariables o.graphs o.nodes)).map Prod.fst) (E.map fun e => {e.1, e.2}) = true) ∧
    ((¬ ∃ sp', (pairSpace E h).makeJoined o = .ok sp') → (pairSpace E h).makeJoined o = .error .assertion) := by
  obtain ⟨F, hF, hL⟩ := pair_factors (h := h) hE hn
  refine C43_returns_iff o (pairSpace E h) (pair_good hE) pair_factorizable pair_complete F hF _ ?_ _ hL
  intro w
  rw [List.mem_toFinset, List.mem_flatMap]
  constructor
  · rintro ⟨e, he, hw⟩
    refine ⟨0, 1, oneEdge ⟨e.1, 0⟩ ⟨e.2, 0⟩, oneEdge ⟨e.1, 1⟩ ⟨e.2, 1⟩, by omega,
      (pair_occurs _).2 ⟨e, he, 0, by omega, 0, by omega, rfl⟩, ?_, (pair_occurs _).2 ⟨e, he, 1, by omega, 1, by omega, rfl⟩, ?_⟩ <;>
    · simp only [List.mem_cons, List.not_mem_nil, or_false] at hw
      rcases hw with rfl | rfl <;> simp [HasValue, oneEdge]
  · rintro ⟨x, y, g, g', -, g1, g2, -⟩
    obtain ⟨e, he, x', hx', y', hy', rfl⟩ := (pair_occurs g).1 g1
    refine ⟨e, he, ?_⟩
    simp only [HasValue, oneEdge, Finset.mem_insert, Finset.mem_singleton, Node.mk.injEq] at g2
    simp only [List.mem_cons, List.not_mem_nil, or_false]
    omega

/-- Each listing of the variables is an iteration order. -/
theorem pair_order (vs : List ℕ) (hv : vs.Nodup) (hvs : ∀ v, v ∈ vs ↔ ∃ e ∈ E, v = e.1 ∨ v = e.2) :
    ∃ o : Orders ℕ ℕ ℕ, (o.incl.run ((pairSpace E h).includedVariables o.graphs o.nodes)).map Prod.fst = vs := by
  refine ⟨⟨default, default, default, default, default, default, .ofList (vs.map fun v => (v, {0, 1})), default⟩, ?_⟩
  have hinc : ∀ oG oN, (pairSpace E h).includedVariables oG oN = (vs.map fun v => (v, ({0, 1} : Finset ℕ))).toFinset := by
    intro oG oN
    ext ⟨v, xs⟩
    rw [C30_included_variables, List.mem_toFinset, List.mem_map]
    have hx : ∀ e ∈ E, (v = e.1 ∨ v = e.2) → ∀ x, (∃ g, (pairSpace E h).outcomes.Occurs g ∧ HasValue v x g) ↔ x < 2 := by
      intro e he hv' x
      constructor
      · rintro ⟨g, g1, g2⟩
        obtain ⟨e', he', x', hx', y', hy', rfl⟩ := (pair_occurs g).1 g1
        simp only [HasValue, oneEdge, Finset.mem_insert, Finset.mem_singleton, Node.mk.injEq] at g2
        omega
      · intro hx
        refine ⟨oneEdge ⟨e.1, x⟩ ⟨e.2, x⟩, (pair_occurs _).2 ⟨e, he, x, hx, x, hx, rfl⟩, ?_⟩
        rcases hv' with rfl | rfl <;> simp [HasValue, oneEdge]
    constructor
    · rintro ⟨⟨g, g1, g2⟩, g3⟩
      obtain ⟨e, he, x, hx', y, hy, rfl⟩ := (pair_occurs g).1 g1
      rw [oneEdge_hasVar] at g2
      refine ⟨v, (hvs v).2 ⟨e, he, g2⟩, ?_⟩
      rw [Prod.mk.injEq]
      refine ⟨rfl, ?_⟩
      ext x
      rw [g3, hx e he g2]
      simp only [Finset.mem_insert, Finset.mem_singleton]
      omega
    · rintro ⟨w, hw, hwe⟩
      rw [Prod.mk.injEq] at hwe
      obtain ⟨rfl, rfl⟩ := hwe
      obtain ⟨e, he, hwe⟩ := (hvs w).1 hw
      refine ⟨⟨oneEdge ⟨e.1, 0⟩ ⟨e.2, 0⟩, (pair_occurs _).2 ⟨e, he, 0, by omega, 0, by omega, rfl⟩, (oneEdge_hasVar _ _ _).2 hwe⟩, ?_⟩
      intro x
      rw [hx e he hwe]
      simp only [Finset.mem_insert, Finset.mem_singleton]
      omega
  have hnd : (vs.map fun v => (v, ({0, 1} : Finset ℕ))).Nodup := hv.map (fun a b hab => (Prod.mk.inj hab).1)
  simp only [hinc, Order.ofList, if_pos (Finset.Subset.refl _), hnd.dedup]
  rw [List.filter_eq_self.2 (by intro a ha; simpa using ha), List.map_map]
  exact List.map_id _

end

/-- **C43.** `make_joined` is not a function of the graph: over the pairs 01, 12, 23, 03, 02 with complete factors one order of the
variables returns the product, another one raises. -/
theorem C43_order : ∃ (sp : Space ℕ ℕ ℕ) (o o' : Orders ℕ ℕ ℕ), AllGood sp.outcomes ∧ Factorizable sp.outcomes ∧
    CompleteFactors sp.outcomes ∧ (∃ sp', sp.makeJoined o = .ok sp') ∧ sp.makeJoined o' = .error .assertion := by
  have hE : ∀ e ∈ [(0, 1), (1, 2), (2, 3), (0, 3), (0, 2)], e.1 < e.2 := by decide
  have hn : [(0, 1), (1, 2), (2, 3), (0, 3), (0, 2)].Nodup := by decide
  have hd : ((pairEntries [(0, 1), (1, 2), (2, 3), (0, 3), (0, 2)]).map Prod.fst).Nodup := by decide +kernel
  have hvs : ∀ vs : List ℕ, vs.Perm [0, 1, 2, 3] → ∀ v, v ∈ vs ↔ ∃ e ∈ [(0, 1), (1, 2), (2, 3), (0, 3), (0, 2)], v = e.1 ∨ v = e.2 := by
    intro vs hp v
    rw [hp.mem_iff]
    simp
    omega
  obtain ⟨o, ho⟩ := pair_order (h := hd) [0, 1, 2, 3] (by decide) (hvs _ (by decide))
  obtain ⟨o', ho'⟩ := pair_order (h := hd) [0, 2, 1, 3] (by decide) (hvs _ (by decide))
  refine ⟨pairSpace _ hd, o, o', pair_good hE, pair_factorizable, pair_complete, ?_, ?_⟩
  · rw [(pair_returns hE hn o).1, ho]; decide +kernel
  · apply (pair_returns hE hn o').2
    rw [(pair_returns hE hn o').1, ho']; decide +kernel

/-- Outcomes 0=1 - 1=1 and 1=2 - 2=1: factors that are not complete. -/
def gapSpace : Space ℕ ℕ ℕ :=
  ⟨⟨⟨[(0, {1}), (1, {1, 2}), (2, {1})], by decide⟩, {0}⟩,
   ⟨0, ⟨[(oneEdge ⟨0, 1⟩ ⟨1, 1⟩, 2), (oneEdge ⟨1, 2⟩ ⟨2, 1⟩, 3)], by decide⟩⟩, none⟩

/-- Iteration orders for `gapSpace`; the variables are taken in the given order. -/
noncomputable def gapOrders (vs : List (ℕ × Finset ℕ)) : Orders ℕ ℕ ℕ where
  items := .ofList gapSpace.outcomes.samples.entries
  graphs := .ofList gapSpace.outcomes.samples.keys
  nodes := .ofList [⟨0, 1⟩, ⟨1, 1⟩, ⟨1, 2⟩, ⟨2, 1⟩]
  edges := .ofList [⟨{⟨0, 1⟩, ⟨1, 1⟩}, .plain 0⟩, ⟨{⟨1, 2⟩, ⟨2, 1⟩}, .plain 0⟩]
  vars := .ofList [0, 1, 2]
  vals := .ofList [1, 2]
  incl := .ofList vs
  factors := .ofList [{(oneEdge ⟨0, 1⟩ ⟨1, 1⟩, 2)}, {(oneEdge ⟨1, 2⟩ ⟨2, 1⟩, 3)},
    {(oneEdge ⟨0, 1⟩ ⟨1, 1⟩, 2), (oneEdge ⟨1, 2⟩ ⟨2, 1⟩, 3)}, ∅]

/-- The outcomes of a result, or the exception. -/
def outcomesOf (r : Py (Space ℕ ℕ ℕ)) : List (SampleGraph ℕ ℕ ℕ × ℤ) ⊕ Err :=
  match r with
  | .ok sp => .inl sp.outcomes.samples.entries
  | .error e => .inr e

/-- **C43.** Without complete factors the outcomes of the result depend on the order in which a Python set lists the variables, and
some orders raise `TypeError`. -/
theorem C43_gap :
    outcomesOf (gapSpace.makeJoined (gapOrders [(0, {1}), (1, {1, 2}), (2, {1})])) = .inl [(oneEdge ⟨1, 2⟩ ⟨2, 1⟩, 3)] ∧
    outcomesOf (gapSpace.makeJoined (gapOrders [(2, {1}), (1, {1, 2}), (0, {1})])) = .inl [(oneEdge ⟨0, 1⟩ ⟨1, 1⟩, 2)] ∧
    outcomesOf (gapSpace.makeJoined (gapOrders [(0, {1}), (2, {1}), (1, {1, 2})])) =
      .inl [(oneEdge ⟨0, 1⟩ ⟨1, 1⟩, 2), (oneEdge ⟨1, 2⟩ ⟨2, 1⟩, 3)] ∧
    outcomesOf (gapSpace.makeJoined (gapOrders [(1, {1, 2}), (0, {1}), (2, {1})])) = .inr .typeError := by
  refine ⟨?_, ?_, ?_, ?_⟩ <;> decide +kernel

/-- Non-vacuity of `C42_tree`, `C42_make_joined` and `C42_product`: the chain 0 - 1 - 2 with complete factors is joined in every order. -/
example : ∃ sp : Space ℕ ℕ ℕ, AllGood sp.outcomes ∧ CompleteFactors sp.outcomes ∧ (∃ h, sp.outcomes.Occurs h) ∧
    ∀ o, ∃ sp', sp.makeJoined o = .ok sp' := by
  have hE : ∀ e ∈ [(0, 1), (1, 2)], e.1 < e.2 := by decide
  have hn : [(0, 1), (1, 2)].Nodup := by decide
  have hd : ((pairEntries [(0, 1), (1, 2)]).map Prod.fst).Nodup := by decide +kernel
  refine ⟨pairSpace _ hd, pair_good hE, pair_complete, ⟨_, (pair_occurs _).2 ⟨(0, 1), by simp, 0, by omega, 0, by omega, rfl⟩⟩, ?_⟩
  intro o
  obtain ⟨F, hF, hL⟩ := pair_factors (h := hd) hE hn
  refine C42_tree o _ (pair_good hE) pair_factorizable pair_complete F hF _ hL ?_
  exact .add _ _ (.one _ (by simp)) (by decide)

/-- Non-vacuity of `C43_clique`: K4 with values 0 and 1. -/
example : ∃ sp : Space ℕ ℕ ℕ, AllGood sp.outcomes ∧ Factorizable sp.outcomes ∧ CompleteFactors sp.outcomes ∧
    ∀ o, sp.makeJoined o = .error .assertion := by
  have hE : ∀ e ∈ [(0, 1), (0, 2), (0, 3), (1, 2), (1, 3), (2, 3)], e.1 < e.2 := by decide
  have hd : ((pairEntries [(0, 1), (0, 2), (0, 3), (1, 2), (1, 3), (2, 3)]).map Prod.fst).Nodup := by decide +kernel
  have hocc : ∀ v, (∃ g, (pairSpace _ hd).outcomes.Occurs g ∧ HasVar v g) ↔ v < 4 := by
    intro v
    constructor
    · rintro ⟨g, g1, g2⟩
      obtain ⟨e, he, x, hx, y, hy, rfl⟩ := (pair_occurs g).1 g1
      rw [oneEdge_hasVar] at g2
      simp only [List.mem_cons, List.not_mem_nil, or_false] at he
      rcases he with rfl | rfl | rfl | rfl | rfl | rfl <;> simp at g2 <;> omega
    · intro hv
      have : ∃ e ∈ [(0, 1), (0, 2), (0, 3), (1, 2), (1, 3), (2, 3)], v = e.1 ∨ v = e.2 := by
        simp; omega
      obtain ⟨e, he, hve⟩ := this
      exact ⟨_, (pair_occurs _).2 ⟨e, he, 0, by omega, 0, by omega, rfl⟩, (oneEdge_hasVar _ _ _).2 hve⟩
  have hlt : ∀ v w, v < w → w < 4 → (v, w) ∈ [(0, 1), (0, 2), (0, 3), (1, 2), (1, 3), (2, 3)] := by
    intro v w h1 h2
    simp only [List.mem_cons, Prod.mk.injEq, List.not_mem_nil, or_false]
    omega
  refine ⟨pairSpace _ hd, pair_good hE, pair_factorizable, pair_complete, fun o => ?_⟩
  refine C43_clique o _ (pair_good hE) pair_complete ?_ ?_ (Finset.range 4) ?_ (by simp)
  · intro v w hvw hv hw
    rw [hocc] at hv hw
    rcases Nat.lt_or_gt_of_ne hvw with hlt' | hlt'
    · exact ⟨_, (pair_occurs _).2 ⟨_, hlt v w hlt' hw, 0, by omega, 0, by omega, rfl⟩, fun u => oneEdge_hasVar _ _ _⟩
    · exact ⟨_, (pair_occurs _).2 ⟨_, hlt w v hlt' hv, 0, by omega, 0, by omega, rfl⟩, fun u => by rw [oneEdge_hasVar]; tauto⟩
  · rintro v ⟨g, g1, g2⟩
    obtain ⟨e, he, x, hx, y, hy, rfl⟩ := (pair_occurs g).1 g1
    rw [oneEdge_hasVar] at g2
    refine ⟨0, 1, _, _, by omega, (pair_occurs _).2 ⟨e, he, 0, by omega, 0, by omega, rfl⟩, ?_,
      (pair_occurs _).2 ⟨e, he, 1, by omega, 1, by omega, rfl⟩, ?_⟩ <;>
    · rcases g2 with rfl | rfl <;> simp [HasValue, oneEdge]
  · intro v hv
    rw [hocc]; exact Finset.mem_range.1 hv

/-- Non-vacuity of `C43_disconnected`: the pairs 01 and 23. -/
example : ∃ sp : Space ℕ ℕ ℕ, AllGood sp.outcomes ∧ Factorizable sp.outcomes ∧ CompleteFactors sp.outcomes ∧
    ∀ o, sp.makeJoined o = .error .assertion := by
  have hE : ∀ e ∈ [(0, 1), (2, 3)], e.1 < e.2 := by decide
  have hd : ((pairEntries [(0, 1), (2, 3)]).map Prod.fst).Nodup := by decide +kernel
  refine ⟨pairSpace _ hd, pair_good hE, pair_factorizable, pair_complete, fun o => ?_⟩
  refine C43_disconnected o _ (pair_good hE) pair_complete {0, 1} ?_ ?_ ?_
  · intro g hg
    obtain ⟨e, he, x, hx, y, hy, rfl⟩ := (pair_occurs g).1 hg
    simp only [oneEdge_hasVar]
    simp only [List.mem_cons, List.not_mem_nil, or_false] at he
    rcases he with rfl | rfl <;> simp
  · exact ⟨_, 0, (pair_occurs _).2 ⟨(0, 1), by simp, 0, by omega, 0, by omega, rfl⟩, (oneEdge_hasVar _ _ _).2 (Or.inl rfl), by simp⟩
  · exact ⟨_, 2, (pair_occurs _).2 ⟨(2, 3), by simp, 0, by omega, 0, by omega, rfl⟩, (oneEdge_hasVar _ _ _).2 (Or.inl rfl), by simp⟩

end Verif
