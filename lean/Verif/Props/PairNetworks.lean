import Verif.Lemmas.PairElim

/-!
# C83: which networks of pairs of variables `make_joined` joins for every iteration order

Outcomes of one or two variables are the pairwise Markov networks with potentials on single variables. The specification uses the graph of the
variables (`varGraph`) and the relation `SameFactor` only, not the elimination.
-/

set_option linter.unusedSectionVars false

namespace Verif

section
variable {V X R : Type} [DecidableEq V] [DecidableEq X] [DecidableEq R]

/-! ### Specification -/

/-- Each outcome has one or two variables. -/
def OneOrTwo (a : Samples V X R) : Prop := ∀ g, a.Occurs g → ∃ u v, ∀ w, HasVar w g ↔ w = u ∨ w = v

/-- Each variable has two values or more. -/
def ManyValued (a : Samples V X R) : Prop := ∀ w g, a.Occurs g → HasVar w g → ∃ x y g h, x ≠ y ∧ a.Occurs g ∧ HasValue w x g ∧ a.Occurs h ∧ HasValue w y h

/-- The graph of the variables: those of a common outcome are adjacent. -/
def varGraph (a : Samples V X R) : SimpleGraph V where
  Adj u v := u ≠ v ∧ ∃ g, a.Occurs g ∧ HasVar u g ∧ HasVar v g
  symm := ⟨fun _ _ ⟨h, g, h1, h2, h3⟩ => ⟨h.symm, g, h1, h3, h2⟩⟩
  loopless := ⟨fun _ h => h.1 rfl⟩

/-- All variables are linked. -/
def AllLinked (a : Samples V X R) : Prop := ∀ u v g h, a.Occurs g → HasVar u g → a.Occurs h → HasVar v h → (varGraph a).Reachable u v

/-- No variable is in three factors. -/
def AtMostTwoFactors (a : Samples V X R) : Prop := ∀ v g₁ g₂ g₃, a.Occurs g₁ → a.Occurs g₂ → a.Occurs g₃ → HasVar v g₁ → HasVar v g₂ → HasVar v g₃ →
  SameFactor g₁ g₂ ∨ SameFactor g₁ g₃ ∨ SameFactor g₂ g₃

/-! ### Helper lemmas -/

theorem links_of_two {g : SampleGraph V X R} (hw : WellFormed g) (hs : SingleValued g.nodes) {u v : V} (h : ∀ w, HasVar w g ↔ w = u ∨ w = v) :
    (g.edges = ∅ ↔ u = v) ∧ ∀ P, LinksPair g P ↔ u ≠ v ∧ P = {u, v} := by
  have hl : ∀ P, LinksPair g P → u ≠ v ∧ P = {u, v} := by
    rintro P ⟨e, he, rfl⟩
    obtain ⟨a, b, hab, hE⟩ := hw.good e he
    have hsub := hw.closed e he
    rw [hE] at hsub
    have ha := (h a.var).1 ⟨a, hsub (by simp), rfl⟩
    have hb := (h b.var).1 ⟨b, hsub (by simp), rfl⟩
    rw [hE, Finset.image_insert, Finset.image_singleton]
    rcases ha with ha | ha <;> rcases hb with hb | hb
    · exact absurd (ha.trans hb.symm) hab
    · rw [ha, hb] at hab ⊢; exact ⟨hab, rfl⟩
    · rw [ha, hb] at hab ⊢; exact ⟨hab.symm, Finset.pair_comm _ _⟩
    · exact absurd (ha.trans hb.symm) hab
  have he : g.edges = ∅ ↔ u = v := by
    constructor
    · intro he
      obtain ⟨n, hn, hnu⟩ := (h u).2 (Or.inl rfl)
      obtain ⟨m, hm, hmv⟩ := (h v).2 (Or.inr rfl)
      rw [← hnu, ← hmv, Finset.card_le_one.1 (hw.card_le_one he) n hn m hm]
    · rintro rfl
      rw [Finset.eq_empty_iff_forall_notMem]
      intro e he
      exact (hl _ ⟨e, he, rfl⟩).1 rfl
  refine ⟨he, fun P => ⟨hl P, ?_⟩⟩
  rintro ⟨huv, rfl⟩
  obtain ⟨e, hee⟩ := Finset.nonempty_iff_ne_empty.2 fun h => huv (he.1 h)
  exact ⟨e, hee, (hl _ ⟨e, hee, rfl⟩).2⟩

/-- Outcomes of the same one or two variables are in the same factor. -/
theorem sameFactor_of_vars {a : Samples V X R} (hg : AllGood a) (h2 : OneOrTwo a) {g h : SampleGraph V X R} (h1 : a.Occurs g) (h1' : a.Occurs h)
    (hv : ∀ w, HasVar w g ↔ HasVar w h) : SameFactor g h := by
  obtain ⟨u, v, huv⟩ := h2 g h1
  obtain ⟨g1, g2, g3⟩ := hg g h1
  obtain ⟨k1, k2, k3⟩ := hg h h1'
  obtain ⟨e1, l1⟩ := links_of_two g1 g3 huv
  obtain ⟨e2, l2⟩ := links_of_two k1 k3 (fun w => (hv w).symm.trans (huv w))
  by_cases e : u = v
  · obtain ⟨n, hn, hnu⟩ := (huv u).2 (Or.inl rfl)
    obtain ⟨m, hm, hmu⟩ := (hv u).1 ((huv u).2 (Or.inl rfl))
    exact Or.inr ⟨e1.2 e, e2.2 e, n, hn, m, hm, hnu.trans hmu.symm⟩
  · exact Or.inl ⟨fun h => e (e1.1 h), fun h => e (e2.1 h), fun P => (l1 P).trans (l2 P).symm⟩

theorem factorizable_of_two {a : Samples V X R} (hg : AllGood a) (h2 : OneOrTwo a) : Factorizable a := by
  refine ⟨fun g h => Or.inl (hg g h).2.1.ne_empty, ?_⟩
  rintro g h h1 h1' ⟨P, p1, p2⟩ Q
  obtain ⟨u, v, huv⟩ := h2 g h1
  obtain ⟨u', v', huv'⟩ := h2 h h1'
  obtain ⟨-, l1⟩ := links_of_two (hg g h1).1 (hg g h1).2.2 huv
  obtain ⟨-, l2⟩ := links_of_two (hg h h1').1 (hg h h1').2.2 huv'
  obtain ⟨a1, a2⟩ := (l1 P).1 p1
  obtain ⟨b1, b2⟩ := (l2 P).1 p2
  rw [l1, l2, ← a2, ← b2]
  exact and_congr_left fun _ => ⟨fun _ => b1, fun _ => a1⟩

/-- Each listing of the variables is an iteration order of the `set` of variables. -/
theorem exists_order (sp : Space V X R) (vs : List V) (hv : vs.Nodup) (hvs : ∀ v, v ∈ vs ↔ ∃ g, sp.outcomes.Occurs g ∧ HasVar v g) :
    ∃ o : Orders V X R, (o.incl.run (sp.includedVariables o.graphs o.nodes)).map Prod.fst = vs := by
  refine ⟨⟨default, default, default, default, default, default, .ofList (vs.map fun v => (v, occVals sp.outcomes v)), default⟩, ?_⟩
  have hinc : ∀ oG oN, sp.includedVariables oG oN = (vs.map fun v => (v, occVals sp.outcomes v)).toFinset := by
    intro oG oN
    ext ⟨v, xs⟩
    rw [included_pair, List.mem_toFinset, List.mem_map]
    constructor
    · rintro ⟨h1, h2⟩
      exact ⟨v, (hvs v).2 h1, Prod.ext rfl h2.symm⟩
    · rintro ⟨w, hw, hwe⟩
      rw [Prod.mk.injEq] at hwe
      obtain ⟨rfl, rfl⟩ := hwe
      exact ⟨(hvs w).1 hw, rfl⟩
  have hnd : (vs.map fun v => (v, occVals sp.outcomes v)).Nodup := hv.map (fun a b hab => (Prod.mk.inj hab).1)
  simp only [hinc, Order.ofList, if_pos (Finset.Subset.refl _), hnd.dedup]
  rw [List.filter_eq_self.2 (by intro a ha; simpa using ha), List.map_map]
  exact List.map_id _

/-- The list of the variables of the factors. -/
theorem scopes_of_two {a : Samples V X R} (hg : AllGood a) (h2 : OneOrTwo a) {F : Finset (ItemSet V X R)} (hF : AreFactors a F) :
    ∃ L : List (Finset V), (L : Multiset (Finset V)) = F.val.map factorVars ∧ L.Nodup ∧ (∀ s ∈ L, ∃ u v, s = {u, v}) ∧
      (∀ s, s ∈ L ↔ ∃ g, a.Occurs g ∧ ∀ v, v ∈ s ↔ HasVar v g) := by
  obtain ⟨L, hL⟩ := Quot.exists_rep (F.val.map factorVars)
  have hL' : (L : Multiset (Finset V)) = F.val.map factorVars := hL
  have hmem : ∀ s, s ∈ L ↔ ∃ f ∈ F, factorVars f = s := by
    intro s; rw [← Multiset.mem_coe, hL', Multiset.mem_map]; rfl
  have hrep : ∀ f ∈ F, ∃ p ∈ f, a.Occurs p.1 ∧ (∀ q, q ∈ f ↔ q ∈ a.items ∧ SameFactor p.1 q.1) ∧ ∀ v, v ∈ factorVars f ↔ HasVar v p.1 := by
    intro f hf
    obtain ⟨p, hp, hpf⟩ := (hF f).1 hf
    have hocc : a.Occurs p.1 := ⟨p.2, (Samples.mem_items _ p).1 hp⟩
    have hpm : p ∈ f := (hpf p).2 ⟨hp, sameFactor_refl (hg _ hocc).2.1⟩
    exact ⟨p, hpm, hocc, hpf, fun v => mem_factorVars hg hF hf hpm v⟩
  have hspec : ∀ s, s ∈ L ↔ ∃ g, a.Occurs g ∧ ∀ v, v ∈ s ↔ HasVar v g := by
    intro s
    rw [hmem]
    constructor
    · rintro ⟨f, hf, rfl⟩
      obtain ⟨p, -, h, -, hv⟩ := hrep f hf
      exact ⟨p.1, h, hv⟩
    · rintro ⟨g, h, hv⟩
      obtain ⟨f, hf, c, hc⟩ := exists_factor hg hF h
      refine ⟨f, hf, ?_⟩
      ext v
      rw [hv, mem_factorVars hg hF hf hc v]
  refine ⟨L, hL', ?_, ?_, hspec⟩
  · rw [← Multiset.coe_nodup, hL']
    refine Multiset.Nodup.map_on ?_ F.nodup
    intro f hf f' hf' he
    obtain ⟨p, hp, hpo, hpf, hpv⟩ := hrep f hf
    obtain ⟨q, hq, hqo, hqf, hqv⟩ := hrep f' hf'
    have hs : SameFactor p.1 q.1 := sameFactor_of_vars hg h2 hpo hqo fun w => by rw [← hpv, ← hqv, he]
    ext r
    rw [hpf, hqf]
    refine and_congr_right fun hr => ⟨fun h => ?_, fun h => ?_⟩
    · exact sameFactor_trans (hg _ hpo).1 (sameFactor_symm hs) h
    · exact sameFactor_trans (hg _ hqo).1 hs h
  · intro s hs
    obtain ⟨g, h, hv⟩ := (hspec s).1 hs
    obtain ⟨u, v, huv⟩ := h2 g h
    exact ⟨u, v, by ext w; rw [hv, huv]; simp⟩

/-! ### C83 -/

/-- **C83.** A network of outcomes of one or two variables with two values or more each and complete factors is joined by `make_joined` for every
iteration order of the sets exactly if it is connected and has no cycle or no variable in three factors. -/
theorem C83_pairs (sp : Space V X R) (hg : AllGood sp.outcomes) (hc : CompleteFactors sp.outcomes) (h2 : OneOrTwo sp.outcomes)
    (hm : ManyValued sp.outcomes) : (∀ o, ∃ sp', sp.makeJoined o = .ok sp') ↔
      AllLinked sp.outcomes ∧ ((varGraph sp.outcomes).IsAcyclic ∨ AtMostTwoFactors sp.outcomes) := by
  classical
  have hf := factorizable_of_two hg h2
  obtain ⟨F, hF⟩ := factors_exist ⟨default, default, default, default, default, default, default, default⟩ sp hg hf
  obtain ⟨L, hL, hnd, hpair, hspec⟩ := scopes_of_two hg h2 hF
  obtain ⟨T, hT⟩ := manyVals_exist sp.outcomes
  have hret := fun o => (C43_returns_iff o sp hg hf hc F hF T hT L hL).1
  have hgraph : varGraph sp.outcomes = pairGraph L := by
    ext u v
    refine and_congr_right fun huv => ?_
    rw [hspec]
    refine exists_congr fun g => and_congr_right fun h => ⟨fun hv w => ?_, fun hv => ⟨(hv u).1 (by simp), (hv v).1 (by simp)⟩⟩
    obtain ⟨u', v', huv'⟩ := h2 g h
    rw [huv']
    have h1 := (huv' u).1 hv.1
    have h2 := (huv' v).1 hv.2
    simp only [Finset.mem_insert, Finset.mem_singleton]
    rcases h1 with rfl | rfl <;> rcases h2 with rfl | rfl
    · exact absurd rfl huv
    · rfl
    · exact or_comm
    · exact absurd rfl huv
  have hun : ∀ v, v ∈ unionL L ↔ ∃ g, sp.outcomes.Occurs g ∧ HasVar v g := by
    intro v
    rw [mem_unionL]
    constructor
    · rintro ⟨s, hs, hv⟩
      obtain ⟨g, h, hgv⟩ := (hspec s).1 hs
      exact ⟨g, h, (hgv v).1 hv⟩
    · rintro ⟨g, h, hv⟩
      obtain ⟨f, hf', c, hc'⟩ := exists_factor hg hF h
      have : ∀ w, w ∈ factorVars f ↔ HasVar w g := fun w => mem_factorVars hg hF hf' hc' w
      exact ⟨factorVars f, (hspec _).2 ⟨g, h, this⟩, (this v).2 hv⟩
  have hconnL : AllLinked sp.outcomes → ConnectedL L := by
    intro hl P hP ⟨s, hs, hsP⟩ t ht z hz
    obtain ⟨u, u', rfl⟩ := hpair s hs
    have hu : u ∈ P := hsP (by simp)
    obtain ⟨g, g1, g2⟩ := (hun u).1 ((mem_unionL _ _).2 ⟨_, hs, by simp⟩)
    obtain ⟨k, k1, k2⟩ := (hun z).1 ((mem_unionL _ _).2 ⟨_, ht, hz⟩)
    obtain ⟨w⟩ := hl u z g k g1 g2 k1 k2
    rw [hgraph] at w
    have hstep : ∀ {x y : V} (_ : (pairGraph L).Walk x y), x ∈ P → y ∈ P := by
      intro x y w
      induction w with
      | nil => exact id
      | @cons x y _ hadj _ ih =>
        intro hx
        refine ih ?_
        rcases hP _ hadj.2 with h | h
        · exact h (by simp)
        · exact absurd hx (Finset.disjoint_left.1 h (by simp))
    exact hstep w hu
  have hcount : AtMostTwoFactors sp.outcomes ↔ ∀ v, L.countP (v ∈ ·) ≤ 2 := by
    constructor
    · intro h v
      rw [List.countP_eq_length_filter]
      by_contra hlt
      have hfn := hnd.filter (fun s => decide (v ∈ s))
      match hl : L.filter (fun s => decide (v ∈ s)), hlt with
      | s :: t :: r :: q, _ =>
        rw [hl] at hfn
        have hmem : ∀ x ∈ s :: t :: r :: q, x ∈ L ∧ v ∈ x := by
          intro x hx
          rw [← hl, List.mem_filter] at hx
          exact ⟨hx.1, by simpa using hx.2⟩
        obtain ⟨s1, s2⟩ := hmem s (by simp)
        obtain ⟨t1, t2⟩ := hmem t (by simp)
        obtain ⟨r1, r2⟩ := hmem r (by simp)
        obtain ⟨a, a1, a2⟩ := (hspec s).1 s1
        obtain ⟨b, b1, b2⟩ := (hspec t).1 t1
        obtain ⟨c, c1, c2⟩ := (hspec r).1 r1
        have hsame : ∀ {x y : SampleGraph V X R} {s t : Finset V}, sp.outcomes.Occurs x → sp.outcomes.Occurs y → (∀ v, v ∈ s ↔ HasVar v x) →
            (∀ v, v ∈ t ↔ HasVar v y) → SameFactor x y → s = t := by
          intro x y s t x1 y1 x2 y2 hxy
          ext w
          rw [x2, y2]
          exact ⟨sameFactor_hasVar (hg _ x1).1 (hg _ y1).1 hxy, sameFactor_hasVar (hg _ y1).1 (hg _ x1).1 (sameFactor_symm hxy)⟩
        simp only [List.nodup_cons, List.mem_cons, not_or] at hfn
        rcases h v a b c a1 b1 c1 ((a2 v).1 s2) ((b2 v).1 t2) ((c2 v).1 r2) with h | h | h
        · exact hfn.1.1 (hsame a1 b1 a2 b2 h)
        · exact hfn.1.2.1 (hsame a1 c1 a2 c2 h)
        · exact hfn.2.1.1 (hsame b1 c1 b2 c2 h)
      | [], h => simp at h
      | [_], h => simp at h
      | [_, _], h => simp at h
    · intro h v a b c a1 b1 c1 a2 b2 c2
      by_contra hno
      push Not at hno
      have hs : ∀ {x}, sp.outcomes.Occurs x → ∃ s ∈ L, ∀ v, v ∈ s ↔ HasVar v x := by
        intro x hx
        obtain ⟨u, w, huw⟩ := h2 x hx
        have : ∀ v, v ∈ ({u, w} : Finset V) ↔ HasVar v x := by intro v; rw [huw]; simp
        exact ⟨{u, w}, (hspec _).2 ⟨x, hx, this⟩, this⟩
      obtain ⟨s, s1, s2⟩ := hs a1
      obtain ⟨t, t1, t2⟩ := hs b1
      obtain ⟨r, r1, r2⟩ := hs c1
      have hsub : [s, t, r].Subperm (L.filter fun s => decide (v ∈ s)) := by
        refine List.subperm_of_subset ?_ ?_
        · simp only [List.nodup_cons, List.mem_cons, not_or, List.not_mem_nil, not_false_eq_true, List.nodup_nil, and_true]
          refine ⟨⟨?_, ?_⟩, ?_⟩
          · rintro rfl; exact hno.1 (sameFactor_of_vars hg h2 a1 b1 fun w => (s2 w).symm.trans (t2 w))
          · rintro rfl; exact hno.2.1 (sameFactor_of_vars hg h2 a1 c1 fun w => (s2 w).symm.trans (r2 w))
          · rintro rfl; exact hno.2.2 (sameFactor_of_vars hg h2 b1 c1 fun w => (t2 w).symm.trans (r2 w))
        · intro x hx
          simp only [List.mem_cons, List.not_mem_nil, or_false] at hx
          rw [List.mem_filter]
          rcases hx with rfl | rfl | rfl
          · exact ⟨s1, by simpa using (s2 v).2 a2⟩
          · exact ⟨t1, by simpa using (t2 v).2 b2⟩
          · exact ⟨r1, by simpa using (r2 v).2 c2⟩
      have := hsub.length_le
      have h' := h v
      rw [List.countP_eq_length_filter] at h'
      simp only [List.length_cons, List.length_nil] at this
      omega
  constructor
  · intro hall
    have hlink : AllLinked sp.outcomes := by
      intro u v g h g1 g2 h1 h2'
      by_contra hno
      let P : Finset V := (unionL L).filter fun z => (varGraph sp.outcomes).Reachable u z
      have hP : ∀ z k, sp.outcomes.Occurs k → HasVar z k → (z ∈ P ↔ (varGraph sp.outcomes).Reachable u z) := by
        intro z k k1 k2
        simp only [P, Finset.mem_filter, and_iff_right_iff_imp]
        exact fun _ => (hun z).2 ⟨k, k1, k2⟩
      have herr := C43_disconnected ⟨default, default, default, default, default, default, default, default⟩ sp hg hc P ?_
        ⟨g, u, g1, g2, (hP u g g1 g2).2 (SimpleGraph.Reachable.refl _)⟩ ⟨h, v, h1, h2', fun hv => hno ((hP v h h1 h2').1 hv)⟩
      · obtain ⟨sp', hsp⟩ := hall ⟨default, default, default, default, default, default, default, default⟩
        rw [herr] at hsp
        cases hsp
      · intro k k1
        have hstep : ∀ z z', HasVar z k → HasVar z' k → (varGraph sp.outcomes).Reachable u z → (varGraph sp.outcomes).Reachable u z' := by
          intro z z' hz hz' hr
          by_cases e : z = z'
          · exact e ▸ hr
          · exact hr.trans (SimpleGraph.Adj.reachable (G := varGraph sp.outcomes) ⟨e, k, k1, hz, hz'⟩)
        obtain ⟨n, hn⟩ := (hg k k1).2.1
        by_cases hr : (varGraph sp.outcomes).Reachable u n.var
        · exact Or.inl fun z hz => (hP z k k1 hz).2 (hstep _ _ ⟨n, hn, rfl⟩ hz hr)
        · exact Or.inr fun z hz hzP => hr (hstep _ _ hz ⟨n, hn, rfl⟩ ((hP z k k1 hz).1 hzP))
    refine ⟨hlink, ?_⟩
    by_contra hno
    push Not at hno
    obtain ⟨hcyc, h3⟩ := hno
    rw [hgraph] at hcyc
    have h3' : ∃ v a b c, ({v, a} : Finset V) ∈ L ∧ ({v, b} : Finset V) ∈ L ∧ ({v, c} : Finset V) ∈ L ∧ a ≠ b ∧ a ≠ c ∧ b ≠ c := by
      unfold AtMostTwoFactors at h3
      push Not at h3
      obtain ⟨v, a, b, c, a1, b1, c1, a2, b2, c2, n1, n2, n3⟩ := h3
      have hother : ∀ {x}, sp.outcomes.Occurs x → HasVar v x → ∃ y, ∀ w, w ∈ ({v, y} : Finset V) ↔ HasVar w x := by
        intro x hx hv
        obtain ⟨u, w, huw⟩ := h2 x hx
        rcases (huw v).1 hv with rfl | rfl
        · exact ⟨w, fun z => by rw [huw]; simp⟩
        · exact ⟨u, fun z => by rw [huw]; simp [or_comm]⟩
      obtain ⟨a', ha⟩ := hother a1 a2
      obtain ⟨b', hb⟩ := hother b1 b2
      obtain ⟨c', hc'⟩ := hother c1 c2
      refine ⟨v, a', b', c', (hspec _).2 ⟨a, a1, ha⟩, (hspec _).2 ⟨b, b1, hb⟩, (hspec _).2 ⟨c, c1, hc'⟩, ?_, ?_, ?_⟩
      · rintro rfl; exact n1 (sameFactor_of_vars hg h2 a1 b1 fun w => (ha w).symm.trans (hb w))
      · rintro rfl; exact n2 (sameFactor_of_vars hg h2 a1 c1 fun w => (ha w).symm.trans (hc' w))
      · rintro rfl; exact n3 (sameFactor_of_vars hg h2 b1 c1 fun w => (hb w).symm.trans (hc' w))
    obtain ⟨v, b, x, c, cs, hvc, hch, hvb, hvx, hn, hv, hx⟩ := exists_branched_cycle hpair (hconnL hlink) hcyc h3'
    have hin : ∀ z ∈ c :: cs ++ [b], z ∈ unionL L := by
      intro z hz
      obtain ⟨i, hi, rfl⟩ := List.getElem_of_mem hz
      rw [mem_unionL]
      rcases Nat.lt_or_ge (i + 1) (c :: cs ++ [b]).length with hlt | hge
      · exact ⟨_, List.isChain_iff_getElem.1 hch i hlt, by simp⟩
      · have : i = (i - 1) + 1 := by
          simp at hge
          omega
        have h1 : (i - 1) + 1 < (c :: cs ++ [b]).length := by omega
        refine ⟨_, List.isChain_iff_getElem.1 hch (i - 1) h1, ?_⟩
        simp only [Finset.mem_insert, Finset.mem_singleton]
        right
        congr
    have hvL : v ∈ unionL L := (mem_unionL _ _).2 ⟨_, hvb, by simp⟩
    have hnc : (c :: cs).Nodup := (List.nodup_append.1 hn).1
    have hvc' : v ∉ c :: cs := fun h => hv (List.mem_append_left _ h)
    have hbc : b ∉ c :: cs := fun h => (List.nodup_append.1 hn).2.2 b h b (by simp) rfl
    let rest : List V := ((unionL L).filter fun z => z ∉ c :: cs ++ [v]).toList
    have hA : (c :: cs ++ v :: rest).Nodup := by
      have : c :: cs ++ v :: rest = (c :: cs ++ [v]) ++ rest := by simp
      rw [this, List.nodup_append]
      refine ⟨?_, Finset.nodup_toList _, ?_⟩
      · rw [List.nodup_append]
        refine ⟨hnc, by simp, ?_⟩
        rintro z hz y hy rfl
        rw [List.mem_singleton] at hy
        exact hvc' (hy ▸ hz)
      · rintro z hz y hy rfl
        simp only [rest, Finset.mem_toList, Finset.mem_filter] at hy
        exact hy.2 hz
    have hB : ∀ z, z ∈ c :: cs ++ v :: rest ↔ ∃ g, sp.outcomes.Occurs g ∧ HasVar z g := by
      intro z
      rw [← hun]
      have : c :: cs ++ v :: rest = (c :: cs ++ [v]) ++ rest := by simp
      rw [this, List.mem_append]
      simp only [rest, Finset.mem_toList, Finset.mem_filter]
      constructor
      · rintro (h | h)
        · rcases List.mem_append.1 h with h | h
          · exact hin z (List.mem_append_left _ h)
          · rw [List.mem_singleton] at h; exact h ▸ hvL
        · exact h.1
      · intro h
        by_cases hz : z ∈ c :: cs ++ [v]
        · exact Or.inl hz
        · exact Or.inr ⟨h, hz⟩
    obtain ⟨o, ho⟩ := exists_order sp (c :: cs ++ v :: rest) hA hB
    have hbT : b ∈ T := by
      obtain ⟨g, g1, g2⟩ := (hun b).1 (hin b (by simp))
      exact (hT b).2 (hm b g g1 g2)
    have := elimOk_cycle (Q := {v, x}) hbT (by simp) (by
      simp only [Finset.mem_insert, Finset.mem_singleton, not_or]
      exact ⟨by rintro rfl; exact hv (by simp), by rintro rfl; exact hx (by simp)⟩) rest cs c L {v, c} hvc (by simp) (by simp) hch hvb hvx hnc hvc' hbc (by
      intro z hz
      simp only [Finset.mem_insert, Finset.mem_singleton, not_or]
      exact ⟨by rintro rfl; exact hvc' hz, by rintro rfl; exact hx (List.mem_append_left _ hz)⟩)
    have hok := (hret o).1 (hall o)
    rw [ho, this] at hok
    exact absurd hok (by simp)
  · rintro ⟨hlink, h⟩ o
    have hconn := hconnL hlink
    rcases h with h | h
    · rw [hret]
      by_cases hne : L = []
      · have hvs : (o.incl.run (sp.includedVariables o.graphs o.nodes)).map Prod.fst = [] := by
          rw [List.eq_nil_iff_forall_not_mem]
          intro v hv
          have := (hun v).2 ((mem_included_fst o sp v).1 hv)
          rw [hne] at this
          simp [unionL] at this
        rw [hvs, hne]
        rfl
      rw [hgraph] at h
      have hforest := forest_of_acyclic hpair hnd h
      have h1 := hforest L le_rfl hne
      have h2 := card_of_connected hpair hconn hne
      have h3 := sizeL_pairs hpair
      refine elimOk_tree T _ L hforest (by omega) ?_ ?_
      · intro v hv
        exact (mem_unionL _ _).1 ((hun v).2 ((mem_included_fst o sp v).1 hv))
      · intro v hv
        left
        exact (mem_included_fst o sp v).2 ((hun v).1 hv)
    · exact C43_two_factors o sp hg hf hc F hF L hL (hcount.1 h) hconn

/-- **C83.** Otherwise there is an iteration order for which `make_joined` raises `AssertionError`. -/
theorem C83_order (sp : Space V X R) (hg : AllGood sp.outcomes) (hc : CompleteFactors sp.outcomes) (h2 : OneOrTwo sp.outcomes)
    (hm : ManyValued sp.outcomes) : (∃ o, sp.makeJoined o = .error .assertion) ↔
      ¬ AllLinked sp.outcomes ∨ (¬ (varGraph sp.outcomes).IsAcyclic ∧ ¬ AtMostTwoFactors sp.outcomes) := by
  have h := C83_pairs sp hg hc h2 hm
  have hf := factorizable_of_two hg h2
  obtain ⟨F, hF⟩ := factors_exist ⟨default, default, default, default, default, default, default, default⟩ sp hg hf
  obtain ⟨L, hL, -⟩ := scopes_of_two hg h2 hF
  obtain ⟨T, hT⟩ := manyVals_exist sp.outcomes
  have hiff : (∃ o, sp.makeJoined o = .error .assertion) ↔ ¬ ∀ o, ∃ sp', sp.makeJoined o = .ok sp' := by
    constructor
    · rintro ⟨o, ho⟩ hall
      obtain ⟨sp', hsp⟩ := hall o
      rw [ho] at hsp
      cases hsp
    · intro hn
      obtain ⟨o, ho⟩ := not_forall.1 hn
      exact ⟨o, (C43_returns_iff o sp hg hf hc F hF T hT L hL).2 ho⟩
  rw [hiff, h]
  tauto

end

/-! ### Non-vacuity -/

section
variable {E : List (ℕ × ℕ)} {h : ((pairEntries E).map Prod.fst).Nodup}

theorem pair_oneOrTwo : OneOrTwo (pairSpace E h).outcomes := by
  intro g hg
  obtain ⟨e, he, x, hx, y, hy, rfl⟩ := (pair_occurs g).1 hg
  exact ⟨e.1, e.2, fun w => oneEdge_hasVar _ _ _⟩

theorem pair_manyValued : ManyValued (pairSpace E h).outcomes := by
  intro w g hg hw
  obtain ⟨e, he, x, hx, y, hy, rfl⟩ := (pair_occurs g).1 hg
  rw [oneEdge_hasVar] at hw
  refine ⟨0, 1, oneEdge ⟨e.1, 0⟩ ⟨e.2, 0⟩, oneEdge ⟨e.1, 1⟩ ⟨e.2, 1⟩, by simp, (pair_occurs _).2 ⟨e, he, 0, by omega, 0, by omega, rfl⟩, ?_,
    (pair_occurs _).2 ⟨e, he, 1, by omega, 1, by omega, rfl⟩, ?_⟩
  · rcases hw with rfl | rfl <;> simp [HasValue, oneEdge]
  · rcases hw with rfl | rfl <;> simp [HasValue, oneEdge]

theorem pair_adj (u v : ℕ) : (varGraph (pairSpace E h).outcomes).Adj u v ↔ u ≠ v ∧ ∃ e ∈ E, (u = e.1 ∨ u = e.2) ∧ (v = e.1 ∨ v = e.2) := by
  refine and_congr_right fun _ => ?_
  constructor
  · rintro ⟨g, hg, h1, h2⟩
    obtain ⟨e, he, x, hx, y, hy, rfl⟩ := (pair_occurs g).1 hg
    rw [oneEdge_hasVar] at h1 h2
    exact ⟨e, he, h1, h2⟩
  · rintro ⟨e, he, h1, h2⟩
    exact ⟨_, (pair_occurs _).2 ⟨e, he, 0, by omega, 0, by omega, rfl⟩, (oneEdge_hasVar _ _ _).2 h1, (oneEdge_hasVar _ _ _).2 h2⟩

end

/-- A triangle is joined for every order (it has a cycle, but no variable in three factors). -/
theorem triangle_joined : ∃ sp : Space ℕ ℕ ℕ, AllGood sp.outcomes ∧ CompleteFactors sp.outcomes ∧ OneOrTwo sp.outcomes ∧ ManyValued sp.outcomes ∧
    ¬ (varGraph sp.outcomes).IsAcyclic ∧ ∀ o, ∃ sp', sp.makeJoined o = .ok sp' := by
  have hE : ∀ e ∈ [(0, 1), (1, 2), (0, 2)], e.1 < e.2 := by decide
  have hd : ((pairEntries [(0, 1), (1, 2), (0, 2)]).map Prod.fst).Nodup := by decide +kernel
  have hadj : ∀ u v, u ≠ v → u < 3 → v < 3 → (varGraph (pairSpace _ hd).outcomes).Adj u v := by
    intro u v huv hu hv
    rw [pair_adj]
    refine ⟨huv, ?_⟩
    have hu' : u = 0 ∨ u = 1 ∨ u = 2 := by omega
    have hv' : v = 0 ∨ v = 1 ∨ v = 2 := by omega
    rcases hu' with rfl | rfl | rfl <;> rcases hv' with rfl | rfl | rfl <;> simp_all
  have hvar : ∀ g, (pairSpace _ hd).outcomes.Occurs g → ∀ v, HasVar v g → v < 3 := by
    intro g hg v hv
    obtain ⟨e, he, x, hx, y, hy, rfl⟩ := (pair_occurs g).1 hg
    rw [oneEdge_hasVar] at hv
    simp only [List.mem_cons, List.not_mem_nil, or_false] at he
    rcases he with rfl | rfl | rfl <;> simp at hv <;> omega
  refine ⟨pairSpace _ hd, pair_good hE, pair_complete, pair_oneOrTwo, pair_manyValued, ?_, ?_⟩
  · intro hac
    let w := SimpleGraph.Walk.cons (hadj 0 1 (by simp) (by simp) (by simp)) (.cons (hadj 1 2 (by simp) (by simp) (by simp))
      (.cons (hadj 2 0 (by simp) (by simp) (by simp)) .nil))
    refine hac w ?_
    simp [w, SimpleGraph.Walk.cons_isCycle_iff]
  · rw [C83_pairs _ (pair_good hE) pair_complete pair_oneOrTwo pair_manyValued]
    refine ⟨?_, Or.inr ?_⟩
    · intro u v g k g1 g2 k1 k2
      by_cases e : u = v
      · exact e ▸ SimpleGraph.Reachable.refl _
      · exact (hadj u v e (hvar g g1 u g2) (hvar k k1 v k2)).reachable
    · intro v g₁ g₂ g₃ h1 h2 h3 v1 v2 v3
      obtain ⟨e, he, x, hx, y, hy, rfl⟩ := (pair_occurs _).1 h1
      obtain ⟨e', he', x', hx', y', hy', rfl⟩ := (pair_occurs _).1 h2
      obtain ⟨e'', he'', x'', hx'', y'', hy'', rfl⟩ := (pair_occurs _).1 h3
      rw [oneEdge_hasVar] at v1 v2 v3
      have hsame : ∀ {a b c d : Node ℕ ℕ}, a.var = c.var → b.var = d.var → SameFactor (oneEdge a b) (oneEdge c d) := by
        intro a b c d hac hbd
        rw [oneEdge_same, hac, hbd]
      by_cases e1 : e = e'
      · subst e1; exact Or.inl (hsame rfl rfl)
      by_cases e2 : e = e''
      · subst e2; exact Or.inr (Or.inl (hsame rfl rfl))
      by_cases e3 : e' = e''
      · subst e3; exact Or.inr (Or.inr (hsame rfl rfl))
      exfalso
      simp only [List.mem_cons, List.not_mem_nil, or_false] at he he' he''
      rcases he with rfl | rfl | rfl <;> rcases he' with rfl | rfl | rfl <;> rcases he'' with rfl | rfl | rfl <;> simp at e1 e2 e3 v1 v2 v3 <;> omega

/-- A triangle with a further pair at one corner is not joined for some order. -/
theorem pendant_not_joined : ∃ sp : Space ℕ ℕ ℕ, AllGood sp.outcomes ∧ CompleteFactors sp.outcomes ∧ OneOrTwo sp.outcomes ∧ ManyValued sp.outcomes ∧
    ∃ o, sp.makeJoined o = .error .assertion := by
  have hE : ∀ e ∈ [(0, 1), (1, 2), (0, 2), (2, 3)], e.1 < e.2 := by decide
  have hd : ((pairEntries [(0, 1), (1, 2), (0, 2), (2, 3)]).map Prod.fst).Nodup := by decide +kernel
  refine ⟨pairSpace _ hd, pair_good hE, pair_complete, pair_oneOrTwo, pair_manyValued, ?_⟩
  rw [C83_order _ (pair_good hE) pair_complete pair_oneOrTwo pair_manyValued]
  have hadj : ∀ u v, u ≠ v → u < 3 → v < 3 → (varGraph (pairSpace _ hd).outcomes).Adj u v := by
    intro u v huv hu hv
    rw [pair_adj]
    refine ⟨huv, ?_⟩
    have hu' : u = 0 ∨ u = 1 ∨ u = 2 := by omega
    have hv' : v = 0 ∨ v = 1 ∨ v = 2 := by omega
    rcases hu' with rfl | rfl | rfl <;> rcases hv' with rfl | rfl | rfl <;> simp_all
  refine Or.inr ⟨?_, ?_⟩
  · intro hac
    let w := SimpleGraph.Walk.cons (hadj 0 1 (by simp) (by simp) (by simp)) (.cons (hadj 1 2 (by simp) (by simp) (by simp))
      (.cons (hadj 2 0 (by simp) (by simp) (by simp)) .nil))
    refine hac w ?_
    simp [w, SimpleGraph.Walk.cons_isCycle_iff]
  · intro hat
    have := hat 2 (oneEdge ⟨1, 0⟩ ⟨2, 0⟩) (oneEdge ⟨0, 0⟩ ⟨2, 0⟩) (oneEdge ⟨2, 0⟩ ⟨3, 0⟩)
      ((pair_occurs _).2 ⟨(1, 2), by simp, 0, by omega, 0, by omega, rfl⟩) ((pair_occurs _).2 ⟨(0, 2), by simp, 0, by omega, 0, by omega, rfl⟩)
      ((pair_occurs _).2 ⟨(2, 3), by simp, 0, by omega, 0, by omega, rfl⟩) (by simp [HasVar, oneEdge]) (by simp [HasVar, oneEdge]) (by simp [HasVar, oneEdge])
    rw [oneEdge_same, oneEdge_same, oneEdge_same] at this
    revert this
    decide

end Verif
