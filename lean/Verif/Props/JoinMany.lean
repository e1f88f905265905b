import Verif.Lemmas.JoinBlocks
import Verif.Props.Cutset

/-!
# C88: `joined_on_variables` on several variables

Unlike `make_joined` (C83–C85) it joins factors in cycles as well, for every order, and gives the product.
-/

set_option linter.unusedSectionVars false

namespace Verif

section
variable {V X R : Type} [DecidableEq V] [DecidableEq X] [DecidableEq R]

/-! ### Specification -/

/-- `B` are the factors of one part of the outcomes: those reached from an outcome by chains of outcomes of one factor or with a common variable of `vs`. -/
def IsPart (a : Samples V X R) (F : Finset (ItemSet V X R)) (vs : Finset V) (B : Finset (ItemSet V X R)) : Prop :=
  ∃ g, a.Occurs g ∧ ∀ f, f ∈ B ↔ f ∈ F ∧ ∃ q ∈ f, JoinedBy a (· ∈ vs) g q.1

/-! ### Helper lemmas -/

namespace LoopInv
variable {iter : V → Option (Finset V)} {a : Samples V X R} {F : Finset (ItemSet V X R)} {D : Finset V} {𝓑 : Finset (Finset (ItemSet V X R))} {acc : Samples V X R}

theorem mem_block_iff (h : LoopInv iter F D 𝓑 acc) (ha : FactorFacts a F) {B : Finset (ItemSet V X R)} (hB : B ∈ 𝓑) {f : ItemSet V X R} (hf : f ∈ B)
    {p : SampleGraph V X R × ℤ} (hp : p ∈ f) (f' : ItemSet V X R) : f' ∈ B ↔ f' ∈ F ∧ ∃ q ∈ f', JoinedBy a (· ∈ D) p.1 q.1 := by
  have hfF := h.sub hB hf
  constructor
  · intro hf'
    have key : ∀ x, Relation.ReflTransGen (FactorStep F D) f x → ∀ q ∈ x, x ∈ F → JoinedBy a (· ∈ D) p.1 q.1 := by
      intro x hx
      induction hx with
      | refl =>
        intro q hq _
        exact .single ⟨ha.occ hfF hp, ha.occ hfF hq, Or.inl ((ha.same_iff hfF hfF hp hq).2 rfl)⟩
      | @tail b c _ hbc ih =>
        intro q hq hc
        obtain ⟨hb, -, r, hr, hrb, hrc⟩ := hbc
        obtain ⟨k, hk⟩ := ha.nonempty hb
        exact (ih k hk hb).tail ⟨ha.occ hb hk, ha.occ hc hq, Or.inr ⟨r, hr, (ha.hasVar_iff' hb hk r).2 hrb, (ha.hasVar_iff' hc hq r).2 hrc⟩⟩
    obtain ⟨q, hq⟩ := ha.nonempty (h.sub hB hf')
    exact ⟨h.sub hB hf', q, hq, key f' (h.chain B hB f hf f' hf') q hq (h.sub hB hf')⟩
  · rintro ⟨hf', q, hq, hj⟩
    have key : ∀ g, JoinedBy a (· ∈ D) p.1 g → ∃ x ∈ B, ∃ c, (g, c) ∈ x := by
      intro g hg
      induction hg with
      | refl => exact ⟨f, hf, p.2, hp⟩
      | @tail b c _ hbc ih =>
        obtain ⟨x, hx, n, hxn⟩ := ih
        obtain ⟨-, ⟨m, hm⟩, hs⟩ := hbc
        obtain ⟨y, hy, hym⟩ := ha.mem_factor hm
        refine ⟨y, ?_, m, hym⟩
        rcases hs with hs | ⟨r, hr, hrb, hrc⟩
        · rw [← (ha.same_iff (h.sub hB hx) hy hxn hym).1 hs]; exact hx
        · obtain ⟨B', hB', hyB⟩ := h.block_of hy
          have := h.sep B hB B' hB' r hr (Finset.mem_biUnion.2 ⟨x, hx, (ha.hasVar_iff' (h.sub hB hx) hxn r).1 hrb⟩)
            (Finset.mem_biUnion.2 ⟨y, hyB, (ha.hasVar_iff' hy hym r).1 hrc⟩)
          rw [this]; exact hyB
    obtain ⟨x, hx, c, hxc⟩ := key q.1 hj
    have hs : SameFactor q.1 q.1 := sameFactor_refl (ha.gd hf' hq).2.1
    rw [(ha.same_iff hf' (h.sub hB hx) hq hxc).1 hs]; exact hx

theorem block_iff (h : LoopInv iter F D 𝓑 acc) (ha : FactorFacts a F) (B : Finset (ItemSet V X R)) : B ∈ 𝓑 ↔ IsPart a F D B := by
  constructor
  · intro hB
    obtain ⟨f, hf⟩ := h.ne B hB
    obtain ⟨p, hp⟩ := ha.nonempty (h.sub hB hf)
    exact ⟨p.1, ha.occ (h.sub hB hf) hp, h.mem_block_iff ha hB hf hp⟩
  · rintro ⟨g, ⟨c, hc⟩, hg⟩
    obtain ⟨f, hf, hgf⟩ := ha.mem_factor hc
    obtain ⟨B', hB', hfB⟩ := h.block_of hf
    have : B = B' := by
      ext f'
      rw [hg, h.mem_block_iff ha hB' hfB hgf]
    rw [this]; exact hB'

end LoopInv

theorem joinedBy_congr {a : Samples V X R} {P Q : V → Prop} (h : ∀ v g, a.Occurs g → HasVar v g → P v → Q v) {g k : SampleGraph V X R}
    (hj : JoinedBy a P g k) : JoinedBy a Q g k :=
  Relation.ReflTransGen.mono (fun x _ ⟨h1, h2, h3⟩ => ⟨h1, h2, h3.imp_right fun ⟨r, hr, hr1, hr2⟩ => ⟨r, h r x h1 hr1 hr, hr1, hr2⟩⟩) g k hj

/-! ### Properties -/

/-- **C88.** If the factors have a joint outcome, `joined_on_variables` returns, whatever the orders, exactly if the variables of `vs` with outcomes of their own can be iterated
and there are no two factors with edges, the same variables and one of `vs` among them. (`hiter`: when iterating a variable yields it, it yields nothing else; as for strings.) -/
theorem C88_returns (iter : V → Option (Finset V)) (o : Orders V X R) (sp : Space V X R) (hg : AllGood sp.outcomes) (hf : Factorizable sp.outcomes)
    (F : Finset (ItemSet V X R)) (hF : AreFactors sp.outcomes F) (hj : ∃ p, IsJoin F id p) (vs : Finset V)
    (hiter : ∀ v ∈ vs, ∀ s, iter v = some s → v ∈ s → s = {v}) :
    (∃ sp', sp.joinedOnVariables iter o (some vs) = .ok sp') ↔
      (∀ g, sp.outcomes.Occurs g → g.edges = ∅ → ∀ v ∈ vs, HasVar v g → iter v ≠ none) ∧
      ∀ g h, sp.outcomes.Occurs g → sp.outcomes.Occurs h → g.edges ≠ ∅ → h.edges ≠ ∅ → (∀ w, HasVar w g ↔ HasVar w h) → (∃ v ∈ vs, HasVar v g) → SameFactor g h := by
  have ha : FactorFacts sp.outcomes F := ⟨hg, hf, hF, hj⟩
  obtain ⟨l1, l2⟩ := LoopInv.loop ha o.items o.graphs o.nodes o.edges (o.vars.run vs) (LoopInv.init iter ha)
  have hvs : (o.vars.run vs).toFinset = vs := by ext v; rw [List.mem_toFinset, o.vars.mem]
  rw [Finset.empty_union, hvs] at l1
  have hret : (∃ sp', sp.joinedOnVariables iter o (some vs) = .ok sp') ↔
      ∃ r, (o.vars.run vs).foldlM (Samples.joinOn iter o.items o.graphs o.nodes o.edges) sp.outcomes = .ok r := by
    unfold Space.joinedOnVariables
    simp only
    cases (o.vars.run vs).foldlM (Samples.joinOn iter o.items o.graphs o.nodes o.edges) sp.outcomes with
    | error e => simp
    | ok r => simp
  rw [hret]
  constructor
  · rintro ⟨r, hr⟩
    obtain ⟨𝓑, h⟩ := l1 r hr
    constructor
    · rintro g ⟨c, hc⟩ he v hv hgv
      obtain ⟨f, hf, hgf⟩ := ha.mem_factor hc
      exact h.iterable f hf _ hgf he v hv hgv
    · rintro g k ⟨c, hc⟩ ⟨d, hd⟩ he he' hw ⟨v, hv, hgv⟩
      obtain ⟨f, hf, hgf⟩ := ha.mem_factor hc
      obtain ⟨f', hf', hkf⟩ := ha.mem_factor hd
      refine (ha.same_iff hf hf' hgf hkf).2 (h.distinct f hf f' hf' _ hgf _ hkf he he' ?_ ⟨v, hv, (ha.hasVar_iff' hf hgf v).1 hgv⟩)
      ext w
      rw [← ha.hasVar_iff' hf hgf, ← ha.hasVar_iff' hf' hkf]; exact hw w
  · rintro ⟨c1, c2⟩
    refine l2 (fun v hv => hiter v ((o.vars.mem vs v).1 hv)) ?_ ?_
    · intro v hv f hf p hp he hpv
      exact c1 p.1 (ha.occ hf hp) he v ((o.vars.mem vs v).1 hv) hpv
    · intro v hv f hf f' hf' p hp p' hp' he he' hvars hvf
      refine (ha.same_iff hf hf' hp hp').1 (c2 p.1 p'.1 (ha.occ hf hp) (ha.occ hf' hp') he he' (fun w => ?_)
        ⟨v, (o.vars.mem vs v).1 hv, (ha.hasVar_iff' hf hp v).2 hvf⟩)
      rw [ha.hasVar_iff' hf hp, ha.hasVar_iff' hf' hp', hvars]

/-- **C88.** When it returns, the outcomes are the joins of one outcome of each factor of a part, where factors with a common variable of `vs` are in one part; it is the same for all orders. -/
theorem C88_parts (iter : V → Option (Finset V)) (o : Orders V X R) (sp : Space V X R) (hg : AllGood sp.outcomes) (hf : Factorizable sp.outcomes)
    (F : Finset (ItemSet V X R)) (hF : AreFactors sp.outcomes F) (hj : ∃ p, IsJoin F id p) (vs : Finset V) (sp' : Space V X R)
    (h : sp.joinedOnVariables iter o (some vs) = .ok sp') (g : SampleGraph V X R) (c : ℤ) :
    sp'.outcomes.samples.get? g = some c ↔ ∃ B, IsPart sp.outcomes F vs B ∧ IsJoin B id (g, c) := by
  have ha : FactorFacts sp.outcomes F := ⟨hg, hf, hF, hj⟩
  obtain ⟨l1, -⟩ := LoopInv.loop ha o.items o.graphs o.nodes o.edges (o.vars.run vs) (LoopInv.init iter ha)
  have hvs : (o.vars.run vs).toFinset = vs := by ext v; rw [List.mem_toFinset, o.vars.mem]
  rw [Finset.empty_union, hvs] at l1
  unfold Space.joinedOnVariables at h
  simp only at h
  split at h
  · simp at h
  · rename_i r hr
    rw [Except.ok.injEq] at h
    subst h
    obtain ⟨𝓑, hi⟩ := l1 r hr
    rw [hi.get]
    simp only [hi.block_iff ha]

/-- **C88.** Without argument, when all outcomes hang together: the outcomes are the joins of one outcome of each factor. -/
theorem C88_all (iter : V → Option (Finset V)) (o : Orders V X R) (sp : Space V X R) (hg : AllGood sp.outcomes) (hf : Factorizable sp.outcomes)
    (F : Finset (ItemSet V X R)) (hF : AreFactors sp.outcomes F) (hj : ∃ p, IsJoin F id p) (hh : HangTogether sp.outcomes) (sp' : Space V X R)
    (h : sp.joinedOnVariables iter o none = .ok sp') (g : SampleGraph V X R) (c : ℤ) :
    sp'.outcomes.samples.get? g = some c ↔ (∃ k, sp.outcomes.Occurs k) ∧ IsJoin F id (g, c) := by
  classical
  have ha : FactorFacts sp.outcomes F := ⟨hg, hf, hF, hj⟩
  have hvs : ∀ v, v ∈ sp.outcomes.graphs.biUnion graphVars ↔ ∃ g, sp.outcomes.Occurs g ∧ HasVar v g := by
    intro v
    simp only [Finset.mem_biUnion, Samples.mem_graphs, mem_graphVars]
    rfl
  rw [C41_default iter o sp _ hvs] at h
  rw [C88_parts iter o sp hg hf F hF hj _ sp' h]
  have hpart : ∀ B, IsPart sp.outcomes F (sp.outcomes.graphs.biUnion graphVars) B ↔ (∃ k, sp.outcomes.Occurs k) ∧ B = F := by
    intro B
    have hall : ∀ k, sp.outcomes.Occurs k → ∀ f, f ∈ F → ∃ q ∈ f, JoinedBy sp.outcomes (· ∈ sp.outcomes.graphs.biUnion graphVars) k q.1 := by
      intro k hk f hf
      obtain ⟨q, hq⟩ := ha.nonempty hf
      exact ⟨q, hq, joinedBy_congr (fun v x hx hv _ => (hvs v).2 ⟨x, hx, hv⟩) (hh k q.1 hk (ha.occ hf hq))⟩
    constructor
    · rintro ⟨k, hk, hB⟩
      refine ⟨⟨k, hk⟩, ?_⟩
      ext f
      rw [hB]
      exact ⟨And.left, fun hf => ⟨hf, hall k hk f hf⟩⟩
    · rintro ⟨⟨k, hk⟩, rfl⟩
      exact ⟨k, hk, fun f => ⟨fun hf => ⟨hf, hall k hk f hf⟩, And.left⟩⟩
  simp only [hpart]
  constructor
  · rintro ⟨B, ⟨hk, rfl⟩, hJ⟩; exact ⟨hk, hJ⟩
  · rintro ⟨hk, hJ⟩; exact ⟨F, ⟨hk, rfl⟩, hJ⟩

/-- **C88.** Complete factors have a joint outcome. -/
theorem C88_complete (a : Samples V X R) (hg : AllGood a) (hf : Factorizable a) (hc : CompleteFactors a) (F : Finset (ItemSet V X R)) (hF : AreFactors a F) :
    ∃ p, IsJoin F id p := by
  have hs := factorSys_of a hg hf hc F hF
  rcases Finset.eq_empty_or_nonempty F with rfl | ⟨f, hfF⟩
  · exact ⟨(⟨∅, ∅⟩, 1), fun _ => (⟨∅, ∅⟩, 1), by simp, by intro x hx; simp at hx, by simp, by simp, by simp⟩
  · obtain ⟨p, hp⟩ := hs.nonempty f hfF
    obtain ⟨n, hn⟩ := (hs.sys.wf f hfF p hp).2.1
    have : Nonempty X := ⟨n.val⟩
    obtain ⟨asg, hasg⟩ := BlockInv.exists_asg hs
    obtain ⟨p, hp, -⟩ := hs.join_complete (Finset.Subset.refl F) asg hasg
    exact ⟨p, hp⟩

/-- **C88.** With complete factors, when both return, `joined_on_variables` without argument and `make_joined` give the same outcomes. -/
theorem C88_make_joined (iter : V → Option (Finset V)) (o o' : Orders V X R) (sp : Space V X R) (hg : AllGood sp.outcomes) (hf : Factorizable sp.outcomes)
    (hc : CompleteFactors sp.outcomes) (sp₁ sp₂ : Space V X R) (h₁ : sp.makeJoined o = .ok sp₁) (h₂ : sp.joinedOnVariables iter o' none = .ok sp₂) :
    ∀ g, sp₁.outcomes.samples.get? g = sp₂.outcomes.samples.get? g := by
  obtain ⟨F, hF'⟩ := (C33_factorized_iff sp o.items o.nodes o.graphs).1 ((C33_is_factorized sp o.graphs).2 hf)
  have hF : AreFactors sp.outcomes F := fun f => mem_factors_iff sp o.items o.nodes (edgeless_card hg) F hF' f
  have hh := ((C84_order o sp hg hf hc).1 ⟨sp₁, h₁⟩).1
  intro g
  ext c
  rw [((C42_make_joined o sp hg hc).2 sp₁ h₁).2.2.2 F hF g c,
    C88_all iter o' sp hg hf F hF (C88_complete sp.outcomes hg hf hc F hF) hh sp₂ h₂]

open scoped Classical in
/-- **C88.** It is the product of the factors: the count of an assignment is the product of its counts in the factors. -/
theorem C88_product (iter : V → Option (Finset V)) (o : Orders V X R) (sp : Space V X R) (hg : AllGood sp.outcomes) (hf : Factorizable sp.outcomes)
    (hne : ∃ k, sp.outcomes.Occurs k) (F : Finset (ItemSet V X R)) (hF : AreFactors sp.outcomes F) (hj : ∃ p, IsJoin F id p) (hh : HangTogether sp.outcomes)
    (sp' : Space V X R) (h : sp.joinedOnVariables iter o none = .ok sp') (asg : V → X) :
    ∑ p ∈ sp'.outcomes.items.filter (fun p => Follows asg p.1), p.2 = ∏ f ∈ F, ∑ q ∈ f.filter (fun q => Follows asg q.1), q.2 := by
  have ha : FactorFacts sp.outcomes F := ⟨hg, hf, hF, hj⟩
  refine joins_product ha.sys _ (fun p => ?_) asg
  rw [Samples.mem_items, C88_all iter o sp hg hf F hF hj hh sp' h]
  simp [hne]

open scoped Classical in
/-- **C88.** A pairwise network with complete factors whose graph is connected, with whatever cycles, is joined for every order if variables can be iterated (as strings), and the result
is the product of the potentials. -/
theorem C88_pairs (iter : V → Option (Finset V)) (o : Orders V X R) (sp : Space V X R) (hg : AllGood sp.outcomes) (hc : CompleteFactors sp.outcomes) (h2 : OneOrTwo sp.outcomes)
    (hl : AllLinked sp.outcomes) (hiter : ∀ v, ∃ s, iter v = some s ∧ (v ∈ s → s = {v})) (hne : ∃ k, sp.outcomes.Occurs k) :
    ∃ sp', sp.joinedOnVariables iter o none = .ok sp' ∧ ∀ F, AreFactors sp.outcomes F → ∀ asg : V → X,
      ∑ p ∈ sp'.outcomes.items.filter (fun p => Follows asg p.1), p.2 = ∏ f ∈ F, ∑ q ∈ f.filter (fun q => Follows asg q.1), q.2 := by
  have hf := factorizable_of_two hg h2
  have hh := (hang_iff_linked hg).2 hl
  have hvs : ∀ v, v ∈ sp.outcomes.graphs.biUnion graphVars ↔ ∃ g, sp.outcomes.Occurs g ∧ HasVar v g := by
    intro v
    simp only [Finset.mem_biUnion, Samples.mem_graphs, mem_graphVars]
    rfl
  obtain ⟨F, hF'⟩ := (C33_factorized_iff sp o.items o.nodes o.graphs).1 ((C33_is_factorized sp o.graphs).2 hf)
  have hF : AreFactors sp.outcomes F := fun f => mem_factors_iff sp o.items o.nodes (edgeless_card hg) F hF' f
  have hj := C88_complete sp.outcomes hg hf hc F hF
  have hi : ∀ v s, iter v = some s → v ∈ s → s = {v} := by
    intro v s hs hv
    obtain ⟨s', h1, h2⟩ := hiter v
    rw [hs, Option.some.injEq] at h1
    exact h1 ▸ h2 (h1 ▸ hv)
  obtain ⟨sp', h⟩ := (C88_returns iter o sp hg hf F hF hj (sp.outcomes.graphs.biUnion graphVars) (fun v _ => hi v)).2
    ⟨fun g _ _ v _ _ hn => by obtain ⟨s, hs, -⟩ := hiter v; rw [hn] at hs; simp at hs, fun g k hgo hko _ _ hw _ => sameFactor_of_vars hg h2 hgo hko hw⟩
  rw [← C41_default iter o sp _ hvs] at h
  refine ⟨sp', h, fun F' hF'' asg => ?_⟩
  exact C88_product iter o sp hg hf hne F' hF'' (C88_complete sp.outcomes hg hf hc F' hF'') hh sp' h asg

end

/-! ### Non-vacuity and refutations -/

/-- A triangle with a potential on each variable: `make_joined` raises `AssertionError` for every order, `joined_on_variables` returns for every order, the product. -/
theorem cycle_joined_small : ∃ sp : Space ℕ ℕ ℕ, AllGood sp.outcomes ∧ CompleteFactors sp.outcomes ∧ OneOrTwo sp.outcomes ∧ AllLinked sp.outcomes ∧
    (∃ k, sp.outcomes.Occurs k ∧ HasValue 0 0 k) ∧ Positive sp.outcomes ∧ (∀ o, sp.makeJoined o = .error .assertion) ∧ (∀ o, ∃ sp', sp.joinedOnVariables (fun v => some {v}) o none = .ok sp') ∧
    (∏ v ∈ sp.outcomes.graphs.biUnion graphVars, ((occVals sp.outcomes v).card : ℤ)) * ∏ p ∈ sp.outcomes.items, (1 + p.2) ≤ 2 ^ 1022 ∧
    ∀ v, (occVals sp.outcomes v).card ≤ 2 := by
  have hE : ∀ e ∈ [(0, 1), (1, 2), (0, 2)], e.1 < e.2 := by decide
  have hW : ∀ e ∈ [(0, 1), (1, 2), (0, 2)], e.1 ∈ [0, 1, 2] ∧ e.2 ∈ [0, 1, 2] := by decide
  have hd : ((fieldEntries [(0, 1), (1, 2), (0, 2)] [0, 1, 2]).map Prod.fst).Nodup := by decide +kernel
  have hg := field_good (h := hd) hE
  have hc := field_complete (h := hd)
  have h2 := field_oneOrTwo (h := hd)
  have hm := field_manyValued (h := hd) hW
  have hown := field_own (h := hd) hW
  have hlt : ∀ g, (fieldSpace _ _ hd).outcomes.Occurs g → ∀ v, HasVar v g → v < 3 := by
    intro g h v hv
    rcases (field_occurs g).1 h with ⟨e, he, x, hx, y, hy, rfl⟩ | ⟨v', hv', x, hx, rfl⟩
    · rw [oneEdge_hasVar] at hv
      simp only [List.mem_cons, List.not_mem_nil, or_false] at he
      rcases he with rfl | rfl | rfl <;> simp at hv <;> omega
    · rw [node_hasVar] at hv
      simp only [List.mem_cons, List.not_mem_nil, or_false] at hv'
      simp only at hv
      omega
  have hadj : ∀ u v, u ≠ v → u < 3 → v < 3 → (varGraph (fieldSpace _ _ hd).outcomes).Adj u v := by
    intro u v huv hu hv
    refine field_adj ?_ huv
    have hu' : u = 0 ∨ u = 1 ∨ u = 2 := by omega
    have hv' : v = 0 ∨ v = 1 ∨ v = 2 := by omega
    rcases hu' with rfl | rfl | rfl <;> rcases hv' with rfl | rfl | rfl <;> simp_all
  have hlinked : AllLinked (fieldSpace _ _ hd).outcomes := by
    intro u v g k g1 g2 k1 k2
    by_cases huv : u = v
    · subst huv; exact .refl _
    · exact (hadj u v huv (hlt g g1 u g2) (hlt k k1 v k2)).reachable
  have hno : ∀ o, (fieldSpace _ _ hd).makeJoined o = .error .assertion := by
    intro o
    refine (C85_pairs o _ hg hc h2 hm hown).2 ?_
    rintro ⟨-, hac⟩
    let w := SimpleGraph.Walk.cons (field_adj (h := hd) (u := 0) (v := 1) (by simp) (by simp)) (.cons (field_adj (u := 1) (v := 2) (by simp) (by simp))
      (.cons (field_adj (u := 2) (v := 0) (by simp) (by simp)) .nil))
    refine hac w ?_
    simp [w, SimpleGraph.Walk.cons_isCycle_iff]
  have hx : (fieldSpace _ _ hd).outcomes.Occurs ⟨{⟨0, 0⟩}, ∅⟩ := (field_occurs _).2 (Or.inr ⟨0, by simp, 0, by omega, rfl⟩)
  have hpos : Positive (fieldSpace _ _ hd).outcomes := by
    intro g c h
    have : ∀ p ∈ fieldEntries [(0, 1), (1, 2), (0, 2)] [0, 1, 2], 0 < p.2 := by decide +kernel
    exact this (g, c) ((Dict.mem_entries _ _ _).2 h)
  refine ⟨fieldSpace _ _ hd, hg, hc, h2, hlinked, ⟨_, hx, by simp [HasValue]⟩, hpos, hno, fun o => ?_, ?_, fun v => ?_⟩
  · obtain ⟨sp', h, -⟩ := C88_pairs (fun v => some {v}) o _ hg hc h2 hlinked (fun v => ⟨{v}, rfl, fun _ => rfl⟩) ⟨_, hx⟩
    exact ⟨sp', h⟩
  · clear hpos hx hno hlinked hadj hlt hown hm h2 hc hg
    decide +kernel +revert
  · have h2 : occVals (fieldSpace _ _ hd).outcomes v ⊆ {0, 1} := by
      intro x hx
      obtain ⟨g, g1, g2⟩ := (mem_occVals _ _ _).1 hx
      rcases (field_occurs g).1 g1 with ⟨e, he, x', hx', y, hy, rfl⟩ | ⟨v', hv', x', hx', rfl⟩
      · simp [HasValue, oneEdge] at g2
        simp only [Finset.mem_insert, Finset.mem_singleton]
        omega
      · simp [HasValue] at g2
        simp only [Finset.mem_insert, Finset.mem_singleton]
        omega
    exact Finset.card_le_card h2

/-- The same without the sizes. -/
theorem cycle_joined : ∃ sp : Space ℕ ℕ ℕ, AllGood sp.outcomes ∧ CompleteFactors sp.outcomes ∧ OneOrTwo sp.outcomes ∧ AllLinked sp.outcomes ∧
    (∃ k, sp.outcomes.Occurs k ∧ HasValue 0 0 k) ∧ Positive sp.outcomes ∧ (∀ o, sp.makeJoined o = .error .assertion) ∧ ∀ o, ∃ sp', sp.joinedOnVariables (fun v => some {v}) o none = .ok sp' := by
  obtain ⟨sp, h1, h2, h3, h4, h5, h6, h7, h8, -⟩ := cycle_joined_small
  exact ⟨sp, h1, h2, h3, h4, h5, h6, h7, h8⟩

/-- `0=0 - 1=0`, `1=1 - 2=0` and `2=0 - 3=0`: no joint outcome. -/
def clashSpace : Space ℕ ℕ ℕ :=
  ⟨⟨⟨[(0, {0}), (1, {0, 1}), (2, {0}), (3, {0})], by decide⟩, {0}⟩,
   ⟨0, ⟨[(oneEdge ⟨0, 0⟩ ⟨1, 0⟩, 1), (oneEdge ⟨1, 1⟩ ⟨2, 0⟩, 1), (oneEdge ⟨2, 0⟩ ⟨3, 0⟩, 1)], by decide⟩⟩, none⟩

/-- `1=1 - 2=0 - 3=0`. -/
def clashGraph : SampleGraph ℕ ℕ ℕ := ⟨{⟨1, 1⟩, ⟨2, 0⟩, ⟨3, 0⟩}, {⟨{⟨1, 1⟩, ⟨2, 0⟩}, .plain 0⟩, ⟨{⟨2, 0⟩, ⟨3, 0⟩}, .plain 0⟩}⟩

/-- Iteration orders for `clashSpace`; variables in the order of the list. -/
noncomputable def clashOrders (vs : List ℕ) : Orders ℕ ℕ ℕ where
  items := .ofList (clashSpace.outcomes.samples.entries ++ [(clashGraph, 1)])
  graphs := .ofList (clashSpace.outcomes.samples.keys ++ [clashGraph])
  nodes := .ofList [⟨0, 0⟩, ⟨1, 0⟩, ⟨1, 1⟩, ⟨2, 0⟩, ⟨3, 0⟩]
  edges := .ofList [⟨{⟨0, 0⟩, ⟨1, 0⟩}, .plain 0⟩, ⟨{⟨1, 1⟩, ⟨2, 0⟩}, .plain 0⟩, ⟨{⟨2, 0⟩, ⟨3, 0⟩}, .plain 0⟩]
  vars := .ofList vs
  vals := .ofList [0, 1]
  incl := default
  factors := default

/-- **C88**, refutation: without a joint outcome the result depends on the iteration order of the set of variables. With 1 first the factors that clash disappear and the third stays as it
is; with 2 first nothing remains. -/
theorem C88_order_counterexample :
    (∃ sp₁, clashSpace.joinedOnVariables (fun v => some {v}) (clashOrders [1, 2]) (some {1, 2}) = .ok sp₁ ∧
      sp₁.outcomes.samples.get? (oneEdge ⟨2, 0⟩ ⟨3, 0⟩) = some 1) ∧
    ∃ sp₂, clashSpace.joinedOnVariables (fun v => some {v}) (clashOrders [2, 1]) (some {1, 2}) = .ok sp₂ ∧ ∀ g, sp₂.outcomes.samples.get? g = none := by
  have h1 : (match clashSpace.joinedOnVariables (fun v => some {v}) (clashOrders [1, 2]) (some {1, 2}) with
    | .ok sp => decide (sp.outcomes.samples.get? (oneEdge ⟨2, 0⟩ ⟨3, 0⟩) = some 1)
    | .error _ => false) = true := by decide +kernel
  have h2 : (match clashSpace.joinedOnVariables (fun v => some {v}) (clashOrders [2, 1]) (some {1, 2}) with
    | .ok sp => decide (sp.outcomes.samples.entries = [])
    | .error _ => false) = true := by decide +kernel
  constructor
  · cases h : clashSpace.joinedOnVariables (fun v => some {v}) (clashOrders [1, 2]) (some {1, 2}) with
    | error e => rw [h] at h1; simp at h1
    | ok sp => rw [h] at h1; exact ⟨sp, rfl, by simpa using h1⟩
  · cases h : clashSpace.joinedOnVariables (fun v => some {v}) (clashOrders [2, 1]) (some {1, 2}) with
    | error e => rw [h] at h2; simp at h2
    | ok sp =>
      rw [h] at h2
      refine ⟨sp, rfl, fun g => ?_⟩
      have h0 : sp.outcomes.samples.entries = [] := by simpa using h2
      cases hc : sp.outcomes.samples.get? g with
      | none => rfl
      | some c => rw [← Dict.mem_entries, h0] at hc; simp at hc

end Verif
