import Verif.Lemmas.JoinOnDepth
import Verif.Props.JoinMany
import Verif.Props.JoinDepth

/-!
# C92: `joined_on_variables` within the limit on nested calls

Unlike `make_joined` (C79) it nests no deeper than the number of factors of one variable and of linked pairs.
-/

set_option linter.unusedSectionVars false

namespace Verif

section
variable {V X R : Type} [DecidableEq V] [DecidableEq X] [DecidableEq R]

/-! ### Helper lemmas -/

/-- A well formed graph with one value per variable has an edge per linked pair of variables. -/
theorem edges_card_le {g : SampleGraph V X R} (hw : WellFormed g) (hs : SingleValued g.nodes) (P : Finset (Finset V)) (hP : ∀ S, LinksPair g S → S ∈ P) :
    g.edges.card ≤ P.card := by
  refine Finset.card_le_card_of_injOn (fun e => e.endpoints.image Node.var) (fun e he => hP _ ⟨e, he, rfl⟩) ?_
  intro e he e' he' hee
  have key : ∀ e ∈ g.edges, ∀ e' ∈ g.edges, e.endpoints.image Node.var = e'.endpoints.image Node.var → e.endpoints ⊆ e'.endpoints := by
    intro e he e' he' hee n hn
    have : n.var ∈ e'.endpoints.image Node.var := by rw [← hee]; exact Finset.mem_image_of_mem _ hn
    obtain ⟨m, hm, hmn⟩ := Finset.mem_image.1 this
    rw [← hs m (hw.closed e' he' hm) n (hw.closed e he hn) hmn]; exact hm
  exact hw.onePer e he e' he' (Finset.Subset.antisymm (key e he e' he' hee) (key e' he' e he hee.symm))

theorem vals_mem {K A : Type} [DecidableEq K] {d : Dict K A} {s : A} (h : s ∈ d.vals) : ∃ k, d.get? k = some s := by
  obtain ⟨⟨k, s'⟩, hk, rfl⟩ := List.mem_map.1 h
  exact ⟨k, (d.mem_entries k s').1 hk⟩

theorem vals_length {K A : Type} [DecidableEq K] (d : Dict K A) : d.vals.length = d.keys.toFinset.card := by
  rw [List.toFinset_card_of_nodup d.nodup_keys]
  simp [Dict.vals, Dict.keys]

/-- Factorized outcomes are not merged. -/
theorem filter_groupD {a : Samples V X R} (hg : AllGood a) (hf : Factorizable a) {d : ℕ} (hd : 0 < d) (iter : V → Option (Finset V)) (v : V) :
    (a.filterSamples fun g => decide (v ∈ g.includedVariables)).groupIntersectingD d iter = (a.filterSamples fun g => decide (v ∈ g.includedVariables)).groupIntersecting iter := by
  refine Samples.groupIntersectingD_factorized hd iter _ ?_
  rintro g g' ⟨c, hc⟩ ⟨c', hc'⟩ hs
  rw [filterSamples_get] at hc hc'
  have hg1 : a.Occurs g := ⟨c, hc.1⟩
  have hg2 : a.Occurs g' := ⟨c', hc'.1⟩
  intro x
  rcases sameFactor_of_sharesPair hf hg1 hg2 hs with ⟨h1, h2, h3⟩ | ⟨h1, h2, n, hn, m, hm, hnm⟩
  · cases x with
    | inl w => simp [Links, h1, h2]
    | inr P => exact h3 P
  · cases x with
    | inr P => simp [Links, h1, h2]
    | inl w =>
      have c1 := (hg g hg1).1.card_le_one h1
      have c2 := (hg g' hg2).1.card_le_one h2
      rw [Finset.card_le_one] at c1 c2
      constructor
      · rintro ⟨-, k, hk, rfl⟩; exact ⟨h2, m, hm, by rw [← hnm, c1 k hk n hn]⟩
      · rintro ⟨-, k, hk, rfl⟩; exact ⟨h1, n, hn, by rw [hnm, c2 k hk m hm]⟩

namespace LoopInv
variable {iter : V → Option (Finset V)} {a : Samples V X R} {F : Finset (ItemSet V X R)} {D : Finset V} {𝓑 : Finset (Finset (ItemSet V X R))} {acc : Samples V X R}

theorem links (h : LoopInv iter F D 𝓑 acc) (ha : FactorFacts a F) {P : Finset (Finset V)} (hP : ∀ g, a.Occurs g → ∀ S, LinksPair g S → S ∈ P) {g : SampleGraph V X R}
    (hg : acc.Occurs g) : g.edges.card ≤ P.card := by
  obtain ⟨hw, -, hs⟩ := h.good g hg
  refine edges_card_le hw hs P ?_
  rintro S ⟨e, he, rfl⟩
  obtain ⟨c, hc⟩ := hg
  obtain ⟨B, hB, sel, h1, -, -, h4, -⟩ := (h.get g c).1 hc
  rw [h4, Finset.mem_biUnion] at he
  obtain ⟨f, hf, hef⟩ := he
  exact hP _ (ha.occ (h.sub hB hf) (h1 f hf)) _ ⟨e, hef, rfl⟩

open scoped Classical in
theorem groups_le (h : LoopInv iter F D 𝓑 acc) (ha : FactorFacts a F) (v : V) {gr : Dict (Finset V) (Samples V X R)}
    (hgr : (acc.filterSamples fun g => decide (v ∈ g.includedVariables)).groupIntersecting iter = .ok gr) :
    gr.vals.length ≤ (F.filter fun f => v ∈ factorVars f).card := by
  obtain ⟨s1, s2, -⟩ := C24_sound iter _ gr hgr
  have hch : ∀ K ∈ gr.keys.toFinset, ∃ f, f ∈ F ∧ v ∈ factorVars f ∧ ∃ s g c B, gr.get? K = some s ∧ s.samples.get? g = some c ∧ B ∈ 𝓑 ∧ IsJoin B id (g, c) ∧ f ∈ B := by
    intro K hK
    rw [List.mem_toFinset, Dict.mem_keys] at hK
    obtain ⟨s, hs⟩ := hK
    obtain ⟨-, ⟨g, c, hg⟩, h3, -⟩ := s1 K s hs
    have := h3 g c hg
    rw [filterSamples_get, decide_eq_true_eq, hasVar_iff] at this
    obtain ⟨B, hB, hj⟩ := (h.get g c).1 this.1
    have hv := (ha.join_hasVar (h.sub hB) hj v).1 this.2
    obtain ⟨f, hf, hfv⟩ := Finset.mem_biUnion.1 hv
    exact ⟨f, h.sub hB hf, hfv, s, g, c, B, hs, hg, hB, hj, hf⟩
  rw [vals_length]
  choose! φ h1 h2 h3 using hch
  refine Finset.card_le_card_of_injOn φ (fun K hK => Finset.mem_filter.2 ⟨h1 K hK, h2 K hK⟩) ?_
  intro K hK K' hK' he
  by_contra hne
  obtain ⟨s, g, c, B, k1, k2, k3, k4, k5⟩ := h3 K hK
  obtain ⟨s', g', c', B', l1, l2, l3, l4, l5⟩ := h3 K' hK'
  rw [← he] at l5
  have := h.block_eq k3 l3 k5 l5
  subst this
  exact (s2 K s K' s' g c g' c' k1 l1 hne k2 l2).2 (sharesPair_of_sameFactor (h.same_of_block ha k3 k4 l4))

open scoped Classical in
theorem stepD (h : LoopInv iter F D 𝓑 acc) (ha : FactorFacts a F) (oI : Order (SampleGraph V X R × ℤ)) (oG : Order (SampleGraph V X R))
    (oN : Order (Node V X)) (oE : Order (Edge V X R)) (v : V) {P : Finset (Finset V)} (hP : ∀ g, a.Occurs g → ∀ S, LinksPair g S → S ∈ P) {k d : ℕ}
    (hk : (F.filter fun f => v ∈ factorVars f).card ≤ k) (hd : k + 1 + P.card ≤ d) :
    Samples.joinOnD d iter oI oG oN oE acc v = Samples.joinOn iter oI oG oN oE acc v := by
  unfold Samples.joinOnD Samples.joinOn
  simp only
  rw [filter_groupD h.good (h.factorizable ha) (by omega) iter v]
  cases hgr : (acc.filterSamples fun g => decide (v ∈ g.includedVariables)).groupIntersecting iter with
  | error e => rfl
  | ok gr =>
    simp only
    have hlen := h.groups_le ha v hgr
    obtain ⟨s1, -⟩ := C24_sound iter _ gr hgr
    rw [Samples.crossJoinD_enough oI oN oE P.card gr.vals d (Samples.empty acc.prov) ?_ ?_ (by omega)]
    · rfl
    · intro grp hgrp p hp
      obtain ⟨K, hK⟩ := vals_mem hgrp
      have := (s1 K grp hK).2.2.1 p.1 p.2 ((Samples.mem_items _ _).1 hp)
      rw [filterSamples_get] at this
      exact h.links ha hP ⟨p.2, this.1⟩
    · intro g hg
      simp [Samples.empty, Dict.keys, Dict.empty] at hg

open scoped Classical in
theorem loopD (ha : FactorFacts a F) (oI : Order (SampleGraph V X R × ℤ)) (oG : Order (SampleGraph V X R))
    (oN : Order (Node V X)) (oE : Order (Edge V X R)) {P : Finset (Finset V)} (hP : ∀ g, a.Occurs g → ∀ S, LinksPair g S → S ∈ P) {k d : ℕ} (hd : k + 1 + P.card ≤ d) (L : List V) :
    ∀ {D : Finset V} {𝓑 : Finset (Finset (ItemSet V X R))} {acc : Samples V X R}, LoopInv iter F D 𝓑 acc → (∀ v ∈ L, (F.filter fun f => v ∈ factorVars f).card ≤ k) →
      L.foldlM (Samples.joinOnD d iter oI oG oN oE) acc = L.foldlM (Samples.joinOn iter oI oG oN oE) acc := by
  induction L with
  | nil => exact fun _ _ => rfl
  | cons v t ih =>
    intro D 𝓑 acc h hk
    rw [List.foldlM_cons, List.foldlM_cons, h.stepD ha oI oG oN oE v hP (hk v (by simp)) hd]
    cases hs : Samples.joinOn iter oI oG oN oE acc v with
    | error e => rfl
    | ok b =>
      obtain ⟨𝓑', h'⟩ := h.step ha oI oG oN oE v b hs
      exact ih h' fun w hw => hk w (by simp [hw])

end LoopInv

theorem joinedOnVariablesD_default (d : ℕ) (iter : V → Option (Finset V)) (o : Orders V X R) (sp : Space V X R) (vs : Finset V)
    (hvs : ∀ v, v ∈ vs ↔ ∃ g, sp.outcomes.Occurs g ∧ HasVar v g) : sp.joinedOnVariablesD d iter o none = sp.joinedOnVariablesD d iter o (some vs) := by
  have : (sp.includedVariables o.graphs o.nodes).image Prod.fst = vs := by
    ext v
    rw [hvs, Finset.mem_image]
    constructor
    · rintro ⟨⟨w, xs⟩, hw, rfl⟩
      exact ((C30_included_variables sp _ _ w xs).1 hw).1
    · intro hv
      refine ⟨(v, (sp.outcomes.graphs.biUnion fun g => g.nodes).filter (fun n => n.var = v) |>.image Node.val), ?_, rfl⟩
      rw [C30_included_variables]
      refine ⟨hv, fun x => ?_⟩
      simp only [Finset.mem_image, Finset.mem_filter, Finset.mem_biUnion, Samples.mem_graphs]
      constructor
      · rintro ⟨n, ⟨⟨g, hg, hn⟩, rfl⟩, rfl⟩; exact ⟨g, hg, hn⟩
      · rintro ⟨g, hg, hn⟩; exact ⟨⟨v, x⟩, ⟨⟨g, hg, hn⟩, rfl⟩, rfl⟩
  unfold Space.joinedOnVariablesD
  simp only [this]

/-! ### Properties -/

/-- **C92.** With a limit `joined_on_variables` returns the same as without, raises the same, or raises `RecursionError`. -/
theorem C92_limit (iter : V → Option (Finset V)) (o : Orders V X R) (sp : Space V X R) (d : ℕ) (vars : Option (Finset V)) :
    sp.joinedOnVariablesD d iter o vars = .error .fuel ∨ sp.joinedOnVariablesD d iter o vars = sp.joinedOnVariables iter o vars := by
  unfold Space.joinedOnVariablesD Space.joinedOnVariables
  simp only
  have := fun L => Lim.foldlM (fun b v => Samples.joinOnD_lim d iter o.items o.graphs o.nodes o.edges b v) L sp.outcomes
  cases vars with
  | none =>
    simp only
    rcases this (o.vars.run ((sp.includedVariables o.graphs o.nodes).image Prod.fst)) with h | h
    · rw [h]; exact Or.inl rfl
    · rw [h]; exact Or.inr rfl
  | some vs =>
    simp only
    rcases this (o.vars.run vs) with h | h
    · rw [h]; exact Or.inl rfl
    · rw [h]; exact Or.inr rfl

open scoped Classical in
/-- **C92.** Factorized outcomes with a joint outcome, each of the variables in at most `k` factors, and `P` the linked pairs of variables: a limit of `k + 1 + P.card` is enough,
whatever the orders. -/
theorem C92_enough (iter : V → Option (Finset V)) (o : Orders V X R) (sp : Space V X R) (hg : AllGood sp.outcomes) (hf : Factorizable sp.outcomes)
    (F : Finset (ItemSet V X R)) (hF : AreFactors sp.outcomes F) (hj : ∃ p, IsJoin F id p) (vs : Finset V) (P : Finset (Finset V))
    (hP : ∀ g, sp.outcomes.Occurs g → ∀ S, LinksPair g S → S ∈ P) (k d : ℕ) (hk : ∀ v ∈ vs, (F.filter fun f => v ∈ factorVars f).card ≤ k) (hd : k + 1 + P.card ≤ d) :
    sp.joinedOnVariablesD d iter o (some vs) = sp.joinedOnVariables iter o (some vs) := by
  have ha : FactorFacts sp.outcomes F := ⟨hg, hf, hF, hj⟩
  unfold Space.joinedOnVariablesD Space.joinedOnVariables
  simp only
  rw [LoopInv.loopD ha o.items o.graphs o.nodes o.edges hP hd (o.vars.run vs) (LoopInv.init iter ha) fun v hv => hk v ((o.vars.mem vs v).1 hv)]
  rfl

open scoped Classical in
/-- **C92.** The same without argument. -/
theorem C92_enough_all (iter : V → Option (Finset V)) (o : Orders V X R) (sp : Space V X R) (hg : AllGood sp.outcomes) (hf : Factorizable sp.outcomes)
    (F : Finset (ItemSet V X R)) (hF : AreFactors sp.outcomes F) (hj : ∃ p, IsJoin F id p) (P : Finset (Finset V))
    (hP : ∀ g, sp.outcomes.Occurs g → ∀ S, LinksPair g S → S ∈ P) (k d : ℕ) (hk : ∀ v, (F.filter fun f => v ∈ factorVars f).card ≤ k) (hd : k + 1 + P.card ≤ d) :
    sp.joinedOnVariablesD d iter o none = sp.joinedOnVariables iter o none := by
  have hvs : ∀ v, v ∈ sp.outcomes.graphs.biUnion graphVars ↔ ∃ g, sp.outcomes.Occurs g ∧ HasVar v g := by
    intro v
    simp only [Finset.mem_biUnion, Samples.mem_graphs, mem_graphVars]
    rfl
  rw [joinedOnVariablesD_default d iter o sp _ hvs, C41_default iter o sp _ hvs]
  exact C92_enough iter o sp hg hf F hF hj _ P hP k d (fun v _ => hk v) hd

open scoped Classical in
/-- **C92.** When a variable is in `d` factors or more, joining on it alone raises `RecursionError` with the limit `d` where it returns with no limit. -/
theorem C92_raises (iter : V → Option (Finset V)) (o : Orders V X R) (sp : Space V X R) (hg : AllGood sp.outcomes) (hf : Factorizable sp.outcomes)
    (F : Finset (ItemSet V X R)) (hF : AreFactors sp.outcomes F) (v : V) (sp' : Space V X R) (h : sp.joinedOnVariables iter o (some {v}) = .ok sp') (d : ℕ)
    (hd : d ≤ (F.filter fun f => v ∈ factorVars f).card) : sp.joinedOnVariablesD d iter o (some {v}) = .error .fuel := by
  rcases C92_limit iter o sp d (some {v}) with h' | h'
  · exact h'
  rw [h] at h'
  unfold Space.joinedOnVariablesD at h'
  unfold Space.joinedOnVariables at h
  simp only [Order.run_singleton, List.foldlM_cons, List.foldlM_nil] at h h'
  exfalso
  obtain ⟨j, hj⟩ : ∃ j, j = sp.outcomes.filterSamples fun g => decide (v ∈ g.includedVariables) := ⟨_, rfl⟩
  obtain ⟨hjg, hown, hchain⟩ := factorized_filter hg hf v j hj
  have hne : ∀ g c, j.samples.get? g = some c → g.nodes.Nonempty := fun g c hc => (hg g ⟨c, ((hjg g c).1 hc).1⟩).2.1
  cases hgr : j.groupIntersecting iter with
  | error e =>
    have : Samples.joinOn iter o.items o.graphs o.nodes o.edges sp.outcomes v = .error e := by
      unfold Samples.joinOn; simp only; rw [← hj, hgr]
    rw [this] at h; cases h
  | ok gr =>
    obtain ⟨s1, -⟩ := C24_sound iter j gr hgr
    obtain ⟨t1, t2⟩ := (C24_complete iter j (C24_own hown) hne).1 gr hgr
    have hcard : d ≤ gr.vals.length := by
      refine hd.trans ?_
      rw [vals_length]
      have hch : ∀ f ∈ F.filter fun f => v ∈ factorVars f, ∃ K, K ∈ gr.keys.toFinset ∧ ∃ s p, gr.get? K = some s ∧ p ∈ f ∧ s.samples.get? p.1 = some p.2 ∧
          j.samples.get? p.1 = some p.2 ∧ ∀ q, q ∈ f ↔ q ∈ sp.outcomes.items ∧ SameFactor p.1 q.1 := by
        intro f hf'
        obtain ⟨hfF, hv⟩ := Finset.mem_filter.1 hf'
        obtain ⟨p, hp, hpf⟩ := (hF f).1 hfF
        have hw : ∀ x ∈ sp.outcomes.items, WellFormed x.1 := fun x hx => (hg x.1 ⟨x.2, (Samples.mem_items _ x).1 hx⟩).1
        have hpp : p ∈ f := (hpf p).2 ⟨hp, sameFactor_refl (hg p.1 ⟨p.2, (Samples.mem_items _ p).1 hp⟩).2.1⟩
        simp only [factorVars, Finset.mem_biUnion, Finset.mem_image] at hv
        obtain ⟨q, hq, n, hn, rfl⟩ := hv
        obtain ⟨q1, q2⟩ := (hpf q).1 hq
        have hpv : HasVar n.var p.1 := sameFactor_hasVar (hw q q1) (hw p hp) (sameFactor_symm q2) ⟨n, hn, rfl⟩
        have hpj : j.samples.get? p.1 = some p.2 := (hjg _ _).2 ⟨(Samples.mem_items _ p).1 hp, hpv⟩
        obtain ⟨K, s, hK, hs⟩ := t1 p.1 p.2 hpj
        refine ⟨K, ?_, s, p, hK, hpp, hs, hpj, hpf⟩
        rw [List.mem_toFinset, Dict.mem_keys]; exact ⟨s, hK⟩
      choose! φ h1 h2 using hch
      refine Finset.card_le_card_of_injOn φ h1 ?_
      intro f hf f' hf' he
      obtain ⟨s, p, k1, k2, k3, k4, k5⟩ := h2 f hf
      obtain ⟨s', p', l1, l2, l3, l4, l5⟩ := h2 f' hf'
      rw [← he, k1, Option.some.injEq] at l1
      subst l1
      have hs := (hchain p.1 p'.1 ⟨_, k4⟩ ⟨_, l4⟩).1 ((t2 _ s p.1 p.2 p'.1 p'.2 k1 k3 l4).1 ⟨_, l3⟩)
      have hw : ∀ g c, j.samples.get? g = some c → WellFormed g := fun g c hc => (hg g ⟨c, ((hjg g c).1 hc).1⟩).1
      ext q
      rw [k5, l5]
      refine and_congr_right fun _ => ⟨fun h => ?_, fun h => ?_⟩
      · exact sameFactor_trans (hw _ _ k4) (sameFactor_symm hs) h
      · exact sameFactor_trans (hw _ _ l4) hs h
    have : Samples.joinOnD d iter o.items o.graphs o.nodes o.edges sp.outcomes v = .error .fuel := by
      unfold Samples.joinOnD
      simp only
      rw [← hj]
      rcases Samples.groupIntersectingD_lim d iter j with hl | hl
      · rw [hl]
      · rw [hl, hgr]
        simp only
        rw [Samples.crossJoinD_fuel o.items o.nodes o.edges gr.vals d _ ?_ hcard]
        intro grp hgrp
        obtain ⟨K, hK⟩ := vals_mem hgrp
        obtain ⟨p1, ⟨g, c, hgc⟩, -⟩ := s1 K grp hK
        refine ⟨by rw [p1, hj]; rfl, (g, c), (Samples.mem_items _ _).2 hgc⟩
    rw [this] at h'
    cases h'

open scoped Classical in
/-- **C92.** A connected pairwise network with complete factors, with whatever cycles, each variable in at most `k` factors: `joined_on_variables` returns the product of the potentials within a
limit of `k + 1` and the number of linked pairs, for every order. -/
theorem C92_pairs (iter : V → Option (Finset V)) (o : Orders V X R) (sp : Space V X R) (hg : AllGood sp.outcomes) (hc : CompleteFactors sp.outcomes) (h2 : OneOrTwo sp.outcomes)
    (hl : AllLinked sp.outcomes) (hiter : ∀ v, ∃ s, iter v = some s ∧ (v ∈ s → s = {v})) (hne : ∃ k, sp.outcomes.Occurs k) (P : Finset (Finset V))
    (hP : ∀ g, sp.outcomes.Occurs g → ∀ S, LinksPair g S → S ∈ P) (F : Finset (ItemSet V X R)) (hF : AreFactors sp.outcomes F) (k d : ℕ)
    (hk : ∀ v, (F.filter fun f => v ∈ factorVars f).card ≤ k) (hd : k + 1 + P.card ≤ d) :
    ∃ sp', sp.joinedOnVariablesD d iter o none = .ok sp' ∧ ∀ asg : V → X,
      ∑ p ∈ sp'.outcomes.items.filter (fun p => Follows asg p.1), p.2 = ∏ f ∈ F, ∑ q ∈ f.filter (fun q => Follows asg q.1), q.2 := by
  obtain ⟨sp', h, hp⟩ := C88_pairs iter o sp hg hc h2 hl hiter hne
  have hf := factorizable_of_two hg h2
  refine ⟨sp', ?_, hp F hF⟩
  rw [C92_enough_all iter o sp hg hf F hF (C88_complete sp.outcomes hg hf hc F hF) P hP k d hk hd, h]

end

/-! ### Chains and stars -/

/-- **C92.** The chain of `C79_chain`, 0 - 1 - ... - m: `make_joined` raises `RecursionError` for every order within 1000 calls, `joined_on_variables` returns for every order within `m + 3`. -/
theorem C92_chain (m : ℕ) (hm : 19 ≤ m) : ∃ sp : Space ℕ ℕ ℕ, (∀ g, sp.outcomes.Occurs g ↔ ∃ i < m, ∃ x < 2, ∃ y < 2, g = oneEdge ⟨i, x⟩ ⟨i + 1, y⟩) ∧
    ∀ o, sp.makeJoinedD 1000 o = .error .fuel ∧ ∃ sp', sp.joinedOnVariablesD (m + 3) (fun v => some {v}) o none = .ok sp' := by
  classical
  obtain ⟨sp, hocc, hrec⟩ := C79_chain m hm
  have hE : ∀ e ∈ chainEdges m, e.1 < e.2 := by
    intro e he
    have := (mem_chainEdges m e).1 he
    omega
  have hn := chainEdges_nodup m
  have hsame : ∀ g, (pairSpace (chainEdges m) (pair_nodup hE hn)).outcomes.Occurs g ↔ sp.outcomes.Occurs g := by
    intro g
    rw [pair_occurs, hocc]
    constructor
    · rintro ⟨e, he, x, hx, y, hy, rfl⟩
      obtain ⟨h1, h2⟩ := (mem_chainEdges m e).1 he
      exact ⟨e.1, h1, x, hx, y, hy, by rw [h2]⟩
    · rintro ⟨i, hi, x, hx, y, hy, rfl⟩
      exact ⟨(i, i + 1), (mem_chainEdges m _).2 ⟨hi, rfl⟩, x, hx, y, hy, rfl⟩
  have hg : AllGood sp.outcomes := fun g h => pair_good hE g ((hsame g).2 h)
  have hc : CompleteFactors sp.outcomes := by
    intro g h asg ha
    obtain ⟨k, h1, h2⟩ := pair_complete (h := pair_nodup hE hn) g ((hsame g).2 h) asg fun v hv => by
      obtain ⟨k, h1, h2⟩ := ha v hv
      exact ⟨k, (hsame k).2 h1, h2⟩
    exact ⟨k, (hsame k).1 h1, h2⟩
  have h2 : OneOrTwo sp.outcomes := by
    intro g h
    obtain ⟨i, hi, x, hx, y, hy, rfl⟩ := (hocc g).1 h
    exact ⟨i, i + 1, oneEdge_hasVar _ _⟩
  have hadj : ∀ i < m, (varGraph sp.outcomes).Adj i (i + 1) := fun i hi =>
    ⟨by omega, _, (hocc _).2 ⟨i, hi, 0, by omega, 0, by omega, rfl⟩, (oneEdge_hasVar _ _ _).2 (Or.inl rfl), (oneEdge_hasVar _ _ _).2 (Or.inr rfl)⟩
  have hreach : ∀ i ≤ m, (varGraph sp.outcomes).Reachable 0 i := by
    intro i
    induction i with
    | zero => exact fun _ => .refl _
    | succ i ih => exact fun hi => (ih (by omega)).trans (hadj i (by omega)).reachable
  have hle : ∀ g v, sp.outcomes.Occurs g → HasVar v g → v ≤ m := by
    intro g v h hv
    obtain ⟨i, hi, x, hx, y, hy, rfl⟩ := (hocc g).1 h
    rw [oneEdge_hasVar] at hv
    simp only at hv
    omega
  have hl : AllLinked sp.outcomes := fun u v g h g1 g2 h1 h2 => (hreach u (hle g u g1 g2)).symm.trans (hreach v (hle h v h1 h2))
  have hf := factorizable_of_two hg h2
  refine ⟨sp, hocc, fun o => ⟨(hrec o).1, ?_⟩⟩
  obtain ⟨F, hF'⟩ := (C33_factorized_iff sp o.items o.nodes o.graphs).1 ((C33_is_factorized sp o.graphs).2 hf)
  have hF : AreFactors sp.outcomes F := fun f => mem_factors_iff sp o.items o.nodes (edgeless_card hg) F hF' f
  have ha : FactorFacts sp.outcomes F := ⟨hg, hf, hF, C88_complete sp.outcomes hg hf hc F hF⟩
  have hP : ∀ g, sp.outcomes.Occurs g → ∀ S, LinksPair g S → S ∈ (Finset.range m).image fun i => ({i, i + 1} : Finset ℕ) := by
    intro g h S hS
    obtain ⟨i, hi, x, hx, y, hy, rfl⟩ := (hocc g).1 h
    rw [oneEdge_links] at hS
    exact Finset.mem_image.2 ⟨i, Finset.mem_range.2 hi, hS⟩
  have hk : ∀ v, (F.filter fun f => v ∈ factorVars f).card ≤ 2 := by
    intro v
    have hch : ∀ f ∈ F.filter fun f => v ∈ factorVars f, ∃ i, i ∈ ({v - 1, v} : Finset ℕ) ∧ ∃ p ∈ f, ∃ x y, p.1 = oneEdge ⟨i, x⟩ ⟨i + 1, y⟩ := by
      intro f hf'
      obtain ⟨hfF, hv⟩ := Finset.mem_filter.1 hf'
      obtain ⟨p, hp⟩ := ha.nonempty hfF
      obtain ⟨i, hi, x, hx, y, hy, hpe⟩ := (hocc p.1).1 (ha.occ hfF hp)
      have hv' := (ha.hasVar_iff' hfF hp v).2 hv
      rw [hpe, oneEdge_hasVar] at hv'
      refine ⟨i, ?_, p, hp, x, y, hpe⟩
      simp only [Finset.mem_insert, Finset.mem_singleton] at hv' ⊢
      omega
    choose! φ h1 h2 using hch
    refine (Finset.card_le_card_of_injOn φ h1 ?_).trans Finset.card_le_two
    intro f hf f' hf' he
    obtain ⟨p, hp, x, y, hpe⟩ := h2 f hf
    obtain ⟨p', hp', x', y', hpe'⟩ := h2 f' hf'
    refine (ha.same_iff (Finset.mem_filter.1 hf).1 (Finset.mem_filter.1 hf').1 hp hp').1 ?_
    rw [hpe, hpe', oneEdge_same, he]
  have hcard : ((Finset.range m).image fun i => ({i, i + 1} : Finset ℕ)).card ≤ m := Finset.card_image_le.trans (by rw [Finset.card_range])
  obtain ⟨sp', h, -⟩ := C92_pairs (fun v => some {v}) o sp hg hc h2 hl (fun v => ⟨{v}, rfl, fun _ => rfl⟩)
    ⟨_, (hocc _).2 ⟨0, by omega, 0, by omega, 0, by omega, rfl⟩⟩ _ hP F hF 2 (m + 3) hk (by omega)
  exact ⟨sp', h⟩

/-- **C92.** The star of the pairs 0 - 1, ..., 0 - m: joining on 0 raises `RecursionError` for every order within `m` calls and returns for every order within `2 * m + 1`. -/
theorem C92_star (m : ℕ) : ∃ sp : Space ℕ ℕ ℕ, (∀ g, sp.outcomes.Occurs g ↔ ∃ i < m, ∃ x < 2, ∃ y < 2, g = oneEdge ⟨0, x⟩ ⟨i + 1, y⟩) ∧
    ∀ o, sp.joinedOnVariablesD m (fun v => some {v}) o (some {0}) = .error .fuel ∧ ∃ sp', sp.joinedOnVariablesD (2 * m + 1) (fun v => some {v}) o (some {0}) = .ok sp' := by
  classical
  let E : List (ℕ × ℕ) := (List.range m).map fun i => (0, i + 1)
  have hmemE : ∀ e, e ∈ E ↔ ∃ i < m, e = (0, i + 1) := by
    intro e
    simp only [E, List.mem_map, List.mem_range]
    exact ⟨fun ⟨i, hi, h⟩ => ⟨i, hi, h.symm⟩, fun ⟨i, hi, h⟩ => ⟨i, hi, h.symm⟩⟩
  have hE : ∀ e ∈ E, e.1 < e.2 := by
    intro e he
    obtain ⟨i, hi, rfl⟩ := (hmemE e).1 he
    simp
  have hn : E.Nodup := List.nodup_range.map fun i j h => by simpa using h
  let sp := pairSpace E (pair_nodup hE hn)
  have hocc : ∀ g, sp.outcomes.Occurs g ↔ ∃ i < m, ∃ x < 2, ∃ y < 2, g = oneEdge ⟨0, x⟩ ⟨i + 1, y⟩ := by
    intro g
    rw [pair_occurs]
    constructor
    · rintro ⟨e, he, x, hx, y, hy, rfl⟩
      obtain ⟨i, hi, rfl⟩ := (hmemE e).1 he
      exact ⟨i, hi, x, hx, y, hy, rfl⟩
    · rintro ⟨i, hi, x, hx, y, hy, rfl⟩
      exact ⟨(0, i + 1), (hmemE _).2 ⟨i, hi, rfl⟩, x, hx, y, hy, rfl⟩
  obtain ⟨F, hF, hL⟩ := pair_factors (h := pair_nodup hE hn) hE hn
  have hg : AllGood sp.outcomes := pair_good hE
  have hf : Factorizable sp.outcomes := pair_factorizable
  have hj := C88_complete sp.outcomes hg hf pair_complete F hF
  have ha : FactorFacts sp.outcomes F := ⟨hg, hf, hF, hj⟩
  have hcount : (F.filter fun f => 0 ∈ factorVars f).card = m := by
    have h1 : (F.filter fun f => 0 ∈ factorVars f).card = Multiset.countP (fun s => 0 ∈ s) (F.val.map factorVars) := by
      rw [Multiset.countP_map]; rfl
    rw [h1, ← hL, Multiset.coe_countP, List.countP_eq_length.2]
    · simp [E]
    · intro s hs
      obtain ⟨e, he, rfl⟩ := List.mem_map.1 hs
      obtain ⟨i, hi, rfl⟩ := (hmemE e).1 he
      simp
  have hP : ∀ g, sp.outcomes.Occurs g → ∀ S, LinksPair g S → S ∈ (Finset.range m).image fun i => ({0, i + 1} : Finset ℕ) := by
    intro g h S hS
    obtain ⟨i, hi, x, hx, y, hy, rfl⟩ := (hocc g).1 h
    rw [oneEdge_links] at hS
    exact Finset.mem_image.2 ⟨i, Finset.mem_range.2 hi, hS⟩
  have hcard : ((Finset.range m).image fun i => ({0, i + 1} : Finset ℕ)).card ≤ m := Finset.card_image_le.trans (by rw [Finset.card_range])
  refine ⟨sp, hocc, fun o => ?_⟩
  obtain ⟨sp', h⟩ := (C88_returns (fun v => some {v}) o sp hg hf F hF hj {0} (fun v _ s hs _ => (Option.some.inj hs).symm)).2 ⟨fun g _ _ v _ _ hn => by simp at hn, by
    intro g k h1 h2 _ _ hw _
    obtain ⟨i, hi, x, hx, y, hy, rfl⟩ := (hocc g).1 h1
    obtain ⟨i', hi', x', hx', y', hy', rfl⟩ := (hocc k).1 h2
    have := (hw (i + 1)).1 ((oneEdge_hasVar _ _ _).2 (Or.inr rfl))
    rw [oneEdge_hasVar] at this
    simp only at this
    rw [oneEdge_same]
    obtain rfl : i = i' := by omega
    rfl⟩
  refine ⟨C92_raises _ o sp hg hf F hF 0 sp' h m hcount.ge, sp', ?_⟩
  rw [C92_enough _ o sp hg hf F hF hj {0} _ hP m (2 * m + 1) (fun v hv => ?_) (by omega), h]
  rw [Finset.mem_singleton.1 hv, hcount]

end Verif
