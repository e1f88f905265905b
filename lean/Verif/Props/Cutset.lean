import Verif.Lemmas.CutsetElim
import Verif.Props.Fields

/-!
# C86: joining after observations

Observed variables have one value. What has to be a forest is the network of the other variables.
-/

set_option linter.unusedSectionVars false

namespace Verif

section
variable {V X R : Type} [DecidableEq V] [DecidableEq X] [DecidableEq R]

/-! ### Specification -/

/-- The graph of the variables without those of one value. -/
def freeGraph (a : Samples V X R) : SimpleGraph V where
  Adj u v := (varGraph a).Adj u v ∧ TwoValues a u ∧ TwoValues a v
  symm := ⟨fun _ _ ⟨h, h1, h2⟩ => ⟨h.symm, h2, h1⟩⟩
  loopless := ⟨fun _ h => h.1.1 rfl⟩

/-- The graph of the variables without those of `E`. -/
def hiddenGraph (a : Samples V X R) (E : V → Prop) : SimpleGraph V where
  Adj u v := (varGraph a).Adj u v ∧ ¬ E u ∧ ¬ E v
  symm := ⟨fun _ _ ⟨h, h1, h2⟩ => ⟨h.symm, h2, h1⟩⟩
  loopless := ⟨fun _ h => h.1.1 rfl⟩

/-! ### Helper lemmas -/

theorem hang_iff_linked {a : Samples V X R} (hg : AllGood a) : HangTogether a ↔ AllLinked a := by
  have hin : ∀ g, a.Occurs g → ∀ u v, HasVar u g → HasVar v g → (varGraph a).Reachable u v := by
    intro g h u v hu hv
    by_cases huv : u = v
    · subst huv; exact .refl _
    · exact SimpleGraph.Adj.reachable ⟨huv, g, h, hu, hv⟩
  constructor
  · intro hh u v g h h1 h2 h3 h4
    have hj := hh g h h1 h3
    have : ∀ v, HasVar v h → (varGraph a).Reachable u v := by
      clear h4 h3
      induction hj with
      | refl => exact fun v hv => hin g h1 u v h2 hv
      | @tail x y _ hxy ih =>
        obtain ⟨hx, hy, hxy⟩ := hxy
        have hcommon : ∃ r, HasVar r x ∧ HasVar r y := by
          rcases hxy with h | ⟨r, -, h⟩
          · obtain ⟨n, hn⟩ := (hg x hx).2.1
            exact ⟨n.var, ⟨n, hn, rfl⟩, sameFactor_hasVar (hg x hx).1 (hg y hy).1 h ⟨n, hn, rfl⟩⟩
          · exact ⟨r, h⟩
        obtain ⟨r, r1, r2⟩ := hcommon
        exact fun v hv => (ih r r1).trans (hin y hy r v r2 hv)
    exact this v h4
  · intro hl g h h1 h3
    obtain ⟨n, hn⟩ := (hg g h1).2.1
    obtain ⟨m, hm⟩ := (hg h h3).2.1
    obtain ⟨w⟩ := hl n.var m.var g h h1 ⟨n, hn, rfl⟩ h3 ⟨m, hm, rfl⟩
    have hwalk : ∀ {x y : V} (_ : (varGraph a).Walk x y) (g : SampleGraph V X R), a.Occurs g → HasVar x g → ∃ k, a.Occurs k ∧ HasVar y k ∧ JoinedBy a (fun _ => True) g k := by
      intro x y w
      induction w with
      | nil => exact fun g h1 h2 => ⟨g, h1, h2, .refl⟩
      | @cons x y z hadj _ ih =>
        intro g h1 h2
        obtain ⟨-, k, k1, k2, k3⟩ := hadj
        obtain ⟨q, q1, q2, q3⟩ := ih k k1 k3
        exact ⟨q, q1, q2, .head ⟨h1, k1, Or.inr ⟨x, trivial, h2, k2⟩⟩ q3⟩
    obtain ⟨k, k1, k2, k3⟩ := hwalk w g h1 ⟨n, hn, rfl⟩
    exact .tail k3 ⟨k1, h3, Or.inr ⟨_, trivial, k2, ⟨m, hm, rfl⟩⟩⟩

/-- The variables, those of two values first. -/
theorem exists_listing (U T : Finset V) : ∃ vs : List V, vs.Nodup ∧ (∀ v, v ∈ vs ↔ v ∈ U) ∧ vs.Pairwise fun a b => b ∈ T → a ∈ T := by
  refine ⟨(U.filter (· ∈ T)).toList ++ (U.filter (· ∉ T)).toList, ?_, ?_, ?_⟩
  · rw [List.nodup_append]
    refine ⟨Finset.nodup_toList _, Finset.nodup_toList _, ?_⟩
    rintro x hx y hy rfl
    simp only [Finset.mem_toList, Finset.mem_filter] at hx hy
    exact hy.2 hx.2
  · intro v
    simp only [List.mem_append, Finset.mem_toList, Finset.mem_filter]
    tauto
  · rw [List.pairwise_append]
    simp only [Finset.mem_toList, Finset.mem_filter]
    refine ⟨?_, ?_, ?_⟩
    · refine List.Pairwise.imp_of_mem (R := fun _ _ => True) ?_ (by simp [List.pairwise_iff_getElem])
      intro a b ha _ _ _
      simp only [Finset.mem_toList, Finset.mem_filter] at ha
      exact ha.2
    · refine List.Pairwise.imp_of_mem (R := fun _ _ => True) ?_ (by simp [List.pairwise_iff_getElem])
      intro a b _ hb _ h
      simp only [Finset.mem_toList, Finset.mem_filter] at hb
      exact absurd h hb.2
    · intro a ha b hb h
      exact ha.2

/-- The elimination on sets, for some order. -/
theorem some_order_iff (sp : Space V X R) (hg : AllGood sp.outcomes) (hf : Factorizable sp.outcomes) (hc : CompleteFactors sp.outcomes)
    (hown : OwnOutcomes sp.outcomes) (F : Finset (ItemSet V X R)) (hF : AreFactors sp.outcomes F) (T : Finset V) (hT : ∀ v, v ∈ T ↔ TwoValues sp.outcomes v)
    (L : List (Finset V)) (hL : (L : Multiset (Finset V)) = F.val.map factorVars) :
    (∃ o sp', sp.makeJoined o = .ok sp') ↔ HangTogether sp.outcomes ∧ ForestL (restrictL T L) := by
  have hmem : ∀ s, s ∈ L ↔ ∃ f ∈ F, factorVars f = s := by
    intro s; rw [← Multiset.mem_coe, hL, Multiset.mem_map]; rfl
  have hrep : ∀ s ∈ L, ∃ g, sp.outcomes.Occurs g ∧ ∀ v, v ∈ s ↔ HasVar v g := by
    intro s hs
    obtain ⟨f, hf, rfl⟩ := (hmem s).1 hs
    obtain ⟨p, hp, hpf⟩ := (hF f).1 hf
    have hocc : sp.outcomes.Occurs p.1 := ⟨p.2, (Samples.mem_items _ p).1 hp⟩
    exact ⟨p.1, hocc, fun v => mem_factorVars hg hF hf ((hpf p).2 ⟨hp, sameFactor_refl (hg _ hocc).2.1⟩) v⟩
  have hset : ∀ g, sp.outcomes.Occurs g → ∃ s ∈ L, ∀ v, v ∈ s ↔ HasVar v g := by
    intro g ho
    obtain ⟨f, hf', c, hc'⟩ := exists_factor hg hF ho
    exact ⟨factorVars f, (hmem _).2 ⟨f, hf', rfl⟩, fun v => mem_factorVars hg hF hf' hc' v⟩
  have hun : ∀ v, v ∈ unionL L ↔ ∃ g, sp.outcomes.Occurs g ∧ HasVar v g := by
    intro v
    rw [mem_unionL]
    constructor
    · rintro ⟨s, hs, hv⟩
      obtain ⟨g, g1, g2⟩ := hrep s hs
      exact ⟨g, g1, (g2 v).1 hv⟩
    · rintro ⟨g, g1, g2⟩
      obtain ⟨s, hs, hv⟩ := hset g g1
      exact ⟨s, hs, (hv v).2 g2⟩
  constructor
  · rintro ⟨o, h⟩
    refine ⟨((C84_order o sp hg hf hc).1 h).1, ?_⟩
    rw [(C43_returns_iff o sp hg hf hc F hF T hT L hL).1] at h
    refine forest_of_elimOk T _ L (nodup_included_fst o sp) h ?_
    intro v hv
    obtain ⟨g, g1, g2⟩ := (mem_included_fst o sp v).1 hv
    obtain ⟨k, k1, k2⟩ := hown v g g1 g2
    obtain ⟨s, hs, hsv⟩ := hset k k1
    have : s = {v} := by ext w; rw [hsv, k2, Finset.mem_singleton]
    exact this ▸ hs
  · rintro ⟨hh, hfor⟩
    obtain ⟨vs, v1, v2, v3⟩ := exists_listing (unionL L) T
    obtain ⟨o, ho⟩ := exists_order sp vs v1 fun v => (v2 v).trans (hun v)
    refine ⟨o, ?_⟩
    rw [(C43_returns_iff o sp hg hf hc F hF T hT L hL).1, ho]
    have hconn : ConnectedL L := by
      have hp : L.Perm (F.toList.map factorVars) := by
        rw [← Multiset.coe_eq_coe, hL, ← Multiset.map_coe, Finset.coe_toList]
      have := connectedL_of_hang hg hF hh
      intro P hP hex t ht
      refine this P (fun s hs => hP s (hp.mem_iff.2 hs)) ?_ t (hp.mem_iff.1 ht)
      obtain ⟨s, hs, hsP⟩ := hex
      exact ⟨s, hp.mem_iff.1 hs, hsP⟩
    refine elimOk_cutset T vs L hfor hconn ?_ ?_ ?_ v3
    · intro s hs
      obtain ⟨g, g1, g2⟩ := hrep s hs
      obtain ⟨n, hn⟩ := (hg g g1).2.1
      exact ⟨n.var, (g2 _).2 ⟨n, hn, rfl⟩⟩
    · intro v hv
      exact (mem_unionL _ _).1 ((v2 v).1 hv)
    · intro w
      by_cases hw : w ∈ unionL L
      · exact Or.inl ((v2 w).2 hw)
      · right
        have : L.countP (w ∈ ·) = 0 := by
          rw [List.countP_eq_zero]
          intro s hs hws
          exact hw ((mem_unionL _ _).2 ⟨s, hs, by simpa using hws⟩)
        omega

/-! ### C86 -/

/-- **C86.** With complete factors and a potential on each variable there is an iteration order for which `make_joined` returns exactly if the outcomes hang together
and the factors, without the variables of one value, form a forest: for each choice of factors, places of variables plus one is at most variables plus factors. -/
theorem C86_some (sp : Space V X R) (hg : AllGood sp.outcomes) (hf : Factorizable sp.outcomes) (hc : CompleteFactors sp.outcomes)
    (hown : OwnOutcomes sp.outcomes) (F : Finset (ItemSet V X R)) (hF : AreFactors sp.outcomes F) (T : Finset V) (hT : ∀ v, v ∈ T ↔ TwoValues sp.outcomes v) :
    (∃ o sp', sp.makeJoined o = .ok sp') ↔ HangTogether sp.outcomes ∧
      ∀ S ⊆ F, S.Nonempty → ∑ f ∈ S, (factorVars f ∩ T).card + 1 ≤ (S.biUnion fun f => factorVars f ∩ T).card + S.card := by
  have hL : ((F.toList.map factorVars : List (Finset V)) : Multiset (Finset V)) = F.val.map factorVars := by
    rw [← Multiset.map_coe, Finset.coe_toList]
  rw [some_order_iff sp hg hf hc hown F hF T hT _ hL]
  refine and_congr_right fun _ => ?_
  have hR : restrictL T (F.toList.map factorVars) = F.toList.map fun f => factorVars f ∩ T := by rw [restrictL, List.map_map]; rfl
  rw [hR]
  have hcount : ∀ l : List (ItemSet V X R), l.Nodup → sizeL (l.map fun f => factorVars f ∩ T) = ∑ f ∈ l.toFinset, (factorVars f ∩ T).card ∧
      unionL (l.map fun f => factorVars f ∩ T) = l.toFinset.biUnion (fun f => factorVars f ∩ T) ∧ (l.map fun f => factorVars f ∩ T).length = l.toFinset.card := by
    intro l hl
    refine ⟨?_, ?_, ?_⟩
    · rw [sizeL, List.map_map, List.sum_toFinset _ hl]; rfl
    · ext w
      simp only [mem_unionL, List.mem_map, Finset.mem_biUnion, List.mem_toFinset]
      constructor
      · rintro ⟨_, ⟨f, hf, rfl⟩, hw⟩; exact ⟨f, hf, hw⟩
      · rintro ⟨f, hf, hw⟩; exact ⟨_, ⟨f, hf, rfl⟩, hw⟩
    · rw [List.length_map, List.toFinset_card_of_nodup hl]
  constructor
  · intro h S hS hne
    obtain ⟨c1, c2, c3⟩ := hcount S.toList (Finset.nodup_toList _)
    have := h (S.toList.map fun f => factorVars f ∩ T) (by
      rw [← Multiset.map_coe, ← Multiset.map_coe, Finset.coe_toList, Finset.coe_toList]
      exact Multiset.map_le_map (Finset.val_le_iff.2 hS)) (by
      rw [ne_eq, List.map_eq_nil_iff, Finset.toList_eq_nil]
      exact hne.ne_empty)
    rw [c1, c2, c3, Finset.toList_toFinset] at this
    exact this
  · intro h A hA hne
    obtain ⟨A', hp, hs⟩ := Multiset.coe_le.1 hA
    obtain ⟨l, hl, rfl⟩ := List.sublist_map_iff.1 hs
    have hnd : l.Nodup := hl.nodup (Finset.nodup_toList _)
    obtain ⟨c1, c2, c3⟩ := hcount l hnd
    have e1 : sizeL A = sizeL (l.map fun f => factorVars f ∩ T) := (hp.symm.map Finset.card).sum_eq
    rw [e1, unionL_perm hp.symm, ← hp.length_eq, c1, c2, c3]
    refine h l.toFinset ?_ ?_
    · intro f hf
      exact Finset.mem_toList.1 (hl.subset (List.mem_toFinset.1 hf))
    · obtain ⟨s, hs⟩ := List.exists_mem_of_ne_nil _ hne
      obtain ⟨f, hf, -⟩ := List.mem_map.1 (hp.mem_iff.2 hs)
      exact ⟨f, List.mem_toFinset.2 hf⟩

/-- **C86.** For a pairwise network with a potential on each variable there is such an order exactly if the network is connected and has no cycle of variables with two
values or more. -/
theorem C86_pairs (sp : Space V X R) (hg : AllGood sp.outcomes) (hc : CompleteFactors sp.outcomes) (h2 : OneOrTwo sp.outcomes) (hown : OwnOutcomes sp.outcomes) :
    (∃ o sp', sp.makeJoined o = .ok sp') ↔ AllLinked sp.outcomes ∧ (freeGraph sp.outcomes).IsAcyclic := by
  classical
  have hf := factorizable_of_two hg h2
  obtain ⟨F, hF⟩ := factors_exist ⟨default, default, default, default, default, default, default, default⟩ sp hg hf
  obtain ⟨L, hL, hnd, hpair, hspec⟩ := scopes_of_two hg h2 hF
  obtain ⟨T, hT⟩ := manyVals_exist sp.outcomes
  rw [some_order_iff sp hg hf hc hown F hF T hT L hL, hang_iff_linked hg]
  refine and_congr_right fun _ => ?_
  have hadj : ∀ u v, (varGraph sp.outcomes).Adj u v ↔ u ≠ v ∧ ({u, v} : Finset V) ∈ L := by
    intro u v
    refine and_congr_right fun huv => ?_
    rw [hspec]
    refine exists_congr fun g => and_congr_right fun h => ⟨fun hv w => ?_, fun hv => ⟨(hv u).1 (by simp), (hv v).1 (by simp)⟩⟩
    obtain ⟨u', v', huv'⟩ := h2 g h
    rw [huv']
    have h1 := (huv' u).1 hv.1
    have h2 := (huv' v).1 hv.2
    simp only [Finset.mem_insert, Finset.mem_singleton]
    rcases h1 with rfl | rfl <;> rcases h2 with rfl | rfl
    · exact absurd rfl huv
    · rfl
    · exact or_comm
    · exact absurd rfl huv
  have hgraph : freeGraph sp.outcomes = pairGraph (L.filter (· ⊆ T)) := by
    ext u v
    change (varGraph sp.outcomes).Adj u v ∧ TwoValues sp.outcomes u ∧ TwoValues sp.outcomes v ↔ u ≠ v ∧ _
    have e1 := hT u
    have e2 := hT v
    unfold TwoValues
    rw [hadj, ← e1, ← e2, List.mem_filter, decide_eq_true_eq, Finset.insert_subset_iff, Finset.singleton_subset_iff, and_assoc]
  constructor
  · intro hfor v w hw
    let f : freeGraph sp.outcomes →g pairGraph L := ⟨id, fun {a b} h => (hadj a b).1 h.1⟩
    refine acyclic_of_forest_restrict hfor v (w.map f) ((SimpleGraph.Walk.map_isCycle_iff_of_injective Function.injective_id).2 hw) ?_
    intro u hu
    rw [SimpleGraph.Walk.support_map, List.mem_map] at hu
    obtain ⟨u, hu, rfl⟩ := hu
    obtain ⟨l, l1, -, -, l4, l5, -, l7⟩ := cycle_list w hw
    match l, l1 with
    | a :: b :: t, _ =>
      have hva := l5 a rfl
      have hT' : ∀ x, x = v ∨ x ∈ a :: b :: t → x ∈ T := by
        rintro x (rfl | hx)
        · exact (hT x).2 hva.2.1
        · have hall : ∀ (l : List V) (a : V), a ∈ T → List.IsChain (freeGraph sp.outcomes).Adj (a :: l) → ∀ x ∈ a :: l, x ∈ T := by
            intro l
            induction l with
            | nil => intro a ha _ x hx; rw [List.mem_singleton] at hx; exact hx ▸ ha
            | cons b l ih =>
              intro a ha hch x hx
              rw [List.isChain_cons_cons] at hch
              rcases List.mem_cons.1 hx with rfl | hx
              · exact ha
              · exact ih b ((hT b).2 hch.1.2.2) hch.2 x hx
          exact hall _ _ ((hT a).2 hva.2.2) l4 x hx
      exact hT' u ((l7 u).1 hu)
  · intro hac
    rw [hgraph] at hac
    exact forest_restrict_of_acyclic hpair hnd hac

end

section
variable {V X R : Type} [DecidableEq V] [DecidableEq X] [DecidableEq R]

/-- What conditioning keeps. -/
structure CondKeeps (a b : Samples V X R) (es : List (V × X)) : Prop where
  good : AllGood b
  fact : Factorizable b
  comp : CompleteFactors b
  sub : ∀ g, b.Occurs g → a.Occurs g
  scope : ∀ g, a.Occurs g → ∃ h, b.Occurs h ∧ ∀ w, HasVar w h ↔ HasVar w g
  vals : ∀ w y, (∃ g, b.Occurs g ∧ HasValue w y g) ↔ (∃ g, a.Occurs g ∧ HasValue w y g) ∧ ∀ q ∈ es, w = q.1 → y = q.2

theorem condition_step {a b : Samples V X R} {v : V} {x : X}
    (hb : ∀ g c, b.samples.get? g = some c ↔ a.samples.get? g = some c ∧ (HasValue v x g ∨ ¬ HasVar v g))
    (hg : AllGood a) (hf : Factorizable a) (hc : CompleteFactors a) (hx : ∃ g, a.Occurs g ∧ HasValue v x g) : CondKeeps a b [(v, x)] := by
  classical
  have hocc := condition_occurs hb
  obtain ⟨k1, k2, k3, k4⟩ := condition_keeps hb hg hf hc hx
  refine ⟨k1, k2, k3, fun g h => ((hocc g).1 h).1, ?_, ?_⟩
  · intro g h
    have hval : ∀ w, ∃ y, HasVar w g → ∃ g', a.Occurs g' ∧ HasValue w y g' ∧ (w = v → y = x) := by
      intro w
      by_cases hw : HasVar w g
      · by_cases e : w = v
        · subst e
          obtain ⟨g', g1, g2⟩ := hx
          exact ⟨x, fun _ => ⟨g', g1, g2, fun _ => rfl⟩⟩
        · obtain ⟨n, hn, rfl⟩ := hw
          exact ⟨n.val, fun _ => ⟨g, h, hn, fun e' => absurd e' e⟩⟩
      · exact ⟨x, fun h => absurd h hw⟩
    choose asg hasg using hval
    obtain ⟨k, hk1, hk2, hk3⟩ := hc g h asg (by
      intro w hw
      obtain ⟨g', g1, g2, -⟩ := hasg w hw
      exact ⟨g', g1, g2⟩)
    have hvars : ∀ w, HasVar w k ↔ HasVar w g := fun w =>
      ⟨sameFactor_hasVar (hg k hk1).1 (hg g h).1 (sameFactor_symm hk2), sameFactor_hasVar (hg g h).1 (hg k hk1).1 hk2⟩
    refine ⟨k, (hocc k).2 ⟨hk1, ?_⟩, hvars⟩
    by_cases hv : HasVar v k
    · left
      obtain ⟨-, -, -, he⟩ := hasg v ((hvars v).1 hv)
      obtain ⟨n, hn, hnv⟩ := hv
      have := hk3 n hn
      rw [hnv, he rfl] at this
      have hnn : n = ⟨v, x⟩ := by rw [← hnv, ← this]
      rw [HasValue, ← hnn]
      exact hn
    · exact Or.inr hv
  · intro w y
    rw [k4 w y]
    simp

theorem CondKeeps.trans {a b c : Samples V X R} {es fs : List (V × X)} (h1 : CondKeeps a b es) (h2 : CondKeeps b c fs) : CondKeeps a c (es ++ fs) := by
  refine ⟨h2.good, h2.fact, h2.comp, fun g h => h1.sub g (h2.sub g h), ?_, ?_⟩
  · intro g h
    obtain ⟨k, k1, k2⟩ := h1.scope g h
    obtain ⟨q, q1, q2⟩ := h2.scope k k1
    exact ⟨q, q1, fun w => (q2 w).trans (k2 w)⟩
  · intro w y
    rw [h2.vals, h1.vals]
    simp only [List.mem_append, or_imp, forall_and, and_assoc]

theorem conditionAll_keeps (oI : Order (SampleGraph V X R × ℤ)) (es : List (V × X)) (pr : ℕ) : ∀ (sp cs : Space V X R), AllGood sp.outcomes → Factorizable sp.outcomes →
    CompleteFactors sp.outcomes → (es.map Prod.fst).Nodup → (∀ q ∈ es, ∃ g, sp.outcomes.Occurs g ∧ HasValue q.1 q.2 g) →
    es.foldlM (init := sp) (fun s q => (s.conditionalGraph oI ⟨pr, valueEvidence q.1 q.2⟩).map Space.relationGraph) = .ok cs → CondKeeps sp.outcomes cs.outcomes es := by
  induction es with
  | nil =>
    intro sp cs hg hf hc _ _ h
    have : sp = cs := Except.ok.inj h
    subst this
    exact ⟨hg, hf, hc, fun _ h => h, fun g h => ⟨g, h, fun _ => Iff.rfl⟩, by simp⟩
  | cons q t ih =>
    intro sp cs hg hf hc hes hx h
    rw [List.foldlM_cons] at h
    cases hq : sp.conditionalGraph oI ⟨pr, valueEvidence q.1 q.2⟩ with
    | error e => rw [hq] at h; simp [Except.map, bind, Except.bind] at h
    | ok s =>
      rw [hq] at h
      have hb : ∀ g c, s.relationGraph.outcomes.samples.get? g = some c ↔
          sp.outcomes.samples.get? g = some c ∧ (HasValue q.1 q.2 g ∨ ¬ HasVar q.1 g) := fun g c => condition_get rfl hq g c
      have hk := condition_step hb hg hf hc (hx q (by simp))
      rw [List.map_cons, List.nodup_cons] at hes
      have hxt : ∀ r ∈ t, ∃ g, s.relationGraph.outcomes.Occurs g ∧ HasValue r.1 r.2 g := by
        intro r hr
        refine (hk.vals r.1 r.2).2 ⟨hx r (by simp [hr]), ?_⟩
        intro q' hq' he
        rw [List.mem_singleton] at hq'
        subst hq'
        exact absurd (he ▸ List.mem_map_of_mem hr) hes.1
      exact hk.trans (ih s.relationGraph cs hk.good hk.fact hk.comp hes.2 hxt h)

theorem CondKeeps.varGraph_eq {a b : Samples V X R} {es : List (V × X)} (h : CondKeeps a b es) : varGraph b = varGraph a := by
  ext u v
  refine and_congr_right fun _ => ⟨?_, ?_⟩
  · rintro ⟨g, g1, g2⟩; exact ⟨g, h.sub g g1, g2⟩
  · rintro ⟨g, g1, g2, g3⟩
    obtain ⟨k, k1, k2⟩ := h.scope g g1
    exact ⟨k, k1, (k2 u).2 g2, (k2 v).2 g3⟩

theorem CondKeeps.linked_iff {a b : Samples V X R} {es : List (V × X)} (h : CondKeeps a b es) : AllLinked b ↔ AllLinked a := by
  unfold AllLinked
  rw [h.varGraph_eq]
  constructor
  · intro hl u v g k g1 g2 k1 k2
    obtain ⟨g', a1, a2⟩ := h.scope g g1
    obtain ⟨k', b1, b2⟩ := h.scope k k1
    exact hl u v g' k' a1 ((a2 u).2 g2) b1 ((b2 v).2 k2)
  · intro hl u v g k g1 g2 k1 k2
    exact hl u v g k (h.sub g g1) g2 (h.sub k k1) k2

theorem CondKeeps.two_iff {a b : Samples V X R} {es : List (V × X)} (h : CondKeeps a b es) (w : V) : TwoValues b w ↔ TwoValues a w ∧ w ∉ es.map Prod.fst := by
  constructor
  · rintro ⟨x, y, g, k, hxy, g1, g2, k1, k2⟩
    obtain ⟨⟨g', a1, a2⟩, a3⟩ := (h.vals w x).1 ⟨g, g1, g2⟩
    obtain ⟨⟨k', b1, b2⟩, b3⟩ := (h.vals w y).1 ⟨k, k1, k2⟩
    refine ⟨⟨x, y, g', k', hxy, a1, a2, b1, b2⟩, ?_⟩
    intro hw
    obtain ⟨q, hq, rfl⟩ := List.mem_map.1 hw
    exact hxy ((a3 q hq rfl).trans (b3 q hq rfl).symm)
  · rintro ⟨⟨x, y, g, k, hxy, g1, g2, k1, k2⟩, hw⟩
    have hno : ∀ z, ∀ q ∈ es, w = q.1 → z = q.2 := fun z q hq he => absurd (he ▸ List.mem_map_of_mem hq) hw
    obtain ⟨g', a1, a2⟩ := (h.vals w x).2 ⟨⟨g, g1, g2⟩, hno x⟩
    obtain ⟨k', b1, b2⟩ := (h.vals w y).2 ⟨⟨k, k1, k2⟩, hno y⟩
    exact ⟨x, y, g', k', hxy, a1, a2, b1, b2⟩

theorem CondKeeps.own {a b : Samples V X R} {es : List (V × X)} (h : CondKeeps a b es) (hown : OwnOutcomes a) : OwnOutcomes b := by
  intro v g g1 g2
  obtain ⟨k, k1, k2⟩ := hown v g (h.sub g g1) g2
  obtain ⟨q, q1, q2⟩ := h.scope k k1
  exact ⟨q, q1, fun w => (q2 w).trans (k2 w)⟩

theorem CondKeeps.oneOrTwo {a b : Samples V X R} {es : List (V × X)} (h : CondKeeps a b es) (h2 : OneOrTwo a) : OneOrTwo b := fun g hg => h2 g (h.sub g hg)

/-- **C86.** A pairwise network with a potential on each variable and two values or more for each is, after observing some variables, joined for some iteration order
exactly if it is connected and each of its cycles has an observed variable. -/
theorem C86_observed (oI : Order (SampleGraph V X R × ℤ)) (sp cs : Space V X R) (hg : AllGood sp.outcomes) (hc : CompleteFactors sp.outcomes)
    (h2 : OneOrTwo sp.outcomes) (hm : ManyValued sp.outcomes) (hown : OwnOutcomes sp.outcomes) (es : List (V × X)) (hes : (es.map Prod.fst).Nodup)
    (hx : ∀ q ∈ es, ∃ g, sp.outcomes.Occurs g ∧ HasValue q.1 q.2 g) (h : conditionAll oI sp es = .ok cs) :
    (∃ o sp', cs.makeJoined o = .ok sp') ↔ AllLinked sp.outcomes ∧ (hiddenGraph sp.outcomes (· ∈ es.map Prod.fst)).IsAcyclic := by
  have hk := conditionAll_keeps oI es sp.outcomes.prov sp cs hg (factorizable_of_two hg h2) hc hes hx h
  rw [C86_pairs cs hk.good hk.comp (hk.oneOrTwo h2) (hk.own hown), hk.linked_iff]
  have : freeGraph cs.outcomes = hiddenGraph sp.outcomes (· ∈ es.map Prod.fst) := by
    ext u v
    change (varGraph cs.outcomes).Adj u v ∧ _ ∧ _ ↔ (varGraph sp.outcomes).Adj u v ∧ _ ∧ _
    rw [hk.varGraph_eq, hk.two_iff, hk.two_iff]
    refine and_congr_right fun hadj => ?_
    obtain ⟨-, g, g1, g2, g3⟩ := hadj
    exact and_congr (and_iff_right (hm u g g1 g2)) (and_iff_right (hm v g g1 g3))
  rw [this]

end

/-! ### Non-vacuity -/

/-- The triangle with a potential on each variable is never joined (`field_triangle`). After observing one variable it is joined for some iteration orders, and for
others it is not. -/
theorem observed_triangle : ∃ sp : Space ℕ ℕ ℕ, AllGood sp.outcomes ∧ CompleteFactors sp.outcomes ∧ OneOrTwo sp.outcomes ∧ ManyValued sp.outcomes ∧
    OwnOutcomes sp.outcomes ∧ (∀ o, sp.makeJoined o = .error .assertion) ∧ (∃ g, sp.outcomes.Occurs g ∧ HasValue 0 0 g) ∧
    ∀ oI, ∃ cs, conditionAll oI sp [(0, 0)] = .ok cs ∧ (∃ o sp', cs.makeJoined o = .ok sp') ∧ ∃ o, ∀ sp', cs.makeJoined o ≠ .ok sp' := by
  have hE : ∀ e ∈ [(0, 1), (1, 2), (0, 2)], e.1 < e.2 := by decide
  have hW : ∀ e ∈ [(0, 1), (1, 2), (0, 2)], e.1 ∈ [0, 1, 2] ∧ e.2 ∈ [0, 1, 2] := by decide
  have hd : ((fieldEntries [(0, 1), (1, 2), (0, 2)] [0, 1, 2]).map Prod.fst).Nodup := by decide +kernel
  have hg := field_good (h := hd) hE
  have hc := field_complete (h := hd)
  have h2 := field_oneOrTwo (h := hd)
  have hm := field_manyValued (h := hd) hW
  have hown := field_own (h := hd) hW
  have hlt : ∀ g, (fieldSpace _ _ hd).outcomes.Occurs g → ∀ v, HasVar v g → v < 3 := by
    intro g h v hv
    rcases (field_occurs g).1 h with ⟨e, he, x, hx, y, hy, rfl⟩ | ⟨v', hv', x, hx, rfl⟩
    · rw [oneEdge_hasVar] at hv
      simp only [List.mem_cons, List.not_mem_nil, or_false] at he
      rcases he with rfl | rfl | rfl <;> simp at hv <;> omega
    · rw [node_hasVar] at hv
      simp only [List.mem_cons, List.not_mem_nil, or_false] at hv'
      simp only at hv
      omega
  have hadj : ∀ u v, u ≠ v → u < 3 → v < 3 → (varGraph (fieldSpace _ _ hd).outcomes).Adj u v := by
    intro u v huv hu hv
    refine field_adj ?_ huv
    have hu' : u = 0 ∨ u = 1 ∨ u = 2 := by omega
    have hv' : v = 0 ∨ v = 1 ∨ v = 2 := by omega
    rcases hu' with rfl | rfl | rfl <;> rcases hv' with rfl | rfl | rfl <;> simp_all
  have hlinked : AllLinked (fieldSpace _ _ hd).outcomes := by
    intro u v g k g1 g2 k1 k2
    by_cases huv : u = v
    · subst huv; exact .refl _
    · exact (hadj u v huv (hlt g g1 u g2) (hlt k k1 v k2)).reachable
  have hno : ∀ o, (fieldSpace _ _ hd).makeJoined o = .error .assertion := by
    intro o
    refine (C85_pairs o _ hg hc h2 hm hown).2 ?_
    rintro ⟨-, hac⟩
    let w := SimpleGraph.Walk.cons (field_adj (h := hd) (u := 0) (v := 1) (by simp) (by simp)) (.cons (field_adj (u := 1) (v := 2) (by simp) (by simp))
      (.cons (field_adj (u := 2) (v := 0) (by simp) (by simp)) .nil))
    refine hac w ?_
    simp [w, SimpleGraph.Walk.cons_isCycle_iff]
  have hx : ∃ g, (fieldSpace _ _ hd).outcomes.Occurs g ∧ HasValue 0 0 g :=
    ⟨⟨{⟨0, 0⟩}, ∅⟩, (field_occurs _).2 (Or.inr ⟨0, by simp, 0, by omega, rfl⟩), by simp [HasValue]⟩
  refine ⟨fieldSpace _ _ hd, hg, hc, h2, hm, hown, hno, hx, fun oI => ?_⟩
  obtain ⟨cs, hcs, -⟩ := (C34_conditional_graph (fieldSpace _ _ hd) oI ⟨(fieldSpace _ _ hd).outcomes.prov, valueEvidence 0 0⟩).1 rfl
  have hall : conditionAll oI (fieldSpace _ _ hd) [(0, 0)] = .ok cs.relationGraph := by
    unfold conditionAll
    rw [List.foldlM_cons, hcs]
    rfl
  have hxs : ∀ q ∈ [((0 : ℕ), (0 : ℕ))], ∃ g, (fieldSpace _ _ hd).outcomes.Occurs g ∧ HasValue q.1 q.2 g := by
    intro q hq
    rw [List.mem_singleton] at hq
    subst hq
    exact hx
  have hnd : ([((0 : ℕ), (0 : ℕ))].map Prod.fst).Nodup := by simp
  have hk := conditionAll_keeps oI _ _ _ _ hg (factorizable_of_two hg h2) hc hnd hxs hall
  refine ⟨cs.relationGraph, hall, ?_, ?_⟩
  · refine (C86_observed oI _ _ hg hc h2 hm hown _ hnd hxs hall).2 ⟨hlinked, ?_⟩
    intro v w hw
    have hadj' : ∀ x y, (hiddenGraph (fieldSpace _ _ hd).outcomes (· ∈ [((0 : ℕ), (0 : ℕ))].map Prod.fst)).Adj x y → x ≠ y ∧ x ≠ 0 ∧ y ≠ 0 ∧ x < 3 ∧ y < 3 := by
      rintro x y ⟨⟨hxy, g, g1, g2, g3⟩, h1, h2⟩
      simp only [List.map_cons, List.map_nil, List.mem_singleton] at h1 h2
      exact ⟨hxy, h1, h2, hlt g g1 x g2, hlt g g1 y g3⟩
    obtain ⟨l, l1, l2, l3, l4, l5, -⟩ := cycle_list w hw
    match l, l1 with
    | a :: b :: t, _ =>
      have e1 := hadj' v a (l5 a rfl)
      rw [List.isChain_cons_cons] at l4
      have e2 := hadj' a b l4.1
      have e3 : v ≠ b := by rintro rfl; simp at l3
      omega
  · by_contra hno'
    push Not at hno'
    have hP := ((C84_all _ hk.good hk.fact hk.comp).1 hno').2 (· = 0) 1 (by simp)
    have hkept : ∀ g, (fieldSpace _ _ hd).outcomes.Occurs g → ∃ k, cs.relationGraph.outcomes.Occurs k ∧ ∀ w, HasVar w k ↔ HasVar w g := hk.scope
    obtain ⟨g01, a1, a2⟩ := hkept (oneEdge ⟨0, 0⟩ ⟨1, 0⟩) ((field_occurs _).2 (Or.inl ⟨(0, 1), by simp, 0, by omega, 0, by omega, rfl⟩))
    obtain ⟨g02, b1, b2⟩ := hkept (oneEdge ⟨0, 0⟩ ⟨2, 0⟩) ((field_occurs _).2 (Or.inl ⟨(0, 2), by simp, 0, by omega, 0, by omega, rfl⟩))
    obtain ⟨g12, c1, c2⟩ := hkept (oneEdge ⟨1, 0⟩ ⟨2, 0⟩) ((field_occurs _).2 (Or.inl ⟨(1, 2), by simp, 0, by omega, 0, by omega, rfl⟩))
    obtain ⟨g1, d1, d2⟩ := hkept ⟨{⟨1, 0⟩}, ∅⟩ ((field_occurs _).2 (Or.inr ⟨1, by simp, 0, by omega, rfl⟩))
    simp only [oneEdge_hasVar, node_hasVar] at a2 b2 c2 d2
    have htwo : TwoValues cs.relationGraph.outcomes 2 := by
      refine (hk.two_iff 2).2 ⟨hm 2 ⟨{⟨2, 0⟩}, ∅⟩ ((field_occurs _).2 (Or.inr ⟨2, by simp, 0, by omega, rfl⟩)) ((node_hasVar _ _).2 rfl), by simp⟩
    rcases hP 2 g01 g12 g1 htwo a1 c1 d1 ((a2 1).2 (by simp)) ((c2 1).2 (by simp)) ((d2 1).2 rfl)
      ⟨g02, .single ⟨a1, b1, Or.inr ⟨0, rfl, (a2 0).2 (by simp), (b2 0).2 (by simp)⟩⟩, (b2 2).2 (by simp)⟩ ⟨g12, .refl, (c2 2).2 (by simp)⟩ with hj | ⟨k, hj, hk2⟩
    · have : HasVar 0 g12 := by
        clear c2 c1
        induction hj with
        | refl => exact (a2 0).2 (by simp)
        | @tail x y _ hxy ih =>
          obtain ⟨hx, hy, h | ⟨r, rfl, h1, h2⟩⟩ := hxy
          · exact sameFactor_hasVar (hk.good x hx).1 (hk.good y hy).1 h ih
          · exact h2
      have := (c2 0).1 this
      omega
    · have : ∀ w, HasVar w k ↔ w = 1 := by
        clear hk2
        induction hj with
        | refl => exact d2
        | @tail x y _ hxy ih =>
          obtain ⟨hx, hy, h | ⟨r, rfl, h1, h2⟩⟩ := hxy
          · intro w
            rw [← ih w]
            exact ⟨sameFactor_hasVar (hk.good y hy).1 (hk.good x hx).1 (sameFactor_symm h), sameFactor_hasVar (hk.good x hx).1 (hk.good y hy).1 h⟩
          · exact absurd ((ih 0).1 h1) (by omega)
      have := (this 2).1 hk2
      omega

end Verif
