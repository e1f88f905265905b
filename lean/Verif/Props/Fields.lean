import Verif.Lemmas.FieldsElim
import Verif.Props.Parts

/-!
# C85: networks with a potential on each variable

`make_joined` returns for them exactly if the factors form a tree.
-/

set_option linter.unusedSectionVars false

namespace Verif

section
variable {V X R : Type} [DecidableEq V] [DecidableEq X] [DecidableEq R]

/-! ### Specification -/

/-- Each variable has an outcome of its own, a potential on this variable alone. -/
def OwnOutcomes (a : Samples V X R) : Prop := ∀ v g, a.Occurs g → HasVar v g → ∃ h, a.Occurs h ∧ ∀ w, HasVar w h ↔ w = v

/-! ### Helper lemmas -/

theorem connectedL_of_hang {a : Samples V X R} (hg : AllGood a) {F : Finset (ItemSet V X R)} (hF : AreFactors a F) (hh : HangTogether a) :
    ConnectedL (F.toList.map factorVars) := by
  intro P hP ⟨s, hs, hsP⟩ t ht
  have hrep : ∀ s ∈ F.toList.map factorVars, ∃ g, a.Occurs g ∧ ∀ v, v ∈ s ↔ HasVar v g := by
    intro s hs
    obtain ⟨f, hf, rfl⟩ := List.mem_map.1 hs
    rw [Finset.mem_toList] at hf
    obtain ⟨p, hp, hpf⟩ := (hF f).1 hf
    have hocc : a.Occurs p.1 := ⟨p.2, (Samples.mem_items _ p).1 hp⟩
    exact ⟨p.1, hocc, fun v => mem_factorVars hg hF hf ((hpf p).2 ⟨hp, sameFactor_refl (hg _ hocc).2.1⟩) v⟩
  have hout : ∀ g, a.Occurs g → (∀ v, HasVar v g → v ∈ P) ∨ ∀ v, HasVar v g → v ∉ P := by
    intro g ho
    obtain ⟨f, hf, c, hc⟩ := exists_factor hg hF ho
    have hv := mem_factorVars hg hF hf hc
    rcases hP _ (List.mem_map.2 ⟨f, Finset.mem_toList.2 hf, rfl⟩) with h | h
    · exact Or.inl fun v hv' => h ((hv v).2 hv')
    · exact Or.inr fun v hv' => Finset.disjoint_left.1 h ((hv v).2 hv')
  obtain ⟨g, g1, g2⟩ := hrep s hs
  obtain ⟨k, k1, k2⟩ := hrep t ht
  have hj := hh g k g1 k1
  have : ∀ v, HasVar v k → v ∈ P := by
    clear k2 k1
    induction hj with
    | refl => exact fun v hv => hsP ((g2 v).2 hv)
    | @tail x y _ hxy ih =>
      obtain ⟨hx, hy, hxy⟩ := hxy
      have hcommon : ∃ r, HasVar r x ∧ HasVar r y := by
        rcases hxy with h | ⟨r, -, h⟩
        · obtain ⟨n, hn⟩ := (hg x hx).2.1
          exact ⟨n.var, ⟨n, hn, rfl⟩, sameFactor_hasVar (hg x hx).1 (hg y hy).1 h ⟨n, hn, rfl⟩⟩
        · exact ⟨r, h⟩
      obtain ⟨r, r1, r2⟩ := hcommon
      rcases hout y hy with h | h
      · exact h
      · exact absurd (ih r r1) (h r r2)
  intro v hv
  exact this v ((k2 v).1 hv)

/-! ### C85 -/

/-- **C85.** With complete factors, two values or more for each variable and a potential on each variable `make_joined` returns exactly if the outcomes hang together
and the factors form a tree with the variables: one more variables and factors than places of variables in factors. It is the same for all iteration orders. -/
theorem C85_tree (o : Orders V X R) (sp : Space V X R) (hg : AllGood sp.outcomes) (hf : Factorizable sp.outcomes) (hc : CompleteFactors sp.outcomes)
    (hm : ManyValued sp.outcomes) (hown : OwnOutcomes sp.outcomes) (F : Finset (ItemSet V X R)) (hF : AreFactors sp.outcomes F) (W : Finset V)
    (hW : ∀ v, v ∈ W ↔ ∃ g, sp.outcomes.Occurs g ∧ HasVar v g) (hne : F.Nonempty) :
    (∃ sp', sp.makeJoined o = .ok sp') ↔ HangTogether sp.outcomes ∧ ∑ f ∈ F, (factorVars f).card + 1 = W.card + F.card := by
  obtain ⟨T, hT⟩ := manyVals_exist sp.outcomes
  set L := F.toList.map factorVars with hLdef
  have hL : (L : Multiset (Finset V)) = F.val.map factorVars := by
    rw [hLdef, ← Multiset.map_coe, Finset.coe_toList]
  have hsz : sizeL L = ∑ f ∈ F, (factorVars f).card := by
    rw [hLdef, sizeL, List.map_map, Finset.sum_map_toList]
    rfl
  have hlen : L.length = F.card := by rw [hLdef, List.length_map, Finset.length_toList]
  have hrep : ∀ s ∈ L, ∃ g, sp.outcomes.Occurs g ∧ ∀ v, v ∈ s ↔ HasVar v g := by
    intro s hs
    obtain ⟨f, hf, rfl⟩ := List.mem_map.1 hs
    rw [Finset.mem_toList] at hf
    obtain ⟨p, hp, hpf⟩ := (hF f).1 hf
    have hocc : sp.outcomes.Occurs p.1 := ⟨p.2, (Samples.mem_items _ p).1 hp⟩
    exact ⟨p.1, hocc, fun v => mem_factorVars hg hF hf ((hpf p).2 ⟨hp, sameFactor_refl (hg _ hocc).2.1⟩) v⟩
  have hset : ∀ g, sp.outcomes.Occurs g → ∃ s ∈ L, ∀ v, v ∈ s ↔ HasVar v g := by
    intro g ho
    obtain ⟨f, hf', c, hc'⟩ := exists_factor hg hF ho
    exact ⟨factorVars f, List.mem_map.2 ⟨f, Finset.mem_toList.2 hf', rfl⟩, fun v => mem_factorVars hg hF hf' hc' v⟩
  have hun : unionL L = W := by
    ext v
    rw [mem_unionL, hW]
    constructor
    · rintro ⟨s, hs, hv⟩
      obtain ⟨g, g1, g2⟩ := hrep s hs
      exact ⟨g, g1, (g2 v).1 hv⟩
    · rintro ⟨g, g1, g2⟩
      obtain ⟨s, hs, hv⟩ := hset g g1
      exact ⟨s, hs, (hv v).2 g2⟩
  have hLne : L ≠ [] := by
    rw [← List.length_pos_iff, hlen]
    exact Finset.card_pos.2 hne
  rw [← hsz, ← hlen, ← hun]
  constructor
  · intro h
    refine ⟨((C84_order o sp hg hf hc).1 h).1, ?_⟩
    rw [(C43_returns_iff o sp hg hf hc F hF T hT L hL).1] at h
    refine elimOk_fields T _ L (nodup_included_fst o sp) h ?_ ?_ hLne
    · intro v hv
      obtain ⟨g, g1, g2⟩ := (mem_included_fst o sp v).1 hv
      obtain ⟨k, k1, k2⟩ := hown v g g1 g2
      obtain ⟨s, hs, hsv⟩ := hset k k1
      have : s = {v} := by ext w; rw [hsv, k2, Finset.mem_singleton]
      exact this ▸ hs
    · intro v hv
      rw [hun, hW] at hv
      obtain ⟨g, g1, g2⟩ := hv
      exact (hT v).2 (hm v g g1 g2)
  · rintro ⟨hh, hcount⟩
    rw [(C43_returns_iff o sp hg hf hc F hF T hT L hL).1]
    have hforest := forest_of_connected (connectedL_of_hang hg hF hh) (by
      intro s hs
      obtain ⟨g, g1, g2⟩ := hrep s hs
      obtain ⟨n, hn⟩ := (hg g g1).2.1
      exact ⟨n.var, (g2 _).2 ⟨n, hn, rfl⟩⟩) hcount
    refine elimOk_tree T _ L hforest hcount ?_ ?_
    · intro v hv
      rw [← mem_unionL, hun, hW]
      exact (mem_included_fst o sp v).1 hv
    · intro v hv
      left
      rw [hun, hW] at hv
      exact (mem_included_fst o sp v).2 hv

/-- **C85.** Hence the order does not matter. -/
theorem C85_any_order (o o' : Orders V X R) (sp : Space V X R) (hg : AllGood sp.outcomes) (hf : Factorizable sp.outcomes) (hc : CompleteFactors sp.outcomes)
    (hm : ManyValued sp.outcomes) (hown : OwnOutcomes sp.outcomes) (h : ∃ sp', sp.makeJoined o = .ok sp') : ∃ sp', sp.makeJoined o' = .ok sp' := by
  classical
  obtain ⟨F, hF⟩ := factors_exist o sp hg hf
  by_cases hne : F.Nonempty
  · let W : Finset V := sp.outcomes.graphs.biUnion graphVars
    have hW : ∀ v, v ∈ W ↔ ∃ g, sp.outcomes.Occurs g ∧ HasVar v g := by
      intro v
      simp only [W, Finset.mem_biUnion, Samples.mem_graphs, mem_graphVars]
      rfl
    rw [C85_tree o sp hg hf hc hm hown F hF W hW hne] at h
    rwa [C85_tree o' sp hg hf hc hm hown F hF W hW hne]
  · have hno : ∀ g, ¬ sp.outcomes.Occurs g := by
      intro g ho
      obtain ⟨f, hf', -⟩ := exists_factor hg hF ho
      exact hne ⟨f, hf'⟩
    rw [C84_order o' sp hg hf hc]
    refine ⟨fun g _ h1 => absurd h1 (hno g), ?_⟩
    intro pre v post _ w g₁ _ _ _ h1
    exact absurd h1 (hno g₁)

/-- **C85.** A pairwise network with a potential on each variable is joined, for some order as well as for every order, exactly if its graph is connected and has no
cycle. -/
theorem C85_pairs (o : Orders V X R) (sp : Space V X R) (hg : AllGood sp.outcomes) (hc : CompleteFactors sp.outcomes) (h2 : OneOrTwo sp.outcomes)
    (hm : ManyValued sp.outcomes) (hown : OwnOutcomes sp.outcomes) :
    ((∃ sp', sp.makeJoined o = .ok sp') ↔ AllLinked sp.outcomes ∧ (varGraph sp.outcomes).IsAcyclic) ∧
    (¬ (AllLinked sp.outcomes ∧ (varGraph sp.outcomes).IsAcyclic) → sp.makeJoined o = .error .assertion) := by
  have hf := factorizable_of_two hg h2
  have hiff : (∃ sp', sp.makeJoined o = .ok sp') ↔ AllLinked sp.outcomes ∧ (varGraph sp.outcomes).IsAcyclic := by
    constructor
    · intro h
      obtain ⟨hl, hor⟩ := (C83_pairs sp hg hc h2 hm).1 fun o' => C85_any_order o o' sp hg hf hc hm hown h
      refine ⟨hl, ?_⟩
      rcases hor with h | hat
      · exact h
      intro v w hw
      obtain ⟨l, l1, l2, l3, l4, l5, l6, -⟩ := cycle_list w hw
      match l, l1 with
      | a :: b :: t, _ =>
        obtain ⟨hva, g, g1, g2, g3⟩ := l5 a rfl
        have hlast : (a :: b :: t).getLast (by simp) ∈ b :: t := by
          rw [List.getLast_cons (by simp)]; exact List.getLast_mem _
        have hadj := l6 ((a :: b :: t).getLast (by simp)) (by rw [List.getLast?_eq_getLast_of_ne_nil (by simp)]; rfl)
        generalize (a :: b :: t).getLast (by simp) = e at hlast hadj
        have hae : a ≠ e := by rintro rfl; exact (List.nodup_cons.1 l2).1 hlast
        obtain ⟨hve, k, k1, k2, k3⟩ := hadj
        obtain ⟨q, q1, q2⟩ := hown v g g1 g2
        have hwf := fun x hx => (hg x hx).1
        rcases hat v g k q g1 k1 q1 g2 k2 ((q2 v).2 rfl) with h | h | h
        · have hak := sameFactor_hasVar (hwf g g1) (hwf k k1) h g3
          obtain ⟨x, y, hxy⟩ := h2 k k1
          have e1 := (hxy v).1 k2
          have e2 := (hxy e).1 k3
          have e3 := (hxy a).1 hak
          rcases e1 with e1 | e1 <;> rcases e2 with e2 | e2 <;> rcases e3 with e3 | e3 <;> subst_vars <;> simp_all
        · exact hva ((q2 a).1 (sameFactor_hasVar (hwf g g1) (hwf q q1) h g3)).symm
        · exact hve ((q2 e).1 (sameFactor_hasVar (hwf k k1) (hwf q q1) h k3)).symm
    · intro h
      exact (C83_pairs sp hg hc h2 hm).2 ⟨h.1, Or.inl h.2⟩ o
  refine ⟨hiff, fun h => ?_⟩
  obtain ⟨F, hF⟩ := factors_exist o sp hg hf
  obtain ⟨L, hL, -⟩ := scopes_of_two hg h2 hF
  obtain ⟨T, hT⟩ := manyVals_exist sp.outcomes
  exact (C43_returns_iff o sp hg hf hc F hF T hT L hL).2 fun h' => h (hiff.1 h')

end

/-! ### Non-vacuity -/

/-- Outcomes of the pairs and of the single variables, with values 0 and 1. -/
def fieldEntries (E : List (ℕ × ℕ)) (W : List ℕ) : List (SampleGraph ℕ ℕ ℕ × ℤ) :=
  pairEntries E ++ W.flatMap fun v => [(⟨{⟨v, 0⟩}, ∅⟩, 1), (⟨{⟨v, 1⟩}, ∅⟩, 2)]

/-- The space with these outcomes. -/
def fieldSpace (E : List (ℕ × ℕ)) (W : List ℕ) (h : ((fieldEntries E W).map Prod.fst).Nodup) : Space ℕ ℕ ℕ :=
  ⟨⟨Dict.ofList (W.map fun v => (v, {0, 1})), {0}⟩, ⟨0, ⟨fieldEntries E W, h⟩⟩, none⟩

section
variable {E : List (ℕ × ℕ)} {W : List ℕ} {h : ((fieldEntries E W).map Prod.fst).Nodup}

theorem field_occurs (g : SampleGraph ℕ ℕ ℕ) : (fieldSpace E W h).outcomes.Occurs g ↔
    (∃ e ∈ E, ∃ x < 2, ∃ y < 2, g = oneEdge ⟨e.1, x⟩ ⟨e.2, y⟩) ∨ ∃ v ∈ W, ∃ x < 2, g = ⟨{⟨v, x⟩}, ∅⟩ := by
  have h1 : (fieldSpace E W h).outcomes.Occurs g ↔ ∃ c, (g, c) ∈ fieldEntries E W := by
    refine exists_congr fun c => ?_
    rw [← Dict.mem_entries]; rfl
  rw [h1]
  simp only [fieldEntries, List.mem_append, exists_or]
  refine or_congr ?_ ?_
  · simp only [pairEntries, List.mem_flatMap, List.mem_map, List.mem_cons, List.not_mem_nil, or_false]
    constructor
    · rintro ⟨c, e, he, x, rfl | rfl | rfl | rfl, hx⟩ <;> rw [Prod.mk.injEq] at hx <;> obtain ⟨rfl, -⟩ := hx
      · exact ⟨e, he, 0, by omega, 0, by omega, rfl⟩
      · exact ⟨e, he, 0, by omega, 1, by omega, rfl⟩
      · exact ⟨e, he, 1, by omega, 0, by omega, rfl⟩
      · exact ⟨e, he, 1, by omega, 1, by omega, rfl⟩
    · rintro ⟨e, he, x, hx, y, hy, rfl⟩
      refine ⟨_, e, he, (x, y), ?_, rfl⟩
      simp only [Prod.mk.injEq]
      omega
  · simp only [List.mem_flatMap, List.mem_cons, List.not_mem_nil, or_false, Prod.mk.injEq]
    constructor
    · rintro ⟨c, v, hv, ⟨rfl, -⟩ | ⟨rfl, -⟩⟩
      · exact ⟨v, hv, 0, by omega, rfl⟩
      · exact ⟨v, hv, 1, by omega, rfl⟩
    · rintro ⟨v, hv, x, hx, rfl⟩
      have : x = 0 ∨ x = 1 := by omega
      rcases this with rfl | rfl
      · exact ⟨1, v, hv, Or.inl ⟨rfl, rfl⟩⟩
      · exact ⟨2, v, hv, Or.inr ⟨rfl, rfl⟩⟩

theorem field_good (hE : ∀ e ∈ E, e.1 < e.2) : AllGood (fieldSpace E W h).outcomes := by
  intro g hg
  rcases (field_occurs g).1 hg with ⟨e, he, x, hx, y, hy, rfl⟩ | ⟨v, hv, x, hx, rfl⟩
  · have hne : (⟨e.1, x⟩ : Node ℕ ℕ).var ≠ (⟨e.2, y⟩ : Node ℕ ℕ).var := (hE e he).ne
    exact ⟨oneEdge_wf _ _ hne, by simp [oneEdge], oneEdge_single _ _ hne⟩
  · refine ⟨⟨by simp, by simp, by intro e he; simp at he, ?_⟩, by simp, ?_⟩
    · intro n hn m hm
      simp only [Finset.coe_singleton, Set.mem_singleton_iff] at hn hm
      rw [hn, hm]
    · intro n hn m hm _
      simp only [Finset.mem_singleton] at hn hm
      rw [hn, hm]

theorem node_hasVar (n : Node ℕ ℕ) (v : ℕ) : HasVar v (⟨{n}, ∅⟩ : SampleGraph ℕ ℕ ℕ) ↔ v = n.var := by
  simp [HasVar, eq_comm]

theorem field_hasValue {g : SampleGraph ℕ ℕ ℕ} (hg : (fieldSpace E W h).outcomes.Occurs g) {v x : ℕ} (hx : HasValue v x g) : x < 2 := by
  rcases (field_occurs g).1 hg with ⟨e, he, x', hx', y', hy', rfl⟩ | ⟨v', hv', x', hx', rfl⟩
  · simp only [HasValue, oneEdge, Finset.mem_insert, Finset.mem_singleton, Node.mk.injEq] at hx
    omega
  · simp only [HasValue, Finset.mem_singleton, Node.mk.injEq] at hx
    omega

theorem field_complete : CompleteFactors (fieldSpace E W h).outcomes := by
  intro g hg asg ha
  have hval : ∀ v, HasVar v g → asg v < 2 := by
    intro v hv
    obtain ⟨g', hg', hn⟩ := ha v hv
    exact field_hasValue hg' hn
  rcases (field_occurs g).1 hg with ⟨e, he, x, hx, y, hy, rfl⟩ | ⟨v, hv, x, hx, rfl⟩
  · refine ⟨oneEdge ⟨e.1, asg e.1⟩ ⟨e.2, asg e.2⟩, (field_occurs _).2 (Or.inl ⟨e, he, _, hval _ ((oneEdge_hasVar _ _ _).2 (Or.inl rfl)),
      _, hval _ ((oneEdge_hasVar _ _ _).2 (Or.inr rfl)), rfl⟩), (oneEdge_same _ _ _ _).2 rfl, ?_⟩
    intro n hn
    simp only [oneEdge, Finset.mem_insert, Finset.mem_singleton] at hn
    rcases hn with rfl | rfl <;> rfl
  · refine ⟨⟨{⟨v, asg v⟩}, ∅⟩, (field_occurs _).2 (Or.inr ⟨v, hv, _, hval v ((node_hasVar _ _).2 rfl), rfl⟩), Or.inr ⟨rfl, rfl, _, Finset.mem_singleton_self _, _,
      Finset.mem_singleton_self _, rfl⟩, ?_⟩
    intro n hn
    simp only [Finset.mem_singleton] at hn
    subst hn; rfl

theorem field_oneOrTwo : OneOrTwo (fieldSpace E W h).outcomes := by
  intro g hg
  rcases (field_occurs g).1 hg with ⟨e, he, x, hx, y, hy, rfl⟩ | ⟨v, hv, x, hx, rfl⟩
  · exact ⟨e.1, e.2, fun w => oneEdge_hasVar _ _ _⟩
  · exact ⟨v, v, fun w => (node_hasVar _ _).trans (or_self_iff).symm⟩

theorem field_own (hW : ∀ e ∈ E, e.1 ∈ W ∧ e.2 ∈ W) : OwnOutcomes (fieldSpace E W h).outcomes := by
  intro v g hg hv
  have hvW : v ∈ W := by
    rcases (field_occurs g).1 hg with ⟨e, he, x, hx, y, hy, rfl⟩ | ⟨v', hv', x, hx, rfl⟩
    · rcases (oneEdge_hasVar _ _ _).1 hv with rfl | rfl
      · exact (hW e he).1
      · exact (hW e he).2
    · rw [(node_hasVar _ _).1 hv]; exact hv'
  exact ⟨⟨{⟨v, 0⟩}, ∅⟩, (field_occurs _).2 (Or.inr ⟨v, hvW, 0, by omega, rfl⟩), fun w => node_hasVar _ _⟩

theorem field_manyValued (hW : ∀ e ∈ E, e.1 ∈ W ∧ e.2 ∈ W) : ManyValued (fieldSpace E W h).outcomes := by
  intro v g hg hv
  have hvW : v ∈ W := by
    rcases (field_occurs g).1 hg with ⟨e, he, x, hx, y, hy, rfl⟩ | ⟨v', hv', x, hx, rfl⟩
    · rcases (oneEdge_hasVar _ _ _).1 hv with rfl | rfl
      · exact (hW e he).1
      · exact (hW e he).2
    · rw [(node_hasVar _ _).1 hv]; exact hv'
  exact ⟨0, 1, ⟨{⟨v, 0⟩}, ∅⟩, ⟨{⟨v, 1⟩}, ∅⟩, by simp, (field_occurs _).2 (Or.inr ⟨v, hvW, 0, by omega, rfl⟩), by simp [HasValue],
    (field_occurs _).2 (Or.inr ⟨v, hvW, 1, by omega, rfl⟩), by simp [HasValue]⟩

theorem field_adj {u v : ℕ} (huv : (u, v) ∈ E ∨ (v, u) ∈ E) (hne : u ≠ v) : (varGraph (fieldSpace E W h).outcomes).Adj u v := by
  refine ⟨hne, ?_⟩
  rcases huv with he | he
  · exact ⟨_, (field_occurs _).2 (Or.inl ⟨_, he, 0, by omega, 0, by omega, rfl⟩), (oneEdge_hasVar _ _ _).2 (Or.inl rfl), (oneEdge_hasVar _ _ _).2 (Or.inr rfl)⟩
  · exact ⟨_, (field_occurs _).2 (Or.inl ⟨_, he, 0, by omega, 0, by omega, rfl⟩), (oneEdge_hasVar _ _ _).2 (Or.inr rfl), (oneEdge_hasVar _ _ _).2 (Or.inl rfl)⟩

end

/-- A triangle is joined for every order (`triangle_joined`), with a potential on each variable for none. -/
theorem field_triangle : ∃ sp : Space ℕ ℕ ℕ, AllGood sp.outcomes ∧ CompleteFactors sp.outcomes ∧ OneOrTwo sp.outcomes ∧ ManyValued sp.outcomes ∧
    OwnOutcomes sp.outcomes ∧ ∀ o, sp.makeJoined o = .error .assertion := by
  have hE : ∀ e ∈ [(0, 1), (1, 2), (0, 2)], e.1 < e.2 := by decide
  have hW : ∀ e ∈ [(0, 1), (1, 2), (0, 2)], e.1 ∈ [0, 1, 2] ∧ e.2 ∈ [0, 1, 2] := by decide
  have hd : ((fieldEntries [(0, 1), (1, 2), (0, 2)] [0, 1, 2]).map Prod.fst).Nodup := by decide +kernel
  refine ⟨fieldSpace _ _ hd, field_good hE, field_complete, field_oneOrTwo, field_manyValued hW, field_own hW, fun o => ?_⟩
  refine (C85_pairs o _ (field_good hE) field_complete field_oneOrTwo (field_manyValued hW) (field_own hW)).2 ?_
  rintro ⟨-, hac⟩
  let w := SimpleGraph.Walk.cons (field_adj (h := hd) (u := 0) (v := 1) (by simp) (by simp)) (.cons (field_adj (u := 1) (v := 2) (by simp) (by simp))
    (.cons (field_adj (u := 2) (v := 0) (by simp) (by simp)) .nil))
  refine hac w ?_
  simp [w, SimpleGraph.Walk.cons_isCycle_iff]

end Verif
