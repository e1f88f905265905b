import Verif.Lemmas.PartsElim
import Verif.Props.PairNetworks

/-!
# C84: when `make_joined` returns, stated without elimination

For complete factors of any size. The specification has the outcomes, `SameFactor` and chains of outcomes with common variables only.
-/

namespace Verif

section
variable {V X R : Type} [DecidableEq V] [DecidableEq X] [DecidableEq R]

/-! ### Specification -/

/-- A chain of outcomes, neighbours of which are of the same factor or have a common variable that satisfies `P`. -/
def JoinedBy (a : Samples V X R) (P : V → Prop) : SampleGraph V X R → SampleGraph V X R → Prop :=
  Relation.ReflTransGen fun g h => a.Occurs g ∧ a.Occurs h ∧ (SameFactor g h ∨ ∃ r, P r ∧ HasVar r g ∧ HasVar r h)

/-- The part of `g` has the variable `w`. -/
def PartHasVar (a : Samples V X R) (P : V → Prop) (g : SampleGraph V X R) (w : V) : Prop := ∃ h, JoinedBy a P g h ∧ HasVar w h

/-- The variable has two values or more. -/
def TwoValues (a : Samples V X R) (w : V) : Prop := ∃ x y g h, x ≠ y ∧ a.Occurs g ∧ HasValue w x g ∧ a.Occurs h ∧ HasValue w y h

/-- When the variables with `P` are done, `v` can be joined on: a variable with two values that is in two parts with `v` is in all parts with `v`. -/
def CanJoinOn (a : Samples V X R) (P : V → Prop) (v : V) : Prop :=
  ∀ w g₁ g₂ g₃, TwoValues a w → a.Occurs g₁ → a.Occurs g₂ → a.Occurs g₃ → HasVar v g₁ → HasVar v g₂ → HasVar v g₃ →
    PartHasVar a P g₁ w → PartHasVar a P g₂ w → JoinedBy a P g₁ g₂ ∨ PartHasVar a P g₃ w

/-- All outcomes hang together. -/
def HangTogether (a : Samples V X R) : Prop := ∀ g h, a.Occurs g → a.Occurs h → JoinedBy a (fun _ => True) g h

/-- The order in which `make_joined` takes the variables. -/
def joinOrder (o : Orders V X R) (sp : Space V X R) : List V := (o.incl.run (sp.includedVariables o.graphs o.nodes)).map Prod.fst

/-! ### Helper lemmas -/

/-- The variables of an outcome. -/
def graphVars (g : SampleGraph V X R) : Finset V := g.nodes.image Node.var

theorem mem_graphVars (g : SampleGraph V X R) (v : V) : v ∈ graphVars g ↔ HasVar v g := Finset.mem_image

theorem linkedBy_iff (a : Samples V X R) (P : V → Prop) : LinkedBy a.graphs graphVars SameFactor P = JoinedBy a P := by
  unfold LinkedBy JoinedBy
  congr 1
  funext g h
  simp only [LinkStep, Samples.mem_graphs, mem_graphVars]
  rfl

theorem inPart_iff (a : Samples V X R) (P : V → Prop) (g : SampleGraph V X R) (w : V) : InPart a.graphs graphVars SameFactor P g w ↔ PartHasVar a P g w := by
  unfold InPart PartHasVar
  rw [linkedBy_iff]
  simp only [mem_graphVars]

theorem goodAt_iff (a : Samples V X R) (P : V → Prop) (T : Finset V) (hT : ∀ w, w ∈ T ↔ TwoValues a w) (v : V) :
    GoodAt a.graphs graphVars SameFactor T P v ↔ CanJoinOn a P v := by
  unfold GoodAt CanJoinOn
  simp only [linkedBy_iff, inPart_iff, Samples.mem_graphs, mem_graphVars, hT]
  constructor
  · intro h w g₁ g₂ g₃ hw o₁ o₂ o₃; exact h w hw g₁ o₁ g₂ o₂ g₃ o₃
  · intro h w hw g₁ o₁ g₂ o₂ g₃ o₃; exact h w g₁ g₂ g₃ hw o₁ o₂ o₃

/-- The factors are the parts before the first variable. -/
theorem partInv_init {a : Samples V X R} (hg : AllGood a) {F : Finset (ItemSet V X R)} (hF : AreFactors a F) :
    PartInv a.graphs graphVars SameFactor (fun _ => False) (F.toList.map fun f => f.image Prod.fst) := by
  have hrep : ∀ f ∈ F, ∃ p ∈ f, a.Occurs p.1 ∧ ∀ q, q ∈ f ↔ q ∈ a.items ∧ SameFactor p.1 q.1 := by
    intro f hf
    obtain ⟨p, hp, hpf⟩ := (hF f).1 hf
    have hocc : a.Occurs p.1 := ⟨p.2, (Samples.mem_items _ p).1 hp⟩
    exact ⟨p, (hpf p).2 ⟨hp, sameFactor_refl (hg _ hocc).2.1⟩, hocc, hpf⟩
  have hmem : ∀ f ∈ F, ∀ g, g ∈ f.image Prod.fst ↔ ∃ c, (g, c) ∈ f := by
    intro f hf g
    simp
  have hocc : ∀ f ∈ F, ∀ g c, (g, c) ∈ f → a.Occurs g := by
    intro f hf g c h
    obtain ⟨p, -, -, hpf⟩ := hrep f hf
    exact ⟨c, (Samples.mem_items _ (g, c)).1 ((hpf _).1 h).1⟩
  -- members of a factor are the outcomes of the same factor
  have hcls : ∀ f ∈ F, ∀ g c, (g, c) ∈ f → ∀ h, (∃ d, (h, d) ∈ f) ↔ a.Occurs h ∧ SameFactor g h := by
    intro f hf g c hgc h
    obtain ⟨p, -, ho, hpf⟩ := hrep f hf
    have h1 := ((hpf _).1 hgc).2
    have hgo := hocc f hf g c hgc
    constructor
    · rintro ⟨d, hd⟩
      exact ⟨hocc f hf h d hd, sameFactor_trans (hg _ ho).1 (sameFactor_symm h1) ((hpf _).1 hd).2⟩
    · rintro ⟨⟨d, hd⟩, hs⟩
      exact ⟨d, (hpf _).2 ⟨(Samples.mem_items _ (h, d)).2 hd, sameFactor_trans (hg _ hgo).1 h1 hs⟩⟩
  refine ⟨?_, ?_, ?_, ?_, ?_⟩
  · intro B hB
    obtain ⟨f, hf, rfl⟩ := List.mem_map.1 hB
    rw [Finset.mem_toList] at hf
    obtain ⟨p, hp, -⟩ := hrep f hf
    exact ⟨p.1, Finset.mem_image_of_mem _ hp⟩
  · intro B hB
    obtain ⟨f, hf, rfl⟩ := List.mem_map.1 hB
    rw [Finset.mem_toList] at hf
    intro g hg'
    obtain ⟨c, hc⟩ := (hmem f hf g).1 hg'
    exact (Samples.mem_graphs a g).2 (hocc f hf g c hc)
  · intro g hg'
    obtain ⟨f, hf, c, hc⟩ := exists_factor hg hF ((Samples.mem_graphs a g).1 hg')
    exact ⟨_, List.mem_map.2 ⟨f, Finset.mem_toList.2 hf, rfl⟩, (hmem f hf g).2 ⟨c, hc⟩⟩
  · rw [List.pairwise_map]
    refine List.Pairwise.imp_of_mem ?_ F.nodup_toList
    intro f f' hf hf' hne
    rw [Finset.mem_toList] at hf hf'
    rw [Finset.disjoint_left]
    intro g h1 h2
    obtain ⟨c, hc⟩ := (hmem f hf g).1 h1
    obtain ⟨d, hd⟩ := (hmem f' hf' g).1 h2
    apply hne
    have hsub : ∀ {f f' : ItemSet V X R} {c d}, f ∈ F → f' ∈ F → (g, c) ∈ f → (g, d) ∈ f' → ∀ q, q ∈ f → q ∈ f' := by
      intro f f' c d hf hf' hc hd q hq
      obtain ⟨e, he⟩ := (hcls f' hf' g d hd q.1).2 ((hcls f hf g c hc q.1).1 ⟨q.2, hq⟩)
      obtain ⟨p, -, -, hpf⟩ := hrep f hf
      obtain ⟨p', -, -, hpf'⟩ := hrep f' hf'
      have e1 := (Samples.mem_items _ _).1 ((hpf _).1 hq).1
      have e2 := (Samples.mem_items _ _).1 ((hpf' _).1 he).1
      have : e = q.2 := by
        simp only at e2
        rw [e1] at e2
        exact (Option.some.inj e2).symm
      rwa [this] at he
    ext q
    exact ⟨hsub hf hf' hc hd q, hsub hf' hf hd hc q⟩
  · intro B hB g hgB h
    obtain ⟨f, hf, rfl⟩ := List.mem_map.1 hB
    rw [Finset.mem_toList] at hf
    obtain ⟨c, hc⟩ := (hmem f hf g).1 hgB
    rw [hmem f hf]
    constructor
    · intro hh
      obtain ⟨h1, h2⟩ := (hcls f hf g c hc h).1 hh
      exact Relation.ReflTransGen.single ⟨(Samples.mem_graphs a g).2 (hocc f hf g c hc), (Samples.mem_graphs a h).2 h1, Or.inl h2⟩
    · intro hl
      rw [← hmem f hf]
      refine hl.closed ?_ hgB
      rintro x y hx ⟨-, hyI, hxy | ⟨r, hr, -⟩⟩
      · obtain ⟨d, hd⟩ := (hmem f hf x).1 hx
        exact (hmem f hf y).2 ((hcls f hf x d hd y).2 ⟨(Samples.mem_graphs a y).1 hyI, hxy⟩)
      · exact absurd hr id

theorem blockU_factor (f : ItemSet V X R) : blockU graphVars (f.image Prod.fst) = factorVars f := by
  unfold blockU factorVars graphVars
  rw [Finset.image_biUnion]

/-! ### C84 -/

/-- **C84.** With complete factors `make_joined` returns exactly if the outcomes hang together and each variable, in the order it takes them, can be joined on when
those before it are done. -/
theorem C84_order (o : Orders V X R) (sp : Space V X R) (hg : AllGood sp.outcomes) (hf : Factorizable sp.outcomes) (hc : CompleteFactors sp.outcomes) :
    (∃ sp', sp.makeJoined o = .ok sp') ↔ HangTogether sp.outcomes ∧
      ∀ pre v post, joinOrder o sp = pre ++ v :: post → CanJoinOn sp.outcomes (· ∈ pre) v := by
  obtain ⟨F, hF⟩ := factors_exist o sp hg hf
  obtain ⟨T, hT⟩ := manyVals_exist sp.outcomes
  have hL : ((F.toList.map factorVars : List (Finset V)) : Multiset (Finset V)) = F.val.map factorVars := by
    rw [← Multiset.map_coe, Finset.coe_toList]
  rw [(C43_returns_iff o sp hg hf hc F hF T hT _ hL).1]
  have hmap : F.toList.map factorVars = (F.toList.map fun f => f.image Prod.fst).map (blockU graphVars) := by
    rw [List.map_map]
    refine List.map_congr_left fun f _ => ?_
    exact (blockU_factor f).symm
  rw [hmap, (partInv_init hg hF).elimOk_iff (fun _ _ => sameFactor_symm) T]
  · refine and_congr ?_ ?_
    · unfold HangTogether
      simp only [linkedBy_iff, Samples.mem_graphs]
      have hiff : ∀ g h, JoinedBy sp.outcomes (fun r => False ∨ r ∈ (o.incl.run (sp.includedVariables o.graphs o.nodes)).map Prod.fst) g h ↔
          JoinedBy sp.outcomes (fun _ => True) g h := by
        intro g h
        unfold JoinedBy
        have : (fun g h : SampleGraph V X R => sp.outcomes.Occurs g ∧ sp.outcomes.Occurs h ∧ (SameFactor g h ∨
            ∃ r, (False ∨ r ∈ (o.incl.run (sp.includedVariables o.graphs o.nodes)).map Prod.fst) ∧ HasVar r g ∧ HasVar r h)) =
            fun g h => sp.outcomes.Occurs g ∧ sp.outcomes.Occurs h ∧ (SameFactor g h ∨ ∃ r, True ∧ HasVar r g ∧ HasVar r h) := by
          funext g h
          rw [eq_iff_iff]
          refine and_congr_right fun h1 => and_congr_right fun _ => or_congr_right (exists_congr fun r => ?_)
          rw [false_or, mem_included_fst]
          exact ⟨fun h => ⟨trivial, h.2⟩, fun h => ⟨⟨g, h1, h.2.1⟩, h.2⟩⟩
        rw [this]
      exact ⟨fun h g k h1 h2 => (hiff g k).1 (h g h1 k h2), fun h g h1 k h2 => (hiff g k).2 (h g k h1 h2)⟩
    · refine forall_congr' fun pre => forall_congr' fun v => forall_congr' fun post => forall_congr' fun _ => ?_
      rw [goodAt_iff _ _ T hT]
      simp only [false_or]
  · intro v hv
    obtain ⟨g, h1, h2⟩ := (mem_included_fst o sp v).1 hv
    exact ⟨g, (Samples.mem_graphs _ g).2 h1, (mem_graphVars g v).2 h2⟩

theorem canJoinOn_congr {a : Samples V X R} {P Q : V → Prop} (h : ∀ v g, a.Occurs g → HasVar v g → (P v ↔ Q v)) (v : V) : CanJoinOn a P v ↔ CanJoinOn a Q v := by
  have hj : JoinedBy a P = JoinedBy a Q := by
    unfold JoinedBy
    congr 1
    funext g k
    rw [eq_iff_iff]
    refine and_congr_right fun h1 => and_congr_right fun _ => or_congr_right (exists_congr fun r => ?_)
    exact ⟨fun ⟨h2, h3⟩ => ⟨(h r g h1 h3.1).1 h2, h3⟩, fun ⟨h2, h3⟩ => ⟨(h r g h1 h3.1).2 h2, h3⟩⟩
  unfold CanJoinOn PartHasVar
  rw [hj]

/-- **C84.** It returns for every order exactly if the outcomes hang together and each variable can be joined on whichever others are done. -/
theorem C84_all (sp : Space V X R) (hg : AllGood sp.outcomes) (hf : Factorizable sp.outcomes) (hc : CompleteFactors sp.outcomes) :
    (∀ o, ∃ sp', sp.makeJoined o = .ok sp') ↔ HangTogether sp.outcomes ∧ ∀ (P : V → Prop) (v : V), ¬ P v → CanJoinOn sp.outcomes P v := by
  classical
  simp only [C84_order _ sp hg hf hc]
  constructor
  · intro h
    refine ⟨(h ⟨default, default, default, default, default, default, default, default⟩).1, ?_⟩
    intro P v hv
    let W : Finset V := sp.outcomes.graphs.biUnion graphVars
    have hW : ∀ v, v ∈ W ↔ ∃ g, sp.outcomes.Occurs g ∧ HasVar v g := by
      intro v
      simp only [W, Finset.mem_biUnion, Samples.mem_graphs, mem_graphVars]
      rfl
    by_cases hvW : v ∈ W
    · have hnd : ((W.filter P).toList ++ v :: (W.filter fun w => ¬ P w ∧ w ≠ v).toList).Nodup := by
        rw [List.nodup_append, List.nodup_cons]
        refine ⟨Finset.nodup_toList _, ⟨by simp, Finset.nodup_toList _⟩, ?_⟩
        rintro x hx y hy rfl
        simp only [Finset.mem_toList, Finset.mem_filter, List.mem_cons] at hx hy
        rcases hy with rfl | hy
        · exact hv hx.2
        · exact hy.2.1 hx.2
      have hmem : ∀ w, w ∈ (W.filter P).toList ++ v :: (W.filter fun w => ¬ P w ∧ w ≠ v).toList ↔ ∃ g, sp.outcomes.Occurs g ∧ HasVar w g := by
        intro w
        rw [← hW]
        simp only [List.mem_append, Finset.mem_toList, Finset.mem_filter, List.mem_cons]
        constructor
        · rintro (h | rfl | h)
          · exact h.1
          · exact hvW
          · exact h.1
        · intro hw
          by_cases h1 : P w
          · exact Or.inl ⟨hw, h1⟩
          · by_cases h2 : w = v
            · exact Or.inr (Or.inl h2)
            · exact Or.inr (Or.inr ⟨hw, h1, h2⟩)
      obtain ⟨o, ho⟩ := exists_order sp _ hnd hmem
      refine (canJoinOn_congr ?_ v).1 ((h o).2 _ v _ ho)
      intro w g h1 h2
      rw [Finset.mem_toList, Finset.mem_filter]
      exact and_iff_right ((hW w).2 ⟨g, h1, h2⟩)
    · intro w g₁ g₂ g₃ _ h1 _ _ h2
      exact absurd ((hW v).2 ⟨g₁, h1, h2⟩) hvW
  · rintro ⟨h1, h2⟩ o
    refine ⟨h1, ?_⟩
    intro pre v post he
    refine h2 _ v ?_
    have := nodup_included_fst o sp
    change (joinOrder o sp).Nodup at this
    rw [he, List.nodup_append] at this
    intro hv
    exact this.2.2 v hv v (by simp) rfl

/-- **C84.** There is an order for which it returns exactly if the outcomes hang together and the variables can be listed so that each can be joined on when those
before it are done. -/
theorem C84_some (sp : Space V X R) (hg : AllGood sp.outcomes) (hf : Factorizable sp.outcomes) (hc : CompleteFactors sp.outcomes) :
    (∃ o sp', sp.makeJoined o = .ok sp') ↔ HangTogether sp.outcomes ∧
      ∃ vs : List V, vs.Nodup ∧ (∀ v, v ∈ vs ↔ ∃ g, sp.outcomes.Occurs g ∧ HasVar v g) ∧
        ∀ pre v post, vs = pre ++ v :: post → CanJoinOn sp.outcomes (· ∈ pre) v := by
  constructor
  · rintro ⟨o, h⟩
    obtain ⟨h1, h2⟩ := (C84_order o sp hg hf hc).1 h
    exact ⟨h1, joinOrder o sp, nodup_included_fst o sp, mem_included_fst o sp, h2⟩
  · rintro ⟨h1, vs, h2, h3, h4⟩
    obtain ⟨o, ho⟩ := exists_order sp vs h2 h3
    exact ⟨o, (C84_order o sp hg hf hc).2 ⟨h1, fun pre v post he => h4 pre v post (ho.symm.trans he)⟩⟩

end

/-! ### Non-vacuity -/

/-- In a triangle of pairs each variable can be joined on whatever is done before it. -/
theorem parts_triangle : ∃ sp : Space ℕ ℕ ℕ, AllGood sp.outcomes ∧ Factorizable sp.outcomes ∧ CompleteFactors sp.outcomes ∧
    (∃ g, sp.outcomes.Occurs g) ∧ HangTogether sp.outcomes ∧ ∀ P v, ¬ P v → CanJoinOn sp.outcomes P v := by
  obtain ⟨sp, h1, h2, h3, -, h5, h6⟩ := triangle_joined
  have hf := factorizable_of_two h1 h3
  refine ⟨sp, h1, hf, h2, ?_, (C84_all sp h1 hf h2).1 h6⟩
  by_contra hno
  refine h5 fun v w hw => ?_
  obtain ⟨l, l1, -, -, -, l5, -⟩ := cycle_list w hw
  match l, l1 with
  | a :: _ :: _, _ =>
    obtain ⟨-, g, hg, -⟩ := l5 a rfl
    exact hno ⟨g, hg⟩

/-- In a triangle with one more pair there are a variable and a set of variables before it for which this fails. -/
theorem parts_pendant : ∃ sp : Space ℕ ℕ ℕ, AllGood sp.outcomes ∧ Factorizable sp.outcomes ∧ CompleteFactors sp.outcomes ∧
    ¬ (HangTogether sp.outcomes ∧ ∀ P v, ¬ P v → CanJoinOn sp.outcomes P v) := by
  obtain ⟨sp, h1, h2, h3, -, o, h5⟩ := pendant_not_joined
  have hf := factorizable_of_two h1 h3
  refine ⟨sp, h1, hf, h2, fun h => ?_⟩
  obtain ⟨sp', h6⟩ := (C84_all sp h1 hf h2).2 h o
  rw [h5] at h6
  cases h6

end Verif
