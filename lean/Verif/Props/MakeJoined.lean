import Verif.Lemmas.MakeJoined
import Mathlib.Algebra.BigOperators.Ring.Finset

/-!
# Properties of `make_joined` (C42, C43)
-/

set_option linter.unusedSectionVars false

namespace Verif

variable {V X R : Type} [DecidableEq V] [DecidableEq X] [DecidableEq R]

/-! ### Specification -/

/-- The factors are complete: for each outcome `g` and each assignment of occurring values to its variables the factor of `g` has
an outcome with these values. -/
def CompleteFactors (a : Samples V X R) : Prop :=
  ∀ g, a.Occurs g → ∀ asg : V → X, (∀ v, HasVar v g → ∃ h, a.Occurs h ∧ HasValue v (asg v) h) →
    ∃ h, a.Occurs h ∧ SameFactor g h ∧ ∀ n ∈ h.nodes, n.val = asg n.var

/-- `F` is the set of the factors of the outcomes. -/
def AreFactors (a : Samples V X R) (F : Finset (ItemSet V X R)) : Prop :=
  ∀ f, f ∈ F ↔ ∃ p ∈ a.items, ∀ q, q ∈ f ↔ q ∈ a.items ∧ SameFactor p.1 q.1

/-- The variables of a factor. -/
def factorVars (f : ItemSet V X R) : Finset V := f.biUnion fun p => p.1.nodes.image Node.var

/-- The elimination of variables on the sets of variables only. Variables from `T` have two values or more. A variable can be
eliminated when no variable of `T` is in two of its sets but not in all of them. All has to end in one set. -/
def elimOk (T : Finset V) : List V → List (Finset V) → Bool
  | [], L => L.length ≤ 1
  | v :: vs, L =>
    let A := L.filter (v ∈ ·)
    (∀ w ∈ T, ¬ (2 ≤ A.countP (w ∈ ·) ∧ A.countP (w ∈ ·) < A.length)) &&
      elimOk T vs (A.foldr (· ∪ ·) ∅ :: L.filter (v ∉ ·))

/-! ### Helper lemmas -/

/-- The occurring values of a variable. -/
def occVals (a : Samples V X R) (v : V) : Finset X := a.graphs.biUnion fun g => (g.nodes.filter (·.var = v)).image Node.val

theorem mem_occVals (a : Samples V X R) (v : V) (x : X) : x ∈ occVals a v ↔ ∃ g, a.Occurs g ∧ HasValue v x g := by
  unfold occVals HasValue
  simp only [Finset.mem_biUnion, Samples.mem_graphs, Finset.mem_image, Finset.mem_filter]
  refine exists_congr fun g => and_congr_right fun _ => ?_
  constructor
  · rintro ⟨⟨k, y⟩, ⟨h, rfl⟩, rfl⟩; exact h
  · intro h; exact ⟨_, ⟨h, rfl⟩, rfl⟩

theorem included_pair (sp : Space V X R) (oG : Order (SampleGraph V X R)) (oN : Order (Node V X)) (q : V × Finset X) :
    q ∈ sp.includedVariables oG oN ↔ (∃ g, sp.outcomes.Occurs g ∧ HasVar q.1 g) ∧ q.2 = occVals sp.outcomes q.1 := by
  obtain ⟨v, xs⟩ := q
  rw [C30_included_variables]
  refine and_congr_right fun _ => ?_
  simp only
  constructor
  · intro h; ext x; rw [h, mem_occVals]
  · rintro rfl x; rw [mem_occVals]

/-- Complete factors form a system. -/
theorem factorSys_of (a : Samples V X R) (hg : AllGood a) (hf : Factorizable a) (hc : CompleteFactors a)
    (F : Finset (ItemSet V X R)) (hF : AreFactors a F) : FactorSys F (occVals a) := by
  have hocc : ∀ p ∈ a.items, a.Occurs p.1 := fun p hp => ⟨p.2, (Samples.mem_items a p).1 hp⟩
  have hgood : ∀ p ∈ a.items, WellFormed p.1 ∧ p.1.nodes.Nonempty ∧ SingleValued p.1.nodes := fun p hp => hg _ (hocc p hp)
  have hsf : ∀ f ∈ F, ∀ p ∈ f, ∀ q ∈ f, p ∈ a.items ∧ q ∈ a.items ∧ SameFactor p.1 q.1 := by
    intro f hf p hp q hq
    obtain ⟨r, hr, hrf⟩ := (hF f).1 hf
    obtain ⟨p1, p2⟩ := (hrf p).1 hp
    obtain ⟨q1, q2⟩ := (hrf q).1 hq
    exact ⟨p1, q1, sameFactor_trans (hgood r hr).1 (sameFactor_symm p2) q2⟩
  refine ⟨⟨?_, ?_, ?_, ?_⟩, ?_, ?_, ?_, ?_⟩
  · intro f hf p hp
    exact hgood p (hsf f hf p hp p hp).1
  · intro f hf p hp q hq hpq
    obtain ⟨h1, h2, -⟩ := hsf f hf p hp q hq
    rw [Samples.mem_items] at h1 h2
    refine Prod.ext hpq ?_
    rw [hpq, h2] at h1
    exact (Option.some.inj h1).symm
  · intro f hf' f' hf'' hne p hp q hq hsp
    obtain ⟨p1, -⟩ := hsf f hf' p hp p hp
    obtain ⟨q1, -⟩ := hsf f' hf'' q hq q hq
    have hpq := sameFactor_of_sharesPair hf (hocc p p1) (hocc q q1) hsp
    obtain ⟨r, hr, hrf⟩ := (hF f).1 hf'
    obtain ⟨r', hr', hrf'⟩ := (hF f').1 hf''
    apply hne
    have e1 := ((hrf p).1 hp).2
    have e2 := ((hrf' q).1 hq).2
    have hrr : SameFactor r.1 r'.1 := sameFactor_trans (hgood q q1).1 (sameFactor_trans (hgood p p1).1 e1 hpq) (sameFactor_symm e2)
    ext s
    rw [hrf, hrf']
    refine and_congr_right fun hs => ⟨fun h => ?_, fun h => ?_⟩
    · exact sameFactor_trans (hgood r hr).1 (sameFactor_symm hrr) h
    · exact sameFactor_trans (hgood r' hr').1 hrr h
  · intro f hf p hp q hq hpe hqe n hn m hm
    obtain ⟨p1, q1, h | ⟨-, -, k, hk, l, hl, hkl⟩⟩ := hsf f hf p hp q hq
    · exact absurd hpe h.1
    · have c1 := (hgood p p1).1.card_le_one hpe
      have c2 := (hgood q q1).1.card_le_one hqe
      rw [Finset.card_le_one] at c1 c2
      rw [c1 n hn k hk, c2 m hm l hl, hkl]
  · intro f hf
    obtain ⟨r, hr, hrf⟩ := (hF f).1 hf
    exact ⟨r, (hrf r).2 ⟨hr, sameFactor_refl (hgood r hr).2.1⟩⟩
  · intro f hf p hp q hq v hv
    obtain ⟨p1, q1, hpq⟩ := hsf f hf p hp q hq
    exact sameFactor_hasVar (hgood p p1).1 (hgood q q1).1 hpq hv
  · intro f hf p hp n hn
    obtain ⟨p1, -⟩ := hsf f hf p hp p hp
    exact (mem_occVals a _ _).2 ⟨p.1, hocc p p1, hn⟩
  · intro f hf asg ha
    obtain ⟨r, hr, hrf⟩ := (hF f).1 hf
    have hrm : r ∈ f := (hrf r).2 ⟨hr, sameFactor_refl (hgood r hr).2.1⟩
    obtain ⟨h, ⟨c, hh⟩, hsf', hn⟩ := hc r.1 (hocc r hr) asg fun v hv => (mem_occVals a _ _).1 (ha r hrm v hv)
    exact ⟨(h, c), (hrf _).2 ⟨(Samples.mem_items a _).2 hh, hsf'⟩, hn⟩

theorem isJoin_singleton (f : ItemSet V X R) (hsv : ∀ p ∈ f, SingleValued p.1.nodes) (p : SampleGraph V X R × ℤ) :
    IsJoin {f} id p ↔ p ∈ f := by
  constructor
  · rintro ⟨sel, h1, -, h3, h4, h5⟩
    have : p = sel f := by
      refine Prod.ext (SampleGraph.ext ?_ ?_) ?_
      · rw [h3]; simp
      · rw [h4]; simp
      · rw [h5]; simp
    rw [this]; exact h1 f (by simp)
  · intro hp
    exact ⟨fun _ => p, by simpa using hp, hsv p hp, by simp, by simp, by simp⟩

/-- The first state of the loop. -/
theorem blockInv_init {F : Finset (ItemSet V X R)} {vals : V → Finset X} (hs : FactorSys F vals) :
    BlockInv F (F.image fun f => {f}) (fun B => B.biUnion id) F := by
  have hb : ∀ f : ItemSet V X R, ({f} : Finset (ItemSet V X R)).biUnion id = f := by intro f; simp
  refine ⟨?_, ?_, ?_, ?_, ?_, ?_⟩
  · intro B hB B' hB' hne
    obtain ⟨f, hf, rfl⟩ := Finset.mem_image.1 hB
    obtain ⟨f', hf', rfl⟩ := Finset.mem_image.1 hB'
    rw [Finset.disjoint_singleton]
    rintro rfl; exact hne rfl
  · intro B hB
    obtain ⟨f, hf, rfl⟩ := Finset.mem_image.1 hB
    simp
  · ext f; simp
  · rw [Finset.image_image]
    ext f; simp
  · intro B hB p
    obtain ⟨f, hf, rfl⟩ := Finset.mem_image.1 hB
    simp only [hb]
    exact (isJoin_singleton f (fun p hp => (hs.sys.wf f hf p hp).2.2) p).symm
  · intro B hB p hp
    obtain ⟨f, hf, rfl⟩ := Finset.mem_image.1 hB
    simp only [hb] at hp
    exact hs.sys.wf f hf p hp

/-- The variables of a block. -/
def blockVars (B : Finset (ItemSet V X R)) : Finset V := B.biUnion factorVars

theorem mem_blockVars (B : Finset (ItemSet V X R)) (v : V) : v ∈ blockVars B ↔ BlockVar B v := by
  simp [blockVars, factorVars, BlockVar, HasVar]

theorem conflict_iff {F : Finset (ItemSet V X R)} {vals : V → Finset X} {𝓑 : Finset (Finset (ItemSet V X R))}
    (T : Finset V) (hT : ∀ w, BlockVar F w → (w ∈ T ↔ ∃ x ∈ vals w, ∃ y ∈ vals w, x ≠ y)) (hsub : ∀ B ∈ 𝓑, B ⊆ F)
    (L : List (Finset V)) (hL : (L : Multiset (Finset V)) = 𝓑.val.map blockVars) (v : V) :
    Conflict vals 𝓑 v ↔ ∃ w ∈ T, 2 ≤ (L.filter (v ∈ ·)).countP (w ∈ ·) ∧ (L.filter (v ∈ ·)).countP (w ∈ ·) < (L.filter (v ∈ ·)).length := by
  classical
  have hcount : ∀ w, (L.filter (v ∈ ·)).countP (w ∈ ·) = (𝓑.filter fun B => BlockVar B v ∧ BlockVar B w).card := by
    intro w
    have e1 : (L.filter (v ∈ ·)).countP (w ∈ ·) = Multiset.countP (fun s => v ∈ s ∧ w ∈ s) (L : Multiset (Finset V)) := by
      rw [Multiset.coe_countP, List.countP_filter]
      congr 1; ext s; simp [Bool.and_comm]
    rw [e1, hL, Multiset.countP_map]
    simp only [mem_blockVars]
    rfl
  have hlen : (L.filter (v ∈ ·)).length = (𝓑.filter fun B => BlockVar B v).card := by
    have e1 : (L.filter (v ∈ ·)).length = Multiset.countP (fun s => v ∈ s) (L : Multiset (Finset V)) := by
      rw [Multiset.coe_countP, List.countP_eq_length_filter]
    rw [e1, hL, Multiset.countP_map]
    simp only [mem_blockVars]
    rfl
  have hss : ∀ w, (𝓑.filter fun B => BlockVar B v ∧ BlockVar B w) ⊆ (𝓑.filter fun B => BlockVar B v) := by
    intro w B hB
    rw [Finset.mem_filter] at hB ⊢
    exact ⟨hB.1, hB.2.1⟩
  constructor
  · rintro ⟨B₁, h1, B₂, h2, B₃, h3, hne, v1, v2, v3, w, w1, w2, w3, hxy⟩
    refine ⟨w, (hT w (BlockInv.blockVar_mono (hsub B₁ h1) w1)).2 hxy, ?_, ?_⟩
    · rw [hcount]
      exact Finset.one_lt_card.2 ⟨B₁, Finset.mem_filter.2 ⟨h1, v1, w1⟩, B₂, Finset.mem_filter.2 ⟨h2, v2, w2⟩, hne⟩
    · rw [hcount, hlen]
      refine Finset.card_lt_card ((Finset.ssubset_iff_of_subset (hss w)).2 ⟨B₃, Finset.mem_filter.2 ⟨h3, v3⟩, ?_⟩)
      rw [Finset.mem_filter]; tauto
  · rintro ⟨w, hw, h2, hlt⟩
    rw [hcount] at h2 hlt
    rw [hlen] at hlt
    obtain ⟨B₁, h1, B₂, h2, hne⟩ := Finset.one_lt_card.1 h2
    obtain ⟨B₃, h3, h3'⟩ : ∃ B ∈ (𝓑.filter fun B => BlockVar B v), B ∉ (𝓑.filter fun B => BlockVar B v ∧ BlockVar B w) := by
      by_contra hc
      push Not at hc
      exact absurd (Finset.card_le_card hc) (by omega)
    rw [Finset.mem_filter] at h1 h2 h3 h3'
    refine ⟨B₁, h1.1, B₂, h2.1, B₃, h3.1, hne, h1.2.1, h2.2.1, h3.2, w, h1.2.2, h2.2.2, fun h => h3' ⟨h3.1, h3.2, h⟩,
      (hT w (BlockInv.blockVar_mono (hsub B₁ h1.1) h1.2.2)).1 hw⟩

theorem mem_foldr_union (A : List (Finset V)) (w : V) : w ∈ A.foldr (· ∪ ·) ∅ ↔ ∃ s ∈ A, w ∈ s := by
  induction A with
  | nil => simp
  | cons s t ih => simp [ih]

theorem mergeOn_vars {F : Finset (ItemSet V X R)} {𝓑 : Finset (Finset (ItemSet V X R))} (hcov : 𝓑.biUnion id = F)
    (L : List (Finset V)) (hL : (L : Multiset (Finset V)) = 𝓑.val.map blockVars) (v : V) (hv : BlockVar F v) :
    (((L.filter (v ∈ ·)).foldr (· ∪ ·) ∅ :: L.filter (v ∉ ·) : List (Finset V)) : Multiset (Finset V)) =
      (mergeOn 𝓑 v).val.map blockVars := by
  classical
  have hmemL : ∀ s, s ∈ L ↔ ∃ B ∈ 𝓑, blockVars B = s := by
    intro s
    rw [← Multiset.mem_coe, hL, Multiset.mem_map]
    rfl
  have hnot : ((𝓑.filter fun B => BlockVar B v).biUnion id) ∉ (𝓑.filter fun B => ¬ BlockVar B v) := by
    rw [Finset.mem_filter]
    rintro ⟨-, h2⟩
    apply h2
    obtain ⟨f, hf, q, hq, hqv⟩ := hv
    rw [← hcov, Finset.mem_biUnion] at hf
    obtain ⟨B, hB, hfB⟩ := hf
    exact ⟨f, Finset.mem_biUnion.2 ⟨B, Finset.mem_filter.2 ⟨hB, f, hfB, q, hq, hqv⟩, hfB⟩, q, hq, hqv⟩
  have hval : (mergeOn 𝓑 v).val = ((𝓑.filter fun B => BlockVar B v).biUnion id) ::ₘ (𝓑.filter fun B => ¬ BlockVar B v).val := by
    unfold mergeOn
    rw [Finset.union_comm, ← Finset.insert_eq, Finset.insert_val_of_notMem hnot]
  rw [hval, Multiset.map_cons, ← Multiset.cons_coe]
  congr 1
  · ext w
    rw [mem_foldr_union, mem_blockVars]
    constructor
    · rintro ⟨s, hs, hw⟩
      rw [List.mem_filter, hmemL] at hs
      obtain ⟨⟨B, hB, rfl⟩, hvB⟩ := hs
      rw [decide_eq_true_eq, mem_blockVars] at hvB
      exact BlockInv.blockVar_mono (Finset.subset_biUnion_of_mem id (Finset.mem_filter.2 ⟨hB, hvB⟩)) ((mem_blockVars B w).1 hw)
    · rintro ⟨f, hf, q, hq, hqw⟩
      obtain ⟨B, hB, hfB⟩ := Finset.mem_biUnion.1 hf
      rw [Finset.mem_filter] at hB
      refine ⟨blockVars B, ?_, (mem_blockVars B w).2 ⟨f, hfB, q, hq, hqw⟩⟩
      rw [List.mem_filter, hmemL, decide_eq_true_eq, mem_blockVars]
      exact ⟨⟨B, hB.1, rfl⟩, hB.2⟩
  · have e1 : ((L.filter (v ∉ ·) : List (Finset V)) : Multiset (Finset V)) = Multiset.filter (v ∉ ·) (L : Multiset (Finset V)) := by
      rw [Multiset.filter_coe]
    rw [e1, hL, Multiset.filter_map]
    congr 1
    rw [Finset.filter_val]
    refine Multiset.filter_congr fun B _ => ?_
    simp [mem_blockVars]

/-- The loop over the variables. -/
theorem eliminateLoop_spec {F : Finset (ItemSet V X R)} {vals : V → Finset X} (hs : FactorSys F vals) (o : Orders V X R) (prov : ℕ)
    (T : Finset V) (hT : ∀ w, BlockVar F w → (w ∈ T ↔ ∃ x ∈ vals w, ∃ y ∈ vals w, x ≠ y))
    (qs : List (V × Finset X)) (hqs : ∀ q ∈ qs, BlockVar F q.1 ∧ q.2 = vals q.1)
    (𝓑 : Finset (Finset (ItemSet V X R))) (Jf : Finset (ItemSet V X R) → ItemSet V X R) (fs : Finset (ItemSet V X R))
    (h : BlockInv F 𝓑 Jf fs) (L : List (Finset V)) (hL : (L : Multiset (Finset V)) = 𝓑.val.map blockVars) :
    (elimOk T (qs.map Prod.fst) L = true → ∃ fs' Jf', qs.foldlM (Space.eliminate o prov) fs = .ok fs' ∧
      fs'.card ≤ 1 ∧ ∃ 𝓑', BlockInv F 𝓑' Jf' fs') ∧
    (elimOk T (qs.map Prod.fst) L = false → qs.foldlM (Space.eliminate o prov) fs = .error .assertion ∨
      ∃ fs', qs.foldlM (Space.eliminate o prov) fs = .ok fs' ∧ 1 < fs'.card) := by
  induction qs generalizing 𝓑 Jf fs L with
  | nil =>
    have hc : fs.card = L.length := by
      rw [h.image, Finset.card_image_of_injOn (fun B hB B' hB' e => h.inj hs B hB B' hB' e)]
      have := congrArg Multiset.card hL
      rw [Multiset.coe_card, Multiset.card_map] at this
      exact this.symm
    constructor
    · intro ho
      simp only [List.map_nil, elimOk, decide_eq_true_eq] at ho
      exact ⟨fs, Jf, rfl, by omega, 𝓑, h⟩
    · intro ho
      simp only [List.map_nil, elimOk, decide_eq_false_iff_not] at ho
      exact Or.inr ⟨fs, rfl, by omega⟩
  | cons q t ih =>
    obtain ⟨hq1, hq2⟩ := hqs q (by simp)
    have hq : q = (q.1, vals q.1) := Prod.ext rfl hq2
    obtain ⟨s1, s2⟩ := h.eliminate_spec hs o prov q.1 hq1
    rw [← hq] at s1 s2
    have hcf := conflict_iff T hT (fun B hB => h.sub hB) L hL q.1
    rw [List.map_cons, elimOk]
    by_cases hc : Conflict vals 𝓑 q.1
    · have hfalse : decide (∀ w ∈ T, ¬ (2 ≤ (L.filter (q.1 ∈ ·)).countP (w ∈ ·) ∧
          (L.filter (q.1 ∈ ·)).countP (w ∈ ·) < (L.filter (q.1 ∈ ·)).length)) = false := by
        rw [decide_eq_false_iff_not]
        push Not
        obtain ⟨w, hw, h1, h2⟩ := hcf.1 hc
        exact ⟨w, hw, h1, h2⟩
      simp only [hfalse, Bool.false_and]
      refine ⟨by simp, fun _ => Or.inl ?_⟩
      rw [List.foldlM_cons, s2 hc]; rfl
    · have htrue : decide (∀ w ∈ T, ¬ (2 ≤ (L.filter (q.1 ∈ ·)).countP (w ∈ ·) ∧
          (L.filter (q.1 ∈ ·)).countP (w ∈ ·) < (L.filter (q.1 ∈ ·)).length)) = true := by
        rw [decide_eq_true_eq]
        intro w hw hh
        exact hc (hcf.2 ⟨w, hw, hh⟩)
      simp only [htrue, Bool.true_and]
      obtain ⟨fs', Jf', e1, e2⟩ := s1 hc
      have := ih (fun q hq => hqs q (by simp [hq])) (mergeOn 𝓑 q.1) Jf' fs' e2 _ (mergeOn_vars h.cover L hL q.1 hq1)
      rw [List.foldlM_cons, e1]
      exact this

/-- The last state of the loop. -/
theorem blockInv_final {F : Finset (ItemSet V X R)} {vals : V → Finset X} (hs : FactorSys F vals)
    {𝓑 : Finset (Finset (ItemSet V X R))} {Jf : Finset (ItemSet V X R) → ItemSet V X R} {fs : Finset (ItemSet V X R)}
    (h : BlockInv F 𝓑 Jf fs) (hc : fs.card ≤ 1) :
    (F = ∅ ∧ fs = ∅) ∨ (F ≠ ∅ ∧ ∃ f, fs = {f} ∧ (∀ p, p ∈ f ↔ IsJoin F id p) ∧
      ∀ p ∈ f, WellFormed p.1 ∧ p.1.nodes.Nonempty ∧ SingleValued p.1.nodes) := by
  have hcard : 𝓑.card ≤ 1 := by
    rwa [h.image, Finset.card_image_of_injOn (fun B hB B' hB' e => h.inj hs B hB B' hB' e)] at hc
  rcases Finset.eq_empty_or_nonempty 𝓑 with rfl | ⟨B, hB⟩
  · left
    refine ⟨by rw [← h.cover]; simp, by rw [h.image]; simp⟩
  · right
    have h𝓑 : 𝓑 = {B} := by
      rw [Finset.card_le_one] at hcard
      ext B'
      rw [Finset.mem_singleton]
      exact ⟨fun hB' => hcard B' hB' B hB, fun e => e ▸ hB⟩
    have hBF : B = F := by rw [← h.cover, h𝓑]; simp
    refine ⟨?_, Jf B, by rw [h.image, h𝓑]; simp, fun p => ?_, h.wf B hB⟩
    · rw [← hBF]; exact Finset.nonempty_iff_ne_empty.1 (h.ne B hB)
    · rw [h.join B hB, hBF]

theorem edgeless_card {a : Samples V X R} (hg : AllGood a) : ∀ g, a.Occurs g → g.edges = ∅ → g.nodes.card = 1 := by
  intro g h he
  have h1 := (hg g h).1.card_le_one he
  have h2 := Finset.card_pos.2 (hg g h).2.1
  omega

theorem blockVar_iff_occurs {a : Samples V X R} (hg : AllGood a) {F : Finset (ItemSet V X R)} (hF : AreFactors a F) (v : V) :
    BlockVar F v ↔ ∃ g, a.Occurs g ∧ HasVar v g := by
  constructor
  · rintro ⟨f, hf, q, hq, hv⟩
    obtain ⟨r, hr, hrf⟩ := (hF f).1 hf
    exact ⟨q.1, ⟨q.2, (Samples.mem_items a q).1 ((hrf q).1 hq).1⟩, hv⟩
  · rintro ⟨g, ⟨c, hc⟩, hv⟩
    have hp : (g, c) ∈ a.items := (Samples.mem_items a _).2 hc
    classical
    refine ⟨a.items.filter fun q => SameFactor g q.1, (hF _).2 ⟨(g, c), hp, fun q => ?_⟩, (g, c), ?_, hv⟩
    · rw [Finset.mem_filter]
    · rw [Finset.mem_filter]
      exact ⟨hp, sameFactor_refl (hg g ⟨c, hc⟩).2.1⟩

/-- `make_joined` with complete factors. -/
theorem makeJoined_spec (o : Orders V X R) (sp : Space V X R) (hg : AllGood sp.outcomes) (hf : Factorizable sp.outcomes)
    (hc : CompleteFactors sp.outcomes) (F : Finset (ItemSet V X R)) (hF : AreFactors sp.outcomes F) (T : Finset V)
    (hT : ∀ w, BlockVar F w → (w ∈ T ↔ ∃ x ∈ occVals sp.outcomes w, ∃ y ∈ occVals sp.outcomes w, x ≠ y))
    (L : List (Finset V)) (hL : (L : Multiset (Finset V)) = F.val.map factorVars) :
    (elimOk T ((o.incl.run (sp.includedVariables o.graphs o.nodes)).map Prod.fst) L = true →
      ∃ out, sp.makeJoined o = .ok ⟨sp.schema, out, none⟩ ∧ out.prov = sp.outcomes.prov ∧ AllGood out ∧
        ∀ g c, out.samples.get? g = some c ↔ F ≠ ∅ ∧ IsJoin F id (g, c)) ∧
    (elimOk T ((o.incl.run (sp.includedVariables o.graphs o.nodes)).map Prod.fst) L = false →
      sp.makeJoined o = .error .assertion) := by
  have hs := factorSys_of _ hg hf hc F hF
  have hfac : sp.factorized o.items o.nodes = .ok F := by
    obtain ⟨F', hF'⟩ := (C33_factorized_iff sp o.items o.nodes o.graphs).1 ((C33_is_factorized sp o.graphs).2 hf)
    rw [hF']
    congr 1
    ext f
    rw [mem_factors_iff sp o.items o.nodes (edgeless_card hg) F' hF']
    exact (hF f).symm
  have hqs : ∀ q ∈ o.incl.run (sp.includedVariables o.graphs o.nodes), BlockVar F q.1 ∧ q.2 = occVals sp.outcomes q.1 := by
    intro q hq
    rw [o.incl.mem, included_pair] at hq
    exact ⟨(blockVar_iff_occurs hg hF _).2 hq.1, hq.2⟩
  have hL0 : (L : Multiset (Finset V)) = (F.image fun f => ({f} : Finset (ItemSet V X R))).val.map blockVars := by
    rw [hL, Finset.image_val_of_injOn (fun f _ f' _ e => Finset.singleton_injective e), Multiset.map_map]
    refine Multiset.map_congr rfl fun f _ => ?_
    simp [blockVars]
  obtain ⟨l1, l2⟩ := eliminateLoop_spec hs o sp.outcomes.prov T hT _ hqs _ _ _ (blockInv_init hs) L hL0
  unfold Space.makeJoined
  simp only [hfac]
  constructor
  · intro ho
    obtain ⟨fs, Jf, e1, e2, 𝓑, e3⟩ := l1 ho
    rw [e1]
    simp only [if_pos e2]
    rcases blockInv_final hs e3 e2 with ⟨hF0, rfl⟩ | ⟨hF0, f, rfl, hm, hwf⟩
    · refine ⟨_, rfl, ?_, ?_, ?_⟩
      · simp [Samples.empty]
      · rintro g ⟨c, hc⟩
        simp [Samples.empty] at hc
      · intro g c
        simp [Samples.empty, hF0]
    · have hget : ∀ g c, (Dict.ofList (o.items.run f)).get? g = some c ↔ (g, c) ∈ f := by
        intro g c
        have hnd : ((o.items.run f).map Prod.fst).Nodup := by
          refine List.Nodup.map_on ?_ (o.items.nodup f)
          intro p hp q hq hpq
          rw [o.items.mem, hm] at hp hq
          exact hs.join_func (Finset.Subset.refl _) hp hq hpq
        rw [Dict.get?_ofList _ hnd, o.items.mem]
      refine ⟨_, rfl, ?_, ?_, ?_⟩
      · simp
      · rintro g ⟨c, hc⟩
        simp only [Order.run_singleton] at hc
        exact hwf _ ((hget g c).1 hc)
      · intro g c
        simp only [Order.run_singleton]
        rw [hget, hm]
        simp [hF0]
  · intro ho
    rcases l2 ho with e1 | ⟨fs, e1, e2⟩
    · rw [e1]
    · rw [e1]
      simp only [if_neg (by omega : ¬ fs.card ≤ 1)]

/-! ### C42 -/

/-- **C42.** With complete factors, whatever the orders: `make_joined` returns or fails an assertion. When it returns, the outcomes
are exactly the joins of one outcome per factor, the count is the product. -/
theorem C42_make_joined (o : Orders V X R) (sp : Space V X R) (hg : AllGood sp.outcomes) (hc : CompleteFactors sp.outcomes) :
    (∀ e, sp.makeJoined o = .error e → e = .assertion) ∧
    ∀ sp', sp.makeJoined o = .ok sp' → sp'.schema = sp.schema ∧ sp'.outcomes.prov = sp.outcomes.prov ∧ sp'.evidence = none ∧
      ∀ F, AreFactors sp.outcomes F → ∀ g c,
        sp'.outcomes.samples.get? g = some c ↔ (∃ h, sp.outcomes.Occurs h) ∧ IsJoin F id (g, c) := by
  classical
  by_cases hf : Factorizable sp.outcomes
  · obtain ⟨F, hF'⟩ := (C33_factorized_iff sp o.items o.nodes o.graphs).1 ((C33_is_factorized sp o.graphs).2 hf)
    have hF : AreFactors sp.outcomes F := fun f => mem_factors_iff sp o.items o.nodes (edgeless_card hg) F hF' f
    have hT : ∀ w, BlockVar F w → (w ∈ (blockVars F).filter (fun w => ∃ x ∈ occVals sp.outcomes w, ∃ y ∈ occVals sp.outcomes w, x ≠ y) ↔
        ∃ x ∈ occVals sp.outcomes w, ∃ y ∈ occVals sp.outcomes w, x ≠ y) := by
      intro w hw
      rw [Finset.mem_filter, mem_blockVars]
      tauto
    obtain ⟨L, hL⟩ := Quot.exists_rep (F.val.map factorVars)
    obtain ⟨h1, h2⟩ := makeJoined_spec o sp hg hf hc F hF _ hT L hL
    cases he : elimOk ((blockVars F).filter (fun w => ∃ x ∈ occVals sp.outcomes w, ∃ y ∈ occVals sp.outcomes w, x ≠ y))
        ((o.incl.run (sp.includedVariables o.graphs o.nodes)).map Prod.fst) L with
    | false =>
      have := h2 he
      rw [this]
      exact ⟨fun e h => (Except.error.inj h).symm, fun sp' h => by simp at h⟩
    | true =>
      obtain ⟨out, e1, e2, -, e3⟩ := h1 he
      rw [e1]
      refine ⟨fun e h => by simp at h, fun sp' h => ?_⟩
      have := Except.ok.inj h
      subst this
      refine ⟨rfl, e2, rfl, fun F' hF'' g c => ?_⟩
      have hFF : F' = F := by ext f; rw [hF'', hF]
      subst hFF
      rw [e3]
      refine and_congr_left fun _ => ?_
      constructor
      · intro hne
        obtain ⟨f, hf⟩ := Finset.nonempty_iff_ne_empty.2 hne
        obtain ⟨p, hp, -⟩ := (hF f).1 hf
        exact ⟨p.1, p.2, (Samples.mem_items _ p).1 hp⟩
      · rintro ⟨h, c', hc'⟩ h0
        have : (sp.outcomes.items.filter fun q => SameFactor h q.1) ∈ F' :=
          (hF _).2 ⟨(h, c'), (Samples.mem_items _ _).2 hc', fun q => by rw [Finset.mem_filter]⟩
        rw [h0] at this
        simp at this
  · have : sp.makeJoined o = .error .assertion := by
      unfold Space.makeJoined
      have hfalse : sp.isFactorized o.graphs = false := by
        rw [Bool.eq_false_iff, ne_eq, C33_is_factorized]; exact hf
      rw [(C33_factorized_iff sp o.items o.nodes o.graphs).2 hfalse]
    rw [this]
    exact ⟨fun e h => (Except.error.inj h).symm, fun sp' h => by simp at h⟩

/-- **C42.** The joined outcomes are well formed: connected, with one value per variable and one edge per pair. -/
theorem C42_good (o : Orders V X R) (sp : Space V X R) (hg : AllGood sp.outcomes) (hc : CompleteFactors sp.outcomes)
    (sp' : Space V X R) (h : sp.makeJoined o = .ok sp') : AllGood sp'.outcomes := by
  classical
  by_cases hf : Factorizable sp.outcomes
  · obtain ⟨F, hF'⟩ := (C33_factorized_iff sp o.items o.nodes o.graphs).1 ((C33_is_factorized sp o.graphs).2 hf)
    have hF : AreFactors sp.outcomes F := fun f => mem_factors_iff sp o.items o.nodes (edgeless_card hg) F hF' f
    obtain ⟨L, hL⟩ := Quot.exists_rep (F.val.map factorVars)
    obtain ⟨h1, h2⟩ := makeJoined_spec o sp hg hf hc F hF
      ((blockVars F).filter (fun w => ∃ x ∈ occVals sp.outcomes w, ∃ y ∈ occVals sp.outcomes w, x ≠ y)) (by
        intro w hw
        rw [Finset.mem_filter, mem_blockVars]
        tauto) L hL
    cases he : elimOk ((blockVars F).filter (fun w => ∃ x ∈ occVals sp.outcomes w, ∃ y ∈ occVals sp.outcomes w, x ≠ y))
        ((o.incl.run (sp.includedVariables o.graphs o.nodes)).map Prod.fst) L with
    | false => rw [h2 he] at h; simp at h
    | true =>
      obtain ⟨out, e1, -, e3, -⟩ := h1 he
      rw [e1] at h
      rw [← Except.ok.inj h]
      exact e3
  · unfold Space.makeJoined at h
    have hfalse : sp.isFactorized o.graphs = false := by
      rw [Bool.eq_false_iff, ne_eq, C33_is_factorized]; exact hf
    rw [(C33_factorized_iff sp o.items o.nodes o.graphs).2 hfalse] at h
    simp at h

/-- All values of the sample are those of the assignment. -/
def Follows (asg : V → X) (g : SampleGraph V X R) : Prop := ∀ n ∈ g.nodes, n.val = asg n.var

open scoped Classical in
/-- **C42.** The joined graph is the product of the factors: the count of an assignment in it is the product of the counts of the
assignment in the factors. -/
theorem C42_product (o : Orders V X R) (sp : Space V X R) (hg : AllGood sp.outcomes) (hc : CompleteFactors sp.outcomes)
    (hne : ∃ h, sp.outcomes.Occurs h) (F : Finset (ItemSet V X R)) (hF : AreFactors sp.outcomes F) (sp' : Space V X R)
    (h : sp.makeJoined o = .ok sp') (asg : V → X) :
    ∑ p ∈ sp'.outcomes.items.filter (fun p => Follows asg p.1), p.2 =
      ∏ f ∈ F, ∑ q ∈ f.filter (fun q => Follows asg q.1), q.2 := by
  have hf : Factorizable sp.outcomes := by
    by_contra hf
    unfold Space.makeJoined at h
    have hfalse : sp.isFactorized o.graphs = false := by
      rw [Bool.eq_false_iff, ne_eq, C33_is_factorized]; exact hf
    rw [(C33_factorized_iff sp o.items o.nodes o.graphs).2 hfalse] at h
    simp at h
  have hs := factorSys_of _ hg hf hc F hF
  have hj : ∀ p, p ∈ sp'.outcomes.items ↔ IsJoin F id p := by
    intro p
    rw [Samples.mem_items, ((C42_make_joined o sp hg hc).2 sp' h).2.2.2 F hF]
    simp [hne]
  rw [Finset.prod_sum]
  symm
  let mk : (∀ f ∈ F, SampleGraph V X R × ℤ) → SampleGraph V X R × ℤ := fun s =>
    (⟨F.attach.biUnion fun f => (s f.1 f.2).1.nodes, F.attach.biUnion fun f => (s f.1 f.2).1.edges⟩, ∏ f ∈ F.attach, (s f.1 f.2).2)
  let ext : (∀ f ∈ F, SampleGraph V X R × ℤ) → ItemSet V X R → SampleGraph V X R × ℤ := fun s f =>
    if hf : f ∈ F then s f hf else (⟨∅, ∅⟩, 0)
  have hext : ∀ s (f : ItemSet V X R) (hf : f ∈ F), ext s f = s f hf := fun s f hf => dif_pos hf
  have hmk : ∀ s, mk s = (⟨F.biUnion fun f => (ext s f).1.nodes, F.biUnion fun f => (ext s f).1.edges⟩, ∏ f ∈ F, (ext s f).2) := by
    intro s
    have e1 : ∀ f : {f // f ∈ F}, s f.1 f.2 = ext s f.1 := fun f => (hext s f.1 f.2).symm
    simp only [mk, e1]
    refine Prod.ext (SampleGraph.ext ?_ ?_) ?_
    · ext n; simp
    · ext n; simp
    · exact Finset.prod_attach F fun f => (ext s f).2
  have hfol : ∀ s ∈ F.pi (fun f => f.filter fun q => Follows asg q.1), ∀ n ∈ (mk s).1.nodes, n.val = asg n.var := by
    intro s hs' n hn
    rw [hmk] at hn
    obtain ⟨f, hf, hnf⟩ := Finset.mem_biUnion.1 hn
    rw [hext s f hf] at hnf
    exact (Finset.mem_filter.1 (Finset.mem_pi.1 hs' f hf)).2 n hnf
  have hsing : ∀ s ∈ F.pi (fun f => f.filter fun q => Follows asg q.1), SingleValued (mk s).1.nodes := by
    intro s hs' a ha b hb hab
    have e1 := hfol s hs' a ha
    have e2 := hfol s hs' b hb
    obtain ⟨av, ax⟩ := a
    obtain ⟨bv, bx⟩ := b
    simp only at hab e1 e2
    rw [e1, e2, hab]
  have hsel : ∀ s ∈ F.pi (fun f => f.filter fun q => Follows asg q.1), ∀ f ∈ F, ext s f ∈ id f := by
    intro s hs' f hf
    rw [hext s f hf]
    exact (Finset.mem_filter.1 (Finset.mem_pi.1 hs' f hf)).1
  refine Finset.sum_bij (fun s _ => mk s) ?_ ?_ ?_ ?_
  · intro s hs'
    rw [Finset.mem_filter, hj]
    refine ⟨⟨ext s, hsel s hs', hsing s hs', ?_, ?_, ?_⟩, hfol s hs'⟩ <;> rw [hmk]
  · intro s hs1 s' hs2 e
    funext f hf
    rw [← hext s f hf, ← hext s' f hf]
    have hm1 := hmk s
    have hm2 := hmk s'
    refine hs.sys.sel_unique (ext s) (ext s') (hsel s hs1) (hsel s' hs2) (mk s).1.nodes (hsing s hs1) (mk s).1.edges ?_ ?_ ?_ ?_ f hf
    · intro n; rw [hm1]; simp
    · intro n; rw [e, hm2]; simp
    · intro n; rw [hm1]; simp
    · intro n; rw [e, hm2]; simp
  · intro p hp
    rw [Finset.mem_filter, hj] at hp
    obtain ⟨⟨sel, s1, s2, s3, s4, s5⟩, hfo⟩ := hp
    refine ⟨fun f _ => sel f, ?_, ?_⟩
    · rw [Finset.mem_pi]
      intro f hf
      rw [Finset.mem_filter]
      refine ⟨s1 f hf, fun n hn => hfo n ?_⟩
      rw [s3]; exact Finset.mem_biUnion.2 ⟨f, hf, hn⟩
    · refine Prod.ext (SampleGraph.ext ?_ ?_) ?_
      · rw [s3]; ext n; simp [mk]
      · rw [s4]; ext n; simp [mk]
      · rw [s5]; exact Finset.prod_attach F fun f => (sel f).2
  · intro s hs'
    rfl

/-! ### C43 -/

/-- **C43.** Whether `make_joined` returns: the elimination of the variables in the order of the set of included variables has to
succeed on the sets of variables of the factors. -/
theorem C43_returns_iff (o : Orders V X R) (sp : Space V X R) (hg : AllGood sp.outcomes) (hf : Factorizable sp.outcomes)
    (hc : CompleteFactors sp.outcomes) (F : Finset (ItemSet V X R)) (hF : AreFactors sp.outcomes F) (T : Finset V)
    (hT : ∀ w, w ∈ T ↔ ∃ x y g h, x ≠ y ∧ sp.outcomes.Occurs g ∧ HasValue w x g ∧ sp.outcomes.Occurs h ∧ HasValue w y h)
    (L : List (Finset V)) (hL : (L : Multiset (Finset V)) = F.val.map factorVars) :
    ((∃ sp', sp.makeJoined o = .ok sp') ↔
      elimOk T ((o.incl.run (sp.includedVariables o.graphs o.nodes)).map Prod.fst) L = true) ∧
    ((¬ ∃ sp', sp.makeJoined o = .ok sp') → sp.makeJoined o = .error .assertion) := by
  obtain ⟨h1, h2⟩ := makeJoined_spec o sp hg hf hc F hF T (by
    intro w _
    rw [hT]
    constructor
    · rintro ⟨x, y, g, h, hxy, g1, g2, h1, h2⟩
      exact ⟨x, (mem_occVals _ _ _).2 ⟨g, g1, g2⟩, y, (mem_occVals _ _ _).2 ⟨h, h1, h2⟩, hxy⟩
    · rintro ⟨x, hx, y, hy, hxy⟩
      obtain ⟨g, g1, g2⟩ := (mem_occVals _ _ _).1 hx
      obtain ⟨h, h1, h2⟩ := (mem_occVals _ _ _).1 hy
      exact ⟨x, y, g, h, hxy, g1, g2, h1, h2⟩) L hL
  cases he : elimOk T ((o.incl.run (sp.includedVariables o.graphs o.nodes)).map Prod.fst) L with
  | false => rw [h2 he]; simp
  | true =>
    obtain ⟨out, e1, -⟩ := h1 he
    rw [e1]
    exact ⟨⟨fun _ => rfl, fun _ => ⟨_, rfl⟩⟩, fun hn => absurd ⟨_, rfl⟩ hn⟩

end Verif
