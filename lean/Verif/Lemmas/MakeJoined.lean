import Verif.Props.JoinOn

/-!
# Lemmas on `make_joined`: complete factors

The loop of `make_joined` keeps a partition of the factors into blocks; the current sets of samples are the joins of the blocks.
-/

set_option linter.unusedSectionVars false

namespace Verif

variable {V X R : Type} [DecidableEq V] [DecidableEq X] [DecidableEq R]

/-- A set of counted samples. -/
abbrev ItemSet (V X R : Type) [DecidableEq V] [DecidableEq X] [DecidableEq R] := Finset (SampleGraph V X R × ℤ)

/-- The variable occurs in some factor of the block. -/
def BlockVar (B : Finset (ItemSet V X R)) (v : V) : Prop := ∃ f ∈ B, ∃ q ∈ f, HasVar v q.1

/-- Factors that have a sample for each assignment of values from `vals` to their variables. -/
structure FactorSys (F : Finset (ItemSet V X R)) (vals : V → Finset X) : Prop where
  sys : JoinSystem F id
  nonempty : ∀ f ∈ F, f.Nonempty
  sameVars : ∀ f ∈ F, ∀ p ∈ f, ∀ q ∈ f, ∀ v, HasVar v p.1 → HasVar v q.1
  inVals : ∀ f ∈ F, ∀ p ∈ f, ∀ n ∈ p.1.nodes, n.val ∈ vals n.var
  complete : ∀ f ∈ F, ∀ asg : V → X, (∀ p ∈ f, ∀ v, HasVar v p.1 → asg v ∈ vals v) →
    ∃ p ∈ f, ∀ n ∈ p.1.nodes, n.val = asg n.var

namespace FactorSys
variable {F : Finset (ItemSet V X R)} {vals : V → Finset X}

/-- There is a join for each assignment. -/
theorem join_complete (h : FactorSys F vals) {B : Finset (ItemSet V X R)} (hB : B ⊆ F) (asg : V → X)
    (ha : ∀ v, BlockVar B v → asg v ∈ vals v) : ∃ p, IsJoin B id p ∧ ∀ n ∈ p.1.nodes, n.val = asg n.var := by
  have : ∀ f ∈ B, ∃ p ∈ f, ∀ n ∈ p.1.nodes, n.val = asg n.var := fun f hf =>
    h.complete f (hB hf) asg fun p hp v hv => ha v ⟨f, hf, p, hp, hv⟩
  have inh : Inhabited (SampleGraph V X R × ℤ) := ⟨(⟨∅, ∅⟩, 0)⟩
  choose! sel h1 h2 using this
  have hn : ∀ n ∈ B.biUnion (fun f => (sel f).1.nodes), n.val = asg n.var := by
    intro n hn
    obtain ⟨f, hf, hnf⟩ := Finset.mem_biUnion.1 hn
    exact h2 f hf n hnf
  refine ⟨(⟨B.biUnion fun f => (sel f).1.nodes, B.biUnion fun f => (sel f).1.edges⟩, ∏ f ∈ B, (sel f).2),
    ⟨sel, h1, ?_, rfl, rfl, rfl⟩, hn⟩
  intro a ha b hb hab
  obtain ⟨av, ax⟩ := a
  obtain ⟨bv, bx⟩ := b
  have e1 := hn _ ha
  have e2 := hn _ hb
  simp only at hab e1 e2
  rw [e1, e2, hab]

/-- The variables of a join are those of the block. -/
theorem join_vars (h : FactorSys F vals) {B : Finset (ItemSet V X R)} (hB : B ⊆ F) {p : SampleGraph V X R × ℤ}
    (hp : IsJoin B id p) (v : V) : HasVar v p.1 ↔ BlockVar B v := by
  obtain ⟨sel, h1, -, h3, -⟩ := hp
  constructor
  · rintro ⟨n, hn, rfl⟩
    rw [h3, Finset.mem_biUnion] at hn
    obtain ⟨f, hf, hnf⟩ := hn
    exact ⟨f, hf, sel f, h1 f hf, n, hnf, rfl⟩
  · rintro ⟨f, hf, q, hq, hv⟩
    obtain ⟨n, hn, hnv⟩ := h.sameVars f (hB hf) q hq (sel f) (h1 f hf) v hv
    exact ⟨n, by rw [h3]; exact Finset.mem_biUnion.2 ⟨f, hf, hn⟩, hnv⟩

theorem join_inVals (h : FactorSys F vals) {B : Finset (ItemSet V X R)} (hB : B ⊆ F) {p : SampleGraph V X R × ℤ}
    (hp : IsJoin B id p) : ∀ n ∈ p.1.nodes, n.val ∈ vals n.var := by
  obtain ⟨sel, h1, -, h3, -⟩ := hp
  intro n hn
  rw [h3, Finset.mem_biUnion] at hn
  obtain ⟨f, hf, hnf⟩ := hn
  exact h.inVals f (hB hf) _ (h1 f hf) n hnf

/-- Joins of disjoint blocks share no pair. -/
theorem join_apart (h : FactorSys F vals) {B B' : Finset (ItemSet V X R)} (hB : B ⊆ F) (hB' : B' ⊆ F) (hd : Disjoint B B')
    {p q : SampleGraph V X R × ℤ} (hp : IsJoin B id p) (hq : IsJoin B' id q) : ¬ SharesPair p.1 q.1 := by
  obtain ⟨sel, h1, -, h3, h4, -⟩ := hp
  obtain ⟨sel', h1', -, h3', h4', -⟩ := hq
  have key : ∀ f ∈ B, ∀ f' ∈ B', ¬ SharesPair (sel f).1 (sel' f').1 := fun f hf f' hf' =>
    h.sys.apart f (hB hf) f' (hB' hf') (fun hff => Finset.disjoint_left.1 hd hf (hff ▸ hf')) _ (h1 f hf) _ (h1' f' hf')
  rintro (⟨e, he, e', he', hee⟩ | ⟨he, he', n, hn, m, hm, hnm⟩)
  · rw [h4, Finset.mem_biUnion] at he
    rw [h4', Finset.mem_biUnion] at he'
    obtain ⟨f, hf, hef⟩ := he
    obtain ⟨f', hf', hef'⟩ := he'
    exact key f hf f' hf' (Or.inl ⟨e, hef, e', hef', hee⟩)
  · rw [h3, Finset.mem_biUnion] at hn
    rw [h3', Finset.mem_biUnion] at hm
    obtain ⟨f, hf, hnf⟩ := hn
    obtain ⟨f', hf', hmf'⟩ := hm
    rw [h4] at he
    rw [h4'] at he'
    refine key f hf f' hf' (Or.inr ⟨?_, ?_, n, hnf, m, hmf', hnm⟩)
    · exact Finset.subset_empty.1 (he ▸ Finset.subset_biUnion_of_mem (fun f => (sel f).1.edges) hf)
    · exact Finset.subset_empty.1 (he' ▸ Finset.subset_biUnion_of_mem (fun f => (sel' f).1.edges) hf')

/-- A joined sample has one count. -/
theorem join_func (h : FactorSys F vals) {B : Finset (ItemSet V X R)} (hB : B ⊆ F) {p q : SampleGraph V X R × ℤ}
    (hp : IsJoin B id p) (hq : IsJoin B id q) (hpq : p.1 = q.1) : p = q := by
  obtain ⟨sel, h1, h2, h3, h4, h5⟩ := hp
  obtain ⟨sel', h1', -, h3', h4', h5'⟩ := hq
  have := (h.sys.sub hB fun _ _ => Finset.Subset.refl _).sel_unique sel sel' h1 h1' p.1.nodes h2 p.1.edges
    (fun n => by rw [h3]; simp) (fun n => by rw [hpq, h3']; simp) (fun n => by rw [h4]; simp)
    (fun n => by rw [hpq, h4']; simp)
  refine Prod.ext hpq ?_
  rw [h5, h5']
  exact Finset.prod_congr rfl fun f hf => by rw [this f hf]

end FactorSys

/-- Joining joins is joining. -/
theorem isJoin_biUnion {κ : Type} [DecidableEq κ] (𝓑 : Finset (Finset κ)) (E : κ → ItemSet V X R) (Jf : Finset κ → ItemSet V X R)
    (hdis : ∀ B ∈ 𝓑, ∀ B' ∈ 𝓑, B ≠ B' → Disjoint B B') (hJ : ∀ B ∈ 𝓑, ∀ p, p ∈ Jf B ↔ IsJoin B E p)
    (p : SampleGraph V X R × ℤ) : IsJoin 𝓑 Jf p ↔ IsJoin (𝓑.biUnion id) E p := by
  classical
  have inh : Inhabited (SampleGraph V X R × ℤ) := ⟨(⟨∅, ∅⟩, 0)⟩
  have hdis' : (𝓑 : Set (Finset κ)).PairwiseDisjoint id := fun B hB B' hB' hne => hdis B hB B' hB' hne
  constructor
  · rintro ⟨sel, h1, h2, h3, h4, h5⟩
    have : ∀ B ∈ 𝓑, ∃ s : κ → SampleGraph V X R × ℤ, (∀ f ∈ B, s f ∈ E f) ∧ SingleValued (sel B).1.nodes ∧
        (sel B).1.nodes = B.biUnion (fun f => (s f).1.nodes) ∧ (sel B).1.edges = B.biUnion (fun f => (s f).1.edges) ∧
        (sel B).2 = ∏ f ∈ B, (s f).2 := fun B hB => (hJ B hB (sel B)).1 (h1 B hB)
    choose! s k1 k2 k3 k4 k5 using this
    have hex : ∀ f, ∃ q : SampleGraph V X R × ℤ, ∀ B ∈ 𝓑, f ∈ B → q = s B f := by
      intro f
      by_cases hf : ∃ B ∈ 𝓑, f ∈ B
      · obtain ⟨B, hB, hfB⟩ := hf
        refine ⟨s B f, fun B' hB' hfB' => ?_⟩
        by_cases hne : B = B'
        · rw [hne]
        · exact absurd hfB' (Finset.disjoint_left.1 (hdis B hB B' hB' hne) hfB)
      · exact ⟨default, fun B hB hfB => absurd ⟨B, hB, hfB⟩ hf⟩
    choose t ht using hex
    refine ⟨t, ?_, h2, ?_, ?_, ?_⟩
    · intro f hf
      obtain ⟨B, hB, hfB⟩ := Finset.mem_biUnion.1 hf
      rw [ht f B hB hfB]
      exact k1 B hB f hfB
    · rw [h3, Finset.biUnion_biUnion]
      refine Finset.biUnion_congr rfl fun B hB => ?_
      rw [k3 B hB]
      exact Finset.biUnion_congr rfl fun f hf => by rw [ht f B hB hf]
    · rw [h4, Finset.biUnion_biUnion]
      refine Finset.biUnion_congr rfl fun B hB => ?_
      rw [k4 B hB]
      exact Finset.biUnion_congr rfl fun f hf => by rw [ht f B hB hf]
    · rw [h5, Finset.prod_biUnion hdis']
      refine Finset.prod_congr rfl fun B hB => ?_
      rw [k5 B hB]
      exact Finset.prod_congr rfl fun f hf => by rw [ht f B hB hf]
  · rintro ⟨t, h1, h2, h3, h4, h5⟩
    have hsub : ∀ B ∈ 𝓑, ∀ n ∈ B.biUnion (fun f => (t f).1.nodes), n ∈ p.1.nodes := by
      intro B hB n hn
      obtain ⟨f, hf, hnf⟩ := Finset.mem_biUnion.1 hn
      rw [h3]
      exact Finset.mem_biUnion.2 ⟨f, Finset.mem_biUnion.2 ⟨B, hB, hf⟩, hnf⟩
    refine ⟨fun B => (⟨B.biUnion fun f => (t f).1.nodes, B.biUnion fun f => (t f).1.edges⟩, ∏ f ∈ B, (t f).2), ?_, h2, ?_, ?_, ?_⟩
    · intro B hB
      rw [hJ B hB]
      refine ⟨t, fun f hf => h1 f (Finset.mem_biUnion.2 ⟨B, hB, hf⟩), ?_, rfl, rfl, rfl⟩
      intro a ha b hb hab
      exact h2 a (hsub B hB a ha) b (hsub B hB b hb) hab
    · rw [h3, Finset.biUnion_biUnion]; rfl
    · rw [h4, Finset.biUnion_biUnion]; rfl
    · rw [h5, Finset.prod_biUnion hdis']; rfl

/-- The state of the loop: the sets of samples `fs` are the joins of the blocks of a partition `𝓑` of the factors. -/
structure BlockInv (F : Finset (ItemSet V X R)) (𝓑 : Finset (Finset (ItemSet V X R))) (Jf : Finset (ItemSet V X R) → ItemSet V X R)
    (fs : Finset (ItemSet V X R)) : Prop where
  disj : ∀ B ∈ 𝓑, ∀ B' ∈ 𝓑, B ≠ B' → Disjoint B B'
  ne : ∀ B ∈ 𝓑, B.Nonempty
  cover : 𝓑.biUnion id = F
  image : fs = 𝓑.image Jf
  join : ∀ B ∈ 𝓑, ∀ p, p ∈ Jf B ↔ IsJoin B id p
  wf : ∀ B ∈ 𝓑, ∀ p ∈ Jf B, WellFormed p.1 ∧ p.1.nodes.Nonempty ∧ SingleValued p.1.nodes

namespace BlockInv
variable {F : Finset (ItemSet V X R)} {vals : V → Finset X} {𝓑 : Finset (Finset (ItemSet V X R))}
  {Jf : Finset (ItemSet V X R) → ItemSet V X R} {fs : Finset (ItemSet V X R)}

theorem sub (h : BlockInv F 𝓑 Jf fs) {B : Finset (ItemSet V X R)} (hB : B ∈ 𝓑) : B ⊆ F := by
  rw [← h.cover]; exact Finset.subset_biUnion_of_mem id hB

/-- The blocks' sets form a system. -/
theorem system (h : BlockInv F 𝓑 Jf fs) (hs : FactorSys F vals) : JoinSystem 𝓑 Jf := by
  refine ⟨h.wf, ?_, ?_, ?_⟩
  · intro B hB p hp q hq hpq
    exact hs.join_func (h.sub hB) ((h.join B hB p).1 hp) ((h.join B hB q).1 hq) hpq
  · intro B hB B' hB' hne p hp q hq
    exact hs.join_apart (h.sub hB) (h.sub hB') (h.disj B hB B' hB' hne) ((h.join B hB p).1 hp) ((h.join B' hB' q).1 hq)
  · intro B hB p hp q hq hep heq n hn m hm
    have hv : HasVar m.var p.1 := (hs.join_vars (h.sub hB) ((h.join B hB p).1 hp) _).2
      ((hs.join_vars (h.sub hB) ((h.join B hB q).1 hq) _).1 ⟨m, hm, rfl⟩)
    obtain ⟨k, hk, hkm⟩ := hv
    have hc := (h.wf B hB p hp).1.card_le_one hep
    rw [Finset.card_le_one] at hc
    rw [hc n hn k hk, hkm]

/-- For each assignment the set of a block has a sample. -/
theorem complete (h : BlockInv F 𝓑 Jf fs) (hs : FactorSys F vals) {B : Finset (ItemSet V X R)} (hB : B ∈ 𝓑) (asg : V → X)
    (ha : ∀ v, BlockVar B v → asg v ∈ vals v) : ∃ p ∈ Jf B, ∀ n ∈ p.1.nodes, n.val = asg n.var := by
  obtain ⟨p, hp, hn⟩ := hs.join_complete (h.sub hB) asg ha
  exact ⟨p, (h.join B hB p).2 hp, hn⟩

theorem vals_nonempty (hs : FactorSys F vals) {v : V} (hv : BlockVar F v) : (vals v).Nonempty := by
  obtain ⟨f, hf, q, hq, n, hn, rfl⟩ := hv
  exact ⟨_, hs.inVals f hf q hq n hn⟩

theorem exists_asg [Nonempty X] (hs : FactorSys F vals) : ∃ asg : V → X, ∀ v, BlockVar F v → asg v ∈ vals v := by
  have : ∀ v, ∃ x, BlockVar F v → x ∈ vals v := by
    intro v
    by_cases hv : BlockVar F v
    · obtain ⟨x, hx⟩ := vals_nonempty hs hv
      exact ⟨x, fun _ => hx⟩
    · exact ⟨Classical.arbitrary X, fun h => absurd h hv⟩
  choose asg h using this
  exact ⟨asg, h⟩

theorem nonempty_X (hs : FactorSys F vals) (hF : F.Nonempty) : Nonempty X := by
  obtain ⟨f, hf⟩ := hF
  obtain ⟨p, hp⟩ := hs.nonempty f hf
  obtain ⟨n, -⟩ := (hs.sys.wf f hf p hp).2.1
  exact ⟨n.val⟩

theorem blockVar_mono {B B' : Finset (ItemSet V X R)} (h : B ⊆ B') {v : V} (hv : BlockVar B v) : BlockVar B' v := by
  obtain ⟨f, hf, r⟩ := hv
  exact ⟨f, h hf, r⟩

theorem set_nonempty (h : BlockInv F 𝓑 Jf fs) (hs : FactorSys F vals) {B : Finset (ItemSet V X R)} (hB : B ∈ 𝓑) :
    (Jf B).Nonempty := by
  have hF : F.Nonempty := (h.ne B hB).mono (h.sub hB)
  have := nonempty_X hs hF
  obtain ⟨asg, ha⟩ := exists_asg hs
  obtain ⟨p, hp, -⟩ := h.complete hs hB asg fun v hv => ha v (blockVar_mono (h.sub hB) hv)
  exact ⟨p, hp⟩

theorem inj (h : BlockInv F 𝓑 Jf fs) (hs : FactorSys F vals) : ∀ B ∈ 𝓑, ∀ B' ∈ 𝓑, Jf B = Jf B' → B = B' := by
  intro B hB B' hB' hJJ
  by_contra hne
  obtain ⟨p, hp⟩ := h.set_nonempty hs hB
  exact (h.system hs).apart B hB B' hB' hne p hp p (hJJ ▸ hp) (sharesPair_self _ (h.wf B hB p hp).2.1)

theorem hasVar_iff_block (h : BlockInv F 𝓑 Jf fs) (hs : FactorSys F vals) {B : Finset (ItemSet V X R)} (hB : B ∈ 𝓑)
    {p : SampleGraph V X R × ℤ} (hp : p ∈ Jf B) (v : V) : HasVar v p.1 ↔ BlockVar B v :=
  hs.join_vars (h.sub hB) ((h.join B hB p).1 hp) v

end BlockInv


/-- Variable `w` with two values or more is in two of the blocks of `v` and not in a third. -/
def Conflict (vals : V → Finset X) (𝓑 : Finset (Finset (ItemSet V X R))) (v : V) : Prop :=
  ∃ B₁ ∈ 𝓑, ∃ B₂ ∈ 𝓑, ∃ B₃ ∈ 𝓑, B₁ ≠ B₂ ∧ BlockVar B₁ v ∧ BlockVar B₂ v ∧ BlockVar B₃ v ∧
    ∃ w, BlockVar B₁ w ∧ BlockVar B₂ w ∧ ¬ BlockVar B₃ w ∧ ∃ x ∈ vals w, ∃ y ∈ vals w, x ≠ y

open scoped Classical in
/-- The blocks of `v` are put together. -/
noncomputable def mergeOn (𝓑 : Finset (Finset (ItemSet V X R))) (v : V) : Finset (Finset (ItemSet V X R)) :=
  (𝓑.filter fun B => ¬ BlockVar B v) ∪ {(𝓑.filter fun B => BlockVar B v).biUnion id}

theorem JoinSystem.image {ι κ : Type} [DecidableEq κ] {I : Finset ι} {D : ι → κ} {E : κ → ItemSet V X R}
    (h : JoinSystem I fun i => E (D i)) : JoinSystem (I.image D) E := by
  refine ⟨?_, ?_, ?_, ?_⟩
  · intro j hj
    obtain ⟨i, hi, rfl⟩ := Finset.mem_image.1 hj
    exact h.wf i hi
  · intro j hj
    obtain ⟨i, hi, rfl⟩ := Finset.mem_image.1 hj
    exact h.func i hi
  · intro j hj j' hj' hne
    obtain ⟨i, hi, rfl⟩ := Finset.mem_image.1 hj
    obtain ⟨i', hi', rfl⟩ := Finset.mem_image.1 hj'
    exact h.apart i hi i' hi' fun h => hne (by rw [h])
  · intro j hj
    obtain ⟨i, hi, rfl⟩ := Finset.mem_image.1 hj
    exact h.single i hi

namespace BlockInv
variable {F : Finset (ItemSet V X R)} {vals : V → Finset X} {𝓑 : Finset (Finset (ItemSet V X R))}
  {Jf : Finset (ItemSet V X R) → ItemSet V X R} {fs : Finset (ItemSet V X R)}

/-- With complete factors a conflict makes a choice that fails the assertion of `can_join_samples`. -/
theorem bad_of_conflict (h : BlockInv F 𝓑 Jf fs) (hs : FactorSys F vals) (v : V) (l : List (ItemSet V X R))
    (hl : ∀ j, j ∈ l ↔ ∃ B ∈ 𝓑, BlockVar B v ∧ Jf B = j) (x : X) (hx : x ∈ vals v) (hc : Conflict vals 𝓑 v) :
    ∃ sel : ItemSet V X R → SampleGraph V X R × ℤ, (∀ j ∈ l, sel j ∈ j ∧ (⟨v, x⟩ : Node V X) ∈ (sel j).1.nodes) ∧
      CommonAgrees (l.map sel) ∧ ¬ Agrees (l.map sel) := by
  classical
  obtain ⟨B₁, hB₁, B₂, hB₂, B₃, hB₃, hne, v1, v2, v3, w, w1, w2, w3, y, hy, z, hz, hyz⟩ := hc
  have inhX : Nonempty X := ⟨x⟩
  have inh : Inhabited (SampleGraph V X R × ℤ) := ⟨(⟨∅, ∅⟩, 0)⟩
  obtain ⟨asg₀, ha₀⟩ := exists_asg hs
  have hwv : w ≠ v := fun e => w3 (e ▸ v3)
  let asg : X → V → X := fun u => Function.update (Function.update asg₀ v x) w u
  have hasg : ∀ u ∈ vals w, ∀ t, BlockVar F t → asg u t ∈ vals t := by
    intro u hu t ht
    simp only [asg]
    by_cases htw : t = w
    · subst htw; simpa using hu
    · rw [Function.update_of_ne htw]
      by_cases htv : t = v
      · subst htv; simpa using hx
      · rw [Function.update_of_ne htv]; exact ha₀ t ht
  have hex : ∀ j ∈ l, ∃ p ∈ j, ∀ n ∈ p.1.nodes, n.val = asg (if j = Jf B₁ then y else z) n.var := by
    intro j hj
    obtain ⟨B, hB, -, rfl⟩ := (hl j).1 hj
    refine h.complete hs hB _ fun t ht => hasg _ ?_ t (blockVar_mono (h.sub hB) ht)
    split
    · exact hy
    · exact hz
  choose! sel s1 s2 using hex
  have hvar : ∀ j ∈ l, ∀ B ∈ 𝓑, Jf B = j → ∀ t, BlockVar B t →
      (⟨t, asg (if j = Jf B₁ then y else z) t⟩ : Node V X) ∈ (sel j).1.nodes := by
    intro j hj B hB hBj t ht
    subst hBj
    obtain ⟨n, hn, rfl⟩ := (h.hasVar_iff_block hs hB (s1 _ hj) t).2 ht
    have := s2 _ hj n hn
    rw [← this]
    exact hn
  have hl1 : Jf B₁ ∈ l := (hl _).2 ⟨B₁, hB₁, v1, rfl⟩
  have hl2 : Jf B₂ ∈ l := (hl _).2 ⟨B₂, hB₂, v2, rfl⟩
  have hl3 : Jf B₃ ∈ l := (hl _).2 ⟨B₃, hB₃, v3, rfl⟩
  refine ⟨sel, ?_, ?_, ?_⟩
  · intro j hj
    refine ⟨s1 j hj, ?_⟩
    obtain ⟨B, hB, hBv, hBj⟩ := (hl j).1 hj
    have := hvar j hj B hB hBj v hBv
    simpa [asg, Function.update_of_ne hwv.symm] using this
  · intro t ht p hp p' hp' a a' hpa hpa'
    obtain ⟨j, hj, rfl⟩ := List.mem_map.1 hp
    obtain ⟨j', hj', rfl⟩ := List.mem_map.1 hp'
    have htw : t ≠ w := by
      rintro rfl
      obtain ⟨a, ha⟩ := ht (sel (Jf B₃)) (List.mem_map_of_mem hl3)
      exact w3 ((h.hasVar_iff_block hs hB₃ (s1 _ hl3) _).1 ⟨_, ha, rfl⟩)
    have e1 := s2 j hj _ hpa
    have e2 := s2 j' hj' _ hpa'
    simp only [asg, Function.update_of_ne htw] at e1 e2
    rw [e1, e2]
  · intro hag
    have m1 := hvar _ hl1 B₁ hB₁ rfl w w1
    have m2 := hvar _ hl2 B₂ hB₂ rfl w w2
    have hJ : Jf B₂ ≠ Jf B₁ := fun e => hne (h.inj hs B₁ hB₁ B₂ hB₂ e.symm)
    have := hag _ ((mem_union_sel_nodes l sel _).2 ⟨_, hl1, m1⟩) _ ((mem_union_sel_nodes l sel _).2 ⟨_, hl2, m2⟩) rfl
    simp [asg, hJ] at this
    exact hyz this

/-- Only a conflict makes a choice fail. -/
theorem conflict_of_bad (h : BlockInv F 𝓑 Jf fs) (hs : FactorSys F vals) (v : V) (l : List (ItemSet V X R))
    (hl : ∀ j, j ∈ l ↔ ∃ B ∈ 𝓑, BlockVar B v ∧ Jf B = j) (sel : ItemSet V X R → SampleGraph V X R × ℤ)
    (hsel : ∀ j ∈ l, sel j ∈ j) (hca : CommonAgrees (l.map sel)) (hna : ¬ Agrees (l.map sel)) : Conflict vals 𝓑 v := by
  classical
  unfold Agrees SingleValued at hna
  push Not at hna
  obtain ⟨n, hn, m, hm, hnm, hne⟩ := hna
  obtain ⟨nw, nx⟩ := n
  obtain ⟨mw, mx⟩ := m
  simp only at hnm
  subst hnm
  obtain ⟨j₁, hj₁, hn₁⟩ := (mem_union_sel_nodes l sel _).1 hn
  obtain ⟨j₂, hj₂, hn₂⟩ := (mem_union_sel_nodes l sel _).1 hm
  have hex : ∃ j₃ ∈ l, ¬ ∃ x, (⟨nw, x⟩ : Node V X) ∈ (sel j₃).1.nodes := by
    by_contra hc
    push Not at hc
    have := hca nw (by
      intro p hp
      obtain ⟨j, hj, rfl⟩ := List.mem_map.1 hp
      exact hc j hj) _ (List.mem_map_of_mem hj₁) _ (List.mem_map_of_mem hj₂) _ _ hn₁ hn₂
    exact hne (by rw [this])
  obtain ⟨j₃, hj₃, hn₃⟩ := hex
  obtain ⟨B₁, hB₁, v₁, e₁⟩ := (hl j₁).1 hj₁
  obtain ⟨B₂, hB₂, v₂, e₂⟩ := (hl j₂).1 hj₂
  obtain ⟨B₃, hB₃, v₃, e₃⟩ := (hl j₃).1 hj₃
  have m₁ : sel j₁ ∈ Jf B₁ := e₁ ▸ hsel j₁ hj₁
  have m₂ : sel j₂ ∈ Jf B₂ := e₂ ▸ hsel j₂ hj₂
  have m₃ : sel j₃ ∈ Jf B₃ := e₃ ▸ hsel j₃ hj₃
  refine ⟨B₁, hB₁, B₂, hB₂, B₃, hB₃, ?_, v₁, v₂, v₃, nw, (h.hasVar_iff_block hs hB₁ m₁ nw).1 ⟨_, hn₁, rfl⟩,
    (h.hasVar_iff_block hs hB₂ m₂ nw).1 ⟨_, hn₂, rfl⟩, ?_,
    nx, hs.join_inVals (h.sub hB₁) ((h.join B₁ hB₁ _).1 m₁) _ hn₁,
    mx, hs.join_inVals (h.sub hB₂) ((h.join B₂ hB₂ _).1 m₂) _ hn₂, fun e => hne (by rw [e])⟩
  · intro e
    subst e
    rw [← e₁, e₂] at hn₁
    exact hne ((h.wf B₁ hB₁ _ m₂).2.2 _ hn₁ _ hn₂ rfl)
  · intro hv
    obtain ⟨⟨k, x⟩, hk, rfl⟩ := (h.hasVar_iff_block hs hB₃ m₃ nw).2 hv
    exact hn₃ ⟨x, hk⟩

end BlockInv

theorem mem_outcomesForVal (o : Orders V X R) (v : V) (x : X) (f : ItemSet V X R) (hf : ∀ p ∈ f, SingleValued p.1.nodes)
    (p : SampleGraph V X R × ℤ) : p ∈ Space.outcomesForVal o v x f ↔ p ∈ f ∧ (⟨v, x⟩ : Node V X) ∈ p.1.nodes := by
  unfold Space.outcomesForVal
  rw [List.mem_filter, o.items.mem]
  refine and_congr_right fun hp => ?_
  exact (C15_lookups p.1 (hf p hp) o.nodes o.nodes v x).2.1

theorem haveVariable_iff (g : SampleGraph V X R) (o : Order (Node V X)) (v : V) :
    g.haveVariable o v = true ↔ HasVar v g := by
  unfold SampleGraph.haveVariable
  rw [o.any_run]
  simp [HasVar]

theorem mem_factorsForVar (o : Orders V X R) (v : V) (fs : Finset (ItemSet V X R)) (f : ItemSet V X R) :
    f ∈ Space.factorsForVar o v fs ↔ f ∈ fs ∧ ∃ p ∈ f, HasVar v p.1 := by
  unfold Space.factorsForVar
  rw [List.mem_filter, o.factors.mem, List.any_eq_true]
  simp only [o.items.mem, haveVariable_iff]

namespace BlockInv
variable {F : Finset (ItemSet V X R)} {vals : V → Finset X} {𝓑 : Finset (Finset (ItemSet V X R))}
  {Jf : Finset (ItemSet V X R) → ItemSet V X R} {fs : Finset (ItemSet V X R)}

/-- The samples of a set that have the value. -/
def withValue (v : V) (x : X) (j : ItemSet V X R) : ItemSet V X R := j.filter fun p => (⟨v, x⟩ : Node V X) ∈ p.1.nodes

theorem mem_ffv (h : BlockInv F 𝓑 Jf fs) (hs : FactorSys F vals) (o : Orders V X R) (v : V) (j : ItemSet V X R) :
    j ∈ Space.factorsForVar o v fs ↔ ∃ B ∈ 𝓑, BlockVar B v ∧ Jf B = j := by
  rw [mem_factorsForVar, h.image, Finset.mem_image]
  constructor
  · rintro ⟨⟨B, hB, rfl⟩, p, hp, hv⟩
    exact ⟨B, hB, (h.hasVar_iff_block hs hB hp v).1 hv, rfl⟩
  · rintro ⟨B, hB, hv, rfl⟩
    obtain ⟨p, hp⟩ := h.set_nonempty hs hB
    exact ⟨⟨B, hB, rfl⟩, p, hp, (h.hasVar_iff_block hs hB hp v).2 hv⟩

/-- One value of the eliminated variable. -/
theorem value_spec (h : BlockInv F 𝓑 Jf fs) (hs : FactorSys F vals) (o : Orders V X R) (prov : ℕ) (v : V)
    (hv : BlockVar F v) (x : X) (hx : x ∈ vals v) :
    (¬ Conflict vals 𝓑 v → ∃ r, Samples.joinFactors o.items o.nodes o.edges
        (((Space.factorsForVar o v fs).map (Space.outcomesForVal o v x)).filter (· ≠ [])) (Samples.empty prov) = .ok r ∧
      r.prov = prov ∧ ∀ g c, r.samples.get? g = some c ↔ IsJoin (Space.factorsForVar o v fs).toFinset (withValue v x) (g, c)) ∧
    (Conflict vals 𝓑 v → Samples.joinFactors o.items o.nodes o.edges
        (((Space.factorsForVar o v fs).map (Space.outcomesForVal o v x)).filter (· ≠ [])) (Samples.empty prov) =
      .error .assertion) := by
  classical
  have inh : Inhabited (SampleGraph V X R × ℤ) := ⟨(⟨∅, ∅⟩, 0)⟩
  have hl := h.mem_ffv hs o v
  have hnd : (Space.factorsForVar o v fs).Nodup := (o.factors.nodup fs).filter _
  generalize hldef : Space.factorsForVar o v fs = l at hl hnd ⊢
  have hsv : ∀ j ∈ l, ∀ p ∈ j, SingleValued p.1.nodes := by
    intro j hj p hp
    obtain ⟨B, hB, -, rfl⟩ := (hl j).1 hj
    exact (h.wf B hB p hp).2.2
  have hE : ∀ j ∈ l, (Space.outcomesForVal o v x j).Nodup ∧ ∀ p, p ∈ Space.outcomesForVal o v x j ↔ p ∈ withValue v x j := by
    intro j hj
    refine ⟨(o.items.nodup j).filter _, fun p => ?_⟩
    rw [mem_outcomesForVal o v x j (hsv j hj), withValue, Finset.mem_filter]
  have hasg : ∃ asg : V → X, asg v = x ∧ ∀ t, BlockVar F t → asg t ∈ vals t := by
    have : Nonempty X := ⟨x⟩
    obtain ⟨asg, ha⟩ := exists_asg hs
    refine ⟨Function.update asg v x, by simp, fun t ht => ?_⟩
    by_cases htv : t = v
    · subst htv; simpa using hx
    · rw [Function.update_of_ne htv]; exact ha t ht
  obtain ⟨asg, hav, ha⟩ := hasg
  have hne : ∀ j ∈ l, Space.outcomesForVal o v x j ≠ [] := by
    intro j hj
    obtain ⟨B, hB, hBv, rfl⟩ := (hl j).1 hj
    obtain ⟨p, hp, hpn⟩ := h.complete hs hB asg fun t ht => ha t (blockVar_mono (h.sub hB) ht)
    obtain ⟨⟨k, y⟩, hn, rfl⟩ := (h.hasVar_iff_block hs hB hp v).2 hBv
    have := hpn _ hn
    simp only [hav] at this
    subst this
    exact List.ne_nil_of_mem (((hE _ hj).2 p).2 (Finset.mem_filter.2 ⟨hp, hn⟩))
  have hfil : (l.map (Space.outcomesForVal o v x)).filter (· ≠ []) = l.map (Space.outcomesForVal o v x) := by
    rw [List.filter_eq_self]
    intro q hq
    obtain ⟨j, hj, rfl⟩ := List.mem_map.1 hq
    simpa using hne j hj
  have hfil' : (l.map (Space.outcomesForVal o v x)).filter (fun x => decide (x ≠ [])) = l.map (Space.outcomesForVal o v x) := hfil
  rw [hfil']
  have hlne : l ≠ [] := by
    obtain ⟨f, hf, q, hq, hqv⟩ := hv
    rw [← h.cover, Finset.mem_biUnion] at hf
    obtain ⟨B, hB, hfB⟩ := hf
    exact List.ne_nil_of_mem ((hl _).2 ⟨B, hB, ⟨f, hfB, q, hq, hqv⟩, rfl⟩)
  have hsys : JoinSystem l.toFinset (withValue v x) := by
    have h1 : JoinSystem (𝓑.image Jf) (fun j => j) := JoinSystem.image (E := fun j => j) (h.system hs)
    refine h1.sub ?_ ?_
    · intro j hj
      obtain ⟨B, hB, -, rfl⟩ := (hl j).1 (List.mem_toFinset.1 hj)
      exact Finset.mem_image_of_mem _ hB
    · intro j hj; exact Finset.filter_subset _ _
  have hI : ∀ j, j ∈ l ↔ j ∈ l.toFinset := fun j => List.mem_toFinset.symm
  have hD : ∀ i ∈ l.toFinset, ∀ p ∈ withValue v x i, ∃ y, (⟨v, y⟩ : Node V X) ∈ p.1.nodes := by
    intro i hi p hp
    exact ⟨x, (Finset.mem_filter.1 hp).2⟩
  have hch : ∀ ps, ps ∈ choices (l.map (Space.outcomesForVal o v x)) ↔
      ∃ sel : ItemSet V X R → SampleGraph V X R × ℤ, (∀ j ∈ l, sel j ∈ withValue v x j) ∧ ps = l.map sel := by
    intro ps
    rw [mem_choices_map l hnd]
    constructor
    · rintro ⟨sel, s1, s2⟩; exact ⟨sel, fun j hj => ((hE j hj).2 _).1 (s1 j hj), s2⟩
    · rintro ⟨sel, s1, s2⟩; exact ⟨sel, fun j hj => ((hE j hj).2 _).2 (s1 j hj), s2⟩
  have hgood : ∀ ps ∈ choices (l.map (Space.outcomesForVal o v x)), GoodChoice ps := by
    intro ps hps
    obtain ⟨sel, s1, rfl⟩ := (hch ps).1 hps
    exact hsys.goodChoice l hnd hI hlne v hD sel fun j hj => s1 j ((hI j).2 hj)
  have hemp : (Samples.empty prov : Samples V X R).samples.entries = [] := rfl
  obtain ⟨j1, j2⟩ := joinFactors_spec o.items o.nodes o.edges (l.map (Space.outcomesForVal o v x))
    (by
      intro q hq
      obtain ⟨j, hj, rfl⟩ := List.mem_map.1 hq
      exact hne j hj) (Samples.empty prov) (by simpa [hemp] using hgood)
  simp only [hemp, List.nil_append, List.map_id'] at j1 j2
  constructor
  · intro hnc
    obtain ⟨r, r1, r2, r3⟩ := j1 (by
      intro ps hps hca
      by_contra hna
      obtain ⟨sel, s1, rfl⟩ := (hch ps).1 hps
      exact hnc (h.conflict_of_bad hs v l hl sel (fun j hj => Finset.filter_subset _ _ (s1 j hj)) hca hna))
    refine ⟨r, r1, r2, fun g c => ?_⟩
    rw [r3]
    exact hsys.total_iff l hnd hI _ (fun j hj => hE j ((hI j).2 hj)) g c
  · intro hc
    obtain ⟨sel, s1, s2, s3⟩ := h.bad_of_conflict hs v l hl x hx hc
    exact j2 ⟨_, (hch _).2 ⟨sel, fun j hj => Finset.mem_filter.2 (s1 j hj), rfl⟩, fun hh => s3 (hh s2)⟩

/-- The loop over the values. -/
theorem values_spec (h : BlockInv F 𝓑 Jf fs) (hs : FactorSys F vals) (o : Orders V X R) (prov : ℕ) (v : V)
    (hv : BlockVar F v) (hnc : ¬ Conflict vals 𝓑 v) (xs : List X) (hnd : xs.Nodup) (hxs : ∀ x ∈ xs, x ∈ vals v)
    (S : Set X) (hS : ∀ x ∈ xs, x ∉ S) (a : Samples V X R) (hap : a.prov = prov)
    (ha : ∀ g c, a.samples.get? g = some c ↔ ∃ x ∈ S, IsJoin (Space.factorsForVar o v fs).toFinset (withValue v x) (g, c)) :
    ∃ r, xs.foldlM (Space.joinValue o prov v (Space.factorsForVar o v fs)) a = .ok r ∧ r.prov = prov ∧
      ∀ g c, r.samples.get? g = some c ↔ ∃ x, (x ∈ S ∨ x ∈ xs) ∧ IsJoin (Space.factorsForVar o v fs).toFinset (withValue v x) (g, c) := by
  classical
  induction xs generalizing S a with
  | nil => exact ⟨a, rfl, hap, fun g c => by rw [ha]; simp⟩
  | cons x t ih =>
    obtain ⟨r, r1, r2, r3⟩ := (h.value_spec hs o prov v hv x (hxs x (by simp))).1 hnc
    obtain ⟨a1, a2, a3, -⟩ := Samples.addAll_ok o.items a r (by rw [r2, hap])
    have hstep : Space.joinValue o prov v (Space.factorsForVar o v fs) a x = .ok (a.addAll o.items r).1 := by
      unfold Space.joinValue
      rw [r1]
      simp [toPy, a1]
    have hone : ∀ y g c, IsJoin (Space.factorsForVar o v fs).toFinset (withValue v y) (g, c) →
        SingleValued g.nodes ∧ (⟨v, y⟩ : Node V X) ∈ g.nodes := by
      rintro y g c ⟨sel, s1, s2, s3, -⟩
      refine ⟨s2, ?_⟩
      obtain ⟨f, hf, q, hq, hqv⟩ := hv
      rw [← h.cover, Finset.mem_biUnion] at hf
      obtain ⟨B, hB, hfB⟩ := hf
      have hj := (h.mem_ffv hs o v (Jf B)).2 ⟨B, hB, ⟨f, hfB, q, hq, hqv⟩, rfl⟩
      rw [s3]
      exact Finset.mem_biUnion.2 ⟨_, List.mem_toFinset.2 hj, (Finset.mem_filter.1 (s1 _ (List.mem_toFinset.2 hj))).2⟩
    rw [List.nodup_cons] at hnd
    have hxS := hS x (by simp)
    obtain ⟨r', q1, q2, q3⟩ := ih hnd.2 (fun y hy => hxs y (by simp [hy])) (insert x S)
      (by
        intro y hy hyS
        rcases hyS with rfl | hyS
        · exact hnd.1 hy
        · exact hS y (by simp [hy]) hyS) (a.addAll o.items r).1 (by rw [a2, hap])
      (by
        intro g c
        rw [a3]
        have hx : ∀ c, r.samples.get? g = some c → a.samples.get? g = none := by
          intro c hc
          by_contra hne
          obtain ⟨c', hc'⟩ := Option.ne_none_iff_exists'.1 hne
          obtain ⟨y, hy, hj⟩ := (ha g c').1 hc'
          have e1 := hone y g c' hj
          have e2 := hone x g c ((r3 g c).1 hc)
          have := e1.1 _ e1.2 _ e2.2 rfl
          rw [Node.mk.injEq] at this
          exact hxS (this.2 ▸ hy)
        simp only [Set.mem_insert_iff, exists_eq_or_imp, ← r3, ← ha]
        cases hr : r.samples.get? g with
        | none => simp [addCounts_none_right]
        | some c' => rw [hx c' hr]; simp [addCounts_none_left])
    refine ⟨r', ?_, q2, fun g c => ?_⟩
    · rw [List.foldlM_cons, hstep]; exact q1
    · rw [q3]
      simp only [Set.mem_insert_iff, List.mem_cons]
      constructor
      · rintro ⟨y, (rfl | h1) | h1, h2⟩
        · exact ⟨_, by simp, h2⟩
        · exact ⟨_, Or.inl h1, h2⟩
        · exact ⟨_, Or.inr (Or.inr h1), h2⟩
      · rintro ⟨y, h1 | rfl | h1, h2⟩
        · exact ⟨_, Or.inl (Or.inr h1), h2⟩
        · exact ⟨_, Or.inl (Or.inl rfl), h2⟩
        · exact ⟨_, Or.inr h1, h2⟩

/-- All the values together. -/
theorem allValues (h : BlockInv F 𝓑 Jf fs) (hs : FactorSys F vals) (o : Orders V X R) (v : V) (hv : BlockVar F v)
    (p : SampleGraph V X R × ℤ) :
    (∃ x ∈ vals v, IsJoin (Space.factorsForVar o v fs).toFinset (withValue v x) p) ↔
      IsJoin (Space.factorsForVar o v fs).toFinset id p := by
  classical
  constructor
  · rintro ⟨x, -, sel, s1, s2⟩
    exact ⟨sel, fun j hj => Finset.filter_subset _ _ (s1 j hj), s2⟩
  · rintro ⟨sel, s1, s2, s3, s4⟩
    have hval : ∀ j ∈ (Space.factorsForVar o v fs).toFinset, ∃ x ∈ vals v, (⟨v, x⟩ : Node V X) ∈ (sel j).1.nodes := by
      intro j hj
      obtain ⟨B, hB, hBv, hBj⟩ := (h.mem_ffv hs o v j).1 (List.mem_toFinset.1 hj)
      have hm : sel j ∈ Jf B := by have := s1 j hj; rw [← hBj] at this ⊢; exact this
      obtain ⟨⟨k, y⟩, hn, rfl⟩ := (h.hasVar_iff_block hs hB hm v).2 hBv
      exact ⟨y, hs.join_inVals (h.sub hB) ((h.join B hB _).1 hm) _ hn, hn⟩
    obtain ⟨f, hf, q, hq, hqv⟩ := hv
    rw [← h.cover, Finset.mem_biUnion] at hf
    obtain ⟨B, hB, hfB⟩ := hf
    have hj := List.mem_toFinset.2 ((h.mem_ffv hs o v (Jf B)).2 ⟨B, hB, ⟨f, hfB, q, hq, hqv⟩, rfl⟩)
    obtain ⟨x, hx, hxn⟩ := hval _ hj
    refine ⟨x, hx, sel, fun j hj' => Finset.mem_filter.2 ⟨s1 j hj', ?_⟩, s2, s3, s4⟩
    obtain ⟨y, -, hyn⟩ := hval j hj'
    have hin : ∀ j ∈ (Space.factorsForVar o v fs).toFinset, ∀ n ∈ (sel j).1.nodes, n ∈ p.1.nodes := by
      intro j hj n hn
      rw [s3]; exact Finset.mem_biUnion.2 ⟨j, hj, hn⟩
    have := s2 _ (hin _ hj _ hxn) _ (hin _ hj' _ hyn) rfl
    rw [this]; exact hyn

/-- One variable is eliminated: its blocks are merged, or there is a conflict. -/
theorem eliminate_spec (h : BlockInv F 𝓑 Jf fs) (hs : FactorSys F vals) (o : Orders V X R) (prov : ℕ) (v : V) (hv : BlockVar F v) :
    (¬ Conflict vals 𝓑 v → ∃ fs' Jf', Space.eliminate o prov fs (v, vals v) = .ok fs' ∧ BlockInv F (mergeOn 𝓑 v) Jf' fs') ∧
    (Conflict vals 𝓑 v → Space.eliminate o prov fs (v, vals v) = .error .assertion) := by
  classical
  constructor
  · intro hnc
    obtain ⟨jf, j1, j2, j3⟩ := h.values_spec hs o prov v hv hnc (o.vals.run (vals v)) (o.vals.nodup _)
      (fun x hx => (o.vals.mem _ _).1 hx) ∅ (by simp) (Samples.empty prov) rfl (by simp [Samples.empty])
    have hmem : ∀ p, p ∈ jf.items ↔ IsJoin (Space.factorsForVar o v fs).toFinset id p := by
      intro p
      rw [← h.allValues hs o v hv, Samples.mem_items, j3]
      simp [o.vals.mem]
    have himg : (Space.factorsForVar o v fs).toFinset = (𝓑.filter fun B => BlockVar B v).image Jf := by
      ext j
      rw [List.mem_toFinset, h.mem_ffv hs, Finset.mem_image]
      simp only [Finset.mem_filter, and_assoc]
    set 𝓥 := 𝓑.filter fun B => BlockVar B v with h𝓥
    have h𝓥sub : 𝓥 ⊆ 𝓑 := Finset.filter_subset _ _
    set U := 𝓥.biUnion id with hU
    have hjU : ∀ p, p ∈ jf.items ↔ IsJoin U id p := by
      intro p
      rw [hmem, himg, isJoin_image 𝓥 Jf id (fun i hi j hj => h.inj hs i (h𝓥sub hi) j (h𝓥sub hj)),
        hU, ← isJoin_biUnion 𝓥 id Jf (fun B hB B' hB' => h.disj B (h𝓥sub hB) B' (h𝓥sub hB'))
          (fun B hB => h.join B (h𝓥sub hB))]
      rfl
    obtain ⟨B₀, hB₀, hB₀v⟩ : ∃ B ∈ 𝓑, BlockVar B v := by
      obtain ⟨f, hf, q, hq, hqv⟩ := hv
      rw [← h.cover, Finset.mem_biUnion] at hf
      obtain ⟨B, hB, hfB⟩ := hf
      exact ⟨B, hB, f, hfB, q, hq, hqv⟩
    have hB₀𝓥 : B₀ ∈ 𝓥 := Finset.mem_filter.2 ⟨hB₀, hB₀v⟩
    have hUne : U.Nonempty := by
      obtain ⟨f, hf⟩ := h.ne B₀ hB₀
      exact ⟨f, Finset.mem_biUnion.2 ⟨B₀, hB₀𝓥, hf⟩⟩
    have hdU : ∀ B ∈ 𝓑, ¬ BlockVar B v → Disjoint B U := by
      intro B hB hBv
      rw [hU, Finset.disjoint_biUnion_right]
      intro B' hB'
      refine h.disj B hB B' (h𝓥sub hB') fun e => hBv ?_
      rw [e]; exact (Finset.mem_filter.1 hB').2
    have hneU : ∀ B ∈ 𝓑, ¬ BlockVar B v → B ≠ U := by
      rintro B hB hBv rfl
      obtain ⟨f, hf⟩ := hUne
      exact Finset.disjoint_left.1 (hdU _ hB hBv) hf hf
    have hmm : ∀ B, B ∈ mergeOn 𝓑 v ↔ (B ∈ 𝓑 ∧ ¬ BlockVar B v) ∨ B = U := by
      intro B
      unfold mergeOn
      rw [Finset.mem_union, Finset.mem_filter, Finset.mem_singleton]
    refine ⟨(fs \ (Space.factorsForVar o v fs).toFinset) ∪ {jf.items}, Function.update Jf U jf.items, ?_, ?_, ?_, ?_, ?_, ?_, ?_⟩
    · unfold Space.eliminate
      simp only [j1]
    · intro B hB B' hB' hne
      rcases (hmm B).1 hB with ⟨h1, h2⟩ | rfl <;> rcases (hmm B').1 hB' with ⟨h1', h2'⟩ | rfl
      · exact h.disj B h1 B' h1' hne
      · exact hdU B h1 h2
      · exact (hdU B' h1' h2').symm
      · exact absurd rfl hne
    · intro B hB
      rcases (hmm B).1 hB with ⟨h1, h2⟩ | rfl
      · exact h.ne B h1
      · exact hUne
    · rw [← h.cover]
      ext f
      simp only [Finset.mem_biUnion, hmm, id]
      constructor
      · rintro ⟨B, ⟨h1, -⟩ | rfl, hf⟩
        · exact ⟨B, h1, hf⟩
        · obtain ⟨B, hB, hf⟩ := Finset.mem_biUnion.1 hf
          exact ⟨B, h𝓥sub hB, hf⟩
      · rintro ⟨B, hB, hf⟩
        by_cases hBv : BlockVar B v
        · exact ⟨U, Or.inr rfl, Finset.mem_biUnion.2 ⟨B, Finset.mem_filter.2 ⟨hB, hBv⟩, hf⟩⟩
        · exact ⟨B, Or.inl ⟨hB, hBv⟩, hf⟩
    · ext j
      rw [Finset.mem_union, Finset.mem_sdiff, Finset.mem_singleton, himg, h.image, Finset.mem_image, Finset.mem_image,
        Finset.mem_image]
      constructor
      · rintro (⟨⟨B, hB, rfl⟩, h2⟩ | rfl)
        · have hBv : ¬ BlockVar B v := fun hBv => h2 ⟨B, Finset.mem_filter.2 ⟨hB, hBv⟩, rfl⟩
          exact ⟨B, (hmm B).2 (Or.inl ⟨hB, hBv⟩), Function.update_of_ne (hneU B hB hBv) _ _⟩
        · exact ⟨U, (hmm U).2 (Or.inr rfl), by simp⟩
      · rintro ⟨B, hB, rfl⟩
        rcases (hmm B).1 hB with ⟨h1, h2⟩ | rfl
        · left
          rw [Function.update_of_ne (hneU B h1 h2)]
          refine ⟨⟨B, h1, rfl⟩, ?_⟩
          rintro ⟨B', hB', e⟩
          rw [h.inj hs B' (h𝓥sub hB') B h1 e] at hB'
          exact h2 (Finset.mem_filter.1 hB').2
        · right; simp
    · intro B hB p
      rcases (hmm B).1 hB with ⟨h1, h2⟩ | rfl
      · rw [Function.update_of_ne (hneU B h1 h2)]; exact h.join B h1 p
      · rw [Function.update_self]; exact hjU p
    · intro B hB p hp
      rcases (hmm B).1 hB with ⟨h1, h2⟩ | rfl
      · rw [Function.update_of_ne (hneU B h1 h2)] at hp; exact h.wf B h1 p hp
      · rw [Function.update_self, hjU, hU, ← isJoin_biUnion 𝓥 id Jf (fun B hB B' hB' => h.disj B (h𝓥sub hB) B' (h𝓥sub hB'))
          (fun B hB => h.join B (h𝓥sub hB))] at hp
        have := ((h.system hs).sub h𝓥sub fun _ _ => Finset.Subset.refl _).isJoin_wf ⟨B₀, hB₀𝓥⟩ v (by
          intro B hB q hq
          obtain ⟨⟨k, y⟩, hn, rfl⟩ := (h.hasVar_iff_block hs (h𝓥sub hB) hq v).2 (Finset.mem_filter.1 hB).2
          exact ⟨y, hn⟩) p hp
        exact ⟨this.1, this.2.1, this.2.2.1⟩
  · intro hc
    obtain ⟨x, hx⟩ := vals_nonempty hs hv
    have hne : o.vals.run (vals v) ≠ [] := List.ne_nil_of_mem ((o.vals.mem _ _).2 hx)
    obtain ⟨y, t, hyt⟩ := List.exists_cons_of_ne_nil hne
    have hy : y ∈ vals v := (o.vals.mem _ _).1 (by rw [hyt]; simp)
    have := (h.value_spec hs o prov v hv y hy).2 hc
    unfold Space.eliminate
    simp only [hyt, List.foldlM_cons]
    have hj : Space.joinValue o prov v (Space.factorsForVar o v fs) (Samples.empty prov) y = .error .assertion := by
      unfold Space.joinValue
      rw [this]
    rw [hj]
    rfl

end BlockInv

end Verif
