import Verif.Props.MakeJoinedShapes

/-!
# Lemmas on `make_joined` with incomplete factors

Factors on a tree need not have each combination of values. Factors of single nodes may even lack values; a missing value then counts
once.
-/

set_option linter.unusedSectionVars false

namespace Verif

variable {V X R : Type} [DecidableEq V] [DecidableEq X] [DecidableEq R]

open BlockInv (withValue)

/-- A sample of one node. -/
def lone (v : V) (x : X) : SampleGraph V X R := ⟨{⟨v, x⟩}, ∅⟩

/-- Factors and their completions `E f`: a completed factor has each value of each of its variables, and what is added to it are single
nodes with count 1. -/
structure GapSys (F : Finset (ItemSet V X R)) (E : ItemSet V X R → ItemSet V X R) (vals : V → Finset X) : Prop where
  sys : JoinSystem F E
  nonempty : ∀ f ∈ F, f.Nonempty
  sameVars : ∀ f ∈ F, ∀ p ∈ E f, ∀ q ∈ E f, ∀ v, HasVar v p.1 → HasVar v q.1
  inVals : ∀ f ∈ F, ∀ p ∈ E f, ∀ n ∈ p.1.nodes, n.val ∈ vals n.var
  valued : ∀ f ∈ F, ∀ p ∈ E f, ∀ v, HasVar v p.1 → ∀ x ∈ vals v, ∃ q ∈ E f, (⟨v, x⟩ : Node V X) ∈ q.1.nodes
  sub : ∀ f ∈ F, f ⊆ E f
  fill : ∀ f ∈ F, ∀ p ∈ E f, p ∉ f → p.2 = 1 ∧ ∃ v x, p.1 = lone v x
  occ : ∀ v, BlockVar F v → ∀ x ∈ vals v, ∃ f ∈ F, ∃ p ∈ f, (⟨v, x⟩ : Node V X) ∈ p.1.nodes

theorem mem_withValue (v : V) (x : X) (j : ItemSet V X R) (p : SampleGraph V X R × ℤ) :
    p ∈ withValue v x j ↔ p ∈ j ∧ (⟨v, x⟩ : Node V X) ∈ p.1.nodes := by
  unfold withValue; rw [Finset.mem_filter]

namespace GapSys
variable {F : Finset (ItemSet V X R)} {E : ItemSet V X R → ItemSet V X R} {vals : V → Finset X}

/-- A sample with one variable is a single node. -/
theorem eq_lone {g : SampleGraph V X R} (hw : WellFormed g) (hs : SingleValued g.nodes) {v : V} {x : X} (hn : (⟨v, x⟩ : Node V X) ∈ g.nodes)
    (hv : ∀ w, HasVar w g → w = v) : g = lone v x := by
  have h1 : g.nodes = {⟨v, x⟩} := by
    ext n
    rw [Finset.mem_singleton]
    constructor
    · intro h
      exact hs n h _ hn (hv _ ⟨n, h, rfl⟩)
    · rintro rfl; exact hn
  have h2 : g.edges = ∅ := by
    by_contra hne
    obtain ⟨e, he⟩ := Finset.nonempty_iff_ne_empty.2 hne
    obtain ⟨a, b, hab, hne'⟩ : ∃ a b, e.endpoints = {a, b} ∧ a.var ≠ b.var := by
      obtain ⟨a, b, h1, h2⟩ : ∃ a b : Node V X, a.var ≠ b.var ∧ e.endpoints = {a, b} := by
        have := hw.good e he
        simpa [GoodEdge] using this
      exact ⟨a, b, h2, h1⟩
    have ha : a ∈ g.nodes := hw.closed e he (by rw [hab]; simp)
    have hb : b ∈ g.nodes := hw.closed e he (by rw [hab]; simp)
    rw [h1, Finset.mem_singleton] at ha hb
    exact hne' (by rw [ha, hb])
  exact SampleGraph.ext h1 h2

theorem hasVar_lone (v w : V) (x : X) : HasVar w (lone v x : SampleGraph V X R) ↔ w = v := by
  simp [HasVar, lone, eq_comm]

/-- The samples with a value: in a factor those of its completion, or none while the completion has the single node. -/
theorem withValue_cases (h : GapSys F E vals) {f : ItemSet V X R} (hf : f ∈ F) (v : V) (hv : BlockVar {f} v) (x : X) (hx : x ∈ vals v) :
    withValue v x f = withValue v x (E f) ∨ (withValue v x f = ∅ ∧ withValue v x (E f) = {(lone v x, 1)}) := by
  have hlone : ∀ p ∈ E f, p ∉ f → (⟨v, x⟩ : Node V X) ∈ p.1.nodes → p = (lone v x, 1) := by
    intro p hp hpf hn
    obtain ⟨h1, w, y, h2⟩ := h.fill f hf p hp hpf
    rw [h2, lone, Finset.mem_singleton, Node.mk.injEq] at hn
    refine Prod.ext ?_ h1
    rw [h2, hn.1, hn.2]
  rcases Finset.eq_empty_or_nonempty (withValue v x f) with he | ⟨q, hq⟩
  · right
    refine ⟨he, ?_⟩
    obtain ⟨g, hg, p, hp, hpv⟩ := hv
    rw [Finset.mem_singleton] at hg
    subst hg
    have key : ∀ p ∈ withValue v x (E g), p = (lone v x, 1) := by
      intro p hp
      rw [mem_withValue] at hp
      refine hlone p hp.1 (fun hpf => ?_) hp.2
      exact Finset.notMem_empty p (he ▸ (mem_withValue v x g p).2 ⟨hpf, hp.2⟩)
    obtain ⟨q, hq, hqn⟩ := h.valued g hf p (h.sub g hf hp) v hpv x hx
    have hqm := (mem_withValue v x _ q).2 ⟨hq, hqn⟩
    ext p
    rw [Finset.mem_singleton]
    constructor
    · exact key p
    · rintro rfl
      rw [← key q hqm]; exact hqm
  · left
    rw [mem_withValue] at hq
    ext p
    rw [mem_withValue, mem_withValue]
    refine ⟨fun hp => ⟨h.sub f hf hp.1, hp.2⟩, fun hp => ⟨?_, hp.2⟩⟩
    by_contra hpf
    have hpl := hlone p hp.1 hpf hp.2
    have hqE := h.sub f hf hq.1
    have hql : q.1 = lone v x := by
      refine eq_lone (h.sys.wf f hf q hqE).1 (h.sys.wf f hf q hqE).2.2 hq.2 ?_
      intro w hw
      have := h.sameVars f hf q hqE p hp.1 w hw
      rw [hpl] at this
      exact (hasVar_lone v w x).1 this
    have := h.sys.func f hf q hqE p hp.1 (by rw [hql, hpl])
    exact hpf (this ▸ hq.1)

theorem join_vars (h : GapSys F E vals) {B : Finset (ItemSet V X R)} (hB : B ⊆ F) {p : SampleGraph V X R × ℤ}
    (hp : IsJoin B E p) (v : V) : HasVar v p.1 ↔ BlockVar B v := by
  obtain ⟨sel, h1, -, h3, -⟩ := hp
  constructor
  · rintro ⟨n, hn, rfl⟩
    rw [h3, Finset.mem_biUnion] at hn
    obtain ⟨f, hf, hnf⟩ := hn
    obtain ⟨q, hq⟩ := h.nonempty f (hB hf)
    exact ⟨f, hf, q, hq, h.sameVars f (hB hf) _ (h1 f hf) q (h.sub f (hB hf) hq) _ ⟨n, hnf, rfl⟩⟩
  · rintro ⟨f, hf, q, hq, hv⟩
    obtain ⟨n, hn, hnv⟩ := h.sameVars f (hB hf) q (h.sub f (hB hf) hq) (sel f) (h1 f hf) v hv
    exact ⟨n, by rw [h3]; exact Finset.mem_biUnion.2 ⟨f, hf, hn⟩, hnv⟩

theorem join_inVals (h : GapSys F E vals) {B : Finset (ItemSet V X R)} (hB : B ⊆ F) {p : SampleGraph V X R × ℤ}
    (hp : IsJoin B E p) : ∀ n ∈ p.1.nodes, n.val ∈ vals n.var := by
  obtain ⟨sel, h1, -, h3, -⟩ := hp
  intro n hn
  rw [h3, Finset.mem_biUnion] at hn
  obtain ⟨f, hf, hnf⟩ := hn
  exact h.inVals f (hB hf) _ (h1 f hf) n hnf

theorem join_apart (h : GapSys F E vals) {B B' : Finset (ItemSet V X R)} (hB : B ⊆ F) (hB' : B' ⊆ F) (hd : Disjoint B B')
    {p q : SampleGraph V X R × ℤ} (hp : IsJoin B E p) (hq : IsJoin B' E q) : ¬ SharesPair p.1 q.1 := by
  obtain ⟨sel, h1, -, h3, h4, -⟩ := hp
  obtain ⟨sel', h1', -, h3', h4', -⟩ := hq
  have key : ∀ f ∈ B, ∀ f' ∈ B', ¬ SharesPair (sel f).1 (sel' f').1 := fun f hf f' hf' =>
    h.sys.apart f (hB hf) f' (hB' hf') (fun hff => Finset.disjoint_left.1 hd hf (hff ▸ hf')) _ (h1 f hf) _ (h1' f' hf')
  rintro (⟨e, he, e', he', hee⟩ | ⟨he, he', n, hn, m, hm, hnm⟩)
  · rw [h4, Finset.mem_biUnion] at he
    rw [h4', Finset.mem_biUnion] at he'
    obtain ⟨f, hf, hef⟩ := he
    obtain ⟨f', hf', hef'⟩ := he'
    exact key f hf f' hf' (Or.inl ⟨e, hef, e', hef', hee⟩)
  · rw [h3, Finset.mem_biUnion] at hn
    rw [h3', Finset.mem_biUnion] at hm
    obtain ⟨f, hf, hnf⟩ := hn
    obtain ⟨f', hf', hmf'⟩ := hm
    rw [h4] at he
    rw [h4'] at he'
    refine key f hf f' hf' (Or.inr ⟨?_, ?_, n, hnf, m, hmf', hnm⟩)
    · exact Finset.subset_empty.1 (he ▸ Finset.subset_biUnion_of_mem (fun f => (sel f).1.edges) hf)
    · exact Finset.subset_empty.1 (he' ▸ Finset.subset_biUnion_of_mem (fun f => (sel' f).1.edges) hf')

theorem join_func (h : GapSys F E vals) {B : Finset (ItemSet V X R)} (hB : B ⊆ F) {p q : SampleGraph V X R × ℤ}
    (hp : IsJoin B E p) (hq : IsJoin B E q) (hpq : p.1 = q.1) : p = q := by
  obtain ⟨sel, h1, h2, h3, h4, h5⟩ := hp
  obtain ⟨sel', h1', -, h3', h4', h5'⟩ := hq
  have := (h.sys.sub hB fun _ _ => Finset.Subset.refl _).sel_unique sel sel' h1 h1' p.1.nodes h2 p.1.edges
    (fun n => by rw [h3]; simp) (fun n => by rw [hpq, h3']; simp) (fun n => by rw [h4]; simp)
    (fun n => by rw [hpq, h4']; simp)
  refine Prod.ext hpq ?_
  rw [h5, h5']
  exact Finset.prod_congr rfl fun f hf => by rw [this f hf]

end GapSys

/-- The state of the loop: `Jc` are the joins of the completed factors of the blocks, `Jf` the sets of samples there are. -/
structure GapInv (F : Finset (ItemSet V X R)) (E : ItemSet V X R → ItemSet V X R) (vals : V → Finset X)
    (𝓑 : Finset (Finset (ItemSet V X R))) (Jf Jc : Finset (ItemSet V X R) → ItemSet V X R) (fs : Finset (ItemSet V X R)) : Prop where
  disj : ∀ B ∈ 𝓑, ∀ B' ∈ 𝓑, B ≠ B' → Disjoint B B'
  ne : ∀ B ∈ 𝓑, B.Nonempty
  cover : 𝓑.biUnion id = F
  image : fs = 𝓑.image Jf
  join : ∀ B ∈ 𝓑, ∀ p, p ∈ Jc B ↔ IsJoin B E p
  wf : ∀ B ∈ 𝓑, ∀ p ∈ Jc B, WellFormed p.1 ∧ p.1.nodes.Nonempty ∧ SingleValued p.1.nodes
  valued : ∀ B ∈ 𝓑, ∀ v, BlockVar B v → ∀ x ∈ vals v, ∃ p ∈ Jc B, (⟨v, x⟩ : Node V X) ∈ p.1.nodes
  raw : ∀ B ∈ 𝓑, Jf B = Jc B ∨ ∃ f, B = {f} ∧ Jf B = f ∧ Jc B = E f

namespace GapInv
variable {F : Finset (ItemSet V X R)} {E : ItemSet V X R → ItemSet V X R} {vals : V → Finset X} {𝓑 : Finset (Finset (ItemSet V X R))}
  {Jf Jc : Finset (ItemSet V X R) → ItemSet V X R} {fs : Finset (ItemSet V X R)}

theorem sub (h : GapInv F E vals 𝓑 Jf Jc fs) {B : Finset (ItemSet V X R)} (hB : B ∈ 𝓑) : B ⊆ F := by
  rw [← h.cover]; exact Finset.subset_biUnion_of_mem id hB

theorem hasVar_iff (h : GapInv F E vals 𝓑 Jf Jc fs) (hs : GapSys F E vals) {B : Finset (ItemSet V X R)} (hB : B ∈ 𝓑)
    {p : SampleGraph V X R × ℤ} (hp : p ∈ Jc B) (v : V) : HasVar v p.1 ↔ BlockVar B v :=
  hs.join_vars (h.sub hB) ((h.join B hB p).1 hp) v

theorem system (h : GapInv F E vals 𝓑 Jf Jc fs) (hs : GapSys F E vals) : JoinSystem 𝓑 Jc := by
  refine ⟨h.wf, ?_, ?_, ?_⟩
  · intro B hB p hp q hq hpq
    exact hs.join_func (h.sub hB) ((h.join B hB p).1 hp) ((h.join B hB q).1 hq) hpq
  · intro B hB B' hB' hne p hp q hq
    exact hs.join_apart (h.sub hB) (h.sub hB') (h.disj B hB B' hB' hne) ((h.join B hB p).1 hp) ((h.join B' hB' q).1 hq)
  · intro B hB p hp q hq hep heq n hn m hm
    obtain ⟨k, hk, hkm⟩ := (h.hasVar_iff hs hB hp m.var).2 ((h.hasVar_iff hs hB hq m.var).1 ⟨m, hm, rfl⟩)
    have hc := (h.wf B hB p hp).1.card_le_one hep
    rw [Finset.card_le_one] at hc
    rw [hc n hn k hk, hkm]

theorem subset (h : GapInv F E vals 𝓑 Jf Jc fs) (hs : GapSys F E vals) {B : Finset (ItemSet V X R)} (hB : B ∈ 𝓑) : Jf B ⊆ Jc B := by
  rcases h.raw B hB with e | ⟨f, e, e1, e2⟩
  · rw [e]
  · rw [e1, e2]
    exact hs.sub f (h.sub hB (by rw [e]; simp))

theorem blockVar_exists (h : GapInv F E vals 𝓑 Jf Jc fs) (hs : GapSys F E vals) {B : Finset (ItemSet V X R)} (hB : B ∈ 𝓑) :
    ∃ v x, BlockVar B v ∧ x ∈ vals v := by
  obtain ⟨f, hf⟩ := h.ne B hB
  obtain ⟨p, hp⟩ := hs.nonempty f (h.sub hB hf)
  have hpE := hs.sub f (h.sub hB hf) hp
  obtain ⟨n, hn⟩ := (hs.sys.wf f (h.sub hB hf) p hpE).2.1
  exact ⟨n.var, n.val, ⟨f, hf, p, hp, n, hn, rfl⟩, hs.inVals f (h.sub hB hf) p hpE n hn⟩

theorem set_nonempty (h : GapInv F E vals 𝓑 Jf Jc fs) (hs : GapSys F E vals) {B : Finset (ItemSet V X R)} (hB : B ∈ 𝓑) :
    (Jf B).Nonempty := by
  rcases h.raw B hB with e | ⟨f, e, e1, e2⟩
  · obtain ⟨v, x, hv, hx⟩ := h.blockVar_exists hs hB
    obtain ⟨p, hp, -⟩ := h.valued B hB v hv x hx
    exact ⟨p, e ▸ hp⟩
  · rw [e1]
    exact hs.nonempty f (h.sub hB (by rw [e]; simp))

theorem inj (h : GapInv F E vals 𝓑 Jf Jc fs) (hs : GapSys F E vals) : ∀ B ∈ 𝓑, ∀ B' ∈ 𝓑, Jf B = Jf B' → B = B' := by
  intro B hB B' hB' hJJ
  by_contra hne
  obtain ⟨p, hp⟩ := h.set_nonempty hs hB
  have hpc := h.subset hs hB hp
  exact (h.system hs).apart B hB B' hB' hne p hpc p (h.subset hs hB' (hJJ ▸ hp)) (sharesPair_self _ (h.wf B hB p hpc).2.1)

theorem mem_ffv (h : GapInv F E vals 𝓑 Jf Jc fs) (hs : GapSys F E vals) (o : Orders V X R) (v : V) (j : ItemSet V X R) :
    j ∈ Space.factorsForVar o v fs ↔ ∃ B ∈ 𝓑, BlockVar B v ∧ Jf B = j := by
  rw [mem_factorsForVar, h.image, Finset.mem_image]
  constructor
  · rintro ⟨⟨B, hB, rfl⟩, p, hp, hv⟩
    exact ⟨B, hB, (h.hasVar_iff hs hB (h.subset hs hB hp) v).1 hv, rfl⟩
  · rintro ⟨B, hB, hv, rfl⟩
    obtain ⟨p, hp⟩ := h.set_nonempty hs hB
    exact ⟨⟨B, hB, rfl⟩, p, hp, (h.hasVar_iff hs hB (h.subset hs hB hp) v).2 hv⟩

theorem withValue_cases (h : GapInv F E vals 𝓑 Jf Jc fs) (hs : GapSys F E vals) {B : Finset (ItemSet V X R)} (hB : B ∈ 𝓑)
    {v : V} (hv : BlockVar B v) {x : X} (hx : x ∈ vals v) :
    ((withValue v x (Jf B)).Nonempty ∧ withValue v x (Jf B) = withValue v x (Jc B)) ∨
      (withValue v x (Jf B) = ∅ ∧ withValue v x (Jc B) = {(lone v x, 1)}) := by
  have hne : (withValue v x (Jc B)).Nonempty := by
    obtain ⟨p, hp, hn⟩ := h.valued B hB v hv x hx
    exact ⟨p, (mem_withValue v x _ p).2 ⟨hp, hn⟩⟩
  rcases h.raw B hB with e | ⟨f, e, e1, e2⟩
  · left; rw [e]; exact ⟨hne, rfl⟩
  · have hf : f ∈ F := h.sub hB (by rw [e]; simp)
    rw [e1, e2]
    rw [e2] at hne
    rcases hs.withValue_cases hf v (e ▸ hv) x hx with h1 | h1
    · left; rw [h1]; exact ⟨hne, rfl⟩
    · exact Or.inr h1

/-- No two blocks have two variables in common. -/
def Thin (𝓑 : Finset (Finset (ItemSet V X R))) : Prop :=
  ∀ B ∈ 𝓑, ∀ B' ∈ 𝓑, B ≠ B' → ∀ v w, BlockVar B v → BlockVar B' v → BlockVar B w → BlockVar B' w → v = w

open scoped Classical in
/-- Blocks without the value only add the node: they can be left out. -/
theorem skip (h : GapInv F E vals 𝓑 Jf Jc fs) (hs : GapSys F E vals) (v : V) (hv : BlockVar F v) (x : X) (hx : x ∈ vals v)
    (p : SampleGraph V X R × ℤ) :
    IsJoin ((𝓑.filter fun B => BlockVar B v).filter fun B => (withValue v x (Jf B)).Nonempty) (fun B => withValue v x (Jf B)) p ↔
      IsJoin (𝓑.filter fun B => BlockVar B v) (fun B => withValue v x (Jc B)) p := by
  set 𝓥 := 𝓑.filter fun B => BlockVar B v with h𝓥
  set 𝓦 := 𝓥.filter fun B => (withValue v x (Jf B)).Nonempty with h𝓦
  have hV : ∀ B, B ∈ 𝓥 ↔ B ∈ 𝓑 ∧ BlockVar B v := fun B => by rw [h𝓥, Finset.mem_filter]
  have hW : ∀ B, B ∈ 𝓦 ↔ B ∈ 𝓥 ∧ (withValue v x (Jf B)).Nonempty := fun B => by rw [h𝓦, Finset.mem_filter]
  have hsub : 𝓦 ⊆ 𝓥 := Finset.filter_subset _ _
  have hin : ∀ B ∈ 𝓦, withValue v x (Jf B) = withValue v x (Jc B) := by
    intro B hB
    obtain ⟨h1, h2⟩ := (hW B).1 hB
    rcases h.withValue_cases hs ((hV B).1 h1).1 ((hV B).1 h1).2 hx with h3 | h3
    · exact h3.2
    · rw [h3.1] at h2; exact absurd h2 Finset.not_nonempty_empty
  have hout : ∀ B ∈ 𝓥, B ∉ 𝓦 → withValue v x (Jc B) = {(lone v x, 1)} := by
    intro B hB hnB
    rcases h.withValue_cases hs ((hV B).1 hB).1 ((hV B).1 hB).2 hx with h3 | h3
    · exact absurd ((hW B).2 ⟨hB, h3.1⟩) hnB
    · exact h3.2
  obtain ⟨B₀, hB₀⟩ : ∃ B, B ∈ 𝓦 := by
    obtain ⟨f, hf, q, hq, hqn⟩ := hs.occ v hv x hx
    obtain ⟨B, hB, hfB⟩ := Finset.mem_biUnion.1 (h.cover.symm ▸ hf : f ∈ 𝓑.biUnion id)
    have hBv : BlockVar B v := ⟨f, hfB, q, hq, _, hqn, rfl⟩
    refine ⟨B, (hW B).2 ⟨(hV B).2 ⟨hB, hBv⟩, ?_⟩⟩
    rcases h.raw B hB with e | ⟨f', e, e1, -⟩
    · obtain ⟨p, hp, hn⟩ := h.valued B hB v hBv x hx
      exact ⟨p, (mem_withValue v x _ p).2 ⟨e ▸ hp, hn⟩⟩
    · have : f = f' := by rw [e] at hfB; exact Finset.mem_singleton.1 hfB
      subst this
      exact ⟨q, (mem_withValue v x _ q).2 ⟨by rw [e1]; exact hq, hqn⟩⟩
  have hadd : ∀ sel : Finset (ItemSet V X R) → SampleGraph V X R × ℤ, (∀ B ∈ 𝓥, sel B ∈ withValue v x (Jc B)) →
      𝓥.biUnion (fun B => (sel B).1.nodes) = 𝓦.biUnion (fun B => (sel B).1.nodes) ∧
      𝓥.biUnion (fun B => (sel B).1.edges) = 𝓦.biUnion (fun B => (sel B).1.edges) ∧ ∏ B ∈ 𝓥, (sel B).2 = ∏ B ∈ 𝓦, (sel B).2 := by
    intro sel hsel
    have ho : ∀ B ∈ 𝓥, B ∉ 𝓦 → sel B = (lone v x, 1) := by
      intro B hB hnB
      have := hsel B hB
      rw [hout B hB hnB, Finset.mem_singleton] at this
      exact this
    refine ⟨?_, ?_, ?_⟩
    · refine Finset.Subset.antisymm ?_ (Finset.biUnion_subset_biUnion_of_subset_left _ hsub)
      intro n hn
      obtain ⟨B, hB, hnB⟩ := Finset.mem_biUnion.1 hn
      by_cases hBW : B ∈ 𝓦
      · exact Finset.mem_biUnion.2 ⟨B, hBW, hnB⟩
      · rw [ho B hB hBW, lone, Finset.mem_singleton] at hnB
        refine Finset.mem_biUnion.2 ⟨B₀, hB₀, ?_⟩
        rw [hnB]
        exact ((mem_withValue v x _ _).1 (hsel B₀ (hsub hB₀))).2
    · refine Finset.Subset.antisymm ?_ (Finset.biUnion_subset_biUnion_of_subset_left _ hsub)
      intro e he
      obtain ⟨B, hB, heB⟩ := Finset.mem_biUnion.1 he
      by_cases hBW : B ∈ 𝓦
      · exact Finset.mem_biUnion.2 ⟨B, hBW, heB⟩
      · rw [ho B hB hBW] at heB
        simp [lone] at heB
    · refine (Finset.prod_subset hsub fun B hB hnB => ?_).symm
      rw [ho B hB hnB]
  constructor
  · rintro ⟨sel, s1, s2, s3, s4, s5⟩
    have hs' : ∀ B ∈ 𝓥, (if B ∈ 𝓦 then sel B else (lone v x, 1)) ∈ withValue v x (Jc B) := by
      intro B hB
      by_cases hBW : B ∈ 𝓦
      · rw [if_pos hBW, ← hin B hBW]; exact s1 B hBW
      · rw [if_neg hBW, hout B hB hBW]; simp
    obtain ⟨a1, a2, a3⟩ := hadd _ hs'
    refine ⟨_, hs', s2, ?_, ?_, ?_⟩
    · rw [a1, s3]
      exact Finset.biUnion_congr rfl fun B hB => by rw [if_pos hB]
    · rw [a2, s4]
      exact Finset.biUnion_congr rfl fun B hB => by rw [if_pos hB]
    · rw [a3, s5]
      exact Finset.prod_congr rfl fun B hB => by rw [if_pos hB]
  · rintro ⟨sel, s1, s2, s3, s4, s5⟩
    obtain ⟨a1, a2, a3⟩ := hadd sel s1
    exact ⟨sel, fun B hB => by show sel B ∈ withValue v x (Jf B); rw [hin B hB]; exact s1 B (hsub hB), s2, by rw [s3, a1], by rw [s4, a2], by rw [s5, a3]⟩

open scoped Classical in
/-- One value of the eliminated variable. -/
theorem value_spec (h : GapInv F E vals 𝓑 Jf Jc fs) (hs : GapSys F E vals) (ht : Thin 𝓑) (o : Orders V X R) (prov : ℕ) (v : V)
    (hv : BlockVar F v) (x : X) (hx : x ∈ vals v) :
    ∃ r, Samples.joinFactors o.items o.nodes o.edges
        (((Space.factorsForVar o v fs).map (Space.outcomesForVal o v x)).filter (· ≠ [])) (Samples.empty prov) = .ok r ∧
      r.prov = prov ∧ ∀ g c, r.samples.get? g = some c ↔
        IsJoin (𝓑.filter fun B => BlockVar B v) (fun B => withValue v x (Jc B)) (g, c) := by
  have inh : Inhabited (SampleGraph V X R × ℤ) := ⟨(⟨∅, ∅⟩, 0)⟩
  have hl := h.mem_ffv hs o v
  have hnd : (Space.factorsForVar o v fs).Nodup := (o.factors.nodup fs).filter _
  generalize hldef : Space.factorsForVar o v fs = l₀ at hl hnd ⊢
  have hsv : ∀ j ∈ l₀, ∀ p ∈ j, SingleValued p.1.nodes := by
    intro j hj p hp
    obtain ⟨B, hB, -, rfl⟩ := (hl j).1 hj
    exact (h.wf B hB p (h.subset hs hB hp)).2.2
  have hE₀ : ∀ j ∈ l₀, (Space.outcomesForVal o v x j).Nodup ∧ ∀ p, p ∈ Space.outcomesForVal o v x j ↔ p ∈ withValue v x j := by
    intro j hj
    refine ⟨(o.items.nodup j).filter _, fun p => ?_⟩
    rw [mem_outcomesForVal o v x j (hsv j hj), mem_withValue]
  have hfil : (l₀.map (Space.outcomesForVal o v x)).filter (fun y => decide (y ≠ [])) =
      (l₀.filter fun j => decide (Space.outcomesForVal o v x j ≠ [])).map (Space.outcomesForVal o v x) := by
    rw [List.filter_map]; rfl
  rw [hfil]
  have hlm : ∀ j, j ∈ (l₀.filter fun j => decide (Space.outcomesForVal o v x j ≠ [])) ↔
      j ∈ l₀ ∧ Space.outcomesForVal o v x j ≠ [] := by
    intro j; rw [List.mem_filter, decide_eq_true_eq]
  have hnd' := hnd.filter fun j => decide (Space.outcomesForVal o v x j ≠ [])
  generalize (l₀.filter fun j => decide (Space.outcomesForVal o v x j ≠ [])) = l at hlm hnd' ⊢
  have hE : ∀ j ∈ l, (Space.outcomesForVal o v x j).Nodup ∧ ∀ p, p ∈ Space.outcomesForVal o v x j ↔ p ∈ withValue v x j :=
    fun j hj => hE₀ j ((hlm j).1 hj).1
  have hlB : ∀ j, j ∈ l ↔ ∃ B ∈ (𝓑.filter fun B => BlockVar B v).filter (fun B => (withValue v x (Jf B)).Nonempty), Jf B = j := by
    intro j
    rw [hlm]
    constructor
    · rintro ⟨h1, h2⟩
      obtain ⟨B, hB, hBv, rfl⟩ := (hl j).1 h1
      obtain ⟨p, hp⟩ := List.exists_mem_of_ne_nil _ h2
      exact ⟨B, Finset.mem_filter.2 ⟨Finset.mem_filter.2 ⟨hB, hBv⟩, p, ((hE₀ _ h1).2 p).1 hp⟩, rfl⟩
    · rintro ⟨B, hB, rfl⟩
      rw [Finset.mem_filter, Finset.mem_filter] at hB
      obtain ⟨⟨hB, hBv⟩, p, hp⟩ := hB
      have h1 := (hl _).2 ⟨B, hB, hBv, rfl⟩
      exact ⟨h1, List.ne_nil_of_mem (((hE₀ _ h1).2 p).2 hp)⟩
  have himg : l.toFinset = ((𝓑.filter fun B => BlockVar B v).filter fun B => (withValue v x (Jf B)).Nonempty).image Jf := by
    ext j
    rw [List.mem_toFinset, hlB, Finset.mem_image]
  have hjoin : ∀ p, IsJoin l.toFinset (withValue v x) p ↔
      IsJoin (𝓑.filter fun B => BlockVar B v) (fun B => withValue v x (Jc B)) p := by
    intro p
    rw [himg, isJoin_image _ Jf (withValue v x), h.skip hs v hv x hx]
    intro B hB B' hB'
    exact h.inj hs B (Finset.filter_subset _ _ (Finset.filter_subset _ _ hB)) B' (Finset.filter_subset _ _ (Finset.filter_subset _ _ hB'))
  have hlne : l ≠ [] := by
    rintro rfl
    obtain ⟨f, hf, q, hq, hqn⟩ := hs.occ v hv x hx
    obtain ⟨B, hB, hfB⟩ := Finset.mem_biUnion.1 (h.cover.symm ▸ hf : f ∈ 𝓑.biUnion id)
    have hBv : BlockVar B v := ⟨f, hfB, q, hq, _, hqn, rfl⟩
    have hne : (withValue v x (Jf B)).Nonempty := by
      rcases h.raw B hB with e | ⟨f', e, e1, -⟩
      · obtain ⟨p, hp, hn⟩ := h.valued B hB v hBv x hx
        exact ⟨p, (mem_withValue v x _ p).2 ⟨e ▸ hp, hn⟩⟩
      · have : f = f' := by rw [e] at hfB; exact Finset.mem_singleton.1 hfB
        subst this
        exact ⟨q, (mem_withValue v x _ q).2 ⟨by rw [e1]; exact hq, hqn⟩⟩
    have := (hlB (Jf B)).2 ⟨B, Finset.mem_filter.2 ⟨Finset.mem_filter.2 ⟨hB, hBv⟩, hne⟩, rfl⟩
    simp at this
  have hsys : JoinSystem l.toFinset (withValue v x) := by
    have h0 : JoinSystem 𝓑 Jf := (h.system hs).sub (Finset.Subset.refl _) fun B hB => h.subset hs hB
    have h1 : JoinSystem (𝓑.image Jf) (fun j => j) := JoinSystem.image (E := fun j => j) h0
    refine h1.sub ?_ ?_
    · intro j hj
      obtain ⟨B, hB, rfl⟩ := (hlB j).1 (List.mem_toFinset.1 hj)
      exact Finset.mem_image_of_mem _ (Finset.filter_subset _ _ (Finset.filter_subset _ _ hB))
    · intro j hj; exact Finset.filter_subset _ _
  have hI : ∀ j, j ∈ l ↔ j ∈ l.toFinset := fun j => List.mem_toFinset.symm
  have hD : ∀ i ∈ l.toFinset, ∀ p ∈ withValue v x i, ∃ y, (⟨v, y⟩ : Node V X) ∈ p.1.nodes := by
    intro i hi p hp
    exact ⟨x, ((mem_withValue v x _ p).1 hp).2⟩
  have hch : ∀ ps, ps ∈ choices (l.map (Space.outcomesForVal o v x)) ↔
      ∃ sel : ItemSet V X R → SampleGraph V X R × ℤ, (∀ j ∈ l, sel j ∈ withValue v x j) ∧ ps = l.map sel := by
    intro ps
    rw [mem_choices_map l hnd']
    constructor
    · rintro ⟨sel, s1, s2⟩; exact ⟨sel, fun j hj => ((hE j hj).2 _).1 (s1 j hj), s2⟩
    · rintro ⟨sel, s1, s2⟩; exact ⟨sel, fun j hj => ((hE j hj).2 _).2 (s1 j hj), s2⟩
  have hgood : ∀ ps ∈ choices (l.map (Space.outcomesForVal o v x)), GoodChoice ps := by
    intro ps hps
    obtain ⟨sel, s1, rfl⟩ := (hch ps).1 hps
    exact hsys.goodChoice l hnd' hI hlne v hD sel fun j hj => s1 j ((hI j).2 hj)
  have hemp : (Samples.empty prov : Samples V X R).samples.entries = [] := rfl
  obtain ⟨j1, -⟩ := joinFactors_spec o.items o.nodes o.edges (l.map (Space.outcomesForVal o v x))
    (by
      intro q hq
      obtain ⟨j, hj, rfl⟩ := List.mem_map.1 hq
      exact ((hlm j).1 hj).2) (Samples.empty prov) (by simpa [hemp] using hgood)
  simp only [hemp, List.nil_append, List.map_id'] at j1
  obtain ⟨r, r1, r2, r3⟩ := j1 (by
    intro ps hps _
    obtain ⟨sel, s1, rfl⟩ := (hch ps).1 hps
    intro n hn m hm hnm
    obtain ⟨j, hj, hnj⟩ := (mem_union_sel_nodes l sel _).1 hn
    obtain ⟨j', hj', hmj⟩ := (mem_union_sel_nodes l sel _).1 hm
    obtain ⟨B, hB, rfl⟩ := (hlB j).1 hj
    obtain ⟨B', hB', rfl⟩ := (hlB j').1 hj'
    have hBm := Finset.mem_filter.1 (Finset.filter_subset _ _ hB)
    have hBm' := Finset.mem_filter.1 (Finset.filter_subset _ _ hB')
    obtain ⟨t1, t2⟩ := (mem_withValue v x _ _).1 (s1 _ hj)
    obtain ⟨t1', t2'⟩ := (mem_withValue v x _ _).1 (s1 _ hj')
    have w1 := h.wf B hBm.1 _ (h.subset hs hBm.1 t1)
    have w1' := h.wf B' hBm'.1 _ (h.subset hs hBm'.1 t1')
    by_cases hBB : B = B'
    · subst hBB
      exact w1.2.2 n hnj m hmj hnm
    · have hvn := ht B hBm.1 B' hBm'.1 hBB v n.var hBm.2 hBm'.2
        ((h.hasVar_iff hs hBm.1 (h.subset hs hBm.1 t1) _).1 ⟨n, hnj, rfl⟩)
        ((h.hasVar_iff hs hBm'.1 (h.subset hs hBm'.1 t1') _).1 ⟨m, hmj, hnm.symm⟩)
      rw [w1.2.2 n hnj _ t2 hvn.symm, w1'.2.2 m hmj _ t2' (hnm ▸ hvn.symm)])
  refine ⟨r, r1, r2, fun g c => ?_⟩
  rw [r3, hsys.total_iff l hnd' hI _ (fun j hj => hE j ((hI j).2 hj)) g c, hjoin]

open scoped Classical in
/-- The loop over the values. -/
theorem values_spec (h : GapInv F E vals 𝓑 Jf Jc fs) (hs : GapSys F E vals) (ht : Thin 𝓑) (o : Orders V X R) (prov : ℕ) (v : V)
    (hv : BlockVar F v) (xs : List X) (hnd : xs.Nodup) (hxs : ∀ x ∈ xs, x ∈ vals v)
    (S : Set X) (hS : ∀ x ∈ xs, x ∉ S) (a : Samples V X R) (hap : a.prov = prov)
    (ha : ∀ g c, a.samples.get? g = some c ↔ ∃ x ∈ S, IsJoin (𝓑.filter fun B => BlockVar B v) (fun B => withValue v x (Jc B)) (g, c)) :
    ∃ r, xs.foldlM (Space.joinValue o prov v (Space.factorsForVar o v fs)) a = .ok r ∧ r.prov = prov ∧
      ∀ g c, r.samples.get? g = some c ↔ ∃ x, (x ∈ S ∨ x ∈ xs) ∧
        IsJoin (𝓑.filter fun B => BlockVar B v) (fun B => withValue v x (Jc B)) (g, c) := by
  induction xs generalizing S a with
  | nil => exact ⟨a, rfl, hap, fun g c => by rw [ha]; simp⟩
  | cons x t ih =>
    obtain ⟨r, r1, r2, r3⟩ := h.value_spec hs ht o prov v hv x (hxs x (by simp))
    obtain ⟨a1, a2, a3, -⟩ := Samples.addAll_ok o.items a r (by rw [r2, hap])
    have hstep : Space.joinValue o prov v (Space.factorsForVar o v fs) a x = .ok (a.addAll o.items r).1 := by
      unfold Space.joinValue
      rw [r1]
      simp [toPy, a1]
    have hone : ∀ y g c, IsJoin (𝓑.filter fun B => BlockVar B v) (fun B => withValue v y (Jc B)) (g, c) →
        SingleValued g.nodes ∧ (⟨v, y⟩ : Node V X) ∈ g.nodes := by
      rintro y g c ⟨sel, s1, s2, s3, -⟩
      refine ⟨s2, ?_⟩
      obtain ⟨f, hf, q, hq, hqv⟩ := hv
      obtain ⟨B, hB, hfB⟩ := Finset.mem_biUnion.1 (h.cover.symm ▸ hf : f ∈ 𝓑.biUnion id)
      have hj : B ∈ 𝓑.filter fun B => BlockVar B v := Finset.mem_filter.2 ⟨hB, f, hfB, q, hq, hqv⟩
      rw [s3]
      exact Finset.mem_biUnion.2 ⟨_, hj, ((mem_withValue v y _ _).1 (s1 _ hj)).2⟩
    rw [List.nodup_cons] at hnd
    have hxS := hS x (by simp)
    obtain ⟨r', q1, q2, q3⟩ := ih hnd.2 (fun y hy => hxs y (by simp [hy])) (insert x S)
      (by
        intro y hy hyS
        rcases hyS with rfl | hyS
        · exact hnd.1 hy
        · exact hS y (by simp [hy]) hyS) (a.addAll o.items r).1 (by rw [a2, hap])
      (by
        intro g c
        rw [a3]
        have hx : ∀ c, r.samples.get? g = some c → a.samples.get? g = none := by
          intro c hc
          by_contra hne
          obtain ⟨c', hc'⟩ := Option.ne_none_iff_exists'.1 hne
          obtain ⟨y, hy, hj⟩ := (ha g c').1 hc'
          have e1 := hone y g c' hj
          have e2 := hone x g c ((r3 g c).1 hc)
          have := e1.1 _ e1.2 _ e2.2 rfl
          rw [Node.mk.injEq] at this
          exact hxS (this.2 ▸ hy)
        simp only [Set.mem_insert_iff, exists_eq_or_imp, ← r3, ← ha]
        cases hr : r.samples.get? g with
        | none => simp [addCounts_none_right]
        | some c' => rw [hx c' hr]; simp [addCounts_none_left])
    refine ⟨r', ?_, q2, fun g c => ?_⟩
    · rw [List.foldlM_cons, hstep]; exact q1
    · rw [q3]
      simp only [Set.mem_insert_iff, List.mem_cons]
      constructor
      · rintro ⟨y, (rfl | h1) | h1, h2⟩
        · exact ⟨_, by simp, h2⟩
        · exact ⟨_, Or.inl h1, h2⟩
        · exact ⟨_, Or.inr (Or.inr h1), h2⟩
      · rintro ⟨y, h1 | rfl | h1, h2⟩
        · exact ⟨_, Or.inl (Or.inr h1), h2⟩
        · exact ⟨_, Or.inl (Or.inl rfl), h2⟩
        · exact ⟨_, Or.inr h1, h2⟩

open scoped Classical in
/-- All the values together. -/
theorem allValues (h : GapInv F E vals 𝓑 Jf Jc fs) (hs : GapSys F E vals) (v : V) (hv : BlockVar F v)
    (p : SampleGraph V X R × ℤ) :
    (∃ x ∈ vals v, IsJoin (𝓑.filter fun B => BlockVar B v) (fun B => withValue v x (Jc B)) p) ↔
      IsJoin (𝓑.filter fun B => BlockVar B v) Jc p := by
  constructor
  · rintro ⟨x, -, sel, s1, s2⟩
    exact ⟨sel, fun j hj => Finset.filter_subset _ _ (s1 j hj), s2⟩
  · rintro ⟨sel, s1, s2, s3, s4⟩
    have hval : ∀ B ∈ 𝓑.filter (fun B => BlockVar B v), ∃ x ∈ vals v, (⟨v, x⟩ : Node V X) ∈ (sel B).1.nodes := by
      intro B hB
      obtain ⟨hB1, hBv⟩ := Finset.mem_filter.1 hB
      obtain ⟨⟨k, y⟩, hn, rfl⟩ := (h.hasVar_iff hs hB1 (s1 B hB) v).2 hBv
      exact ⟨y, hs.join_inVals (h.sub hB1) ((h.join B hB1 _).1 (s1 B hB)) _ hn, hn⟩
    obtain ⟨f, hf, q, hq, hqv⟩ := hv
    obtain ⟨B, hB, hfB⟩ := Finset.mem_biUnion.1 (h.cover.symm ▸ hf : f ∈ 𝓑.biUnion id)
    have hj : B ∈ 𝓑.filter fun B => BlockVar B v := Finset.mem_filter.2 ⟨hB, f, hfB, q, hq, hqv⟩
    obtain ⟨x, hx, hxn⟩ := hval _ hj
    refine ⟨x, hx, sel, fun B' hB' => (mem_withValue v x _ _).2 ⟨s1 B' hB', ?_⟩, s2, s3, s4⟩
    obtain ⟨y, -, hyn⟩ := hval B' hB'
    have hin : ∀ B ∈ 𝓑.filter (fun B => BlockVar B v), ∀ n ∈ (sel B).1.nodes, n ∈ p.1.nodes := by
      intro j hj n hn
      rw [s3]; exact Finset.mem_biUnion.2 ⟨j, hj, hn⟩
    have := s2 _ (hin _ hj _ hxn) _ (hin _ hB' _ hyn) rfl
    rw [this]; exact hyn

/-- One variable is eliminated: its blocks are merged. -/
theorem eliminate_spec (h : GapInv F E vals 𝓑 Jf Jc fs) (hs : GapSys F E vals) (ht : Thin 𝓑) (o : Orders V X R) (prov : ℕ) (v : V)
    (hv : BlockVar F v) :
    ∃ fs' Jf' Jc', Space.eliminate o prov fs (v, vals v) = .ok fs' ∧ GapInv F E vals (mergeOn 𝓑 v) Jf' Jc' fs' := by
  classical
  have inh : Inhabited (SampleGraph V X R × ℤ) := ⟨(⟨∅, ∅⟩, 0)⟩
  obtain ⟨jf, j1, j2, j3⟩ := h.values_spec hs ht o prov v hv (o.vals.run (vals v)) (o.vals.nodup _)
    (fun x hx => (o.vals.mem _ _).1 hx) ∅ (by simp) (Samples.empty prov) rfl (by simp [Samples.empty])
  have hmem : ∀ p, p ∈ jf.items ↔ IsJoin (𝓑.filter fun B => BlockVar B v) Jc p := by
    intro p
    rw [← h.allValues hs v hv, Samples.mem_items, j3]
    simp [o.vals.mem]
  have himg : (Space.factorsForVar o v fs).toFinset = (𝓑.filter fun B => BlockVar B v).image Jf := by
    ext j
    rw [List.mem_toFinset, h.mem_ffv hs, Finset.mem_image]
    simp only [Finset.mem_filter, and_assoc]
  set 𝓥 := 𝓑.filter fun B => BlockVar B v with h𝓥
  have h𝓥sub : 𝓥 ⊆ 𝓑 := Finset.filter_subset _ _
  set U := 𝓥.biUnion id with hU
  have hjU : ∀ p, p ∈ jf.items ↔ IsJoin U E p := by
    intro p
    rw [hmem, hU, ← isJoin_biUnion 𝓥 E Jc (fun B hB B' hB' => h.disj B (h𝓥sub hB) B' (h𝓥sub hB'))
        (fun B hB => h.join B (h𝓥sub hB))]
  obtain ⟨B₀, hB₀, hB₀v⟩ : ∃ B ∈ 𝓑, BlockVar B v := by
    obtain ⟨f, hf, q, hq, hqv⟩ := hv
    obtain ⟨B, hB, hfB⟩ := Finset.mem_biUnion.1 (h.cover.symm ▸ hf : f ∈ 𝓑.biUnion id)
    exact ⟨B, hB, f, hfB, q, hq, hqv⟩
  have hB₀𝓥 : B₀ ∈ 𝓥 := Finset.mem_filter.2 ⟨hB₀, hB₀v⟩
  have hUne : U.Nonempty := by
    obtain ⟨f, hf⟩ := h.ne B₀ hB₀
    exact ⟨f, Finset.mem_biUnion.2 ⟨B₀, hB₀𝓥, hf⟩⟩
  have hdU : ∀ B ∈ 𝓑, ¬ BlockVar B v → Disjoint B U := by
    intro B hB hBv
    rw [hU, Finset.disjoint_biUnion_right]
    intro B' hB'
    refine h.disj B hB B' (h𝓥sub hB') fun e => hBv ?_
    rw [e]; exact (Finset.mem_filter.1 hB').2
  have hneU : ∀ B ∈ 𝓑, ¬ BlockVar B v → B ≠ U := by
    rintro B hB hBv rfl
    obtain ⟨f, hf⟩ := hUne
    exact Finset.disjoint_left.1 (hdU _ hB hBv) hf hf
  have hmm : ∀ B, B ∈ mergeOn 𝓑 v ↔ (B ∈ 𝓑 ∧ ¬ BlockVar B v) ∨ B = U := by
    intro B
    unfold mergeOn
    rw [Finset.mem_union, Finset.mem_filter, Finset.mem_singleton]
  refine ⟨(fs \ (Space.factorsForVar o v fs).toFinset) ∪ {jf.items}, Function.update Jf U jf.items, Function.update Jc U jf.items,
    ?_, ?_, ?_, ?_, ?_, ?_, ?_, ?_, ?_⟩
  · unfold Space.eliminate
    simp only [j1]
  · intro B hB B' hB' hne
    rcases (hmm B).1 hB with ⟨h1, h2⟩ | rfl <;> rcases (hmm B').1 hB' with ⟨h1', h2'⟩ | rfl
    · exact h.disj B h1 B' h1' hne
    · exact hdU B h1 h2
    · exact (hdU B' h1' h2').symm
    · exact absurd rfl hne
  · intro B hB
    rcases (hmm B).1 hB with ⟨h1, h2⟩ | rfl
    · exact h.ne B h1
    · exact hUne
  · rw [← h.cover]
    ext f
    simp only [Finset.mem_biUnion, hmm, id]
    constructor
    · rintro ⟨B, ⟨h1, -⟩ | rfl, hf⟩
      · exact ⟨B, h1, hf⟩
      · obtain ⟨B, hB, hf⟩ := Finset.mem_biUnion.1 hf
        exact ⟨B, h𝓥sub hB, hf⟩
    · rintro ⟨B, hB, hf⟩
      by_cases hBv : BlockVar B v
      · exact ⟨U, Or.inr rfl, Finset.mem_biUnion.2 ⟨B, Finset.mem_filter.2 ⟨hB, hBv⟩, hf⟩⟩
      · exact ⟨B, Or.inl ⟨hB, hBv⟩, hf⟩
  · ext j
    rw [Finset.mem_union, Finset.mem_sdiff, Finset.mem_singleton, himg, h.image, Finset.mem_image, Finset.mem_image,
      Finset.mem_image]
    constructor
    · rintro (⟨⟨B, hB, rfl⟩, h2⟩ | rfl)
      · have hBv : ¬ BlockVar B v := fun hBv => h2 ⟨B, Finset.mem_filter.2 ⟨hB, hBv⟩, rfl⟩
        exact ⟨B, (hmm B).2 (Or.inl ⟨hB, hBv⟩), Function.update_of_ne (hneU B hB hBv) _ _⟩
      · exact ⟨U, (hmm U).2 (Or.inr rfl), by simp⟩
    · rintro ⟨B, hB, rfl⟩
      rcases (hmm B).1 hB with ⟨h1, h2⟩ | rfl
      · left
        rw [Function.update_of_ne (hneU B h1 h2)]
        refine ⟨⟨B, h1, rfl⟩, ?_⟩
        rintro ⟨B', hB', e⟩
        rw [h.inj hs B' (h𝓥sub hB') B h1 e] at hB'
        exact h2 (Finset.mem_filter.1 hB').2
      · right; simp
  · intro B hB p
    rcases (hmm B).1 hB with ⟨h1, h2⟩ | rfl
    · rw [Function.update_of_ne (hneU B h1 h2)]; exact h.join B h1 p
    · rw [Function.update_self]; exact hjU p
  · intro B hB p hp
    rcases (hmm B).1 hB with ⟨h1, h2⟩ | rfl
    · rw [Function.update_of_ne (hneU B h1 h2)] at hp; exact h.wf B h1 p hp
    · rw [Function.update_self, hmem] at hp
      have := ((h.system hs).sub h𝓥sub fun _ _ => Finset.Subset.refl _).isJoin_wf ⟨B₀, hB₀𝓥⟩ v (by
        intro B hB q hq
        obtain ⟨⟨k, y⟩, hn, rfl⟩ := (h.hasVar_iff hs (h𝓥sub hB) hq v).2 (Finset.mem_filter.1 hB).2
        exact ⟨y, hn⟩) p hp
      exact ⟨this.1, this.2.1, this.2.2.1⟩
  · intro B hB w hw y hy
    rcases (hmm B).1 hB with ⟨h1, h2⟩ | rfl
    · rw [Function.update_of_ne (hneU B h1 h2)]; exact h.valued B h1 w hw y hy
    · rw [Function.update_self]
      obtain ⟨f, hf, q, hq, hqw⟩ := hw
      obtain ⟨B₁, hB₁, hfB₁⟩ := Finset.mem_biUnion.1 hf
      obtain ⟨hB₁𝓑, hB₁v⟩ := Finset.mem_filter.1 hB₁
      obtain ⟨p, hp, hpn⟩ := h.valued B₁ hB₁𝓑 w ⟨f, hfB₁, q, hq, hqw⟩ y hy
      obtain ⟨⟨v', x⟩, hnx, hv'⟩ := (h.hasVar_iff hs hB₁𝓑 hp v).2 hB₁v
      simp only at hv'
      subst hv'
      have hx := hs.join_inVals (h.sub hB₁𝓑) ((h.join B₁ hB₁𝓑 p).1 hp) _ hnx
      have hex : ∀ B ∈ 𝓥, ∃ r ∈ Jc B, (⟨v', x⟩ : Node V X) ∈ r.1.nodes ∧ (B = B₁ → r = p) := by
        intro B hB
        by_cases hBB : B = B₁
        · subst hBB; exact ⟨p, hp, hnx, fun _ => rfl⟩
        · obtain ⟨r, hr, hrn⟩ := h.valued B (h𝓥sub hB) v' (Finset.mem_filter.1 hB).2 x hx
          exact ⟨r, hr, hrn, fun e => absurd e hBB⟩
      choose! sel s1 s2 s3 using hex
      refine ⟨(⟨𝓥.biUnion fun B => (sel B).1.nodes, 𝓥.biUnion fun B => (sel B).1.edges⟩, ∏ B ∈ 𝓥, (sel B).2), ?_, ?_⟩
      · rw [hmem]
        refine ⟨sel, s1, ?_, rfl, rfl, rfl⟩
        intro n hn m hm hnm
        obtain ⟨B, hB, hnB⟩ := Finset.mem_biUnion.1 hn
        obtain ⟨B', hB', hmB⟩ := Finset.mem_biUnion.1 hm
        have w1 := h.wf B (h𝓥sub hB) _ (s1 B hB)
        have w1' := h.wf B' (h𝓥sub hB') _ (s1 B' hB')
        by_cases hBB : B = B'
        · subst hBB
          exact w1.2.2 n hnB m hmB hnm
        · have hvn := ht B (h𝓥sub hB) B' (h𝓥sub hB') hBB v' n.var (Finset.mem_filter.1 hB).2 (Finset.mem_filter.1 hB').2
            ((h.hasVar_iff hs (h𝓥sub hB) (s1 B hB) _).1 ⟨n, hnB, rfl⟩)
            ((h.hasVar_iff hs (h𝓥sub hB') (s1 B' hB') _).1 ⟨m, hmB, hnm.symm⟩)
          rw [w1.2.2 n hnB _ (s2 B hB) hvn.symm, w1'.2.2 m hmB _ (s2 B' hB') (hnm ▸ hvn.symm)]
      · refine Finset.mem_biUnion.2 ⟨B₁, hB₁, ?_⟩
        rw [s3 B₁ hB₁ rfl]; exact hpn
  · intro B hB
    rcases (hmm B).1 hB with ⟨h1, h2⟩ | rfl
    · rw [Function.update_of_ne (hneU B h1 h2), Function.update_of_ne (hneU B h1 h2)]; exact h.raw B h1
    · left; rw [Function.update_self, Function.update_self]

end GapInv

end Verif
