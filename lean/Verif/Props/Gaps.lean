import Verif.Lemmas.Gaps

/-!
# Properties of `make_joined` with incomplete factors on a tree (C61)
-/

set_option linter.unusedSectionVars false

namespace Verif

variable {V X R : Type} [DecidableEq V] [DecidableEq X] [DecidableEq R]

open BlockInv (withValue)

/-! ### Specification -/

/-- Each factor with edges has, for each of its variables, each value of the variable that occurs in any outcome. Not each combination
of values needs to occur, and factors of single nodes may lack values. -/
def ValuedFactors (a : Samples V X R) : Prop :=
  ∀ g, a.Occurs g → g.edges ≠ ∅ → ∀ v, HasVar v g → ∀ h x, a.Occurs h → HasValue v x h →
    ∃ k, a.Occurs k ∧ SameFactor g k ∧ HasValue v x k

/-- A factor filled up: when it is a factor of single nodes of a variable, each value of the variable that occurs in some outcome but not
in the factor is added with count 1. -/
def filled (a : Samples V X R) (f : ItemSet V X R) : ItemSet V X R :=
  f ∪ ((a.graphs.biUnion SampleGraph.nodes).filter fun n => ∀ p ∈ f, p.1.edges = ∅ ∧ n ∉ p.1.nodes ∧
    n.var ∈ p.1.nodes.image Node.var).image fun n => (⟨{n}, ∅⟩, 1)

/-! ### Helper lemmas -/

theorem mem_filled (a : Samples V X R) (f : ItemSet V X R) (p : SampleGraph V X R × ℤ) : p ∈ filled a f ↔ p ∈ f ∨
    ∃ n : Node V X, (∃ g, a.Occurs g ∧ n ∈ g.nodes) ∧ (∀ q ∈ f, q.1.edges = ∅ ∧ n ∉ q.1.nodes ∧ HasVar n.var q.1) ∧
      p = (lone n.var n.val, 1) := by
  unfold filled HasVar
  rw [Finset.mem_union, Finset.mem_image]
  refine or_congr_right (exists_congr fun n => ?_)
  rw [Finset.mem_filter, Finset.mem_biUnion]
  simp only [Samples.mem_graphs, Finset.mem_image, and_assoc]
  refine and_congr_right fun _ => and_congr_right fun _ => ?_
  exact eq_comm

/-- Valued factors and their completions form a system. -/
theorem gapSys_of (a : Samples V X R) (hg : AllGood a) (hf : Factorizable a) (hc : ValuedFactors a)
    (F : Finset (ItemSet V X R)) (hF : AreFactors a F) : GapSys F (filled a) (occVals a) := by
  have hocc : ∀ p ∈ a.items, a.Occurs p.1 := fun p hp => ⟨p.2, (Samples.mem_items a p).1 hp⟩
  have hgood : ∀ p ∈ a.items, WellFormed p.1 ∧ p.1.nodes.Nonempty ∧ SingleValued p.1.nodes := fun p hp => hg _ (hocc p hp)
  have hne : ∀ f ∈ F, f.Nonempty := by
    intro f hf
    obtain ⟨r, hr, hrf⟩ := (hF f).1 hf
    exact ⟨r, (hrf r).2 ⟨hr, sameFactor_refl (hgood r hr).2.1⟩⟩
  have hsf : ∀ f ∈ F, ∀ p ∈ f, ∀ q ∈ f, p ∈ a.items ∧ q ∈ a.items ∧ SameFactor p.1 q.1 := by
    intro f hf p hp q hq
    obtain ⟨r, hr, hrf⟩ := (hF f).1 hf
    obtain ⟨p1, p2⟩ := (hrf p).1 hp
    obtain ⟨q1, q2⟩ := (hrf q).1 hq
    exact ⟨p1, q1, sameFactor_trans (hgood r hr).1 (sameFactor_symm p2) q2⟩
  have hwf : ∀ n : Node V X, WellFormed (lone n.var n.val : SampleGraph V X R) ∧ (lone n.var n.val : SampleGraph V X R).nodes.Nonempty ∧
      SingleValued (lone n.var n.val : SampleGraph V X R).nodes := by
    intro n
    refine ⟨⟨by simp [lone], by simp [lone], by simp [lone, OnePerPair], ?_⟩, by simp [lone], ?_⟩
    · intro x hx y hy
      simp only [lone, Finset.coe_singleton, Set.mem_singleton_iff] at hx hy
      rw [hx, hy]
    · intro x hx y hy _
      simp only [lone, Finset.mem_singleton] at hx hy
      rw [hx, hy]
  -- each sample of the completion looks like one of the factor
  have hlike : ∀ f ∈ F, ∀ p ∈ filled a f, ∃ q ∈ f, (p.1.edges = ∅ ↔ q.1.edges = ∅) ∧ (∀ v, HasVar v p.1 ↔ HasVar v q.1) ∧
      (p.1.edges ≠ ∅ → p = q) := by
    intro f hf p hp
    rcases (mem_filled a f p).1 hp with h | ⟨n, -, h, rfl⟩
    · exact ⟨p, h, Iff.rfl, fun _ => Iff.rfl, fun _ => rfl⟩
    · obtain ⟨q, hq⟩ := hne f hf
      obtain ⟨h1, h2, h3⟩ := h q hq
      refine ⟨q, hq, by simp [lone, h1], fun v => ?_, fun h => absurd rfl h⟩
      rw [GapSys.hasVar_lone]
      constructor
      · rintro rfl; exact h3
      · intro hv
        obtain ⟨m, hm, rfl⟩ := hv
        obtain ⟨k, hk, hkn⟩ := h3
        have hc := (hgood q (hsf f hf q hq q hq).1).1.card_le_one h1
        rw [Finset.card_le_one] at hc
        rw [hc m hm k hk, hkn]
  have hsv : ∀ f ∈ F, ∀ p ∈ f, ∀ q ∈ f, ∀ v, HasVar v p.1 → HasVar v q.1 := by
    intro f hf p hp q hq v hv
    obtain ⟨p1, q1, hpq⟩ := hsf f hf p hp q hq
    exact sameFactor_hasVar (hgood p p1).1 (hgood q q1).1 hpq hv
  have hwfE : ∀ f ∈ F, ∀ p ∈ filled a f, WellFormed p.1 ∧ p.1.nodes.Nonempty ∧ SingleValued p.1.nodes := by
    intro f hf p hp
    rcases (mem_filled a f p).1 hp with h | ⟨n, -, h, rfl⟩
    · exact hgood p (hsf f hf p h p h).1
    · exact hwf n
  have hsvE : ∀ f ∈ F, ∀ p ∈ filled a f, ∀ q ∈ filled a f, ∀ v, HasVar v p.1 → HasVar v q.1 := by
    intro f hf p hp q hq v hv
    obtain ⟨p', hp', -, h1, -⟩ := hlike f hf p hp
    obtain ⟨q', hq', -, h2, -⟩ := hlike f hf q hq
    exact (h2 v).2 (hsv f hf p' hp' q' hq' v ((h1 v).1 hv))
  have hsubE : ∀ f ∈ F, f ⊆ filled a f := fun f _ => Finset.subset_union_left
  have hinE : ∀ f ∈ F, ∀ p ∈ filled a f, ∀ n ∈ p.1.nodes, n.val ∈ occVals a n.var := by
    intro f hf p hp n hn
    rcases (mem_filled a f p).1 hp with h | ⟨m, ⟨g, g1, g2⟩, h, rfl⟩
    · exact (mem_occVals a _ _).2 ⟨p.1, hocc p (hsf f hf p h p h).1, hn⟩
    · simp only [lone, Finset.mem_singleton] at hn
      subst hn
      exact (mem_occVals a _ _).2 ⟨g, g1, g2⟩
  refine ⟨⟨hwfE, ?_, ?_, ?_⟩, hne, hsvE, hinE, ?_, hsubE, ?_, ?_⟩
  · intro f hf p hp q hq hpq
    have mixed : ∀ p q : SampleGraph V X R × ℤ, p ∈ f → (∃ n : Node V X, (∃ g, a.Occurs g ∧ n ∈ g.nodes) ∧
        (∀ q ∈ f, q.1.edges = ∅ ∧ n ∉ q.1.nodes ∧ HasVar n.var q.1) ∧ q = (lone n.var n.val, 1)) → p.1 = q.1 → False := by
      rintro p q hp ⟨n, -, h, rfl⟩ hpq
      exact (h p hp).2.1 (by rw [hpq]; simp [lone])
    rcases (mem_filled a f p).1 hp with h1 | h1 <;> rcases (mem_filled a f q).1 hq with h2 | h2
    · obtain ⟨i1, i2, -⟩ := hsf f hf p h1 q h2
      rw [Samples.mem_items] at i1 i2
      refine Prod.ext hpq ?_
      rw [hpq, i2] at i1
      exact (Option.some.inj i1).symm
    · exact (mixed p q h1 h2 hpq).elim
    · exact (mixed q p h2 h1 hpq.symm).elim
    · obtain ⟨n, -, -, rfl⟩ := h1
      obtain ⟨m, -, -, rfl⟩ := h2
      exact Prod.ext hpq rfl
  · intro f hf' f' hf'' hne' p hp q hq hsp
    obtain ⟨p', hp', pe, pv, pp⟩ := hlike f hf' p hp
    obtain ⟨q', hq', qe, qv, qq⟩ := hlike f' hf'' q hq
    have hsp' : SharesPair p'.1 q'.1 := by
      rcases hsp with ⟨e, he, e', he', hee⟩ | ⟨h1, h2, n, hn, m, hm, hnm⟩
      · rw [← pp (Finset.ne_empty_of_mem he), ← qq (Finset.ne_empty_of_mem he')]
        exact Or.inl ⟨e, he, e', he', hee⟩
      · obtain ⟨n', hn', hnn⟩ := (pv n.var).1 ⟨n, hn, rfl⟩
        obtain ⟨m', hm', hmm⟩ := (qv m.var).1 ⟨m, hm, rfl⟩
        exact Or.inr ⟨pe.1 h1, qe.1 h2, n', hn', m', hm', by rw [hnn, hmm, hnm]⟩
    obtain ⟨p1, -⟩ := hsf f hf' p' hp' p' hp'
    obtain ⟨q1, -⟩ := hsf f' hf'' q' hq' q' hq'
    have hpq := sameFactor_of_sharesPair hf (hocc p' p1) (hocc q' q1) hsp'
    obtain ⟨r, hr, hrf⟩ := (hF f).1 hf'
    obtain ⟨r', hr', hrf'⟩ := (hF f').1 hf''
    apply hne'
    have e1 := ((hrf p').1 hp').2
    have e2 := ((hrf' q').1 hq').2
    have hrr : SameFactor r.1 r'.1 :=
      sameFactor_trans (hgood q' q1).1 (sameFactor_trans (hgood p' p1).1 e1 hpq) (sameFactor_symm e2)
    ext s
    rw [hrf, hrf']
    refine and_congr_right fun hs => ⟨fun h => ?_, fun h => ?_⟩
    · exact sameFactor_trans (hgood r hr).1 (sameFactor_symm hrr) h
    · exact sameFactor_trans (hgood r' hr').1 hrr h
  · intro f hf p hp q hq hpe hqe n hn m hm
    obtain ⟨k, hk, hkm⟩ := hsvE f hf q hq p hp m.var ⟨m, hm, rfl⟩
    have hc := (hwfE f hf p hp).1.card_le_one hpe
    rw [Finset.card_le_one] at hc
    rw [hc n hn k hk, hkm]
  · intro f hf p hp v hv x hx
    obtain ⟨p', hp', pe, pv, pp⟩ := hlike f hf p hp
    obtain ⟨g, g1, g2⟩ := (mem_occVals a _ _).1 hx
    obtain ⟨p1, -⟩ := hsf f hf p' hp' p' hp'
    by_cases he : p'.1.edges = ∅
    · by_cases hex : ∃ q ∈ f, (⟨v, x⟩ : Node V X) ∈ q.1.nodes
      · obtain ⟨q, hq, hqn⟩ := hex
        exact ⟨q, hsubE f hf hq, hqn⟩
      · push Not at hex
        refine ⟨(lone v x, 1), (mem_filled a f _).2 (Or.inr ⟨⟨v, x⟩, ⟨g, g1, g2⟩, fun q hq => ⟨?_, hex q hq, ?_⟩, rfl⟩), by simp [lone]⟩
        · obtain ⟨-, -, h | h⟩ := hsf f hf p' hp' q hq
          · exact absurd he h.1
          · exact h.2.1
        · exact hsv f hf p' hp' q hq v ((pv v).1 hv)
    · obtain ⟨k, ⟨c, hk⟩, k2, k3⟩ := hc p'.1 (hocc p' p1) he v ((pv v).1 hv) g x g1 g2
      obtain ⟨r, hr, hrf⟩ := (hF f).1 hf
      refine ⟨(k, c), hsubE f hf ((hrf _).2 ⟨(Samples.mem_items a _).2 hk, ?_⟩), k3⟩
      exact sameFactor_trans (hgood p' p1).1 ((hrf p').1 hp').2 k2
  · intro f hf p hp hpf
    rcases (mem_filled a f p).1 hp with h | ⟨n, -, h, rfl⟩
    · exact absurd h hpf
    · exact ⟨rfl, n.var, n.val, rfl⟩
  · intro v hv x hx
    obtain ⟨g, ⟨c, hgc⟩, g2⟩ := (mem_occVals a _ _).1 hx
    classical
    have hp : (g, c) ∈ a.items := (Samples.mem_items a _).2 hgc
    refine ⟨a.items.filter fun q => SameFactor g q.1, (hF _).2 ⟨(g, c), hp, fun q => by rw [Finset.mem_filter]⟩, (g, c), ?_, g2⟩
    rw [Finset.mem_filter]
    exact ⟨hp, sameFactor_refl (hgood _ hp).2.1⟩

/-- The first state of the loop. -/
theorem gapInv_init {F : Finset (ItemSet V X R)} {E : ItemSet V X R → ItemSet V X R} {vals : V → Finset X} (hs : GapSys F E vals) :
    GapInv F E vals (F.image fun f => {f}) (fun B => B.biUnion id) (fun B => B.biUnion E) F := by
  have hb : ∀ f : ItemSet V X R, ({f} : Finset (ItemSet V X R)).biUnion id = f := by intro f; simp
  have hbE : ∀ f : ItemSet V X R, ({f} : Finset (ItemSet V X R)).biUnion E = E f := by intro f; simp
  refine ⟨?_, ?_, ?_, ?_, ?_, ?_, ?_, ?_⟩
  · intro B hB B' hB' hne
    obtain ⟨f, hf, rfl⟩ := Finset.mem_image.1 hB
    obtain ⟨f', hf', rfl⟩ := Finset.mem_image.1 hB'
    rw [Finset.disjoint_singleton]
    rintro rfl; exact hne rfl
  · intro B hB
    obtain ⟨f, hf, rfl⟩ := Finset.mem_image.1 hB
    simp
  · ext f; simp
  · rw [Finset.image_image]
    ext f; simp
  · intro B hB p
    obtain ⟨f, hf, rfl⟩ := Finset.mem_image.1 hB
    simp only [hbE]
    constructor
    · intro hp
      exact ⟨fun _ => p, by simpa using hp, (hs.sys.wf f hf p hp).2.2, by simp, by simp, by simp⟩
    · rintro ⟨sel, h1, -, h3, h4, h5⟩
      have : p = sel f := by
        refine Prod.ext (SampleGraph.ext ?_ ?_) ?_
        · rw [h3]; simp
        · rw [h4]; simp
        · rw [h5]; simp
      rw [this]; exact h1 f (by simp)
  · intro B hB p hp
    obtain ⟨f, hf, rfl⟩ := Finset.mem_image.1 hB
    simp only [hbE] at hp
    exact hs.sys.wf f hf p hp
  · intro B hB v hv x hx
    obtain ⟨f, hf, rfl⟩ := Finset.mem_image.1 hB
    obtain ⟨f', hf', q, hq, hqv⟩ := hv
    rw [Finset.mem_singleton] at hf'
    subst hf'
    simp only [hbE]
    exact hs.valued f' hf q (hs.sub f' hf hq) v hqv x hx
  · intro B hB
    obtain ⟨f, hf, rfl⟩ := Finset.mem_image.1 hB
    exact Or.inr ⟨f, rfl, hb f, hbE f⟩

theorem thin_of_forest {𝓑 : Finset (Finset (ItemSet V X R))} {L : List (Finset V)}
    (hL : (L : Multiset (Finset V)) = 𝓑.val.map blockVars) (hf : ForestL L) : GapInv.Thin 𝓑 := by
  intro B hB B' hB' hne v w v1 v2 w1 w2
  have hle : (([blockVars B, blockVars B'] : List (Finset V)) : Multiset (Finset V)) ≤ L := by
    rw [hL]
    have h2 : ({B, B'} : Finset (Finset (ItemSet V X R))).val ≤ 𝓑.val := by
      rw [Finset.val_le_iff]
      intro C hC
      rw [Finset.mem_insert, Finset.mem_singleton] at hC
      rcases hC with rfl | rfl
      · exact hB
      · exact hB'
    have h3 := Multiset.map_le_map (f := blockVars) h2
    rw [Finset.insert_val_of_notMem (by simpa using hne)] at h3
    rw [Multiset.map_cons, Finset.singleton_val, Multiset.map_singleton] at h3
    exact h3
  have h1 := hf _ hle (by simp)
  have h2 := Finset.card_union_add_card_inter (blockVars B) (blockVars B')
  have h3 : (blockVars B ∩ blockVars B').card ≤ 1 := by
    simp [sizeL, unionL] at h1
    omega
  rw [Finset.card_le_one] at h3
  refine h3 v ?_ w ?_
  · rw [Finset.mem_inter, mem_blockVars, mem_blockVars]; exact ⟨v1, v2⟩
  · rw [Finset.mem_inter, mem_blockVars, mem_blockVars]; exact ⟨w1, w2⟩

/-- The loop over the variables. -/
theorem gapLoop {F : Finset (ItemSet V X R)} {E : ItemSet V X R → ItemSet V X R} {vals : V → Finset X} (hs : GapSys F E vals)
    (o : Orders V X R) (prov : ℕ) (qs : List (V × Finset X)) (hqs : ∀ q ∈ qs, BlockVar F q.1 ∧ q.2 = vals q.1)
    (𝓑 : Finset (Finset (ItemSet V X R))) (Jf Jc : Finset (ItemSet V X R) → ItemSet V X R) (fs : Finset (ItemSet V X R))
    (h : GapInv F E vals 𝓑 Jf Jc fs) (L : List (Finset V)) (hL : (L : Multiset (Finset V)) = 𝓑.val.map blockVars) (hf : ForestL L)
    (he : elimOk ∅ (qs.map Prod.fst) L = true) : ∃ fs' Jf' Jc' 𝓑', qs.foldlM (Space.eliminate o prov) fs = .ok fs' ∧
      fs'.card ≤ 1 ∧ GapInv F E vals 𝓑' Jf' Jc' fs' := by
  induction qs generalizing 𝓑 Jf Jc fs L with
  | nil =>
    have hc : fs.card = L.length := by
      rw [h.image, Finset.card_image_of_injOn (fun B hB B' hB' e => h.inj hs B hB B' hB' e)]
      have := congrArg Multiset.card hL
      rw [Multiset.coe_card, Multiset.card_map] at this
      exact this.symm
    simp only [List.map_nil, elimOk, decide_eq_true_eq] at he
    exact ⟨fs, Jf, Jc, 𝓑, rfl, by omega, h⟩
  | cons q t ih =>
    obtain ⟨hq1, hq2⟩ := hqs q (by simp)
    have hq : q = (q.1, vals q.1) := Prod.ext rfl hq2
    obtain ⟨fs', Jf', Jc', e1, e2⟩ := h.eliminate_spec hs (thin_of_forest hL hf) o prov q.1 hq1
    rw [← hq] at e1
    rw [List.map_cons, elimOk, Bool.and_eq_true] at he
    have hvL : ∃ s ∈ L, q.1 ∈ s := by
      obtain ⟨f, hf', r, hr, hrv⟩ := hq1
      obtain ⟨B, hB, hfB⟩ := Finset.mem_biUnion.1 (h.cover.symm ▸ hf' : f ∈ 𝓑.biUnion id)
      refine ⟨blockVars B, ?_, (mem_blockVars B q.1).2 ⟨f, hfB, r, hr, hrv⟩⟩
      rw [← Multiset.mem_coe, hL]
      exact Multiset.mem_map_of_mem _ hB
    have := ih (fun q hq => hqs q (by simp [hq])) (mergeOn 𝓑 q.1) Jf' Jc' fs' e2 _ (mergeOn_vars h.cover L hL q.1 hq1)
      (forest_merge hf q.1 hvL).1 he.2
    rw [List.foldlM_cons, e1]
    exact this

/-- The last state of the loop. -/
theorem gapInv_final {F : Finset (ItemSet V X R)} {E : ItemSet V X R → ItemSet V X R} {vals : V → Finset X} (hs : GapSys F E vals)
    {𝓑 : Finset (Finset (ItemSet V X R))} {Jf Jc : Finset (ItemSet V X R) → ItemSet V X R} {fs : Finset (ItemSet V X R)}
    (h : GapInv F E vals 𝓑 Jf Jc fs) (hc : fs.card ≤ 1) (hF : F.Nonempty) :
    ∃ f, fs = {f} ∧ (∀ p, p ∈ f ↔ IsJoin F E p) ∧ ∀ p ∈ f, WellFormed p.1 ∧ p.1.nodes.Nonempty ∧ SingleValued p.1.nodes := by
  have hcard : 𝓑.card ≤ 1 := by
    rwa [h.image, Finset.card_image_of_injOn (fun B hB B' hB' e => h.inj hs B hB B' hB' e)] at hc
  rcases Finset.eq_empty_or_nonempty 𝓑 with rfl | ⟨B, hB⟩
  · have := h.cover
    simp only [Finset.biUnion_empty] at this
    rw [← this] at hF
    exact absurd hF Finset.not_nonempty_empty
  · have h𝓑 : 𝓑 = {B} := by
      rw [Finset.card_le_one] at hcard
      ext B'
      rw [Finset.mem_singleton]
      exact ⟨fun hB' => hcard B' hB' B hB, fun e => e ▸ hB⟩
    have hBF : B = F := by rw [← h.cover, h𝓑]; simp
    have hJ : Jf B = Jc B := by
      rcases h.raw B hB with e | ⟨f, e, e1, e2⟩
      · exact e
      · rw [e1, e2]
        have hfF : F = {f} := by rw [← hBF, e]
        have hf : f ∈ F := by rw [hfF]; simp
        refine Finset.Subset.antisymm (hs.sub f hf) fun p hp => ?_
        by_contra hpf
        obtain ⟨-, v, x, hp1⟩ := hs.fill f hf p hp hpf
        have hn : (⟨v, x⟩ : Node V X) ∈ p.1.nodes := by rw [hp1]; simp [lone]
        have hx := hs.inVals f hf p hp _ hn
        obtain ⟨q, hq⟩ := hs.nonempty f hf
        have hv : BlockVar F v := ⟨f, hf, q, hq, hs.sameVars f hf p hp q (hs.sub f hf hq) v ⟨_, hn, rfl⟩⟩
        obtain ⟨f', hf', r, hr, hrn⟩ := hs.occ v hv x hx
        rw [hfF, Finset.mem_singleton] at hf'
        subst hf'
        rcases hs.withValue_cases hf v (hfF ▸ hv) x hx with h1 | ⟨h1, -⟩
        · have := (mem_withValue v x _ p).2 ⟨hp, hn⟩
          rw [← h1] at this
          exact hpf ((mem_withValue v x _ p).1 this).1
        · have := (mem_withValue v x _ r).2 ⟨hr, hrn⟩
          rw [h1] at this
          exact Finset.notMem_empty _ this
    refine ⟨Jf B, by rw [h.image, h𝓑]; simp, fun p => ?_, ?_⟩
    · rw [hJ, h.join B hB, hBF]
    · rw [hJ]; exact h.wf B hB

/-! ### C61 -/

/-- **C61.** On a tree `make_joined` returns for every order even with incomplete factors: it is enough that the factors with edges have
each value of their variables. The outcomes are exactly the joins of one outcome per factor with the product of the counts, where a value
that a factor of single nodes does not have counts once. -/
theorem C61_tree (o : Orders V X R) (sp : Space V X R) (hg : AllGood sp.outcomes) (hf : Factorizable sp.outcomes)
    (hc : ValuedFactors sp.outcomes) (F : Finset (ItemSet V X R)) (hF : AreFactors sp.outcomes F) (L : List (Finset V))
    (hL : (L : Multiset (Finset V)) = F.val.map factorVars) (ht : TreeShape L) :
    ∃ out, sp.makeJoined o = .ok ⟨sp.schema, out, none⟩ ∧ out.prov = sp.outcomes.prov ∧ AllGood out ∧
      ∀ g c, out.samples.get? g = some c ↔ IsJoin F (filled sp.outcomes) (g, c) := by
  have hs := gapSys_of _ hg hf hc F hF
  obtain ⟨t1, t2, t3⟩ := forest_of_tree ht
  have hmem : ∀ s, s ∈ L ↔ ∃ f ∈ F, factorVars f = s := by
    intro s; rw [← Multiset.mem_coe, hL, Multiset.mem_map]; rfl
  have hFne : F.Nonempty := by
    obtain ⟨s, hs⟩ := List.exists_mem_of_ne_nil _ t3
    obtain ⟨f, hf, -⟩ := (hmem s).1 hs
    exact ⟨f, hf⟩
  have hfac : sp.factorized o.items o.nodes = .ok F := by
    obtain ⟨F', hF'⟩ := (C33_factorized_iff sp o.items o.nodes o.graphs).1 ((C33_is_factorized sp o.graphs).2 hf)
    rw [hF']
    congr 1
    ext f
    rw [mem_factors_iff sp o.items o.nodes (edgeless_card hg) F' hF']
    exact (hF f).symm
  have hqs : ∀ q ∈ o.incl.run (sp.includedVariables o.graphs o.nodes), BlockVar F q.1 ∧ q.2 = occVals sp.outcomes q.1 := by
    intro q hq
    rw [o.incl.mem, included_pair] at hq
    exact ⟨(blockVar_iff_occurs hg hF _).2 hq.1, hq.2⟩
  have hL0 : (L : Multiset (Finset V)) = (F.image fun f => ({f} : Finset (ItemSet V X R))).val.map blockVars := by
    rw [hL, Finset.image_val_of_injOn (fun f _ f' _ e => Finset.singleton_injective e), Multiset.map_map]
    refine Multiset.map_congr rfl fun f _ => ?_
    simp [blockVars]
  have helim : elimOk ∅ ((o.incl.run (sp.includedVariables o.graphs o.nodes)).map Prod.fst) L = true := by
    refine elimOk_tree ∅ _ L t1 t2 ?_ ?_
    · intro v hv
      obtain ⟨g, g1, g2⟩ := (mem_included_fst o sp v).1 hv
      obtain ⟨f, hf', c, hc'⟩ := exists_factor hg hF g1
      exact ⟨_, (hmem _).2 ⟨f, hf', rfl⟩, (mem_factorVars hg hF hf' hc' v).2 g2⟩
    · intro v hv
      left
      obtain ⟨s, hs, hvs⟩ := (mem_unionL _ _).1 hv
      obtain ⟨f, hf', rfl⟩ := (hmem _).1 hs
      rw [mem_included_fst]
      obtain ⟨p, hp, hpf⟩ := (hF f).1 hf'
      have hpm : p ∈ f := (hpf p).2 ⟨hp, sameFactor_refl (hg _ ⟨p.2, (Samples.mem_items _ p).1 hp⟩).2.1⟩
      exact ⟨p.1, ⟨p.2, (Samples.mem_items _ p).1 hp⟩, (mem_factorVars hg hF hf' hpm v).1 hvs⟩
  obtain ⟨fs, Jf, Jc, 𝓑, e1, e2, e3⟩ := gapLoop hs o sp.outcomes.prov _ hqs _ _ _ _ (gapInv_init hs) L hL0 t1 helim
  obtain ⟨f, rfl, hm, hwf⟩ := gapInv_final hs e3 e2 hFne
  unfold Space.makeJoined
  simp only [hfac]
  rw [e1]
  simp only [if_pos e2]
  have hget : ∀ g c, (Dict.ofList (o.items.run f)).get? g = some c ↔ (g, c) ∈ f := by
    intro g c
    have hnd : ((o.items.run f).map Prod.fst).Nodup := by
      refine List.Nodup.map_on ?_ (o.items.nodup f)
      intro p hp q hq hpq
      rw [o.items.mem, hm] at hp hq
      exact hs.join_func (Finset.Subset.refl _) hp hq hpq
    rw [Dict.get?_ofList _ hnd, o.items.mem]
  refine ⟨_, rfl, ?_, ?_, ?_⟩
  · simp
  · rintro g ⟨c, hc⟩
    simp only [Order.run_singleton] at hc
    exact hwf _ ((hget g c).1 hc)
  · intro g c
    simp only [Order.run_singleton]
    rw [hget, hm]

/-- **C61.** When also the factors of single nodes have each value, the outcomes are exactly the joins of one outcome per factor and the
counts are the products; combinations that do not occur in a factor do not occur in the result. -/
theorem C61_tree_product (o : Orders V X R) (sp : Space V X R) (hg : AllGood sp.outcomes) (hf : Factorizable sp.outcomes)
    (hc : ∀ g, sp.outcomes.Occurs g → ∀ v, HasVar v g → ∀ h x, sp.outcomes.Occurs h → HasValue v x h →
      ∃ k, sp.outcomes.Occurs k ∧ SameFactor g k ∧ HasValue v x k)
    (F : Finset (ItemSet V X R)) (hF : AreFactors sp.outcomes F) (L : List (Finset V))
    (hL : (L : Multiset (Finset V)) = F.val.map factorVars) (ht : TreeShape L) :
    ∃ out, sp.makeJoined o = .ok ⟨sp.schema, out, none⟩ ∧ out.prov = sp.outcomes.prov ∧ AllGood out ∧
      ∀ g c, out.samples.get? g = some c ↔ IsJoin F id (g, c) := by
  obtain ⟨out, e1, e2, e3, e4⟩ := C61_tree o sp hg hf (fun g h _ => hc g h) F hF L hL ht
  refine ⟨out, e1, e2, e3, fun g c => ?_⟩
  rw [e4]
  have hfill : ∀ f ∈ F, filled sp.outcomes f = f := by
    intro f hf'
    refine Finset.Subset.antisymm (fun p hp => ?_) Finset.subset_union_left
    rcases (mem_filled _ f p).1 hp with h | ⟨n, ⟨g, g1, g2⟩, h, rfl⟩
    · exact h
    · exfalso
      obtain ⟨r, hr, hrf⟩ := (hF f).1 hf'
      have hocc : sp.outcomes.Occurs r.1 := ⟨r.2, (Samples.mem_items _ r).1 hr⟩
      have hrm : r ∈ f := (hrf r).2 ⟨hr, sameFactor_refl (hg _ hocc).2.1⟩
      obtain ⟨k, ⟨c, hk⟩, k2, k3⟩ := hc r.1 hocc n.var (h r hrm).2.2 g n.val g1 g2
      exact (h _ ((hrf (k, c)).2 ⟨(Samples.mem_items _ _).2 hk, k2⟩)).2.1 k3
  unfold IsJoin
  refine exists_congr fun sel => and_congr_left fun _ => ?_
  exact forall₂_congr fun f hf' => by rw [hfill f hf']; rfl

/-- **C61.** The result does not depend on the order of the Python sets. -/
theorem C61_order (o o' : Orders V X R) (sp : Space V X R) (hg : AllGood sp.outcomes) (hf : Factorizable sp.outcomes)
    (hc : ValuedFactors sp.outcomes) (F : Finset (ItemSet V X R)) (hF : AreFactors sp.outcomes F) (L : List (Finset V))
    (hL : (L : Multiset (Finset V)) = F.val.map factorVars) (ht : TreeShape L) :
    ∃ out out', sp.makeJoined o = .ok ⟨sp.schema, out, none⟩ ∧ sp.makeJoined o' = .ok ⟨sp.schema, out', none⟩ ∧
      ∀ g, out.samples.get? g = out'.samples.get? g := by
  obtain ⟨out, e1, -, -, e4⟩ := C61_tree o sp hg hf hc F hF L hL ht
  obtain ⟨out', e1', -, -, e4'⟩ := C61_tree o' sp hg hf hc F hF L hL ht
  refine ⟨out, out', e1, e1', fun g => Option.ext fun c => ?_⟩
  have := (e4 g c).trans (e4' g c).symm
  simpa [Option.mem_def] using this

end Verif
