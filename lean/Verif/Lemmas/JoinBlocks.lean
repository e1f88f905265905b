import Verif.Props.Parts

/-!
# Lemmas on `joined_on_variables` on several variables

After the variables `D` the outcomes are the joins of the blocks of a partition of the factors.
-/

set_option linter.unusedSectionVars false

namespace Verif

variable {V X R : Type} [DecidableEq V] [DecidableEq X] [DecidableEq R]

/-! ### One round -/

/-- The outcomes with `v` of factorized outcomes: each links a pair of its own, and chains of shared pairs stay in a factor. -/
theorem factorized_filter {a : Samples V X R} (hg : AllGood a) (hf : Factorizable a) (v : V) (j : Samples V X R)
    (hj : j = a.filterSamples fun g => decide (v ∈ g.includedVariables)) :
    (∀ g c, j.samples.get? g = some c ↔ a.samples.get? g = some c ∧ HasVar v g) ∧ PairsOwn j ∧
    ∀ p q, (∃ c, j.samples.get? p = some c) → (∃ c, j.samples.get? q = some c) → (ChainLinked j p q ↔ SameFactor p q) := by
  have hjg : ∀ g c, j.samples.get? g = some c ↔ a.samples.get? g = some c ∧ HasVar v g := by
    intro g c; rw [hj, filterSamples_get, decide_eq_true_eq, hasVar_iff]
  have hocc : ∀ {g}, (∃ c, j.samples.get? g = some c) → a.Occurs g := by
    rintro g ⟨c, hc⟩; exact ⟨c, ((hjg g c).1 hc).1⟩
  have hown : PairsOwn j := by
    intro g c hgc
    have hgo := hocc ⟨c, hgc⟩
    obtain ⟨hw, ⟨n, hn⟩, -⟩ := hg g hgo
    by_cases he : g.edges = ∅
    · refine ⟨.inl n.var, ⟨he, n, hn, rfl⟩, ?_⟩
      rintro g' c' hgc' ⟨he', m, hm, hmn⟩ y
      have hc := hw.card_le_one he
      have hc' := (hg g' (hocc ⟨c', hgc'⟩)).1.card_le_one he'
      rw [Finset.card_le_one] at hc hc'
      cases y with
      | inr P => simp [Links, he, he']
      | inl w =>
        constructor
        · rintro ⟨-, m', hm', rfl⟩
          exact ⟨he, n, hn, by rw [← hmn, hc' m' hm' m hm]⟩
        · rintro ⟨-, n', hn', rfl⟩
          exact ⟨he', m, hm, by rw [hmn, hc n' hn' n hn]⟩
    · obtain ⟨e, hee⟩ := Finset.nonempty_iff_ne_empty.2 he
      refine ⟨.inr (e.endpoints.image Node.var), ⟨e, hee, rfl⟩, ?_⟩
      rintro g' c' hgc' ⟨e', he', hee'⟩ y
      have hiff := hf.pairs g' g (hocc ⟨c', hgc'⟩) hgo ⟨_, ⟨e', he', hee'⟩, ⟨e, hee, rfl⟩⟩
      cases y with
      | inr P => exact hiff P
      | inl w =>
        constructor
        · rintro ⟨h0, -⟩; rw [h0] at he'; simp at he'
        · rintro ⟨h0, -⟩; exact absurd h0 he
  have hchain : ∀ p q, (∃ c, j.samples.get? p = some c) → (∃ c, j.samples.get? q = some c) →
      (ChainLinked j p q ↔ SameFactor p q) := by
    intro p q hp hq
    constructor
    · intro hl
      clear hq
      induction hl with
      | refl => exact sameFactor_refl (hg p (hocc hp)).2.1
      | tail _ hstep ih =>
        obtain ⟨s1, s2, s3⟩ := hstep
        exact sameFactor_trans (hg _ (hocc s1)).1 ih (sameFactor_of_sharesPair hf (hocc s1) (hocc s2) s3)
    · intro hs
      exact Relation.ReflTransGen.single ⟨hp, hq, sharesPair_of_sameFactor hs⟩
  exact ⟨hjg, hown, hchain⟩

theorem keyVariable_congr (iter : V → Option (Finset V)) {g h : SampleGraph V X R} (hg : WellFormed g) (hh : WellFormed h) (hs : SameFactor g h)
    {w : V} (hw : KeyVariable iter g w) : KeyVariable iter h w := by
  rcases hs with ⟨a1, a2, a3⟩ | ⟨a1, a2, n, hn, m, hm, hnm⟩
  · rcases hw with ⟨e, he, k, hk, rfl⟩ | ⟨h0, -⟩
    · obtain ⟨e', he', hee⟩ := (a3 _).1 ⟨e, he, rfl⟩
      have : k.var ∈ e'.endpoints.image Node.var := by rw [hee]; exact Finset.mem_image_of_mem _ hk
      obtain ⟨l, hl, hlv⟩ := Finset.mem_image.1 this
      exact Or.inl ⟨e', he', l, hl, hlv⟩
    · exact absurd h0 a1
  · rcases hw with ⟨e, he, -⟩ | ⟨-, k, hk, s, hs1, hs2⟩
    · rw [a1] at he; simp at he
    · have hc := hg.card_le_one a1
      rw [Finset.card_le_one] at hc
      refine Or.inr ⟨a2, m, hm, s, ?_, hs2⟩
      rw [← hnm, ← hc k hk n hn]; exact hs1

/-- When a round of the loop returns. -/
theorem joinOn_returns (iter : V → Option (Finset V)) (oI : Order (SampleGraph V X R × ℤ)) (oG : Order (SampleGraph V X R))
    (oN : Order (Node V X)) (oE : Order (Edge V X R)) (a : Samples V X R) (hg : AllGood a) (hf : Factorizable a) (v : V) :
    Returns (Samples.joinOn iter oI oG oN oE a v) ↔
      (∀ g, a.Occurs g → g.edges = ∅ → HasVar v g → iter v ≠ none) ∧
      ∀ g h, a.Occurs g → a.Occurs h → HasVar v g → HasVar v h → (∀ w, KeyVariable iter g w ↔ KeyVariable iter h w) → SameFactor g h := by
  obtain ⟨j, hj⟩ : ∃ j, j = a.filterSamples fun g => decide (v ∈ g.includedVariables) := ⟨_, rfl⟩
  obtain ⟨hjg, hown, hchain⟩ := factorized_filter hg hf v j hj
  obtain ⟨h1, h2⟩ := joinOn_spec iter oI oG oN oE a hg v
  rw [← hj] at h1 h2
  have hret : Returns (Samples.joinOn iter oI oG oN oE a v) ↔ Returns (j.groupIntersecting iter) := by
    cases hd : j.groupIntersecting iter with
    | error e => rw [h1 e hd]; simp [Returns]
    | ok d => obtain ⟨r, i1, -⟩ := h2 d hd; rw [i1]; simp [Returns]
  have hne : ∀ g c, j.samples.get? g = some c → g.nodes.Nonempty := fun g c hc => (hg g ⟨c, ((hjg g c).1 hc).1⟩).2.1
  have hwf : ∀ g, (∃ c, j.samples.get? g = some c) → WellFormed g := fun g ⟨c, hc⟩ => (hg g ⟨c, ((hjg g c).1 hc).1⟩).1
  have hstay : ∀ g h, (∃ c, j.samples.get? g = some c) → ChainLinked j g h → ∃ c, j.samples.get? h = some c := by
    intro g h hg' hl
    induction hl with
    | refl => exact hg'
    | tail _ hs _ => exact hs.2.1
  have hkey : ∀ g, (∃ c, j.samples.get? g = some c) → ∀ w, (∃ h, ChainLinked j g h ∧ KeyVariable iter h w) ↔ KeyVariable iter g w := by
    intro g hg' w
    constructor
    · rintro ⟨h, hl, hw⟩
      have hh := hstay g h hg' hl
      exact keyVariable_congr iter (hwf h hh) (hwf g hg') (sameFactor_symm ((hchain g h hg' hh).1 hl)) hw
    · intro hw; exact ⟨g, .refl, hw⟩
  rw [hret, (C24_complete iter j (C24_own hown) hne).2]
  refine and_congr ?_ ?_
  · constructor
    · intro h g ⟨c, hc⟩ he hv hn
      obtain ⟨n, hn', rfl⟩ := hv
      exact h ⟨g, c, (hjg g c).2 ⟨hc, n, hn', rfl⟩, he, n, hn', hn⟩
    · rintro h ⟨g, c, hc, he, n, hn, hi⟩
      obtain ⟨hc', hv⟩ := (hjg g c).1 hc
      have hcard := (hg g ⟨c, hc'⟩).1.card_le_one he
      rw [Finset.card_le_one] at hcard
      obtain ⟨m, hm, rfl⟩ := hv
      rw [hcard n hn m hm] at hi
      exact h g ⟨c, hc'⟩ he ⟨m, hm, rfl⟩ hi
  · constructor
    · intro h g g' ⟨c, hc⟩ ⟨c', hc'⟩ hv hv' hk
      have e1 : ∃ c, j.samples.get? g = some c := ⟨c, (hjg g c).2 ⟨hc, hv⟩⟩
      have e2 : ∃ c, j.samples.get? g' = some c := ⟨c', (hjg g' c').2 ⟨hc', hv'⟩⟩
      refine (hchain g g' e1 e2).1 (h g c g' c' ((hjg g c).2 ⟨hc, hv⟩) ((hjg g' c').2 ⟨hc', hv'⟩) fun w => ?_)
      rw [hkey g e1, hkey g' e2]; exact hk w
    · intro h g c g' c' hc hc' hk
      obtain ⟨d1, v1⟩ := (hjg g c).1 hc
      obtain ⟨d2, v2⟩ := (hjg g' c').1 hc'
      refine (hchain g g' ⟨c, hc⟩ ⟨c', hc'⟩).2 (h g g' ⟨c, d1⟩ ⟨c', d2⟩ v1 v2 fun w => ?_)
      rw [← hkey g ⟨c, hc⟩, ← hkey g' ⟨c', hc'⟩]; exact hk w

/-- What a round of the loop computes. -/
theorem joinOn_factorized (iter : V → Option (Finset V)) (oI : Order (SampleGraph V X R × ℤ)) (oG : Order (SampleGraph V X R))
    (oN : Order (Node V X)) (oE : Order (Edge V X R)) (a : Samples V X R) (hg : AllGood a) (hf : Factorizable a) (v : V)
    (F : Finset (ItemSet V X R))
    (hF : ∀ f, f ∈ F ↔ ∃ p ∈ a.items, HasVar v p.1 ∧ ∀ q, q ∈ f ↔ q ∈ a.items ∧ SameFactor p.1 q.1) (r : Samples V X R)
    (h : Samples.joinOn iter oI oG oN oE a v = .ok r) (g : SampleGraph V X R) (c : ℤ) :
    r.samples.get? g = some c ↔ (¬ HasVar v g ∧ a.samples.get? g = some c) ∨ (HasVar v g ∧ IsJoin F id (g, c)) := by
  have sch : Schema V X R := ⟨⟨[], by simp⟩, ∅⟩
  let o : Orders V X R := ⟨oI, oG, oN, oE, default, default, default, default⟩
  have := C41_factorized iter o ⟨sch, a, none⟩ hg v hf F hF ⟨sch, r, none⟩ (by
    unfold Space.joinedOnVariables
    simp only [Order.run_singleton, List.foldlM_cons, List.foldlM_nil]
    show (match (Samples.joinOn iter oI oG oN oE a v >>= fun s => pure s) with | .error e => _ | .ok acc => _) = _
    rw [h]; rfl) g c
  exact this

open scoped Classical in
/-- In the joins of factors an assignment has the product of its counts in the factors. -/
theorem joins_product {F : Finset (ItemSet V X R)} (hs : JoinSystem F id) (I : ItemSet V X R) (hj : ∀ p, p ∈ I ↔ IsJoin F id p) (asg : V → X) :
    ∑ p ∈ I.filter (fun p => Follows asg p.1), p.2 = ∏ f ∈ F, ∑ q ∈ f.filter (fun q => Follows asg q.1), q.2 := by
  rw [Finset.prod_sum]
  symm
  let mk : (∀ f ∈ F, SampleGraph V X R × ℤ) → SampleGraph V X R × ℤ := fun s =>
    (⟨F.attach.biUnion fun f => (s f.1 f.2).1.nodes, F.attach.biUnion fun f => (s f.1 f.2).1.edges⟩, ∏ f ∈ F.attach, (s f.1 f.2).2)
  let ext : (∀ f ∈ F, SampleGraph V X R × ℤ) → ItemSet V X R → SampleGraph V X R × ℤ := fun s f =>
    if hf : f ∈ F then s f hf else (⟨∅, ∅⟩, 0)
  have hext : ∀ s (f : ItemSet V X R) (hf : f ∈ F), ext s f = s f hf := fun s f hf => dif_pos hf
  have hmk : ∀ s, mk s = (⟨F.biUnion fun f => (ext s f).1.nodes, F.biUnion fun f => (ext s f).1.edges⟩, ∏ f ∈ F, (ext s f).2) := by
    intro s
    have e1 : ∀ f : {f // f ∈ F}, s f.1 f.2 = ext s f.1 := fun f => (hext s f.1 f.2).symm
    simp only [mk, e1]
    refine Prod.ext (SampleGraph.ext ?_ ?_) ?_
    · ext n; simp
    · ext n; simp
    · exact Finset.prod_attach F fun f => (ext s f).2
  have hfol : ∀ s ∈ F.pi (fun f => f.filter fun q => Follows asg q.1), ∀ n ∈ (mk s).1.nodes, n.val = asg n.var := by
    intro s hs' n hn
    rw [hmk] at hn
    obtain ⟨f, hf, hnf⟩ := Finset.mem_biUnion.1 hn
    rw [hext s f hf] at hnf
    exact (Finset.mem_filter.1 (Finset.mem_pi.1 hs' f hf)).2 n hnf
  have hsing : ∀ s ∈ F.pi (fun f => f.filter fun q => Follows asg q.1), SingleValued (mk s).1.nodes := by
    intro s hs' a ha b hb hab
    have e1 := hfol s hs' a ha
    have e2 := hfol s hs' b hb
    obtain ⟨av, ax⟩ := a
    obtain ⟨bv, bx⟩ := b
    simp only at hab e1 e2
    rw [e1, e2, hab]
  have hsel : ∀ s ∈ F.pi (fun f => f.filter fun q => Follows asg q.1), ∀ f ∈ F, ext s f ∈ id f := by
    intro s hs' f hf
    rw [hext s f hf]
    exact (Finset.mem_filter.1 (Finset.mem_pi.1 hs' f hf)).1
  refine Finset.sum_bij (fun s _ => mk s) ?_ ?_ ?_ ?_
  · intro s hs'
    rw [Finset.mem_filter, hj]
    refine ⟨⟨ext s, hsel s hs', hsing s hs', ?_, ?_, ?_⟩, hfol s hs'⟩ <;> rw [hmk]
  · intro s hs1 s' hs2 e
    funext f hf
    rw [← hext s f hf, ← hext s' f hf]
    have hm1 := hmk s
    have hm2 := hmk s'
    refine hs.sel_unique (ext s) (ext s') (hsel s hs1) (hsel s' hs2) (mk s).1.nodes (hsing s hs1) (mk s).1.edges ?_ ?_ ?_ ?_ f hf
    · intro n; rw [hm1]; simp
    · intro n; rw [e, hm2]; simp
    · intro n; rw [hm1]; simp
    · intro n; rw [e, hm2]; simp
  · intro p hp
    rw [Finset.mem_filter, hj] at hp
    obtain ⟨⟨sel, s1, s2, s3, s4, s5⟩, hfo⟩ := hp
    refine ⟨fun f _ => sel f, ?_, ?_⟩
    · rw [Finset.mem_pi]
      intro f hf
      rw [Finset.mem_filter]
      refine ⟨s1 f hf, fun n hn => hfo n ?_⟩
      rw [s3]; exact Finset.mem_biUnion.2 ⟨f, hf, hn⟩
    · refine Prod.ext (SampleGraph.ext ?_ ?_) ?_
      · rw [s3]; ext n; simp [mk]
      · rw [s4]; ext n; simp [mk]
      · rw [s5]; exact Finset.prod_attach F fun f => (sel f).2
  · intro s hs'
    rfl

/-! ### Factors -/

/-- Factors of factorized outcomes that have a joint outcome. -/
structure FactorFacts (a : Samples V X R) (F : Finset (ItemSet V X R)) : Prop where
  good : AllGood a
  fact : Factorizable a
  are : AreFactors a F
  joint : ∃ p, IsJoin F id p

namespace FactorFacts
variable {a : Samples V X R} {F : Finset (ItemSet V X R)}

theorem get (h : FactorFacts a F) {f : ItemSet V X R} (hf : f ∈ F) {p : SampleGraph V X R × ℤ} (hp : p ∈ f) : a.samples.get? p.1 = some p.2 := by
  obtain ⟨r, hr, hrf⟩ := (h.are f).1 hf
  exact (Samples.mem_items a p).1 ((hrf p).1 hp).1

theorem occ (h : FactorFacts a F) {f : ItemSet V X R} (hf : f ∈ F) {p : SampleGraph V X R × ℤ} (hp : p ∈ f) : a.Occurs p.1 := ⟨p.2, h.get hf hp⟩

theorem gd (h : FactorFacts a F) {f : ItemSet V X R} (hf : f ∈ F) {p : SampleGraph V X R × ℤ} (hp : p ∈ f) :
    WellFormed p.1 ∧ p.1.nodes.Nonempty ∧ SingleValued p.1.nodes := h.good _ (h.occ hf hp)

theorem same_iff (h : FactorFacts a F) {f f' : ItemSet V X R} (hf : f ∈ F) (hf' : f' ∈ F) {p q : SampleGraph V X R × ℤ} (hp : p ∈ f) (hq : q ∈ f') :
    SameFactor p.1 q.1 ↔ f = f' := by
  obtain ⟨r, hr, hrf⟩ := (h.are f).1 hf
  obtain ⟨r', hr', hrf'⟩ := (h.are f').1 hf'
  have hw : ∀ x ∈ a.items, WellFormed x.1 := fun x hx => (h.good x.1 ⟨x.2, (Samples.mem_items a x).1 hx⟩).1
  obtain ⟨p1, p2⟩ := (hrf p).1 hp
  obtain ⟨q1, q2⟩ := (hrf' q).1 hq
  constructor
  · intro hs
    have hrr : SameFactor r.1 r'.1 := sameFactor_trans (hw q q1) (sameFactor_trans (hw p p1) p2 hs) (sameFactor_symm q2)
    ext s
    rw [hrf, hrf']
    refine and_congr_right fun hs => ⟨fun h => ?_, fun h => ?_⟩
    · exact sameFactor_trans (hw r hr) (sameFactor_symm hrr) h
    · exact sameFactor_trans (hw r' hr') hrr h
  · rintro rfl
    exact sameFactor_trans (hw r hr) (sameFactor_symm p2) ((hrf q).1 hq).2

theorem mem_factor (h : FactorFacts a F) {g : SampleGraph V X R} {c : ℤ} (hg : a.samples.get? g = some c) : ∃ f ∈ F, (g, c) ∈ f := by
  classical
  have hp : (g, c) ∈ a.items := (Samples.mem_items a _).2 hg
  refine ⟨a.items.filter fun q => SameFactor g q.1, (h.are _).2 ⟨(g, c), hp, fun q => by rw [Finset.mem_filter]⟩, ?_⟩
  rw [Finset.mem_filter]
  exact ⟨hp, sameFactor_refl (h.good g ⟨c, hg⟩).2.1⟩

theorem nonempty (h : FactorFacts a F) {f : ItemSet V X R} (hf : f ∈ F) : ∃ p, p ∈ f := by
  obtain ⟨-, sel, hs, -⟩ := h.joint
  exact ⟨_, hs f hf⟩

theorem hasVar_iff' (h : FactorFacts a F) {f : ItemSet V X R} (hf : f ∈ F) {p : SampleGraph V X R × ℤ} (hp : p ∈ f) (v : V) :
    HasVar v p.1 ↔ v ∈ factorVars f := by
  simp only [factorVars, Finset.mem_biUnion, Finset.mem_image]
  constructor
  · rintro ⟨n, hn, rfl⟩; exact ⟨p, hp, n, hn, rfl⟩
  · rintro ⟨q, hq, n, hn, rfl⟩
    exact sameFactor_hasVar (h.gd hf hq).1 (h.gd hf hp).1 ((h.same_iff hf hf hq hp).2 rfl) ⟨n, hn, rfl⟩

theorem edges_iff (h : FactorFacts a F) {f : ItemSet V X R} (hf : f ∈ F) {p q : SampleGraph V X R × ℤ} (hp : p ∈ f) (hq : q ∈ f) :
    p.1.edges = ∅ ↔ q.1.edges = ∅ := by
  rcases (h.same_iff hf hf hp hq).2 rfl with ⟨h1, h2, -⟩ | ⟨h1, h2, -⟩
  · exact ⟨fun h => absurd h h1, fun h => absurd h h2⟩
  · exact ⟨fun _ => h2, fun _ => h1⟩

theorem sub_join (h : FactorFacts a F) {B : Finset (ItemSet V X R)} (hB : B ⊆ F) : ∃ p, IsJoin B id p := by
  obtain ⟨p, sel, h1, h2, h3, h4, h5⟩ := h.joint
  refine ⟨(⟨B.biUnion fun f => (sel f).1.nodes, B.biUnion fun f => (sel f).1.edges⟩, ∏ f ∈ B, (sel f).2), sel, fun f hf => h1 f (hB hf), ?_, rfl, rfl, rfl⟩
  have hsub : B.biUnion (fun f => (sel f).1.nodes) ⊆ p.1.nodes := by
    rw [h3]; exact Finset.biUnion_subset_biUnion_of_subset_left _ hB
  exact fun x hx y hy => h2 x (hsub hx) y (hsub hy)

theorem join_hasVar (h : FactorFacts a F) {B : Finset (ItemSet V X R)} (hB : B ⊆ F) {p : SampleGraph V X R × ℤ} (hp : IsJoin B id p) (v : V) :
    HasVar v p.1 ↔ v ∈ blockVars B := by
  obtain ⟨sel, h1, -, h3, -⟩ := hp
  simp only [blockVars, Finset.mem_biUnion]
  constructor
  · rintro ⟨n, hn, rfl⟩
    rw [h3, Finset.mem_biUnion] at hn
    obtain ⟨f, hf, hnf⟩ := hn
    exact ⟨f, hf, (h.hasVar_iff' (hB hf) (h1 f hf) _).1 ⟨n, hnf, rfl⟩⟩
  · rintro ⟨f, hf, hv⟩
    obtain ⟨n, hn, hnv⟩ := (h.hasVar_iff' (hB hf) (h1 f hf) v).2 hv
    exact ⟨n, by rw [h3]; exact Finset.mem_biUnion.2 ⟨f, hf, hn⟩, hnv⟩

theorem sys (h : FactorFacts a F) : JoinSystem F id := by
  refine ⟨fun f hf p hp => h.gd hf hp, ?_, ?_, ?_⟩
  · intro f hf p hp q hq hpq
    refine Prod.ext hpq ?_
    have e1 := h.get hf hp
    rw [hpq, h.get hf hq] at e1
    exact (Option.some.inj e1).symm
  · intro f hf f' hf' hne p hp q hq hs
    exact hne ((h.same_iff hf hf' hp hq).1 (sameFactor_of_sharesPair h.fact (h.occ hf hp) (h.occ hf' hq) hs))
  · intro f hf p hp q hq he he' n hn m hm
    have c1 := (h.gd hf hp).1.card_le_one he
    have c2 := (h.gd hf hq).1.card_le_one he'
    rw [Finset.card_le_one] at c1 c2
    rcases (h.same_iff hf hf hp hq).2 rfl with h' | ⟨-, -, k, hk, l, hl, hkl⟩
    · exact absurd he h'.1
    · rw [c1 n hn k hk, c2 m hm l hl, hkl]

end FactorFacts

/-! ### The state of the loop -/

/-- Two factors have a common variable of `D`. -/
def FactorStep (F : Finset (ItemSet V X R)) (D : Finset V) (x y : ItemSet V X R) : Prop := x ∈ F ∧ y ∈ F ∧ ∃ r ∈ D, r ∈ factorVars x ∧ r ∈ factorVars y

/-- After the variables `D` the outcomes `acc` are the joins of the blocks `𝓑`. -/
structure LoopInv (iter : V → Option (Finset V)) (F : Finset (ItemSet V X R)) (D : Finset V) (𝓑 : Finset (Finset (ItemSet V X R))) (acc : Samples V X R) : Prop where
  disj : ∀ B ∈ 𝓑, ∀ B' ∈ 𝓑, B ≠ B' → Disjoint B B'
  ne : ∀ B ∈ 𝓑, B.Nonempty
  cover : 𝓑.biUnion id = F
  good : AllGood acc
  get : ∀ g c, acc.samples.get? g = some c ↔ ∃ B ∈ 𝓑, IsJoin B id (g, c)
  chain : ∀ B ∈ 𝓑, ∀ f ∈ B, ∀ f' ∈ B, Relation.ReflTransGen (FactorStep F D) f f'
  sep : ∀ B ∈ 𝓑, ∀ B' ∈ 𝓑, ∀ r ∈ D, r ∈ blockVars B → r ∈ blockVars B' → B = B'
  iterable : ∀ f ∈ F, ∀ p ∈ f, p.1.edges = ∅ → ∀ r ∈ D, HasVar r p.1 → iter r ≠ none
  distinct : ∀ f ∈ F, ∀ f' ∈ F, ∀ p ∈ f, ∀ p' ∈ f', p.1.edges ≠ ∅ → p'.1.edges ≠ ∅ → factorVars f = factorVars f' → (∃ r ∈ D, r ∈ factorVars f) → f = f'

namespace LoopInv
variable {iter : V → Option (Finset V)} {a : Samples V X R} {F : Finset (ItemSet V X R)} {D : Finset V} {𝓑 : Finset (Finset (ItemSet V X R))} {acc : Samples V X R}

theorem sub (h : LoopInv iter F D 𝓑 acc) {B : Finset (ItemSet V X R)} (hB : B ∈ 𝓑) : B ⊆ F := by
  rw [← h.cover]; exact Finset.subset_biUnion_of_mem id hB

theorem block_of (h : LoopInv iter F D 𝓑 acc) {f : ItemSet V X R} (hf : f ∈ F) : ∃ B ∈ 𝓑, f ∈ B := by
  rw [← h.cover, Finset.mem_biUnion] at hf; exact hf

theorem block_eq (h : LoopInv iter F D 𝓑 acc) {B B' : Finset (ItemSet V X R)} (hB : B ∈ 𝓑) (hB' : B' ∈ 𝓑) {f : ItemSet V X R} (hf : f ∈ B) (hf' : f ∈ B') : B = B' := by
  by_contra hne
  exact Finset.disjoint_left.1 (h.disj B hB B' hB' hne) hf hf'

/-- A chain of factors that leaves a factor has a first step. -/
theorem step_out {f f' : ItemSet V X R} (hc : Relation.ReflTransGen (FactorStep F D) f f') (hne : f ≠ f') : ∃ f₁, f₁ ≠ f ∧ FactorStep F D f f₁ := by
  induction hc with
  | refl => exact absurd rfl hne
  | @tail b c hb hbc ih =>
    by_cases hfb : f = b
    · subst hfb; exact ⟨c, Ne.symm hne, hbc⟩
    · exact ih hfb

/-- A factor without variables of `D` is a block. -/
theorem singleton (h : LoopInv iter F D 𝓑 acc) {B : Finset (ItemSet V X R)} (hB : B ∈ 𝓑) {f : ItemSet V X R} (hf : f ∈ B)
    (hD : ∀ f₁ ∈ B, f₁ ≠ f → ¬ FactorStep F D f f₁) : B = {f} := by
  by_contra hne
  obtain ⟨f', hf', hff⟩ : ∃ f' ∈ B, f' ≠ f := by
    by_contra hcon
    push Not at hcon
    exact hne (Finset.eq_singleton_iff_unique_mem.2 ⟨hf, hcon⟩)
  obtain ⟨f₁, h1, h2⟩ := step_out (h.chain B hB f hf f' hf') (Ne.symm hff)
  obtain ⟨B₁, hB₁, hf₁⟩ := h.block_of h2.2.1
  obtain ⟨r, hr, hr1, hr2⟩ := h2.2.2
  have : B = B₁ := h.sep B hB B₁ hB₁ r hr (Finset.mem_biUnion.2 ⟨f, hf, hr1⟩) (Finset.mem_biUnion.2 ⟨f₁, hf₁, hr2⟩)
  subst this
  exact hD f₁ hf₁ h1 h2

/-- A join without edges is of one factor. -/
theorem single_of_edgeless (h : LoopInv iter F D 𝓑 acc) (ha : FactorFacts a F) {B : Finset (ItemSet V X R)} (hB : B ∈ 𝓑) {p : SampleGraph V X R × ℤ}
    (hp : IsJoin B id p) (he : p.1.edges = ∅) : ∃ f, B = {f} := by
  obtain ⟨f, hf⟩ := h.ne B hB
  refine ⟨f, h.singleton hB hf ?_⟩
  rintro f₁ hf₁ hne ⟨hfF, hf₁F, r, hr, hr1, hr2⟩
  obtain ⟨sel, h1, -, -, h4, -⟩ := hp
  have hE : ∀ x ∈ B, (sel x).1.edges = ∅ := by
    intro x hx
    rw [h4] at he
    exact Finset.subset_empty.1 (he ▸ Finset.subset_biUnion_of_mem (fun f => (sel f).1.edges) hx)
  obtain ⟨n, hn, hnr⟩ := (ha.hasVar_iff' hfF (h1 f hf) r).2 hr1
  obtain ⟨m, hm, hmr⟩ := (ha.hasVar_iff' hf₁F (h1 f₁ hf₁) r).2 hr2
  exact hne ((ha.same_iff hf₁F hfF (h1 f₁ hf₁) (h1 f hf)).1 (Or.inr ⟨hE f₁ hf₁, hE f hf, m, hm, n, hn, by rw [hmr, hnr]⟩))

theorem eq_of_shares (h : LoopInv iter F D 𝓑 acc) (ha : FactorFacts a F) {B B' : Finset (ItemSet V X R)} (hB : B ∈ 𝓑) (hB' : B' ∈ 𝓑)
    {p q : SampleGraph V X R × ℤ} (hp : IsJoin B id p) (hq : IsJoin B' id q) (hs : SharesPair p.1 q.1) : B = B' := by
  obtain ⟨sel, h1, -, h3, h4, -⟩ := hp
  obtain ⟨sel', h1', -, h3', h4', -⟩ := hq
  have key : ∀ f ∈ B, ∀ f' ∈ B', SharesPair (sel f).1 (sel' f').1 → B = B' := by
    intro f hf f' hf' hs
    have := (ha.same_iff (h.sub hB hf) (h.sub hB' hf') (h1 f hf) (h1' f' hf')).1
      (sameFactor_of_sharesPair ha.fact (ha.occ (h.sub hB hf) (h1 f hf)) (ha.occ (h.sub hB' hf') (h1' f' hf')) hs)
    subst this
    exact h.block_eq hB hB' hf hf'
  rcases hs with ⟨e, he, e', he', hee⟩ | ⟨he, he', n, hn, m, hm, hnm⟩
  · rw [h4, Finset.mem_biUnion] at he
    rw [h4', Finset.mem_biUnion] at he'
    obtain ⟨f, hf, hef⟩ := he
    obtain ⟨f', hf', hef'⟩ := he'
    exact key f hf f' hf' (Or.inl ⟨e, hef, e', hef', hee⟩)
  · rw [h3, Finset.mem_biUnion] at hn
    rw [h3', Finset.mem_biUnion] at hm
    obtain ⟨f, hf, hnf⟩ := hn
    obtain ⟨f', hf', hmf'⟩ := hm
    rw [h4] at he
    rw [h4'] at he'
    refine key f hf f' hf' (Or.inr ⟨?_, ?_, n, hnf, m, hmf', hnm⟩)
    · exact Finset.subset_empty.1 (he ▸ Finset.subset_biUnion_of_mem (fun f => (sel f).1.edges) hf)
    · exact Finset.subset_empty.1 (he' ▸ Finset.subset_biUnion_of_mem (fun f => (sel' f).1.edges) hf')

theorem same_of_block (h : LoopInv iter F D 𝓑 acc) (ha : FactorFacts a F) {B : Finset (ItemSet V X R)} (hB : B ∈ 𝓑)
    {p q : SampleGraph V X R × ℤ} (hp : IsJoin B id p) (hq : IsJoin B id q) : SameFactor p.1 q.1 := by
  by_cases he : p.1.edges = ∅
  · obtain ⟨f, rfl⟩ := h.single_of_edgeless ha hB hp he
    have hf : f ∈ F := h.sub hB (by simp)
    have hsv : ∀ x ∈ f, SingleValued x.1.nodes := fun x hx => (ha.gd hf hx).2.2
    exact (ha.same_iff hf hf ((isJoin_singleton f hsv p).1 hp) ((isJoin_singleton f hsv q).1 hq)).2 rfl
  · obtain ⟨sel, h1, -, h3, h4, -⟩ := hp
    obtain ⟨sel', h1', -, h3', h4', -⟩ := hq
    have hl : ∀ s s' : ItemSet V X R → SampleGraph V X R × ℤ, (∀ f ∈ B, s f ∈ f) → (∀ f ∈ B, s' f ∈ f) → ∀ P,
        (∃ e ∈ B.biUnion (fun f => (s f).1.edges), e.endpoints.image Node.var = P) → ∃ e ∈ B.biUnion (fun f => (s' f).1.edges), e.endpoints.image Node.var = P := by
      rintro s s' hs hs' P ⟨e, he, hP⟩
      obtain ⟨f, hf, hef⟩ := Finset.mem_biUnion.1 he
      rcases (ha.same_iff (h.sub hB hf) (h.sub hB hf) (hs f hf) (hs' f hf)).2 rfl with ⟨-, -, hp⟩ | ⟨h0, -⟩
      · obtain ⟨e', he', hP'⟩ := (hp P).1 ⟨e, hef, hP⟩
        exact ⟨e', Finset.mem_biUnion.2 ⟨f, hf, he'⟩, hP'⟩
      · rw [h0] at hef; simp at hef
    have hP : ∀ P, LinksPair p.1 P ↔ LinksPair q.1 P := by
      intro P
      unfold LinksPair
      rw [h4, h4']
      exact ⟨hl sel sel' h1 h1' P, hl sel' sel h1' h1 P⟩
    refine Or.inl ⟨he, ?_, hP⟩
    obtain ⟨e, hee⟩ := Finset.nonempty_iff_ne_empty.2 he
    obtain ⟨e', he', -⟩ := (hP _).1 ⟨e, hee, rfl⟩
    exact Finset.ne_empty_of_mem he'

theorem same_iff (h : LoopInv iter F D 𝓑 acc) (ha : FactorFacts a F) {B B' : Finset (ItemSet V X R)} (hB : B ∈ 𝓑) (hB' : B' ∈ 𝓑)
    {p q : SampleGraph V X R × ℤ} (hp : IsJoin B id p) (hq : IsJoin B' id q) : SameFactor p.1 q.1 ↔ B = B' := by
  constructor
  · intro hs; exact h.eq_of_shares ha hB hB' hp hq (sharesPair_of_sameFactor hs)
  · rintro rfl; exact h.same_of_block ha hB hp hq

theorem factorizable (h : LoopInv iter F D 𝓑 acc) (ha : FactorFacts a F) : Factorizable acc := by
  refine ⟨fun g hg => Or.inl (Finset.nonempty_iff_ne_empty.1 (h.good g hg).2.1), ?_⟩
  rintro g k ⟨c, hc⟩ ⟨d, hd⟩ ⟨P, ⟨e, he, hP⟩, ⟨e', he', hP'⟩⟩
  obtain ⟨B, hB, hp⟩ := (h.get g c).1 hc
  obtain ⟨B', hB', hq⟩ := (h.get k d).1 hd
  have := h.eq_of_shares ha hB hB' hp hq (Or.inl ⟨e, he, e', he', by rw [hP, hP']⟩)
  subst this
  rcases h.same_of_block ha hB hp hq with ⟨-, -, h3⟩ | ⟨h0, -⟩
  · exact h3
  · simp only at h0; rw [h0] at he; simp at he

theorem keyVariable_of_edges (iter : V → Option (Finset V)) {g : SampleGraph V X R} (hw : WellFormed g) (he : g.edges ≠ ∅) (w : V) :
    KeyVariable iter g w ↔ HasVar w g := by
  constructor
  · rintro (⟨e, hee, n, hn, rfl⟩ | ⟨h0, -⟩)
    · exact ⟨n, hw.closed e hee hn, rfl⟩
    · exact absurd h0 he
  · rintro ⟨n, hn, rfl⟩
    rw [hw.nodes_eq he, Finset.mem_biUnion] at hn
    obtain ⟨e, hee, hne⟩ := hn
    exact Or.inl ⟨e, hee, n, hne, rfl⟩

/-- The items of a block that is a factor. -/
theorem get_singleton (h : LoopInv iter F D 𝓑 acc) (ha : FactorFacts a F) {f : ItemSet V X R} (hB : {f} ∈ 𝓑) {p : SampleGraph V X R × ℤ} (hp : p ∈ f) :
    acc.Occurs p.1 := by
  have hf : f ∈ F := h.sub hB (by simp)
  exact ⟨p.2, (h.get _ _).2 ⟨{f}, hB, (isJoin_singleton f (fun x hx => (ha.gd hf hx).2.2) p).2 hp⟩⟩

/-- A round that returns. -/
theorem step (h : LoopInv iter F D 𝓑 acc) (ha : FactorFacts a F) (oI : Order (SampleGraph V X R × ℤ)) (oG : Order (SampleGraph V X R))
    (oN : Order (Node V X)) (oE : Order (Edge V X R)) (v : V) (r : Samples V X R) (hr : Samples.joinOn iter oI oG oN oE acc v = .ok r) :
    ∃ 𝓑', LoopInv iter F (insert v D) 𝓑' r := by
  classical
  have hfac := h.factorizable ha
  obtain ⟨ret1, ret2⟩ := (joinOn_returns iter oI oG oN oE acc h.good hfac v).1 ⟨r, hr⟩
  let 𝓥 := 𝓑.filter fun B => v ∈ blockVars B
  let U := 𝓥.biUnion id
  let 𝓑' : Finset (Finset (ItemSet V X R)) := (𝓑.filter fun B => v ∉ blockVars B) ∪ (if 𝓥.Nonempty then {U} else ∅)
  have h𝓥 : ∀ B, B ∈ 𝓥 ↔ B ∈ 𝓑 ∧ v ∈ blockVars B := fun B => Finset.mem_filter
  have hmem : ∀ B, B ∈ 𝓑' ↔ (B ∈ 𝓑 ∧ v ∉ blockVars B) ∨ (B = U ∧ 𝓥.Nonempty) := by
    intro B
    simp only [𝓑', Finset.mem_union, Finset.mem_filter]
    refine or_congr Iff.rfl ?_
    split
    · rename_i hn; simp [hn]
    · rename_i hn; simp [hn]
  have hU : ∀ f, f ∈ U ↔ ∃ B ∈ 𝓑, v ∈ blockVars B ∧ f ∈ B := by
    intro f
    simp only [U, Finset.mem_biUnion, h𝓥, id]
    exact ⟨fun ⟨B, ⟨h1, h2⟩, h3⟩ => ⟨B, h1, h2, h3⟩, fun ⟨B, h1, h2, h3⟩ => ⟨B, ⟨h1, h2⟩, h3⟩⟩
  have hdU : ∀ B ∈ 𝓑, v ∉ blockVars B → Disjoint B U := by
    intro B hB hv
    rw [Finset.disjoint_left]
    intro f hf hfU
    obtain ⟨B', hB', hv', hf'⟩ := (hU f).1 hfU
    rw [h.block_eq hB hB' hf hf'] at hv
    exact hv hv'
  -- the sets of the blocks
  let Jf : Finset (ItemSet V X R) → ItemSet V X R := fun B => acc.items.filter fun p => IsJoin B id p
  have hJ : ∀ B ∈ 𝓑, ∀ p, p ∈ Jf B ↔ IsJoin B id p := by
    intro B hB p
    simp only [Jf, Finset.mem_filter, Samples.mem_items]
    exact ⟨And.right, fun hp => ⟨(h.get _ _).2 ⟨B, hB, hp⟩, hp⟩⟩
  have hFacc : ∀ f, f ∈ 𝓥.image Jf ↔ ∃ p ∈ acc.items, HasVar v p.1 ∧ ∀ q, q ∈ f ↔ q ∈ acc.items ∧ SameFactor p.1 q.1 := by
    intro f
    have hcls : ∀ B ∈ 𝓑, ∀ p, IsJoin B id p → ∀ q, q ∈ Jf B ↔ q ∈ acc.items ∧ SameFactor p.1 q.1 := by
      intro B hB p hp q
      rw [hJ B hB]
      constructor
      · intro hq
        exact ⟨(Samples.mem_items _ _).2 ((h.get _ _).2 ⟨B, hB, hq⟩), h.same_of_block ha hB hp hq⟩
      · rintro ⟨hq, hs⟩
        obtain ⟨B', hB', hq'⟩ := (h.get q.1 q.2).1 ((Samples.mem_items _ _).1 hq)
        have := (h.same_iff ha hB hB' hp hq').1 hs
        subst this; exact hq'
    rw [Finset.mem_image]
    constructor
    · rintro ⟨B, hB, rfl⟩
      obtain ⟨hB1, hB2⟩ := (h𝓥 B).1 hB
      obtain ⟨p, hp⟩ := ha.sub_join (h.sub hB1)
      exact ⟨p, (Samples.mem_items _ _).2 ((h.get _ _).2 ⟨B, hB1, hp⟩), (ha.join_hasVar (h.sub hB1) hp v).2 hB2, hcls B hB1 p hp⟩
    · rintro ⟨p, hp, hpv, hq⟩
      obtain ⟨B, hB, hpB⟩ := (h.get p.1 p.2).1 ((Samples.mem_items _ _).1 hp)
      refine ⟨B, (h𝓥 B).2 ⟨hB, (ha.join_hasVar (h.sub hB) hpB v).1 hpv⟩, ?_⟩
      ext q
      rw [hcls B hB p hpB, hq]
  have hinj : ∀ B ∈ 𝓥, ∀ B' ∈ 𝓥, Jf B = Jf B' → B = B' := by
    intro B hB B' hB' e
    obtain ⟨hB1, -⟩ := (h𝓥 B).1 hB
    obtain ⟨hB1', -⟩ := (h𝓥 B').1 hB'
    obtain ⟨p, hp⟩ := ha.sub_join (h.sub hB1)
    have hp' : IsJoin B' id p := (hJ B' hB1' p).1 (e ▸ (hJ B hB1 p).2 hp)
    exact (h.same_iff ha hB1 hB1' hp hp').1 (h.same_of_block ha hB1 hp hp)
  have hget := joinOn_factorized iter oI oG oN oE acc h.good hfac v _ hFacc r hr
  have hjU : ∀ p, IsJoin (𝓥.image Jf) id p ↔ IsJoin U id p := by
    intro p
    rw [isJoin_image 𝓥 Jf id hinj p]
    exact isJoin_biUnion 𝓥 id Jf (fun B hB B' hB' => h.disj B ((h𝓥 B).1 hB).1 B' ((h𝓥 B').1 hB').1) (fun B hB => hJ B ((h𝓥 B).1 hB).1) p
  have hUF : U ⊆ F := by
    intro f hf
    obtain ⟨B, hB, -, hfB⟩ := (hU f).1 hf
    exact h.sub hB hfB
  have hsing : ∀ f ∈ F, (∀ r ∈ D, r ∉ factorVars f) → {f} ∈ 𝓑 := by
    intro f hf hD
    obtain ⟨B, hB, hfB⟩ := h.block_of hf
    have := h.singleton hB hfB (fun f₁ _ _ hs => by
      obtain ⟨-, -, r, hr, hr1, -⟩ := hs
      exact hD r hr hr1)
    rw [← this]; exact hB
  have hmono : ∀ x y, Relation.ReflTransGen (FactorStep F D) x y → Relation.ReflTransGen (FactorStep F (insert v D)) x y := fun x y hxy =>
    Relation.ReflTransGen.mono (fun _ _ ⟨h1, h2, r, hr, h3⟩ => ⟨h1, h2, r, Finset.mem_insert_of_mem hr, h3⟩) x y hxy
  refine ⟨𝓑', ?_, ?_, ?_, (joinOn_good iter oI oG oN oE acc h.good v r hr).1, ?_, ?_, ?_, ?_, ?_⟩
  · intro B hB B' hB' hne
    rcases (hmem B).1 hB with ⟨b1, b2⟩ | ⟨rfl, -⟩ <;> rcases (hmem B').1 hB' with ⟨c1, c2⟩ | ⟨rfl, -⟩
    · exact h.disj B b1 B' c1 hne
    · exact hdU B b1 b2
    · exact (hdU B' c1 c2).symm
    · exact absurd rfl hne
  · intro B hB
    rcases (hmem B).1 hB with ⟨b1, b2⟩ | ⟨rfl, B', hB'⟩
    · exact h.ne B b1
    · obtain ⟨f, hf⟩ := h.ne B' ((h𝓥 B').1 hB').1
      exact ⟨f, (hU f).2 ⟨B', ((h𝓥 B').1 hB').1, ((h𝓥 B').1 hB').2, hf⟩⟩
  · ext f
    rw [Finset.mem_biUnion]
    constructor
    · rintro ⟨B, hB, hf⟩
      rcases (hmem B).1 hB with ⟨b1, b2⟩ | ⟨rfl, -⟩
      · exact h.sub b1 hf
      · exact hUF hf
    · intro hf
      obtain ⟨B, hB, hfB⟩ := h.block_of hf
      by_cases hv : v ∈ blockVars B
      · exact ⟨U, (hmem U).2 (Or.inr ⟨rfl, B, (h𝓥 B).2 ⟨hB, hv⟩⟩), (hU f).2 ⟨B, hB, hv, hfB⟩⟩
      · exact ⟨B, (hmem B).2 (Or.inl ⟨hB, hv⟩), hfB⟩
  · intro g c
    rw [hget, hjU, h.get]
    constructor
    · rintro (⟨hv, B, hB, hp⟩ | ⟨⟨n, hn, hnv⟩, hp⟩)
      · exact ⟨B, (hmem B).2 (Or.inl ⟨hB, fun hvB => hv ((ha.join_hasVar (h.sub hB) hp v).2 hvB)⟩), hp⟩
      · refine ⟨U, (hmem U).2 (Or.inr ⟨rfl, ?_⟩), hp⟩
        have : v ∈ blockVars U := (ha.join_hasVar hUF hp v).1 ⟨n, hn, hnv⟩
        obtain ⟨f, hf, -⟩ := Finset.mem_biUnion.1 this
        obtain ⟨B, hB, hvB, -⟩ := (hU f).1 hf
        exact ⟨B, (h𝓥 B).2 ⟨hB, hvB⟩⟩
    · rintro ⟨B, hB, hp⟩
      rcases (hmem B).1 hB with ⟨b1, b2⟩ | ⟨rfl, B', hB'⟩
      · exact Or.inl ⟨fun hv => b2 ((ha.join_hasVar (h.sub b1) hp v).1 hv), B, b1, hp⟩
      · refine Or.inr ⟨(ha.join_hasVar hUF hp v).2 ?_, hp⟩
        obtain ⟨b1, b2⟩ := (h𝓥 B').1 hB'
        obtain ⟨f, hf, hfv⟩ := Finset.mem_biUnion.1 b2
        exact Finset.mem_biUnion.2 ⟨f, (hU f).2 ⟨B', b1, b2, hf⟩, hfv⟩
  · intro B hB f hf f' hf'
    rcases (hmem B).1 hB with ⟨b1, b2⟩ | ⟨rfl, -⟩
    · exact hmono _ _ (h.chain B b1 f hf f' hf')
    · obtain ⟨B₁, h1, h2, h3⟩ := (hU f).1 hf
      obtain ⟨B₂, k1, k2, k3⟩ := (hU f').1 hf'
      obtain ⟨x, hx, hxv⟩ := Finset.mem_biUnion.1 h2
      obtain ⟨y, hy, hyv⟩ := Finset.mem_biUnion.1 k2
      refine (hmono _ _ (h.chain B₁ h1 f h3 x hx)).trans (.head ?_ (hmono _ _ (h.chain B₂ k1 y hy f' k3)))
      exact ⟨h.sub h1 hx, h.sub k1 hy, v, Finset.mem_insert_self _ _, hxv, hyv⟩
  · intro B hB B' hB' s hs hsB hsB'
    have aux : ∀ C ∈ 𝓑, v ∉ blockVars C → ∀ s ∈ insert v D, s ∈ blockVars C → s ∈ blockVars U → False := by
      intro C hC hvC s hs hsC hsU
      rcases Finset.mem_insert.1 hs with rfl | hsD
      · exact hvC hsC
      · obtain ⟨f, hf, hfs⟩ := Finset.mem_biUnion.1 hsU
        obtain ⟨B₁, h1, h2, h3⟩ := (hU f).1 hf
        have := h.sep C hC B₁ h1 s hsD hsC (Finset.mem_biUnion.2 ⟨f, h3, hfs⟩)
        subst this; exact hvC h2
    rcases (hmem B).1 hB with ⟨b1, b2⟩ | ⟨rfl, -⟩ <;> rcases (hmem B').1 hB' with ⟨c1, c2⟩ | ⟨rfl, -⟩
    · rcases Finset.mem_insert.1 hs with rfl | hsD
      · exact absurd hsB b2
      · exact h.sep B b1 B' c1 s hsD hsB hsB'
    · exact (aux B b1 b2 s hs hsB hsB').elim
    · exact (aux B' c1 c2 s hs hsB' hsB).elim
    · rfl
  · intro f hf p hp he s hs hsp
    by_cases hsD : s ∈ D
    · exact h.iterable f hf p hp he s hsD hsp
    · have hsv : s = v := by rcases Finset.mem_insert.1 hs with h | h; exacts [h, absurd h hsD]
      have hB := hsing f hf (fun t ht htf => by
        obtain ⟨n, hn, hnt⟩ := (ha.hasVar_iff' hf hp t).2 htf
        obtain ⟨m, hm, hms⟩ := hsp
        have hc := (ha.gd hf hp).1.card_le_one he
        rw [Finset.card_le_one] at hc
        rw [hc n hn m hm, hms] at hnt
        exact hsD (hnt ▸ ht))
      rw [hsv] at hsp ⊢
      exact ret1 p.1 (h.get_singleton ha hB hp) he hsp
  · intro f hf f' hf' p hp p' hp' he he' hvars hex
    by_cases hD : ∃ s ∈ D, s ∈ factorVars f
    · exact h.distinct f hf f' hf' p hp p' hp' he he' hvars hD
    · push Not at hD
      obtain ⟨s, hs, hsf⟩ := hex
      have hsv : s = v := by rcases Finset.mem_insert.1 hs with h | h; exacts [h, absurd hsf (hD s h)]
      rw [hsv] at hsf
      have hB := hsing f hf hD
      have hB' := hsing f' hf' (fun t ht => by rw [← hvars]; exact hD t ht)
      refine (ha.same_iff hf hf' hp hp').1 (ret2 _ _ (h.get_singleton ha hB hp) (h.get_singleton ha hB' hp') ?_ ?_ ?_)
      · exact (ha.hasVar_iff' hf hp v).2 hsf
      · exact (ha.hasVar_iff' hf' hp' v).2 (hvars ▸ hsf)
      · intro w
        rw [keyVariable_of_edges iter (ha.gd hf hp).1 he, keyVariable_of_edges iter (ha.gd hf' hp').1 he', ha.hasVar_iff' hf hp, ha.hasVar_iff' hf' hp', hvars]

/-- When a round returns. -/
theorem step_returns (h : LoopInv iter F D 𝓑 acc) (ha : FactorFacts a F) (oI : Order (SampleGraph V X R × ℤ)) (oG : Order (SampleGraph V X R))
    (oN : Order (Node V X)) (oE : Order (Edge V X R)) (v : V) (hiter : ∀ s, iter v = some s → v ∈ s → s = {v})
    (h1 : ∀ f ∈ F, ∀ p ∈ f, p.1.edges = ∅ → HasVar v p.1 → iter v ≠ none)
    (h2 : ∀ f ∈ F, ∀ f' ∈ F, ∀ p ∈ f, ∀ p' ∈ f', p.1.edges ≠ ∅ → p'.1.edges ≠ ∅ → factorVars f = factorVars f' → v ∈ factorVars f → f = f') :
    Returns (Samples.joinOn iter oI oG oN oE acc v) := by
  rw [joinOn_returns iter oI oG oN oE acc h.good (h.factorizable ha) v]
  have hone : ∀ g, acc.Occurs g → g.edges = ∅ → ∀ n ∈ g.nodes, ∀ m ∈ g.nodes, n = m := by
    intro g hg he
    have := (h.good g hg).1.card_le_one he
    rwa [Finset.card_le_one] at this
  have hmix : ∀ g k, acc.Occurs g → acc.Occurs k → HasVar v g → HasVar v k → g.edges = ∅ → k.edges ≠ ∅ →
      (∀ w, KeyVariable iter k w → KeyVariable iter g w) → False := by
    intro g k hg hk hvg hvk he he' hkey
    obtain ⟨m, hm, hmv⟩ := hvg
    have hgk : ∀ w, KeyVariable iter g w → ∃ s, iter v = some s ∧ w ∈ s := by
      rintro w (⟨e, hee, -⟩ | ⟨-, n, hn, s, hs, hw⟩)
      · rw [he] at hee; simp at hee
      · rw [hone g hg he n hn m hm, hmv] at hs; exact ⟨s, hs, hw⟩
    obtain ⟨s, hs, hvs⟩ := hgk v (hkey v ((keyVariable_of_edges iter (h.good k hk).1 he' v).2 hvk))
    have hsv := hiter s hs hvs
    obtain ⟨e, hee⟩ := Finset.nonempty_iff_ne_empty.2 he'
    obtain ⟨x, y, hxy, hep⟩ := (h.good k hk).1.good e hee
    have hw : ∀ z ∈ e.endpoints, z.var = v := by
      intro z hz
      obtain ⟨s', hs', hzs⟩ := hgk z.var (hkey _ (Or.inl ⟨e, hee, z, hz, rfl⟩))
      rw [hs, Option.some.injEq] at hs'
      rw [← hs', hsv] at hzs
      simpa using hzs
    exact hxy ((hw x (by simp [hep])).trans (hw y (by simp [hep])).symm)
  constructor
  · rintro g ⟨c, hc⟩ he hv
    obtain ⟨B, hB, hp⟩ := (h.get g c).1 hc
    obtain ⟨f, rfl⟩ := h.single_of_edgeless ha hB hp he
    have hf : f ∈ F := h.sub hB (by simp)
    exact h1 f hf (g, c) ((isJoin_singleton f (fun x hx => (ha.gd hf hx).2.2) _).1 hp) he hv
  · intro g k hg hk hvg hvk hkey
    by_cases he : g.edges = ∅ <;> by_cases he' : k.edges = ∅
    · obtain ⟨n, hn, hnv⟩ := hvg
      obtain ⟨m, hm, hmv⟩ := hvk
      exact Or.inr ⟨he, he', n, hn, m, hm, by rw [hnv, hmv]⟩
    · exact (hmix g k hg hk hvg hvk he he' fun w => (hkey w).2).elim
    · exact (hmix k g hk hg hvk hvg he' he fun w => (hkey w).1).elim
    · have hvars : ∀ w, HasVar w g ↔ HasVar w k := by
        intro w
        rw [← keyVariable_of_edges iter (h.good g hg).1 he, ← keyVariable_of_edges iter (h.good k hk).1 he']; exact hkey w
      obtain ⟨c, hc⟩ := hg
      obtain ⟨d, hd⟩ := hk
      obtain ⟨B, hB, hp⟩ := (h.get g c).1 hc
      obtain ⟨B', hB', hq⟩ := (h.get k d).1 hd
      refine (h.same_iff ha hB hB' hp hq).2 ?_
      by_contra hne
      have hbv : ∀ w, w ∈ blockVars B ↔ w ∈ blockVars B' := fun w => by
        rw [← ha.join_hasVar (h.sub hB) hp, ← ha.join_hasVar (h.sub hB') hq]; exact hvars w
      have hs : ∀ C ∈ 𝓑, ∀ f ∈ C, (∀ w, w ∈ blockVars C → w ∈ blockVars B ∧ w ∈ blockVars B') → C = {f} := by
        intro C hC f hf hcw
        refine h.singleton hC hf fun f₁ _ _ hst => ?_
        obtain ⟨-, -, r, hr, hr1, -⟩ := hst
        obtain ⟨w1, w2⟩ := hcw r (Finset.mem_biUnion.2 ⟨f, hf, hr1⟩)
        exact hne (h.sep B hB B' hB' r hr w1 w2)
      obtain ⟨f, hf⟩ := h.ne B hB
      obtain ⟨f', hf'⟩ := h.ne B' hB'
      have e1 := hs B hB f hf fun w hw => ⟨hw, (hbv w).1 hw⟩
      have e2 := hs B' hB' f' hf' fun w hw => ⟨(hbv w).2 hw, hw⟩
      subst e1 e2
      have hfF : f ∈ F := h.sub hB (by simp)
      have hfF' : f' ∈ F := h.sub hB' (by simp)
      have b1 := (isJoin_singleton f (fun x hx => (ha.gd hfF hx).2.2) _).1 hp
      have b2 := (isJoin_singleton f' (fun x hx => (ha.gd hfF' hx).2.2) _).1 hq
      apply hne
      rw [h2 f hfF f' hfF' _ b1 _ b2 he he' (by ext w; simpa [blockVars] using hbv w) ((ha.hasVar_iff' hfF b1 v).1 hvg)]

/-- The state before the first variable. -/
theorem init (iter : V → Option (Finset V)) (ha : FactorFacts a F) : LoopInv iter F ∅ (F.image fun f => {f}) a := by
  have hsv : ∀ f ∈ F, ∀ x ∈ f, SingleValued x.1.nodes := fun f hf x hx => (ha.gd hf hx).2.2
  refine ⟨?_, ?_, ?_, ha.good, ?_, ?_, ?_, ?_, ?_⟩
  · intro B hB B' hB' hne
    obtain ⟨f, hf, rfl⟩ := Finset.mem_image.1 hB
    obtain ⟨f', hf', rfl⟩ := Finset.mem_image.1 hB'
    rw [Finset.disjoint_singleton]
    rintro rfl; exact hne rfl
  · intro B hB
    obtain ⟨f, hf, rfl⟩ := Finset.mem_image.1 hB
    simp
  · ext f; simp
  · intro g c
    constructor
    · intro hc
      obtain ⟨f, hf, hm⟩ := ha.mem_factor hc
      exact ⟨{f}, Finset.mem_image_of_mem _ hf, (isJoin_singleton f (hsv f hf) _).2 hm⟩
    · rintro ⟨B, hB, hp⟩
      obtain ⟨f, hf, rfl⟩ := Finset.mem_image.1 hB
      exact ha.get hf ((isJoin_singleton f (hsv f hf) _).1 hp)
  · intro B hB f hf f' hf'
    obtain ⟨k, hk, rfl⟩ := Finset.mem_image.1 hB
    rw [Finset.mem_singleton.1 hf, Finset.mem_singleton.1 hf']
  · intro B hB B' hB' r hr; simp at hr
  · intro f hf p hp he r hr; simp at hr
  · rintro f hf f' hf' p hp p' hp' he he' hv ⟨r, hr, -⟩; simp at hr

/-- The loop. -/
theorem loop (ha : FactorFacts a F) (oI : Order (SampleGraph V X R × ℤ)) (oG : Order (SampleGraph V X R))
    (oN : Order (Node V X)) (oE : Order (Edge V X R)) (L : List V) : ∀ {D : Finset V} {𝓑 : Finset (Finset (ItemSet V X R))} {acc : Samples V X R},
    LoopInv iter F D 𝓑 acc →
    (∀ r, L.foldlM (Samples.joinOn iter oI oG oN oE) acc = .ok r → ∃ 𝓑', LoopInv iter F (D ∪ L.toFinset) 𝓑' r) ∧
    ((∀ v ∈ L, ∀ s, iter v = some s → v ∈ s → s = {v}) →
      (∀ v ∈ L, ∀ f ∈ F, ∀ p ∈ f, p.1.edges = ∅ → HasVar v p.1 → iter v ≠ none) →
      (∀ v ∈ L, ∀ f ∈ F, ∀ f' ∈ F, ∀ p ∈ f, ∀ p' ∈ f', p.1.edges ≠ ∅ → p'.1.edges ≠ ∅ → factorVars f = factorVars f' → v ∈ factorVars f → f = f') →
      Returns (L.foldlM (Samples.joinOn iter oI oG oN oE) acc)) := by
  induction L with
  | nil =>
    intro D 𝓑 acc h
    refine ⟨fun r hr => ?_, fun _ _ _ => ⟨acc, rfl⟩⟩
    have : acc = r := Except.ok.inj hr
    subst this
    exact ⟨𝓑, by simpa using h⟩
  | cons v t ih =>
    intro D 𝓑 acc h
    constructor
    · intro r hr
      rw [List.foldlM_cons] at hr
      cases hs : Samples.joinOn iter oI oG oN oE acc v with
      | error e => rw [hs] at hr; simp [bind, Except.bind] at hr
      | ok b =>
        rw [hs] at hr
        obtain ⟨𝓑', h'⟩ := h.step ha oI oG oN oE v b hs
        obtain ⟨𝓑'', h''⟩ := (ih h').1 r hr
        refine ⟨𝓑'', ?_⟩
        have : D ∪ (v :: t).toFinset = insert v D ∪ t.toFinset := by ext w; simp
        rw [this]; exact h''
    · intro c1 c2 c3
      obtain ⟨b, hs⟩ := h.step_returns ha oI oG oN oE v (c1 v (by simp)) (c2 v (by simp)) (c3 v (by simp))
      obtain ⟨𝓑', h'⟩ := h.step ha oI oG oN oE v b hs
      rw [List.foldlM_cons, hs]
      exact (ih h').2 (fun w hw => c1 w (by simp [hw])) (fun w hw => c2 w (by simp [hw])) (fun w hw => c3 w (by simp [hw]))

end LoopInv

end Verif
