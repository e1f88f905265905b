import Verif.Lemmas.JoinSystem
import Verif.Props.Factorized
import Verif.Props.Folded

/-!
# C41: `joined_on_variables`
-/

set_option linter.unusedSectionVars false

namespace Verif

variable {V X R : Type} [DecidableEq V] [DecidableEq X] [DecidableEq R]

/-! ### Specification -/

/-- All samples of the collection are well formed, not empty and have one value per variable. -/
def AllGood (a : Samples V X R) : Prop := ∀ g, a.Occurs g → WellFormed g ∧ g.nodes.Nonempty ∧ SingleValued g.nodes

/-- The items of the group with key `K`. -/
def groupItems (d : Dict (Finset V) (Samples V X R)) (K : Finset V) : Finset (SampleGraph V X R × ℤ) :=
  match d.get? K with
  | some s => s.items
  | none => ∅

/-! ### Helper lemmas -/

theorem groupItems_of {d : Dict (Finset V) (Samples V X R)} {K : Finset V} {s : Samples V X R} (h : d.get? K = some s) :
    groupItems d K = s.items := by unfold groupItems; rw [h]

theorem mem_groupItems (d : Dict (Finset V) (Samples V X R)) (K : Finset V) (p : SampleGraph V X R × ℤ) :
    p ∈ groupItems d K ↔ ∃ s, d.get? K = some s ∧ s.samples.get? p.1 = some p.2 := by
  unfold groupItems
  cases d.get? K with
  | none => simp
  | some s => simp [Samples.mem_items]

theorem hasVar_iff (g : SampleGraph V X R) (v : V) : v ∈ g.includedVariables ↔ HasVar v g := by
  simp [SampleGraph.includedVariables, HasVar]

/-- The joined samples of a system are well formed. -/
theorem JoinSystem.isJoin_wf {ι : Type} {I : Finset ι} {D : ι → Finset (SampleGraph V X R × ℤ)} (h : JoinSystem I D)
    (hne : I.Nonempty) (v : V) (hv : ∀ i ∈ I, ∀ p ∈ D i, ∃ x, (⟨v, x⟩ : Node V X) ∈ p.1.nodes) (p : SampleGraph V X R × ℤ)
    (hp : IsJoin I D p) : WellFormed p.1 ∧ p.1.nodes.Nonempty ∧ SingleValued p.1.nodes ∧ HasVar v p.1 := by
  classical
  obtain ⟨sel, hs, hsv, hn, he, -⟩ := hp
  have hI : ∀ i, i ∈ I.toList ↔ i ∈ I := fun i => Finset.mem_toList
  have hne' : I.toList ≠ [] := by
    intro h0; rw [Finset.toList_eq_nil] at h0; rw [h0] at hne; exact Finset.not_nonempty_empty hne
  have hgc := h.goodChoice I.toList I.nodup_toList hI hne' v hv sel hs
  have hg : p.1 = unionGraph ((I.toList.map sel).map Prod.fst) := by
    refine SampleGraph.ext ?_ ?_
    · rw [hn]; ext n; simp only [mem_union_sel_nodes, Finset.mem_biUnion, hI]
    · rw [he]; ext e; simp only [mem_union_sel_edges, Finset.mem_biUnion, hI]
  have hag : Agrees (I.toList.map sel) := by unfold Agrees; rw [← hg]; exact hsv
  let a : Samples V X R := ⟨0, ⟨I.toList.map sel, hgc.nodup⟩⟩
  have hr := (makeJoined_of_agrees (default : Order (Edge V X R)) a rfl hgc).1 hag
  have hw : ∀ g c, a.samples.get? g = some c → WellFormed g ∧ g.nodes.Nonempty := by
    intro g c hgc'
    rw [← Dict.mem_entries] at hgc'
    exact ⟨(hgc.wf _ hgc').1, (hgc.wf _ hgc').2.1⟩
  obtain ⟨-, -, h3, -⟩ := (C27_make_joined_sample default a hw).1 _ _ hr
  simp only at h3
  rw [← hg] at h3
  obtain ⟨i, hi⟩ := hne
  obtain ⟨x, hx⟩ := hv i hi _ (hs i hi)
  have hmem : (⟨v, x⟩ : Node V X) ∈ p.1.nodes := by rw [hn]; exact Finset.mem_biUnion.2 ⟨i, hi, hx⟩
  exact ⟨h3, ⟨_, hmem⟩, hsv, _, hmem, rfl⟩

/-- The groups of samples containing `v` form a system. -/
theorem groups_system (iter : V → Option (Finset V)) (a : Samples V X R) (ha : AllGood a) (v : V)
    (d : Dict (Finset V) (Samples V X R))
    (h : (a.filterSamples fun g => v ∈ g.includedVariables).groupIntersecting iter = .ok d) :
    JoinSystem d.keys.toFinset (groupItems d) ∧
    (∀ K ∈ d.keys.toFinset, ∀ p ∈ groupItems d K, ∃ x, (⟨v, x⟩ : Node V X) ∈ p.1.nodes) := by
  obtain ⟨h1, h2, -⟩ := C24_sound iter _ d h
  have hin : ∀ K, ∀ p ∈ groupItems d K, a.samples.get? p.1 = some p.2 ∧ HasVar v p.1 := by
    intro K p hp
    obtain ⟨s, hs, hg⟩ := (mem_groupItems d K p).1 hp
    have := (h1 K s hs).2.2.1 _ _ hg
    rw [filterSamples_get, decide_eq_true_eq, hasVar_iff] at this
    exact this
  have hv : ∀ K ∈ d.keys.toFinset, ∀ p ∈ groupItems d K, ∃ x, (⟨v, x⟩ : Node V X) ∈ p.1.nodes := by
    intro K _ p hp
    obtain ⟨n, hn, hnv⟩ := (hin K p hp).2
    exact ⟨n.val, by rw [← hnv]; exact hn⟩
  refine ⟨⟨?_, ?_, ?_, ?_⟩, hv⟩
  · intro K _ p hp
    exact ha p.1 ⟨p.2, (hin K p hp).1⟩
  · intro K _ p hp q hq hpq
    have e1 := (hin K p hp).1
    have e2 := (hin K q hq).1
    rw [hpq, e2] at e1
    simp only [Option.some.injEq] at e1
    exact Prod.ext hpq e1.symm
  · intro K _ K' _ hKK p hp q hq
    obtain ⟨s, hs, hg⟩ := (mem_groupItems d K p).1 hp
    obtain ⟨s', hs', hg'⟩ := (mem_groupItems d K' q).1 hq
    exact (h2 K s K' s' _ _ _ _ hs hs' hKK hg hg').2
  · intro K hK p hp q hq hep heq n hn m hm
    obtain ⟨x, hx⟩ := hv K hK p hp
    obtain ⟨y, hy⟩ := hv K hK q hq
    have hc := (ha p.1 ⟨p.2, (hin K p hp).1⟩).1.card_le_one hep
    have hc' := (ha q.1 ⟨q.2, (hin K q hq).1⟩).1.card_le_one heq
    rw [Finset.card_le_one] at hc hc'
    rw [hc n hn _ hx, hc' m hm _ hy]

theorem Dict.vals_map_eq {K A B : Type} [DecidableEq K] (d : Dict K A) (f : A → B) (E : K → B)
    (h : ∀ k a, d.get? k = some a → f a = E k) : d.vals.map f = d.keys.map E := by
  unfold Dict.vals Dict.keys
  rw [List.map_map, List.map_map]
  refine List.map_congr_left ?_
  intro p hp
  exact h p.1 p.2 ((d.mem_entries p.1 p.2).1 hp)

/-- One round of the loop of `joined_on_variables`. -/
theorem joinOn_spec (iter : V → Option (Finset V)) (oI : Order (SampleGraph V X R × ℤ)) (oG : Order (SampleGraph V X R))
    (oN : Order (Node V X)) (oE : Order (Edge V X R)) (a : Samples V X R) (ha : AllGood a) (v : V) :
    (∀ e, (a.filterSamples fun g => v ∈ g.includedVariables).groupIntersecting iter = .error e →
      Samples.joinOn iter oI oG oN oE a v = .error e) ∧
    (∀ d, (a.filterSamples fun g => v ∈ g.includedVariables).groupIntersecting iter = .ok d →
      ∃ r, Samples.joinOn iter oI oG oN oE a v = .ok r ∧ r.prov = a.prov ∧
        (∀ g, ¬ HasVar v g → r.samples.get? g = a.samples.get? g) ∧
        (∀ g c, HasVar v g → (r.samples.get? g = some c ↔ IsJoin d.keys.toFinset (groupItems d) (g, c)))) := by
  constructor
  · intro e he
    unfold Samples.joinOn
    simp only
    rw [he]
  · intro d hd
    obtain ⟨hsys, hv⟩ := groups_system iter a ha v d hd
    obtain ⟨h1, -, -⟩ := C24_sound iter _ d hd
    set j := a.filterSamples (fun g => decide (v ∈ g.includedVariables)) with hj
    have hjg : ∀ g c, j.samples.get? g = some c ↔ a.samples.get? g = some c ∧ HasVar v g := by
      intro g c; rw [hj, filterSamples_get, decide_eq_true_eq, hasVar_iff]
    -- the cross join
    have hcross : ∃ joined, Samples.crossJoin oI oN oE d.vals (Samples.empty a.prov) = .ok joined ∧ joined.prov = a.prov ∧
        (∀ g, ¬ HasVar v g → joined.samples.get? g = none) ∧
        (∀ g c, HasVar v g → (joined.samples.get? g = some c ↔ IsJoin d.keys.toFinset (groupItems d) (g, c))) := by
      by_cases hnil : d.keys = []
      · have hv0 : d.vals = [] := by
          unfold Dict.keys at hnil; unfold Dict.vals
          rw [List.map_eq_nil_iff] at hnil ⊢; exact hnil
        rw [hv0]
        refine ⟨Samples.empty a.prov, ?_, rfl, fun g _ => by simp [Samples.empty], ?_⟩
        · simp [Samples.crossJoin, Samples.crossLeaf, Samples.bool, Samples.empty, Dict.empty]
        · intro g c hgv
          rw [hnil]
          constructor
          · intro hh; simp [Samples.empty] at hh
          · rintro ⟨sel, -, -, hn, -⟩
            obtain ⟨n, hn', -⟩ := hgv
            simp only [List.toFinset_nil, Finset.biUnion_empty] at hn
            rw [hn] at hn'
            simp at hn'
      · let E : Finset V → List (SampleGraph V X R × ℤ) := fun K => ((d.get? K).map fun s => s.samples.entries).getD []
        have hmap : d.vals.map (fun s => s.samples.entries) = d.keys.map E := by
          refine d.vals_map_eq _ _ ?_
          intro K s hs
          simp only [E, hs, Option.map_some, Option.getD_some]
        have hI : ∀ K, K ∈ d.keys ↔ K ∈ d.keys.toFinset := fun K => List.mem_toFinset.symm
        have hE : ∀ K ∈ d.keys.toFinset, (E K).Nodup ∧ ∀ p, p ∈ E K ↔ p ∈ groupItems d K := by
          intro K hK
          obtain ⟨s, hs⟩ := (d.mem_keys K).1 ((hI K).2 hK)
          simp only [E, hs, Option.map_some, Option.getD_some, groupItems]
          exact ⟨s.samples.nodup_entries, fun p => by simp [Samples.items]⟩
        have : Inhabited (SampleGraph V X R × ℤ) := ⟨(⟨∅, ∅⟩, 0)⟩
        obtain ⟨r, r1, r2, r3⟩ := crossJoin_spec oI oN oE d.vals (Samples.empty a.prov) (by
          intro s hs
          obtain ⟨p, hp, rfl⟩ := List.mem_map.1 hs
          obtain ⟨k1, ⟨g, c, k2⟩, -, -⟩ := h1 p.1 p.2 ((d.mem_entries p.1 p.2).1 hp)
          refine ⟨k1, fun h0 => ?_⟩
          rw [← Dict.mem_entries, h0] at k2
          simp at k2) (by
          intro ps hps
          rw [hmap, mem_choices_map _ d.nodup_keys] at hps
          obtain ⟨sel, hsel, rfl⟩ := hps
          have : (Samples.empty a.prov : Samples V X R).samples.entries = [] := rfl
          rw [this, List.nil_append]
          exact hsys.goodChoice d.keys d.nodup_keys hI hnil v hv sel fun K hK => ((hE K hK).2 _).1 (hsel K ((hI K).2 hK)))
        have h0 : (Samples.empty a.prov : Samples V X R).samples.entries = [] := rfl
        simp only [h0, List.nil_append, List.map_id', hmap] at r3
        have htot := fun g c => hsys.total_iff d.keys d.nodup_keys hI E hE g c
        refine ⟨r, r1, r2, ?_, ?_⟩
        · intro g hgv
          cases hc : r.samples.get? g with
          | none => rfl
          | some c =>
            rw [r3, htot] at hc
            have hne : d.keys.toFinset.Nonempty := by
              rw [Finset.nonempty_iff_ne_empty]
              intro h; rw [List.toFinset_eq_empty_iff] at h; exact hnil h
            exact absurd (hsys.isJoin_wf hne v hv _ hc).2.2.2 hgv
        · intro g c _
          rw [r3, htot]
    obtain ⟨joined, c1, c2, c3, c4⟩ := hcross
    -- removal
    obtain ⟨pre, suf, m1, m2, m3, m4, m5⟩ := Samples.removeList_spec (oG.run j.graphs) a (oG.nodup _)
    have hocc : ∀ g ∈ oG.run j.graphs, ∃ c, a.samples.get? g = some c := by
      intro g hg
      rw [oG.mem, Samples.mem_graphs] at hg
      obtain ⟨c, hc⟩ := hg
      exact ⟨c, ((hjg g c).1 hc).1⟩
    have hrem : (Samples.removeList (oG.run j.graphs) a).2 = none ∧ pre = oG.run j.graphs := by
      rcases m5 with ⟨rfl, h'⟩ | ⟨g, t, rfl, h', -⟩
      · exact ⟨h', by rw [m1, List.append_nil]⟩
      · obtain ⟨c, hc⟩ := hocc g (by rw [m1]; simp)
        rw [hc] at h'; simp at h'
    obtain ⟨m6, rfl⟩ := hrem
    obtain ⟨n1, n2, n3, -⟩ := (Samples.removeList (oG.run j.graphs) a).1.addAll_ok oI joined (c2.trans m2.symm)
    refine ⟨((Samples.removeList (oG.run j.graphs) a).1.addAll oI joined).1, ?_, n2.trans m2, ?_, ?_⟩
    · unfold Samples.joinOn
      simp only
      rw [← hj, hd]
      simp only
      rw [c1]
      simp only [Samples.removeAll, toPy]
      rw [m6]
      simp only
      rw [n1]
    · intro g hgv
      rw [n3, m4, c3 g hgv, if_neg, addCounts_none_right]
      rw [oG.mem, Samples.mem_graphs]
      rintro ⟨c, hc⟩
      exact hgv ((hjg g c).1 hc).2
    · intro g c hgv
      rw [← c4 g c hgv, n3, m4]
      have : (if g ∈ oG.run j.graphs then none else a.samples.get? g) = none := by
        split
        · rfl
        · rename_i hn
          rw [oG.mem, Samples.mem_graphs] at hn
          cases hc : a.samples.get? g with
          | none => rfl
          | some c => exact absurd ⟨c, (hjg g c).2 ⟨hc, hgv⟩⟩ hn
      rw [this, addCounts_none_left]

theorem joinOn_good (iter : V → Option (Finset V)) (oI : Order (SampleGraph V X R × ℤ)) (oG : Order (SampleGraph V X R))
    (oN : Order (Node V X)) (oE : Order (Edge V X R)) (a : Samples V X R) (ha : AllGood a) (v : V) (r : Samples V X R)
    (h : Samples.joinOn iter oI oG oN oE a v = .ok r) :
    AllGood r ∧ r.prov = a.prov ∧ (∀ g, ¬ HasVar v g → r.samples.get? g = a.samples.get? g) ∧
    (∀ w, (∃ g, r.Occurs g ∧ HasVar w g) → ∃ g, a.Occurs g ∧ HasVar w g) := by
  obtain ⟨h1, h2⟩ := joinOn_spec iter oI oG oN oE a ha v
  cases hd : (a.filterSamples fun g => v ∈ g.includedVariables).groupIntersecting iter with
  | error e => rw [h1 e hd] at h; simp at h
  | ok d =>
    obtain ⟨r', i1, i2, i3, i4⟩ := h2 d hd
    rw [i1, Except.ok.injEq] at h
    subst h
    obtain ⟨hsys, hv⟩ := groups_system iter a ha v d hd
    obtain ⟨k1, -, -⟩ := C24_sound iter _ d hd
    have hne : ∀ g c, HasVar v g → IsJoin d.keys.toFinset (groupItems d) (g, c) → d.keys.toFinset.Nonempty := by
      rintro g c ⟨n, hn, -⟩ ⟨sel, -, -, hn', -⟩
      rw [Finset.nonempty_iff_ne_empty]
      intro h0
      simp only at hn'
      rw [h0, Finset.biUnion_empty] at hn'
      rw [hn'] at hn
      simp at hn
    refine ⟨?_, i2, i3, ?_⟩
    · rintro g ⟨c, hc⟩
      by_cases hgv : HasVar v g
      · have hJ := (i4 g c hgv).1 hc
        obtain ⟨w1, w2, w3, -⟩ := hsys.isJoin_wf (hne g c hgv hJ) v hv _ hJ
        exact ⟨w1, w2, w3⟩
      · exact ha g ⟨c, by rw [← i3 g hgv]; exact hc⟩
    · rintro w ⟨g, ⟨c, hc⟩, n, hn, hw⟩
      by_cases hgv : HasVar v g
      · obtain ⟨sel, hs, -, hn', -⟩ := (i4 g c hgv).1 hc
        simp only at hn'
        rw [hn', Finset.mem_biUnion] at hn
        obtain ⟨K, hK, hnK⟩ := hn
        obtain ⟨s, hs1, hs2⟩ := (mem_groupItems d K _).1 (hs K hK)
        have := (k1 K s hs1).2.2.1 _ _ hs2
        rw [filterSamples_get] at this
        exact ⟨_, ⟨_, this.1⟩, n, hnK, hw⟩
      · exact ⟨g, ⟨c, by rw [← i3 g hgv]; exact hc⟩, n, hn, hw⟩

/-- Joins do not depend on how the sets are indexed. -/
theorem isJoin_image {ι κ : Type} [DecidableEq κ] (I : Finset ι) (D : ι → κ) (E : κ → Finset (SampleGraph V X R × ℤ))
    (hinj : ∀ i ∈ I, ∀ j ∈ I, D i = D j → i = j) (p : SampleGraph V X R × ℤ) :
    IsJoin (I.image D) E p ↔ IsJoin I (fun i => E (D i)) p := by
  classical
  constructor
  · rintro ⟨sel, h1, h2, h3, h4, h5⟩
    refine ⟨fun i => sel (D i), fun i hi => h1 _ (Finset.mem_image_of_mem _ hi), h2, ?_, ?_, ?_⟩
    · rw [h3, Finset.image_biUnion]
    · rw [h4, Finset.image_biUnion]
    · rw [h5, Finset.prod_image]
      intro i hi j hj h; exact hinj i hi j hj h
  · rintro ⟨sel, h1, h2, h3, h4, h5⟩
    have : ∀ k, ∃ q : SampleGraph V X R × ℤ, ∀ i ∈ I, D i = k → q = sel i := by
      intro k
      by_cases hk : ∃ i ∈ I, D i = k
      · obtain ⟨i, hi, rfl⟩ := hk
        exact ⟨sel i, fun j hj hji => by rw [hinj j hj i hi hji]⟩
      · exact ⟨(⟨∅, ∅⟩, 0), fun i hi h => absurd ⟨i, hi, h⟩ hk⟩
    choose s hs using this
    have hs' : ∀ i ∈ I, s (D i) = sel i := fun i hi => hs _ i hi rfl
    refine ⟨s, ?_, h2, ?_, ?_, ?_⟩
    · intro k hk
      obtain ⟨i, hi, rfl⟩ := Finset.mem_image.1 hk
      rw [hs' i hi]; exact h1 i hi
    · rw [h3, Finset.image_biUnion]
      exact Finset.biUnion_congr rfl fun i hi => by rw [hs' i hi]
    · rw [h4, Finset.image_biUnion]
      exact Finset.biUnion_congr rfl fun i hi => by rw [hs' i hi]
    · rw [h5, Finset.prod_image (fun i hi j hj h => hinj i hi j hj h)]
      exact Finset.prod_congr rfl fun i hi => by rw [hs' i hi]

theorem joinLoop_spec (iter : V → Option (Finset V)) (oI : Order (SampleGraph V X R × ℤ)) (oG : Order (SampleGraph V X R))
    (oN : Order (Node V X)) (oE : Order (Edge V X R)) (l : List V) (a : Samples V X R) (ha : AllGood a) :
    (∀ r, l.foldlM (Samples.joinOn iter oI oG oN oE) a = .ok r →
      AllGood r ∧ r.prov = a.prov ∧ (∀ g, (∀ v ∈ l, ¬ HasVar v g) → r.samples.get? g = a.samples.get? g)) ∧
    (∀ e, l.foldlM (Samples.joinOn iter oI oG oN oE) a = .error e → e = .typeError ∨ e = .assertion) := by
  induction l generalizing a with
  | nil =>
    constructor
    · intro r h
      have : a = r := Except.ok.inj h
      subst this
      exact ⟨ha, rfl, fun _ _ => rfl⟩
    · intro e h; exact absurd h (by simp [pure, Except.pure])
  | cons v t ih =>
    rw [List.foldlM_cons]
    cases hr : Samples.joinOn iter oI oG oN oE a v with
    | error e' =>
      constructor
      · intro r h
        exact absurd h (by simp [bind, Except.bind])
      · intro e h
        have : e' = e := by simpa [bind, Except.bind] using h
        subst this
        obtain ⟨h1, h2⟩ := joinOn_spec iter oI oG oN oE a ha v
        cases hd : (a.filterSamples fun g => v ∈ g.includedVariables).groupIntersecting iter with
        | error e'' =>
          rw [h1 _ hd, Except.error.injEq] at hr
          subst hr
          exact (C24_failures iter _).2 _ hd
        | ok d =>
          obtain ⟨r', i1, -⟩ := h2 d hd
          rw [i1] at hr
          simp at hr
    | ok b =>
      obtain ⟨g1, g2, g3, -⟩ := joinOn_good iter oI oG oN oE a ha v b hr
      obtain ⟨i1, i2⟩ := ih b g1
      constructor
      · intro r h
        obtain ⟨j1, j2, j3⟩ := i1 r h
        refine ⟨j1, j2.trans g2, fun g hg => ?_⟩
        rw [j3 g fun w hw => hg w (by simp [hw]), g3 g (hg v (by simp))]
      · intro e h
        exact i2 e h

/-! ### Properties -/

/-- **C41.** Joining on any set of variables: outcomes that contain none of the variables keep their counts; all outcomes are
again well formed with one value per variable; the only exceptions are those of the grouping. -/
theorem C41_untouched (iter : V → Option (Finset V)) (o : Orders V X R) (sp : Space V X R) (hg : AllGood sp.outcomes)
    (vs : Finset V) :
    (∀ sp', sp.joinedOnVariables iter o (some vs) = .ok sp' →
      sp'.schema = sp.schema ∧ sp'.outcomes.prov = sp.outcomes.prov ∧ sp'.evidence = none ∧ AllGood sp'.outcomes ∧
      ∀ g, (∀ v ∈ vs, ¬ HasVar v g) → sp'.outcomes.samples.get? g = sp.outcomes.samples.get? g) ∧
    (∀ e, sp.joinedOnVariables iter o (some vs) = .error e → e = .typeError ∨ e = .assertion) := by
  obtain ⟨h1, h2⟩ := joinLoop_spec iter o.items o.graphs o.nodes o.edges (o.vars.run vs) sp.outcomes hg
  unfold Space.joinedOnVariables
  simp only
  constructor
  · intro sp' h
    split at h
    · simp at h
    · rename_i acc hacc
      obtain ⟨i1, i2, i3⟩ := h1 acc hacc
      rw [Except.ok.injEq] at h
      subst h
      exact ⟨rfl, i2, rfl, i1, fun g hgv => i3 g fun v hv => hgv v ((o.vars.mem vs v).1 hv)⟩
  · intro e h
    split at h
    · rename_i e' he'
      rw [Except.error.injEq] at h
      subst h
      exact h2 _ he'
    · simp at h

/-- **C41.** Joining on no variables changes nothing (the result is always a plain relation graph). -/
theorem C41_empty (iter : V → Option (Finset V)) (o : Orders V X R) (sp : Space V X R) :
    sp.joinedOnVariables iter o (some ∅) = .ok ⟨sp.schema, sp.outcomes, none⟩ := by
  simp [Space.joinedOnVariables, pure, Except.pure]

/-- **C41.** Without argument the join is over exactly the variables that occur. -/
theorem C41_default (iter : V → Option (Finset V)) (o : Orders V X R) (sp : Space V X R) (vs : Finset V)
    (hvs : ∀ v, v ∈ vs ↔ ∃ g, sp.outcomes.Occurs g ∧ HasVar v g) :
    sp.joinedOnVariables iter o none = sp.joinedOnVariables iter o (some vs) := by
  have : (sp.includedVariables o.graphs o.nodes).image Prod.fst = vs := by
    classical
    ext v
    rw [hvs, Finset.mem_image]
    constructor
    · rintro ⟨⟨w, xs⟩, hw, rfl⟩
      exact ((C30_included_variables sp _ _ w xs).1 hw).1
    · intro hv
      refine ⟨(v, (sp.outcomes.graphs.biUnion fun g => g.nodes).filter (fun n => n.var = v) |>.image Node.val), ?_, rfl⟩
      rw [C30_included_variables]
      refine ⟨hv, fun x => ?_⟩
      simp only [Finset.mem_image, Finset.mem_filter, Finset.mem_biUnion, Samples.mem_graphs]
      constructor
      · rintro ⟨n, ⟨⟨g, hg, hn⟩, rfl⟩, rfl⟩
        exact ⟨g, hg, hn⟩
      · rintro ⟨g, hg, hn⟩
        exact ⟨⟨v, x⟩, ⟨⟨g, hg, hn⟩, rfl⟩, rfl⟩
  unfold Space.joinedOnVariables
  simp only [this]

/-- **C41.** Joining on one variable `v` returns exactly if the outcomes with `v` can be grouped, into `d` say. Then outcomes
without `v` keep their counts, and the outcomes with `v` are exactly the joins of one sample of each group whose values do not
conflict, counted by the product of the counts. -/
theorem C41_one_variable (iter : V → Option (Finset V)) (o : Orders V X R) (sp : Space V X R) (hg : AllGood sp.outcomes)
    (v : V) :
    (∀ e, (sp.outcomes.filterSamples fun g => v ∈ g.includedVariables).groupIntersecting iter = .error e →
      sp.joinedOnVariables iter o (some {v}) = .error e) ∧
    (∀ d, (sp.outcomes.filterSamples fun g => v ∈ g.includedVariables).groupIntersecting iter = .ok d →
      ∃ sp', sp.joinedOnVariables iter o (some {v}) = .ok sp' ∧
        (∀ g, ¬ HasVar v g → sp'.outcomes.samples.get? g = sp.outcomes.samples.get? g) ∧
        (∀ g c, HasVar v g → (sp'.outcomes.samples.get? g = some c ↔ IsJoin d.keys.toFinset (groupItems d) (g, c)))) := by
  obtain ⟨h1, h2⟩ := joinOn_spec iter o.items o.graphs o.nodes o.edges sp.outcomes hg v
  unfold Space.joinedOnVariables
  simp only [Order.run_singleton, List.foldlM_cons, List.foldlM_nil]
  constructor
  · intro e he
    rw [h1 e he]
    rfl
  · intro d hd
    obtain ⟨r, i1, i2, i3, i4⟩ := h2 d hd
    rw [i1]
    exact ⟨⟨sp.schema, r, none⟩, rfl, i3, i4⟩

/-- **C41**, with groups described intrinsically: if linked families of outcomes with `v` that link the same pairs have outcomes with
the same pairs in common (as when sets of linked pairs are nested or disjoint, or each has a pair of its own) then the groups are the classes of outcomes linked by chains of shared pairs. -/
theorem C41_classes (iter : V → Option (Finset V)) (o : Orders V X R) (sp : Space V X R) (hg : AllGood sp.outcomes) (v : V)
    (j : Samples V X R) (hj : j = sp.outcomes.filterSamples fun g => v ∈ g.includedVariables)
    (hp : PairsSeparate j) (F : Finset (Finset (SampleGraph V X R × ℤ)))
    (hF : ∀ f, f ∈ F ↔ ∃ p ∈ j.items, ∀ q, q ∈ f ↔ q ∈ j.items ∧ ChainLinked j p.1 q.1) (sp' : Space V X R)
    (h : sp.joinedOnVariables iter o (some {v}) = .ok sp') (g : SampleGraph V X R) (c : ℤ) :
    sp'.outcomes.samples.get? g = some c ↔
      (¬ HasVar v g ∧ sp.outcomes.samples.get? g = some c) ∨ (HasVar v g ∧ IsJoin F id (g, c)) := by
  obtain ⟨h1, h2⟩ := C41_one_variable iter o sp hg v
  rw [← hj] at h1 h2
  cases hd : j.groupIntersecting iter with
  | error e => rw [h1 e hd] at h; simp at h
  | ok d =>
    obtain ⟨r, i1, i2, i3⟩ := h2 d hd
    rw [i1, Except.ok.injEq] at h
    subst h
    have hne : ∀ g c, j.samples.get? g = some c → g.nodes.Nonempty := by
      intro g c hc
      rw [hj, filterSamples_get] at hc
      exact (hg g ⟨c, hc.1⟩).2.1
    obtain ⟨k1, k2⟩ := (C24_complete iter j hp hne).1 d hd
    obtain ⟨l1, l2, -⟩ := C24_sound iter j d hd
    have hinj : ∀ K ∈ d.keys.toFinset, ∀ K' ∈ d.keys.toFinset, groupItems d K = groupItems d K' → K = K' := by
      intro K hK K' hK' hKK
      by_contra hne'
      rw [List.mem_toFinset] at hK hK'
      obtain ⟨s, hs⟩ := (d.mem_keys K).1 hK
      obtain ⟨s', hs'⟩ := (d.mem_keys K').1 hK'
      obtain ⟨g, c, hgc⟩ := (l1 K s hs).2.1
      rw [groupItems_of hs, groupItems_of hs'] at hKK
      have : (g, c) ∈ s'.items := by rw [← hKK, Samples.mem_items]; exact hgc
      rw [Samples.mem_items] at this
      exact (l2 K s K' s' g c g c hs hs' hne' hgc this).1 rfl
    have hFd : F = d.keys.toFinset.image (groupItems d) := by
      ext f
      rw [hF, Finset.mem_image]
      constructor
      · rintro ⟨p, hp, hq⟩
        rw [Samples.mem_items] at hp
        obtain ⟨K, s, hs, hps⟩ := k1 _ _ hp
        refine ⟨K, by rw [List.mem_toFinset, Dict.mem_keys]; exact ⟨s, hs⟩, ?_⟩
        ext q
        rw [groupItems_of hs, hq, Samples.mem_items, Samples.mem_items]
        constructor
        · intro hqs
          have hqj := (l1 K s hs).2.2.1 _ _ hqs
          exact ⟨hqj, (k2 K s _ _ _ _ hs hps hqj).1 ⟨_, hqs⟩⟩
        · rintro ⟨hqj, hl⟩
          obtain ⟨c'', hc''⟩ := (k2 K s _ _ _ _ hs hps hqj).2 hl
          have := (l1 K s hs).2.2.1 _ _ hc''
          rw [hqj] at this
          rw [hc'', this]
      · rintro ⟨K, hK, rfl⟩
        obtain ⟨s, hs⟩ := (d.mem_keys K).1 (List.mem_toFinset.1 hK)
        obtain ⟨g, c, hgc⟩ := (l1 K s hs).2.1
        refine ⟨(g, c), by rw [Samples.mem_items]; exact (l1 K s hs).2.2.1 _ _ hgc, fun q => ?_⟩
        rw [groupItems_of hs, Samples.mem_items, Samples.mem_items]
        constructor
        · intro hqs
          have hqj := (l1 K s hs).2.2.1 _ _ hqs
          exact ⟨hqj, (k2 K s _ _ _ _ hs hgc hqj).1 ⟨_, hqs⟩⟩
        · rintro ⟨hqj, hl⟩
          obtain ⟨c'', hc''⟩ := (k2 K s _ _ _ _ hs hgc hqj).2 hl
          have := (l1 K s hs).2.2.1 _ _ hc''
          rw [hqj] at this
          rw [hc'', this]
    have hJ : IsJoin F id (g, c) ↔ IsJoin d.keys.toFinset (groupItems d) (g, c) := by
      rw [hFd]; exact isJoin_image _ _ _ hinj _
    rw [hJ]
    by_cases hgv : HasVar v g
    · rw [i3 g c hgv]
      exact ⟨fun h => Or.inr ⟨hgv, h⟩, fun h => h.elim (fun h => absurd hgv h.1) And.right⟩
    · rw [i2 g hgv]
      exact ⟨fun h => Or.inl ⟨hgv, h⟩, fun h => h.elim And.right (fun h => absurd h.1 hgv)⟩

theorem sameFactor_refl {g : SampleGraph V X R} (h : g.nodes.Nonempty) : SameFactor g g := by
  by_cases he : g.edges = ∅
  · obtain ⟨n, hn⟩ := h
    exact Or.inr ⟨he, he, n, hn, n, hn, rfl⟩
  · exact Or.inl ⟨he, he, fun _ => Iff.rfl⟩

theorem sharesPair_of_sameFactor {g h : SampleGraph V X R} (hs : SameFactor g h) : SharesPair g h := by
  rcases hs with ⟨h1, h2, h3⟩ | h
  · obtain ⟨e, he⟩ := Finset.nonempty_iff_ne_empty.2 h1
    obtain ⟨e', he', hee⟩ := (h3 _).1 ⟨e, he, rfl⟩
    exact Or.inl ⟨e, he, e', he', hee.symm⟩
  · exact Or.inr h

theorem sameFactor_of_sharesPair {a : Samples V X R} (hf : Factorizable a) {g h : SampleGraph V X R} (hg : a.Occurs g)
    (hh : a.Occurs h) (hs : SharesPair g h) : SameFactor g h := by
  rcases hs with ⟨e, he, e', he', hee⟩ | hs
  · exact Or.inl ⟨Finset.ne_empty_of_mem he, Finset.ne_empty_of_mem he',
      hf.pairs g h hg hh ⟨_, ⟨e, he, rfl⟩, ⟨e', he', hee.symm⟩⟩⟩
  · exact Or.inr hs

theorem sameFactor_trans {g h k : SampleGraph V X R} (hw : WellFormed h) (h1 : SameFactor g h) (h2 : SameFactor h k) :
    SameFactor g k := by
  rcases h1 with ⟨a1, a2, a3⟩ | ⟨a1, a2, n, hn, m, hm, hnm⟩
  · rcases h2 with ⟨b1, b2, b3⟩ | ⟨b1, -⟩
    · exact Or.inl ⟨a1, b2, fun P => (a3 P).trans (b3 P)⟩
    · exact absurd b1 a2
  · rcases h2 with ⟨b1, -⟩ | ⟨b1, b2, n', hn', m', hm', hnm'⟩
    · exact absurd a2 b1
    · have hc := hw.card_le_one a2
      rw [Finset.card_le_one] at hc
      exact Or.inr ⟨a1, b2, n, hn, m', hm', by rw [hnm, hc m hm n' hn', hnm']⟩

theorem sameFactor_symm {g h : SampleGraph V X R} (h1 : SameFactor g h) : SameFactor h g := by
  rcases h1 with ⟨a1, a2, a3⟩ | ⟨a1, a2, n, hn, m, hm, hnm⟩
  · exact Or.inl ⟨a2, a1, fun P => (a3 P).symm⟩
  · exact Or.inr ⟨a2, a1, m, hm, n, hn, hnm.symm⟩

/-- Outcomes of the same factor have the same variables. -/
theorem sameFactor_hasVar {g h : SampleGraph V X R} (hg : WellFormed g) (hh : WellFormed h) (h1 : SameFactor g h) {v : V}
    (hv : HasVar v g) : HasVar v h := by
  obtain ⟨n, hn, rfl⟩ := hv
  rcases h1 with ⟨a1, a2, a3⟩ | ⟨a1, a2, n', hn', m, hm, hnm⟩
  · rw [hg.nodes_eq a1, Finset.mem_biUnion] at hn
    obtain ⟨e, he, hne⟩ := hn
    obtain ⟨e', he', hee⟩ := (a3 _).1 ⟨e, he, rfl⟩
    have : n.var ∈ e'.endpoints.image Node.var := by rw [hee]; exact Finset.mem_image_of_mem _ hne
    obtain ⟨m, hm, hmv⟩ := Finset.mem_image.1 this
    exact ⟨m, hh.closed e' he' hm, hmv⟩
  · have hc := hg.card_le_one a1
    rw [Finset.card_le_one] at hc
    exact ⟨m, hm, by rw [← hnm, hc n hn n' hn']⟩

/-- **C41**, factorized outcomes: the outcomes with `v` of the result are exactly the joins of one outcome of each factor that
has `v` (factors are the classes of outcomes linking the same pairs of variables). -/
theorem C41_factorized (iter : V → Option (Finset V)) (o : Orders V X R) (sp : Space V X R) (hg : AllGood sp.outcomes) (v : V)
    (hf : Factorizable sp.outcomes) (F : Finset (Finset (SampleGraph V X R × ℤ)))
    (hF : ∀ f, f ∈ F ↔ ∃ p ∈ sp.outcomes.items, HasVar v p.1 ∧ ∀ q, q ∈ f ↔ q ∈ sp.outcomes.items ∧ SameFactor p.1 q.1)
    (sp' : Space V X R) (h : sp.joinedOnVariables iter o (some {v}) = .ok sp') (g : SampleGraph V X R) (c : ℤ) :
    sp'.outcomes.samples.get? g = some c ↔
      (¬ HasVar v g ∧ sp.outcomes.samples.get? g = some c) ∨ (HasVar v g ∧ IsJoin F id (g, c)) := by
  obtain ⟨j, hj⟩ : ∃ j, j = sp.outcomes.filterSamples fun g => decide (v ∈ g.includedVariables) := ⟨_, rfl⟩
  have hjg : ∀ g c, j.samples.get? g = some c ↔ sp.outcomes.samples.get? g = some c ∧ HasVar v g := by
    intro g c; rw [hj, filterSamples_get, decide_eq_true_eq, hasVar_iff]
  have hocc : ∀ {g}, (∃ c, j.samples.get? g = some c) → sp.outcomes.Occurs g := by
    rintro g ⟨c, hc⟩; exact ⟨c, ((hjg g c).1 hc).1⟩
  have hown : PairsOwn j := by
    intro g c hgc
    have hgo := hocc ⟨c, hgc⟩
    obtain ⟨hw, ⟨n, hn⟩, -⟩ := hg g hgo
    by_cases he : g.edges = ∅
    · refine ⟨.inl n.var, ⟨he, n, hn, rfl⟩, ?_⟩
      rintro g' c' hgc' ⟨he', m, hm, hmn⟩ y
      have hc := hw.card_le_one he
      have hc' := (hg g' (hocc ⟨c', hgc'⟩)).1.card_le_one he'
      rw [Finset.card_le_one] at hc hc'
      cases y with
      | inr P => simp [Links, he, he']
      | inl w =>
        constructor
        · rintro ⟨-, m', hm', rfl⟩
          exact ⟨he, n, hn, by rw [← hmn, hc' m' hm' m hm]⟩
        · rintro ⟨-, n', hn', rfl⟩
          exact ⟨he', m, hm, by rw [hmn, hc n' hn' n hn]⟩
    · obtain ⟨e, hee⟩ := Finset.nonempty_iff_ne_empty.2 he
      refine ⟨.inr (e.endpoints.image Node.var), ⟨e, hee, rfl⟩, ?_⟩
      rintro g' c' hgc' ⟨e', he', hee'⟩ y
      have hiff := hf.pairs g' g (hocc ⟨c', hgc'⟩) hgo ⟨_, ⟨e', he', hee'⟩, ⟨e, hee, rfl⟩⟩
      cases y with
      | inr P => exact hiff P
      | inl w =>
        constructor
        · rintro ⟨h0, -⟩; rw [h0] at he'; simp at he'
        · rintro ⟨h0, -⟩; exact absurd h0 he
  have hchain : ∀ p q, (∃ c, j.samples.get? p = some c) → (∃ c, j.samples.get? q = some c) →
      (ChainLinked j p q ↔ SameFactor p q) := by
    intro p q hp hq
    constructor
    · intro hl
      clear hq
      induction hl with
      | refl => exact sameFactor_refl (hg p (hocc hp)).2.1
      | tail _ hstep ih =>
        obtain ⟨s1, s2, s3⟩ := hstep
        exact sameFactor_trans (hg _ (hocc s1)).1 ih (sameFactor_of_sharesPair hf (hocc s1) (hocc s2) s3)
    · intro hs
      exact Relation.ReflTransGen.single ⟨hp, hq, sharesPair_of_sameFactor hs⟩
  refine C41_classes iter o sp hg v j hj (C24_own hown) F ?_ sp' h g c
  intro f
  rw [hF]
  constructor
  · rintro ⟨p, hp, hpv, hq⟩
    rw [Samples.mem_items] at hp
    have hpj : j.samples.get? p.1 = some p.2 := (hjg _ _).2 ⟨hp, hpv⟩
    refine ⟨p, by rw [Samples.mem_items]; exact hpj, fun q => ?_⟩
    rw [hq, Samples.mem_items, Samples.mem_items]
    constructor
    · rintro ⟨hqo, hs⟩
      have hqj : j.samples.get? q.1 = some q.2 :=
        (hjg _ _).2 ⟨hqo, sameFactor_hasVar (hg _ ⟨_, hp⟩).1 (hg _ ⟨_, hqo⟩).1 hs hpv⟩
      exact ⟨hqj, (hchain _ _ ⟨_, hpj⟩ ⟨_, hqj⟩).2 hs⟩
    · rintro ⟨hqj, hs⟩
      exact ⟨((hjg _ _).1 hqj).1, (hchain _ _ ⟨_, hpj⟩ ⟨_, hqj⟩).1 hs⟩
  · rintro ⟨p, hp, hq⟩
    rw [Samples.mem_items] at hp
    obtain ⟨hpo, hpv⟩ := (hjg _ _).1 hp
    refine ⟨p, by rw [Samples.mem_items]; exact hpo, hpv, fun q => ?_⟩
    rw [hq, Samples.mem_items, Samples.mem_items]
    constructor
    · rintro ⟨hqj, hs⟩
      exact ⟨((hjg _ _).1 hqj).1, (hchain _ _ ⟨_, hp⟩ ⟨_, hqj⟩).1 hs⟩
    · rintro ⟨hqo, hs⟩
      have hqj : j.samples.get? q.1 = some q.2 :=
        (hjg _ _).2 ⟨hqo, sameFactor_hasVar (hg _ ⟨_, hpo⟩).1 (hg _ ⟨_, hqo⟩).1 hs hpv⟩
      exact ⟨hqj, (hchain _ _ ⟨_, hp⟩ ⟨_, hqj⟩).2 hs⟩

/-! ### Non-vacuity -/

/-- `0=0 - 1=0` twice, `0=1 - 1=0` once, `0=0 - 2=0` three times. -/
def chainSpace : Space ℕ ℕ ℕ :=
  ⟨⟨⟨[(0, {0, 1}), (1, {0}), (2, {0, 1})], by decide⟩, {0}⟩,
   ⟨0, ⟨[(oneEdge ⟨0, 0⟩ ⟨1, 0⟩, 2), (oneEdge ⟨0, 1⟩ ⟨1, 0⟩, 1), (oneEdge ⟨0, 0⟩ ⟨2, 0⟩, 3)], by decide⟩⟩, none⟩

theorem chainSpace_occurs (g : SampleGraph ℕ ℕ ℕ) : chainSpace.outcomes.Occurs g ↔
    g = oneEdge ⟨0, 0⟩ ⟨1, 0⟩ ∨ g = oneEdge ⟨0, 1⟩ ⟨1, 0⟩ ∨ g = oneEdge ⟨0, 0⟩ ⟨2, 0⟩ := by
  unfold Samples.Occurs
  simp only [← Dict.mem_entries]
  simp only [chainSpace, List.mem_cons, Prod.mk.injEq, List.not_mem_nil, or_false]
  constructor
  · rintro ⟨c, ⟨h, -⟩ | ⟨h, -⟩ | ⟨h, -⟩⟩ <;> simp [h]
  · rintro (h | h | h)
    · exact ⟨2, Or.inl ⟨h, rfl⟩⟩
    · exact ⟨1, Or.inr (Or.inl ⟨h, rfl⟩)⟩
    · exact ⟨3, Or.inr (Or.inr ⟨h, rfl⟩)⟩

theorem oneEdge_single (a b : Node ℕ ℕ) (h : a.var ≠ b.var) : SingleValued (oneEdge a b).nodes := by
  intro x hx y hy hxy
  simp only [oneEdge, Finset.mem_insert, Finset.mem_singleton] at hx hy
  rcases hx with rfl | rfl <;> rcases hy with rfl | rfl
  · rfl
  · exact absurd hxy h
  · exact absurd hxy.symm h
  · rfl

theorem chainSpace_good : AllGood chainSpace.outcomes := by
  intro g hg
  rw [chainSpace_occurs] at hg
  rcases hg with rfl | rfl | rfl <;>
    exact ⟨oneEdge_wf _ _ (by decide), by simp [oneEdge], oneEdge_single _ _ (by decide)⟩

theorem chainSpace_factorizable : Factorizable chainSpace.outcomes := by
  have hl : ∀ a b P, LinksPair (oneEdge a b) P ↔ {a.var, b.var} = P := by
    intro a b P
    simp [LinksPair, oneEdge]
  refine ⟨?_, ?_⟩
  · intro g hg
    rw [chainSpace_occurs] at hg
    rcases hg with rfl | rfl | rfl <;> simp [oneEdge]
  · intro g h hg hh
    rw [chainSpace_occurs] at hg hh
    rcases hg with rfl | rfl | rfl <;> rcases hh with rfl | rfl | rfl <;> simp only [hl] <;>
      first | (intros; trivial) | (rintro ⟨P, rfl, h⟩; exact absurd h (by decide))

/-- Non-vacuity of C41: the outcomes with variable 0 can be grouped and the join on 0 returns. -/
example : (∀ e, (chainSpace.outcomes.filterSamples fun g => 0 ∈ g.includedVariables).groupIntersecting (fun _ => none) ≠ .error e) ∧
    ∀ o, ∃ sp', chainSpace.joinedOnVariables (fun _ => none) o (some {0}) = .ok sp' ∧ AllGood sp'.outcomes := by
  have hr : (match (chainSpace.outcomes.filterSamples fun g => 0 ∈ g.includedVariables).groupIntersecting (fun _ => none) with
      | .ok _ => true | .error _ => false) = true := by decide +kernel
  have hne : ∀ e, (chainSpace.outcomes.filterSamples fun g => 0 ∈ g.includedVariables).groupIntersecting (fun _ => none) ≠ .error e := by
    intro e he
    rw [he] at hr
    simp at hr
  refine ⟨hne, fun o => ?_⟩
  cases hd : (chainSpace.outcomes.filterSamples fun g => 0 ∈ g.includedVariables).groupIntersecting (fun _ => none) with
  | error e => exact absurd hd (hne e)
  | ok d =>
    obtain ⟨sp', h1, -⟩ := (C41_one_variable (fun _ => none) o chainSpace chainSpace_good 0).2 d hd
    exact ⟨sp', h1, ((C41_untouched _ o chainSpace chainSpace_good _).1 sp' h1).2.2.2.1⟩

/-- `1=0 - 0=0 - 2=0`. -/
def starGraph : SampleGraph ℕ ℕ ℕ := ⟨{⟨0, 0⟩, ⟨1, 0⟩, ⟨2, 0⟩}, {⟨{⟨0, 0⟩, ⟨1, 0⟩}, .plain 0⟩, ⟨{⟨0, 0⟩, ⟨2, 0⟩}, .plain 0⟩}⟩

/-- Iteration orders for `chainSpace`. -/
noncomputable def chainOrders : Orders ℕ ℕ ℕ where
  items := .ofList (chainSpace.outcomes.samples.entries ++ [(starGraph, 6)])
  graphs := .ofList (chainSpace.outcomes.samples.keys ++ [starGraph])
  nodes := .ofList [⟨0, 0⟩, ⟨0, 1⟩, ⟨1, 0⟩, ⟨2, 0⟩]
  edges := .ofList [⟨{⟨0, 0⟩, ⟨1, 0⟩}, .plain 0⟩, ⟨{⟨0, 0⟩, ⟨2, 0⟩}, .plain 0⟩, ⟨{⟨0, 1⟩, ⟨1, 0⟩}, .plain 0⟩]
  vars := .ofList [0, 1, 2]
  vals := .ofList [0, 1]
  incl := default
  factors := default

/-- The join of `chainSpace` on 0: `1=0 - 0=0 - 2=0` six times (`0=1 - 1=0` has no partner). -/
example : (match chainSpace.joinedOnVariables (fun _ => none) chainOrders (some {0}) with
    | .ok sp => decide (sp.outcomes.samples.entries = [(starGraph, 6)])
    | .error _ => false) = true := by decide +kernel

end Verif
