import Verif.Lemmas.FieldsElim

/-!
# Elimination when some variables have one value only

The sets are restricted to the variables `T` with two values or more; they have to form a forest.
-/

namespace Verif

variable {V : Type} [DecidableEq V]

/-- The sets restricted to `T`. -/
def restrictL (T : Finset V) (L : List (Finset V)) : List (Finset V) := L.map (· ∩ T)

theorem unionL_restrict (T : Finset V) (L : List (Finset V)) : unionL (restrictL T L) = unionL L ∩ T := by
  ext w
  simp only [restrictL, mem_unionL, List.mem_map, Finset.mem_inter]
  constructor
  · rintro ⟨_, ⟨s, hs, rfl⟩, hw⟩
    exact ⟨⟨s, hs, (Finset.mem_inter.1 hw).1⟩, (Finset.mem_inter.1 hw).2⟩
  · rintro ⟨⟨s, hs, hw⟩, hT⟩
    exact ⟨_, ⟨s, hs, rfl⟩, Finset.mem_inter.2 ⟨hw, hT⟩⟩

theorem countP_restrict {T : Finset V} {w : V} (hw : w ∈ T) (L : List (Finset V)) : (restrictL T L).countP (w ∈ ·) = L.countP (w ∈ ·) := by
  rw [restrictL, List.countP_map]
  refine List.countP_congr fun s _ => ?_
  simp [hw]

theorem filter_restrict {T : Finset V} {v : V} (hv : v ∈ T) (L : List (Finset V)) :
    (restrictL T L).filter (v ∈ ·) = restrictL T (L.filter (v ∈ ·)) ∧ (restrictL T L).filter (v ∉ ·) = restrictL T (L.filter (v ∉ ·)) := by
  unfold restrictL
  rw [List.filter_map, List.filter_map]
  refine ⟨?_, ?_⟩ <;> (congr 1; refine List.filter_congr fun s _ => ?_; simp [hv])

theorem countP_le_of_le {A B : List (Finset V)} (h : (A : Multiset (Finset V)) ≤ (B : Multiset (Finset V))) (p : Finset V → Bool) : A.countP p ≤ B.countP p := by
  have := Multiset.countP_le_of_le (fun s => p s = true) h
  simpa using this

/-- Sets without common elements form a forest. -/
theorem forest_of_disjoint {L : List (Finset V)} (h : ∀ w, L.countP (w ∈ ·) ≤ 1) : ForestL L := by
  intro A hA hne
  have h1 : sizeL A ≤ (unionL A).card := by
    rw [sizeL_eq_sum A _ (Finset.Subset.refl _), Finset.card_eq_sum_ones]
    exact Finset.sum_le_sum fun w _ => (countP_le_of_le hA _).trans (h w)
  have := List.length_pos_iff.2 hne
  omega

theorem countP_merge_le (L : List (Finset V)) (v w : V) : (unionL (L.filter (v ∈ ·)) :: L.filter (v ∉ ·)).countP (w ∈ ·) ≤ L.countP (w ∈ ·) := by
  rw [countP_split L v w, List.countP_cons]
  by_cases hw : w ∈ unionL (L.filter (v ∈ ·))
  · obtain ⟨s, hs, hws⟩ := (mem_unionL _ _).1 hw
    have h0 : 0 < (L.filter (v ∈ ·)).countP (w ∈ ·) := List.countP_pos_iff.2 ⟨s, hs, by simpa using hws⟩
    rw [if_pos (by simpa using hw)]
    omega
  · rw [if_neg (by simpa using hw)]
    omega

theorem countP_merge_self (L : List (Finset V)) (v : V) : (unionL (L.filter (v ∈ ·)) :: L.filter (v ∉ ·)).countP (v ∈ ·) ≤ 1 := by
  rw [List.countP_cons]
  have : (L.filter (v ∉ ·)).countP (v ∈ ·) = 0 := by
    rw [List.countP_eq_zero]
    intro s hs
    simpa using (List.mem_filter.1 hs).2
  rw [this]
  split <;> omega

theorem connected_merge {L : List (Finset V)} (hconn : ConnectedL L) {v : V} {s₀ : Finset V} (hs₀ : s₀ ∈ L) (hvs₀ : v ∈ s₀) :
    ConnectedL (unionL (L.filter (v ∈ ·)) :: L.filter (v ∉ ·)) := by
  intro P hP hex
  have hA : ∀ s ∈ L, v ∈ s → s ⊆ unionL (L.filter (v ∈ ·)) := fun s hs hv w hw =>
    (mem_unionL _ _).2 ⟨s, List.mem_filter.2 ⟨hs, by simpa using hv⟩, hw⟩
  have hall := hconn P (by
    intro s hs
    by_cases hv : v ∈ s
    · rcases hP _ List.mem_cons_self with h | h
      · exact Or.inl ((hA s hs hv).trans h)
      · exact Or.inr (h.mono_left (hA s hs hv))
    · exact hP s (List.mem_cons_of_mem _ (List.mem_filter.2 ⟨hs, by simpa using hv⟩))) (by
    obtain ⟨s, hs, hsP⟩ := hex
    rcases List.mem_cons.1 hs with rfl | hs
    · exact ⟨s₀, hs₀, (hA s₀ hs₀ hvs₀).trans hsP⟩
    · exact ⟨s, (List.mem_filter.1 hs).1, hsP⟩)
  intro s hs
  rcases List.mem_cons.1 hs with rfl | hs
  · intro w hw
    obtain ⟨s, hs, hws⟩ := (mem_unionL _ _).1 hw
    exact hall s (List.mem_filter.1 hs).1 hws
  · exact hall s (List.mem_filter.1 hs).1

/-- If the sets restricted to `T` form a forest, the elimination of the variables of `T` first and the others then succeeds. -/
theorem elimOk_cutset (T : Finset V) (vs : List V) : ∀ L : List (Finset V), ForestL (restrictL T L) → ConnectedL L → (∀ s ∈ L, s.Nonempty) →
    (∀ v ∈ vs, ∃ s ∈ L, v ∈ s) → (∀ w, w ∈ vs ∨ L.countP (w ∈ ·) ≤ 1) → vs.Pairwise (fun a b => b ∈ T → a ∈ T) → elimOk T vs L = true := by
  induction vs with
  | nil =>
    intro L _ hconn hne hvs hrest _
    have h1 : ∀ w, L.countP (w ∈ ·) ≤ 1 := fun w => (hrest w).resolve_left (by simp)
    exact elimOk_two T [] L (fun w => (h1 w).trans (by omega)) hconn hne hvs hrest
  | cons v vs ih =>
    intro L hfor hconn hne hvs hrest hpw
    obtain ⟨s₀, hs₀, hvs₀⟩ := hvs v (by simp)
    obtain ⟨hpv, hpw⟩ := List.pairwise_cons.1 hpw
    have hnot : v ∉ T → ∀ w ∈ T, L.countP (w ∈ ·) ≤ 1 := by
      intro hv w hw
      refine (hrest w).resolve_left fun h => ?_
      rcases List.mem_cons.1 h with rfl | h
      · exact hv hw
      · exact hv (hpv w h hw)
    rw [elimOk, Bool.and_eq_true]
    refine ⟨?_, ?_⟩
    · rw [decide_eq_true_eq]
      intro w hw
      by_cases hv : v ∈ T
      · have := forest_no_clash hfor v w
        rw [(filter_restrict hv L).1, countP_restrict hw] at this
        simpa [restrictL] using this
      · rintro ⟨h, -⟩
        have h1 := hnot hv w hw
        rw [countP_split L v w] at h1
        omega
    · show elimOk T vs (unionL (L.filter (v ∈ ·)) :: L.filter (v ∉ ·)) = true
      refine ih _ ?_ (connected_merge hconn hs₀ hvs₀) ?_ ?_ ?_ hpw
      · by_cases hv : v ∈ T
        · have := (forest_merge hfor v ⟨s₀ ∩ T, List.mem_map.2 ⟨s₀, hs₀, rfl⟩, Finset.mem_inter.2 ⟨hvs₀, hv⟩⟩).1
          rw [(filter_restrict hv L).1, (filter_restrict hv L).2, unionL_restrict] at this
          exact this
        · refine forest_of_disjoint fun w => ?_
          by_cases hw : w ∈ T
          · rw [countP_restrict hw]
            exact (countP_merge_le L v w).trans (hnot hv w hw)
          · have : (restrictL T (unionL (L.filter (v ∈ ·)) :: L.filter (v ∉ ·))).countP (w ∈ ·) = 0 := by
              rw [List.countP_eq_zero]
              intro s hs
              obtain ⟨t, -, rfl⟩ := List.mem_map.1 hs
              simp [hw]
            omega
      · intro s hs
        rcases List.mem_cons.1 hs with rfl | hs
        · exact ⟨v, (mem_unionL _ _).2 ⟨s₀, List.mem_filter.2 ⟨hs₀, by simpa using hvs₀⟩, hvs₀⟩⟩
        · exact hne s (List.mem_filter.1 hs).1
      · intro w hw
        obtain ⟨s, hs, hws⟩ := hvs w (by simp [hw])
        by_cases hv : v ∈ s
        · exact ⟨_, List.mem_cons_self, (mem_unionL _ _).2 ⟨s, List.mem_filter.2 ⟨hs, by simpa using hv⟩, hws⟩⟩
        · exact ⟨s, List.mem_cons_of_mem _ (List.mem_filter.2 ⟨hs, by simpa using hv⟩), hws⟩
      · intro w
        by_cases e : w = v
        · exact Or.inr (e ▸ countP_merge_self L v)
        · rcases hrest w with h | h
          · exact Or.inl ((List.mem_cons.1 h).resolve_left e)
          · exact Or.inr ((countP_merge_le L v w).trans h)

/-- Replacing some sets of a forest by sets with this union that form a forest among themselves and meet in at most one element. -/
theorem forest_unmerge {A B : List (Finset V)} (hfor : ForestL (unionL A :: B)) (hA : ∀ C : List (Finset V), (C : Multiset (Finset V)) ≤ (A : Multiset (Finset V)) →
    C ≠ [] → sizeL C + 1 ≤ (unionL C).card + C.length) : ForestL (A ++ B) := by
  intro S hS hne
  rw [← Multiset.coe_add] at hS
  -- the part from `A` and the part from `B`
  obtain ⟨C, D, hC, hD, hCD⟩ : ∃ C D : List (Finset V), (C : Multiset (Finset V)) ≤ A ∧ (D : Multiset (Finset V)) ≤ B ∧ S.Perm (C ++ D) := by
    let m : Multiset (Finset V) := (S : Multiset (Finset V)) ⊓ A
    obtain ⟨C, hC⟩ := Quot.exists_rep m
    obtain ⟨D, hD⟩ := Quot.exists_rep ((S : Multiset (Finset V)) - (A : Multiset (Finset V)))
    have hC' : (C : Multiset (Finset V)) = m := hC
    have hD' : (D : Multiset (Finset V)) = (S : Multiset (Finset V)) - (A : Multiset (Finset V)) := hD
    refine ⟨C, D, ?_, ?_, ?_⟩
    · rw [hC']; exact inf_le_right
    · rw [hD']; exact tsub_le_iff_left.2 hS
    · rw [← Multiset.coe_eq_coe, ← Multiset.coe_add, hC', hD']
      ext s
      simp only [m, Multiset.count_add, Multiset.count_inter, Multiset.count_sub, Multiset.inf_eq_inter]
      omega
  have e1 : sizeL S = sizeL C + sizeL D := by
    have := (hCD.map Finset.card).sum_eq
    rw [List.map_append, List.sum_append] at this
    exact this
  have e2 : unionL S = unionL C ∪ unionL D := by rw [unionL_perm hCD, unionL_append]
  have e3 : S.length = C.length + D.length := by rw [hCD.length_eq, List.length_append]
  rw [e1, e2, e3]
  by_cases hCn : C = []
  · subst hCn
    have hDn : D ≠ [] := by rintro rfl; exact hne (by simpa using hCD)
    have := hfor D (hD.trans (Multiset.le_cons_self _ _)) hDn
    have h0 : unionL ([] : List (Finset V)) = ∅ := rfl
    rw [h0, Finset.empty_union]
    simp only [sizeL, List.map_nil, List.sum_nil, List.length_nil, zero_add] at this ⊢
    exact this
  have h1 := hA C hC hCn
  have h2 := hfor (unionL A :: D) (by rw [← Multiset.cons_coe, ← Multiset.cons_coe]; exact (Multiset.cons_le_cons_iff _).2 hD) (by simp)
  have hun : unionL (unionL A :: D) = unionL A ∪ unionL D := rfl
  rw [hun] at h2
  simp only [sizeL, List.map_cons, List.sum_cons, List.length_cons] at h1 h2 ⊢
  have hsub : unionL C ⊆ unionL A := by
    intro w hw
    obtain ⟨s, hs, hws⟩ := (mem_unionL _ _).1 hw
    exact (mem_unionL _ _).2 ⟨s, Multiset.mem_of_le hC hs, hws⟩
  have c1 := Finset.card_union_add_card_inter (unionL A) (unionL D)
  have c2 := Finset.card_union_add_card_inter (unionL C) (unionL D)
  have c3 : (unionL C ∩ unionL D).card ≤ (unionL A ∩ unionL D).card := Finset.card_le_card (Finset.inter_subset_inter_right hsub)
  omega

/-- If each variable has a set of its own, an elimination that succeeds shows that the restricted sets form a forest. -/
theorem forest_of_elimOk (T : Finset V) (vs : List V) : ∀ L : List (Finset V), vs.Nodup → elimOk T vs L = true → (∀ v ∈ vs, {v} ∈ L) → ForestL (restrictL T L) := by
  induction vs with
  | nil =>
    intro L _ h _
    rw [elimOk, decide_eq_true_eq] at h
    intro A hA hne
    have hl : A.length ≤ 1 := by
      have := Multiset.card_le_card hA
      simp only [Multiset.coe_card, restrictL, List.length_map] at this
      omega
    match A, hl with
    | [s], _ => simp [sizeL, unionL]
  | cons v vs ih =>
    intro L hnd h hown
    rw [elimOk, Bool.and_eq_true, decide_eq_true_eq] at h
    obtain ⟨h1, h2⟩ := h
    set A := L.filter (v ∈ ·) with hA
    have hvA : {v} ∈ A := by rw [hA, List.mem_filter]; exact ⟨hown v (by simp), by simp⟩
    have hAv : ∀ s ∈ A, v ∈ s := fun s hs => by simpa using (List.mem_filter.1 hs).2
    have hone : ∀ w ∈ T, w ≠ v → A.countP (w ∈ ·) ≤ 1 := by
      intro w hw hwv
      by_contra hlt
      push Not at hlt
      refine h1 w hw ⟨hlt, lt_of_le_of_ne List.countP_le_length fun he => ?_⟩
      rw [List.countP_eq_length] at he
      have := he {v} hvA
      simp only [Finset.mem_singleton, decide_eq_true_eq] at this
      exact hwv this
    have hone' : ∀ w, w ≠ v → (restrictL T A).countP (w ∈ ·) ≤ 1 := by
      intro w hwv
      by_cases hw : w ∈ T
      · rw [countP_restrict hw]; exact hone w hw hwv
      · have : (restrictL T A).countP (w ∈ ·) = 0 := by
          rw [List.countP_eq_zero]
          intro s hs
          obtain ⟨t, -, rfl⟩ := List.mem_map.1 hs
          simp [hw]
        omega
    have hi := ih (unionL A :: L.filter (v ∉ ·)) (List.nodup_cons.1 hnd).2 h2 (by
      intro u hu
      refine List.mem_cons_of_mem _ (List.mem_filter.2 ⟨hown u (by simp [hu]), ?_⟩)
      have : v ≠ u := by rintro rfl; exact (List.nodup_cons.1 hnd).1 hu
      simpa using this)
    have hi' : ForestL (unionL (restrictL T A) :: restrictL T (L.filter (v ∉ ·))) := by
      rw [unionL_restrict]; exact hi
    have := forest_unmerge hi' (by
      intro C hC hne
      have hcount : ∀ w, w ≠ v → C.countP (w ∈ ·) ≤ 1 := fun w hw => (countP_le_of_le hC _).trans (hone' w hw)
      by_cases hv : v ∈ T
      · have hCv : ∀ s ∈ C, v ∈ s := by
          intro s hs
          have hs' : s ∈ restrictL T A := Multiset.mem_of_le hC hs
          obtain ⟨t, ht, rfl⟩ := List.mem_map.1 hs'
          exact Finset.mem_inter.2 ⟨hAv t ht, hv⟩
        exact (star_card_eq C v hCv hne hcount).symm.le
      · refine forest_of_disjoint (L := C) (fun w => ?_) C le_rfl hne
        by_cases hw : w = v
        · have : C.countP (w ∈ ·) = 0 := by
            rw [List.countP_eq_zero]
            intro s hs
            have hs' : s ∈ restrictL T A := Multiset.mem_of_le hC hs
            obtain ⟨t, -, rfl⟩ := List.mem_map.1 hs'
            simp [hw, hv]
          omega
        · exact hcount w hw)
    intro S hS hne
    refine this S (hS.trans (le_of_eq ?_)) hne
    rw [restrictL, restrictL, restrictL, ← List.map_append, ← Multiset.map_coe, ← Multiset.map_coe, hA]
    congr 1
    exact (filter_split L v).symm

/-- A forest of pairs, seen from its pairs inside `T`. -/
theorem forest_restrict_of_acyclic {T : Finset V} {L : List (Finset V)} (hpair : ∀ s ∈ L, ∃ a b, s = {a, b}) (hnd : L.Nodup)
    (hac : (pairGraph (L.filter (· ⊆ T))).IsAcyclic) : ForestL (restrictL T L) := by
  have hfor := forest_of_acyclic (L := L.filter (· ⊆ T)) (fun s hs => hpair s (List.mem_filter.1 hs).1) (hnd.filter _) hac
  have hle : (((restrictL T L).filter (2 ≤ Finset.card ·) : List (Finset V)) : Multiset (Finset V)) ≤ (L.filter (· ⊆ T) : List (Finset V)) := by
    clear hfor hac hnd
    induction L with
    | nil => simp [restrictL]
    | cons s t ih =>
      have ih := ih fun s hs => hpair s (List.mem_cons_of_mem _ hs)
      simp only [restrictL, List.map_cons, List.filter_cons] at ih ⊢
      by_cases hs : s ⊆ T
      · rw [Finset.inter_eq_left.2 hs]
        simp only [hs, decide_true, if_true]
        split
        · rw [← Multiset.cons_coe, ← Multiset.cons_coe]; exact (Multiset.cons_le_cons_iff _).2 ih
        · exact ih.trans (by rw [← Multiset.cons_coe]; exact Multiset.le_cons_self _ _)
      · have hlt : ¬ 2 ≤ (s ∩ T).card := by
          simp only [not_le]
          obtain ⟨a, b, rfl⟩ := hpair s (by simp)
          have hlt : ({a, b} ∩ T : Finset V).card < ({a, b} : Finset V).card :=
            Finset.card_lt_card ⟨Finset.inter_subset_left, fun h => hs fun x hx => (Finset.mem_inter.1 (h hx)).2⟩
          have := Finset.card_le_two (a := a) (b := b)
          omega
        simp only [hs, hlt, decide_false, Bool.false_eq_true, if_false]
        exact ih
  intro A hA hne
  have hsplit : A.Perm (A.filter (2 ≤ Finset.card ·) ++ A.filter (¬ 2 ≤ Finset.card ·)) := by
    have := Multiset.filter_add_not (fun s : Finset V => 2 ≤ s.card) (A : Multiset (Finset V))
    rw [Multiset.filter_coe, Multiset.filter_coe, Multiset.coe_add] at this
    exact (Multiset.coe_eq_coe.1 this).symm
  set B := A.filter (2 ≤ Finset.card ·) with hB
  set C := A.filter (¬ 2 ≤ Finset.card ·) with hC
  have e1 : sizeL A = sizeL B + sizeL C := by
    have := (hsplit.map Finset.card).sum_eq
    rw [List.map_append, List.sum_append] at this
    exact this
  have e2 : (unionL B).card ≤ (unionL A).card := by
    rw [unionL_perm hsplit, unionL_append]; exact Finset.card_le_card Finset.subset_union_left
  have e3 : A.length = B.length + C.length := by rw [hsplit.length_eq, List.length_append]
  have hBle : (B : Multiset (Finset V)) ≤ (L.filter (· ⊆ T) : List (Finset V)) := by
    refine le_trans ?_ hle
    rw [hB]
    have := Multiset.filter_le_filter (fun s : Finset V => 2 ≤ s.card) hA
    rw [Multiset.filter_coe, Multiset.filter_coe] at this
    exact this
  have hCsz : sizeL C ≤ C.length := by
    rw [sizeL]
    have : ∀ n ∈ C.map Finset.card, n ≤ 1 := by
      intro n hn
      obtain ⟨s, hs, rfl⟩ := List.mem_map.1 hn
      have := (List.mem_filter.1 hs).2
      simp only [not_le, decide_eq_true_eq] at this
      omega
    have := List.sum_le_card_nsmul _ _ this
    simpa using this
  by_cases hBn : B = []
  · have hsz : sizeL A ≤ A.length := by
      rw [e1, hBn, e3, hBn]; simp only [sizeL, List.map_nil, List.sum_nil, List.length_nil] at hCsz ⊢; omega
    have hA1 := List.length_pos_iff.2 hne
    by_cases hu : unionL A = ∅
    · have : sizeL A = 0 := by
        rw [sizeL_eq_sum A ∅ (by rw [hu])]; simp
      omega
    · have := Finset.card_pos.2 (Finset.nonempty_iff_ne_empty.2 hu)
      omega
  · have := hfor B hBle hBn
    omega

/-- A forest of pairs has no cycle inside `T`. -/
theorem acyclic_of_forest_restrict {T : Finset V} {L : List (Finset V)} (hfor : ForestL (restrictL T L)) (v : V) (w : (pairGraph L).Walk v v) (hw : w.IsCycle)
    (hT : ∀ u ∈ w.support, u ∈ T) : False := by
  have hedge : ∀ e ∈ w.edges, e.toFinset ∈ L ∧ e.toFinset ⊆ T ∧ e.toFinset.card = 2 ∧ e.toFinset ⊆ w.support.tail.toFinset := by
    intro e he
    induction e using Sym2.ind with
    | _ a b =>
      have hadj : (pairGraph L).Adj a b := w.adj_of_mem_edges he
      have ha := w.fst_mem_support_of_mem_edges he
      have hb := w.snd_mem_support_of_mem_edges he
      have hs : (s(a, b) : Sym2 V).toFinset = {a, b} := by ext x; simp
      rw [hs]
      have htail : ∀ u ∈ w.support, u ∈ w.support.tail := by
        intro u hu
        rw [SimpleGraph.Walk.mem_support_iff] at hu
        rcases hu with rfl | hu
        · exact SimpleGraph.Walk.end_mem_tail_support hw.not_nil
        · exact hu
      refine ⟨hadj.2, ?_, Finset.card_pair hadj.1, ?_⟩
      · intro x hx
        simp only [Finset.mem_insert, Finset.mem_singleton] at hx
        rcases hx with rfl | rfl
        · exact hT _ ha
        · exact hT _ hb
      · intro x hx
        simp only [Finset.mem_insert, Finset.mem_singleton] at hx
        rw [List.mem_toFinset]
        rcases hx with rfl | rfl
        · exact htail _ ha
        · exact htail _ hb
  set A := w.edges.map Sym2.toFinset with hA
  have hAnd : A.Nodup := by
    refine List.Nodup.map_on ?_ hw.edges_nodup
    intro x _ y _ hxy
    ext z
    rw [← Sym2.mem_toFinset, hxy, Sym2.mem_toFinset]
  have hmem : ∀ s ∈ A, s ∈ restrictL T L := by
    intro s hs
    obtain ⟨e, he, rfl⟩ := List.mem_map.1 hs
    obtain ⟨h1, h2, -⟩ := hedge e he
    exact List.mem_map.2 ⟨_, h1, Finset.inter_eq_left.2 h2⟩
  have hle : (A : Multiset (Finset V)) ≤ (restrictL T L : List (Finset V)) := (Multiset.le_iff_subset (Multiset.coe_nodup.2 hAnd)).2 fun s hs => hmem s hs
  have hlen : A.length = w.length := by rw [hA, List.length_map, SimpleGraph.Walk.length_edges]
  have hpos : 0 < w.length := by
    have := hw.three_le_length
    omega
  have hsz : sizeL A = 2 * A.length := by
    have hall : ∀ s ∈ A, s.card = 2 := by
      intro s hs
      obtain ⟨e, he, rfl⟩ := List.mem_map.1 hs
      exact (hedge e he).2.2.1
    rw [sizeL]
    clear_value A
    clear hA hAnd hmem hle hlen
    induction A with
    | nil => rfl
    | cons s t ih =>
      rw [List.map_cons, List.sum_cons, ih fun s hs => hall s (by simp [hs]), hall s (by simp), List.length_cons]
      omega
  have hun : (unionL A).card ≤ w.length := by
    have hsub : unionL A ⊆ w.support.tail.toFinset := by
      intro x hx
      obtain ⟨s, hs, hxs⟩ := (mem_unionL _ _).1 hx
      obtain ⟨e, he, rfl⟩ := List.mem_map.1 hs
      exact (hedge e he).2.2.2 hxs
    refine (Finset.card_le_card hsub).trans ((List.toFinset_card_le _).trans ?_)
    rw [List.length_tail, SimpleGraph.Walk.length_support]
    omega
  have := hfor A hle (by rw [← List.length_pos_iff]; omega)
  omega

end Verif
