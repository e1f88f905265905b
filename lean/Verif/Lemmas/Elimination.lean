import Verif.Props.MakeJoined

/-!
# When the elimination of variables succeeds: trees, cliques, disconnected sets
-/

set_option linter.unusedSectionVars false

namespace Verif

variable {V X R : Type} [DecidableEq V] [DecidableEq X] [DecidableEq R]

/-- The sets of variables form a tree: each next set has exactly one variable in common with the ones before. -/
inductive TreeShape : List (Finset V) → Prop
  | one (s : Finset V) : s.Nonempty → TreeShape [s]
  | add (s : Finset V) (L : List (Finset V)) : TreeShape L → (s ∩ L.foldr (· ∪ ·) ∅).card = 1 → TreeShape (s :: L)
  | perm (L L' : List (Finset V)) : TreeShape L → L.Perm L' → TreeShape L'

/-- The union of the sets of a list. -/
abbrev unionL (A : List (Finset V)) : Finset V := A.foldr (· ∪ ·) ∅

theorem mem_unionL (A : List (Finset V)) (w : V) : w ∈ unionL A ↔ ∃ s ∈ A, w ∈ s := mem_foldr_union A w

theorem unionL_perm {A B : List (Finset V)} (h : A.Perm B) : unionL A = unionL B := by
  ext w; rw [mem_unionL, mem_unionL]; simp only [h.mem_iff]

theorem unionL_append (A B : List (Finset V)) : unionL (A ++ B) = unionL A ∪ unionL B := by
  ext w; simp only [mem_unionL, List.mem_append, Finset.mem_union]
  constructor
  · rintro ⟨s, h | h, hw⟩
    · exact Or.inl ⟨s, h, hw⟩
    · exact Or.inr ⟨s, h, hw⟩
  · rintro (⟨s, h, hw⟩ | ⟨s, h, hw⟩)
    · exact ⟨s, Or.inl h, hw⟩
    · exact ⟨s, Or.inr h, hw⟩

/-- Number of variables in the sets of a list. -/
abbrev sizeL (A : List (Finset V)) : ℕ := (A.map Finset.card).sum

/-- No cycles: each part of the list has enough variables. -/
def ForestL (L : List (Finset V)) : Prop := ∀ A : List (Finset V), (A : Multiset (Finset V)) ≤ (L : Multiset (Finset V)) → A ≠ [] → sizeL A + 1 ≤ (unionL A).card + A.length

theorem forest_of_tree {L : List (Finset V)} (h : TreeShape L) : ForestL L ∧ sizeL L + 1 = (unionL L).card + L.length ∧ L ≠ [] := by
  induction h with
  | one s hs =>
    refine ⟨?_, by simp [sizeL, unionL], by simp⟩
    intro A hA hne
    have hlen := Multiset.card_le_card hA
    obtain ⟨t, r, rfl⟩ := List.exists_cons_of_ne_nil hne
    have : r = [] := by
      rw [← List.length_eq_zero_iff]
      simp at hlen
      simpa using hlen
    subst this
    simp [sizeL, unionL]
  | add s L hL hc ih =>
    obtain ⟨h1, h2, h3⟩ := ih
    have hcard := Finset.card_union_add_card_inter s (unionL L)
    have hc' : (s ∩ unionL L).card = 1 := hc
    refine ⟨?_, ?_, by simp⟩
    · intro A hA hne
      rw [← Multiset.cons_coe] at hA
      by_cases hs : s ∈ A
      · have hB : ((A.erase s : List (Finset V)) : Multiset (Finset V)) ≤ L := by
          rw [← Multiset.coe_erase, Multiset.erase_le_iff_le_cons]; exact hA
        have hp := List.perm_cons_erase hs
        have e1 : sizeL A = s.card + sizeL (A.erase s) := by
          have := (hp.map Finset.card).sum_eq
          simpa using this
        have e2 : unionL A = s ∪ unionL (A.erase s) := by rw [unionL_perm hp]; rfl
        have e3 : A.length = (A.erase s).length + 1 := by rw [hp.length_eq]; simp
        have e4 := Finset.card_union_add_card_inter s (unionL (A.erase s))
        have e5 : (s ∩ unionL (A.erase s)).card ≤ 1 := by
          rw [← hc']
          refine Finset.card_le_card (Finset.inter_subset_inter_left ?_)
          intro w hw
          rw [mem_unionL] at hw ⊢
          obtain ⟨t, ht, hwt⟩ := hw
          exact ⟨t, Multiset.mem_coe.1 (Multiset.mem_of_le hB (Multiset.mem_coe.2 ht)), hwt⟩
        by_cases he : A.erase s = []
        · rw [e1, e2, e3, he]; simp [sizeL, unionL]
        · have := h1 _ hB he
          rw [e2]; omega
      · exact h1 A ((Multiset.le_cons_of_notMem (by simpa using hs)).1 hA) hne
    · simp only [sizeL, unionL, List.map_cons, List.sum_cons, List.foldr_cons, List.length_cons] at *
      omega
  | perm L L' hL hp ih =>
    obtain ⟨h1, h2, h3⟩ := ih
    refine ⟨fun A hA hne => h1 A (by rwa [Multiset.coe_eq_coe.2 hp]) hne, ?_, ?_⟩
    · rw [← unionL_perm hp, ← hp.length_eq]
      have : sizeL L' = sizeL L := ((hp.map Finset.card).sum_eq).symm
      rw [this]; exact h2
    · rintro rfl; exact h3 hp.eq_nil

/-- Sets with a common variable. -/
theorem star_card (A : List (Finset V)) (v : V) (hA : ∀ s ∈ A, v ∈ s) (hne : A ≠ []) :
    (unionL A).card + A.length ≤ sizeL A + 1 := by
  induction A with
  | nil => exact absurd rfl hne
  | cons s t ih =>
    by_cases ht : t = []
    · subst ht; simp [sizeL, unionL]
    · have h1 := ih (fun s hs => hA s (by simp [hs])) ht
      have h2 := Finset.card_union_add_card_inter s (unionL t)
      have h3 : 1 ≤ (s ∩ unionL t).card := by
        rw [Nat.one_le_iff_ne_zero, ← Nat.pos_iff_ne_zero, Finset.card_pos]
        obtain ⟨u, r, rfl⟩ := List.exists_cons_of_ne_nil ht
        exact ⟨v, Finset.mem_inter.2 ⟨hA s (by simp), (mem_unionL _ _).2 ⟨u, by simp, hA u (by simp)⟩⟩⟩
      simp only [sizeL, unionL, List.map_cons, List.sum_cons, List.foldr_cons, List.length_cons] at *
      omega

theorem filter_split (L : List (Finset V)) (v : V) :
    (((L.filter (v ∈ ·)) ++ (L.filter (v ∉ ·)) : List (Finset V)) : Multiset (Finset V)) = (L : Multiset (Finset V)) := by
  have := Multiset.filter_add_not (fun s => v ∈ s) (L : Multiset (Finset V))
  rw [Multiset.filter_coe, Multiset.filter_coe, Multiset.coe_add] at this
  exact this

/-- Putting together the sets of a variable keeps a forest. -/
theorem forest_merge {L : List (Finset V)} (h : ForestL L) (v : V) (hv : ∃ s ∈ L, v ∈ s) :
    ForestL (unionL (L.filter (v ∈ ·)) :: L.filter (v ∉ ·)) ∧
    (sizeL L + 1 = (unionL L).card + L.length → sizeL (unionL (L.filter (v ∈ ·)) :: L.filter (v ∉ ·)) + 1 =
      (unionL (unionL (L.filter (v ∈ ·)) :: L.filter (v ∉ ·))).card + (unionL (L.filter (v ∈ ·)) :: L.filter (v ∉ ·)).length) ∧
    unionL (unionL (L.filter (v ∈ ·)) :: L.filter (v ∉ ·)) = unionL L := by
  have hsp := filter_split L v
  set A := L.filter (v ∈ ·) with hA
  set N := L.filter (v ∉ ·) with hN
  have hAne : A ≠ [] := by
    obtain ⟨s, hs, hvs⟩ := hv
    exact List.ne_nil_of_mem (List.mem_filter.2 ⟨hs, by simpa using hvs⟩)
  have hAv : ∀ s ∈ A, v ∈ s := by
    intro s hs
    simpa using (List.mem_filter.1 hs).2
  have hstar := star_card A v hAv hAne
  have hAL : (A : Multiset (Finset V)) ≤ L := by rw [← hsp, ← Multiset.coe_add]; exact Multiset.le_add_right _ _
  have hfa := h A hAL hAne
  have hcard : (unionL A).card + A.length = sizeL A + 1 := by omega
  have hpos : 1 ≤ A.length := List.length_pos_iff.2 hAne
  have hperm : (A ++ N).Perm L := Multiset.coe_eq_coe.1 hsp
  refine ⟨?_, ?_, ?_⟩
  · intro B hB hne
    rw [← Multiset.cons_coe] at hB
    have hNL : (N : Multiset (Finset V)) ≤ L := by rw [← hsp, ← Multiset.coe_add]; exact Multiset.le_add_left _ _
    by_cases hs : unionL A ∈ B
    · have hE : ((B.erase (unionL A) : List (Finset V)) : Multiset (Finset V)) ≤ N := by
        rw [← Multiset.coe_erase, Multiset.erase_le_iff_le_cons]; exact hB
      have hp := List.perm_cons_erase hs
      have e1 : sizeL B = (unionL A).card + sizeL (B.erase (unionL A)) := by
        have := (hp.map Finset.card).sum_eq
        simpa using this
      have e2 : unionL B = unionL A ∪ unionL (B.erase (unionL A)) := by rw [unionL_perm hp]; rfl
      have e3 : B.length = (B.erase (unionL A)).length + 1 := by rw [hp.length_eq]; simp
      have hle : ((A ++ B.erase (unionL A) : List (Finset V)) : Multiset (Finset V)) ≤ L := by
        rw [← hsp, ← Multiset.coe_add, ← Multiset.coe_add]
        exact (Multiset.add_le_add_iff_left).2 hE
      have := h _ hle (by simp [hAne])
      rw [unionL_append] at this
      have e4 : sizeL (A ++ B.erase (unionL A)) = sizeL A + sizeL (B.erase (unionL A)) := by simp [sizeL]
      rw [e4, List.length_append] at this
      rw [e1, e2, e3]
      omega
    · exact h B (((Multiset.le_cons_of_notMem (by simpa using hs)).1 hB).trans hNL) hne
  · intro heq
    have e1 : sizeL L = sizeL A + sizeL N := by
      have := (hperm.map Finset.card).sum_eq
      simpa using this.symm
    have e2 : unionL L = unionL A ∪ unionL N := by rw [← unionL_perm hperm, unionL_append]
    have e3 : L.length = A.length + N.length := by rw [← hperm.length_eq]; simp
    have e4 : unionL (unionL A :: N) = unionL A ∪ unionL N := rfl
    have e5 : sizeL (unionL A :: N) = (unionL A).card + sizeL N := by simp [sizeL]
    rw [e4, e5, List.length_cons]
    rw [e1, e2, e3] at heq
    omega
  · have e2 : unionL L = unionL A ∪ unionL N := by rw [← unionL_perm hperm, unionL_append]
    rw [e2]; rfl

/-- In a forest two sets have at most one common variable. -/
theorem forest_no_clash {L : List (Finset V)} (h : ForestL L) (v w : V) :
    ¬ (2 ≤ (L.filter (v ∈ ·)).countP (w ∈ ·) ∧ (L.filter (v ∈ ·)).countP (w ∈ ·) < (L.filter (v ∈ ·)).length) := by
  rintro ⟨h1, h2⟩
  have hwv : w ≠ v := by
    rintro rfl
    rw [List.countP_eq_length.2 (fun s hs => (List.mem_filter.1 hs).2)] at h2
    exact lt_irrefl _ h2
  rw [List.countP_filter, List.countP_eq_length_filter] at h1
  set B := L.filter fun s => decide (w ∈ s) && decide (v ∈ s) with hB
  have hBL : (B : Multiset (Finset V)) ≤ L := Multiset.coe_le.2 (List.Sublist.subperm List.filter_sublist)
  obtain ⟨s, t, r, hr⟩ : ∃ s t r, B = s :: t :: r := by
    match hm : B, h1 with
    | s :: t :: r, _ => exact ⟨s, t, r, rfl⟩
  have hst : ((([s, t] : List (Finset V))) : Multiset (Finset V)) ≤ L := by
    refine le_trans ?_ hBL
    rw [hr]
    exact Multiset.coe_le.2 (List.Sublist.subperm (by simp))
  have := h [s, t] hst (by simp)
  have hmem : ∀ u ∈ B, w ∈ u ∧ v ∈ u := by
    intro u hu
    have := (List.mem_filter.1 hu).2
    simpa using this
  have hs := hmem s (by rw [hr]; simp)
  have ht := hmem t (by rw [hr]; simp)
  have hc := Finset.card_union_add_card_inter s t
  have h2 : 2 ≤ (s ∩ t).card := by
    refine Finset.one_lt_card.2 ⟨w, Finset.mem_inter.2 ⟨hs.1, ht.1⟩, v, Finset.mem_inter.2 ⟨hs.2, ht.2⟩, hwv⟩
  simp [sizeL, unionL] at this
  omega

/-- A tree is joined in every order. -/
theorem elimOk_tree (T : Finset V) (vs : List V) (L : List (Finset V)) (hf : ForestL L)
    (hc : sizeL L + 1 = (unionL L).card + L.length) (hvs : ∀ v ∈ vs, ∃ s ∈ L, v ∈ s)
    (hrest : ∀ v ∈ unionL L, v ∈ vs ∨ ∀ w, L.Pairwise fun s t => ¬ (w = v ∧ w ∈ s ∧ w ∈ t)) : elimOk T vs L = true := by
  induction vs generalizing L with
  | nil =>
    rw [elimOk, decide_eq_true_eq]
    have hdis : L.Pairwise fun s t => Disjoint s t := by
      rw [List.pairwise_iff_forall_sublist]
      intro s t hst
      rw [Finset.disjoint_left]
      intro v hs ht
      have hv : v ∈ unionL L := (mem_unionL _ _).2 ⟨s, hst.subset (by simp), hs⟩
      rcases hrest v hv with h | h
      · simp at h
      · exact (List.pairwise_iff_forall_sublist.1 (h v)) hst ⟨rfl, hs, ht⟩
    have hsum : ∀ L : List (Finset V), (L.Pairwise fun s t => Disjoint s t) → (unionL L).card = sizeL L := by
      intro L hL
      induction L with
      | nil => simp [sizeL, unionL]
      | cons s t ih =>
        rw [List.pairwise_cons] at hL
        have hd : Disjoint s (unionL t) := by
          rw [Finset.disjoint_left]
          intro w hw hwt
          obtain ⟨u, hu, hwu⟩ := (mem_unionL _ _).1 hwt
          exact Finset.disjoint_left.1 (hL.1 u hu) hw hwu
        have e : unionL (s :: t) = s ∪ unionL t := rfl
        rw [e, Finset.card_union_of_disjoint hd, ih hL.2]
        simp [sizeL]
    have := hsum L hdis
    omega
  | cons v vs ih =>
    rw [elimOk]
    have hclash : decide (∀ w ∈ T, ¬ (2 ≤ (L.filter (v ∈ ·)).countP (w ∈ ·) ∧
        (L.filter (v ∈ ·)).countP (w ∈ ·) < (L.filter (v ∈ ·)).length)) = true := by
      rw [decide_eq_true_eq]
      intro w _
      exact forest_no_clash hf v w
    simp only [hclash, Bool.true_and]
    obtain ⟨m1, m2, m3⟩ := forest_merge hf v (hvs v (by simp))
    refine ih _ m1 (m2 hc) ?_ ?_
    · intro w hw
      obtain ⟨s, hs, hws⟩ := hvs w (by simp [hw])
      have : w ∈ unionL L := (mem_unionL _ _).2 ⟨s, hs, hws⟩
      rw [← m3] at this
      exact (mem_unionL _ _).1 this
    · intro w hw
      have hw' : w ∈ unionL L := by rw [← m3]; exact hw
      rcases hrest w hw' with h | h
      · rw [List.mem_cons] at h
        rcases h with rfl | h
        · right
          intro u
          rw [List.pairwise_cons]
          refine ⟨?_, ?_⟩
          · rintro t ht ⟨rfl, -, hut⟩
            exact absurd hut (by simpa using (List.mem_filter.1 ht).2)
          · rw [List.pairwise_iff_forall_sublist]
            rintro s t hst ⟨rfl, hus, -⟩
            exact absurd hus (by simpa using (List.mem_filter.1 (hst.subset (List.mem_cons_self))).2)
        · exact Or.inl h
      · right
        intro u
        rw [List.pairwise_cons]
        refine ⟨?_, (h u).filter _⟩
        rintro t ht ⟨rfl, hus, hut⟩
        obtain ⟨s, hs, hus'⟩ := (mem_unionL _ _).1 hus
        have hst : s ≠ t := by
          rintro rfl
          exact absurd (List.mem_filter.1 hs).2 (by simpa using (List.mem_filter.1 ht).2)
        have hsym : L.Pairwise fun s t => s ≠ t → ¬ (u = u ∧ u ∈ s ∧ u ∈ t) := 
          List.Pairwise.imp (S := fun s t => s ≠ t → ¬ (u = u ∧ u ∈ s ∧ u ∈ t)) (fun h _ => h) (h u)
        have : Std.Symm fun s t : Finset V => s ≠ t → ¬ (u = u ∧ u ∈ s ∧ u ∈ t) :=
          ⟨fun s t h hne hh => h hne.symm ⟨rfl, hh.2.2, hh.2.1⟩⟩
        have := List.Pairwise.forall_of_forall (l := L) (R := fun s t => s ≠ t → ¬ (u = u ∧ u ∈ s ∧ u ∈ t))
          (fun s _ hne => absurd rfl hne) hsym
        exact this (List.mem_filter.1 hs).1 (List.mem_filter.1 ht).1 hst ⟨rfl, hus', hut⟩

/-- Parts without common variables are never joined. -/
theorem elimOk_disconnected (T P : Finset V) (vs : List V) (L : List (Finset V)) (hP : ∀ s ∈ L, s ⊆ P ∨ Disjoint s P)
    (h1 : ∃ s ∈ L, s.Nonempty ∧ s ⊆ P) (h2 : ∃ s ∈ L, Disjoint s P) : elimOk T vs L = false := by
  induction vs generalizing L with
  | nil =>
    rw [elimOk, decide_eq_false_iff_not]
    obtain ⟨s, hs, ⟨w, hw⟩, hsP⟩ := h1
    obtain ⟨t, ht, htP⟩ := h2
    have hne : s ≠ t := by
      rintro rfl
      exact Finset.disjoint_left.1 htP hw (hsP hw)
    intro hlen
    match L, hs, ht, hlen with
    | [a], hs, ht, _ =>
      rw [List.mem_singleton] at hs ht
      exact hne (hs.trans ht.symm)
    | _ :: _ :: _, _, _, h => simp at h
  | cons v vs ih =>
    rw [elimOk, Bool.and_eq_false_iff]
    right
    have hU : ∀ s ∈ unionL (L.filter (v ∈ ·)) :: L.filter (v ∉ ·), s ⊆ P ∨ Disjoint s P := by
      intro s hs
      rw [List.mem_cons] at hs
      rcases hs with rfl | hs
      · by_cases hvP : v ∈ P
        · left
          intro w hw
          obtain ⟨t, ht, hwt⟩ := (mem_unionL _ _).1 hw
          obtain ⟨htL, hvt⟩ := List.mem_filter.1 ht
          rcases hP t htL with h | h
          · exact h hwt
          · exact absurd hvP (Finset.disjoint_left.1 h (by simpa using hvt))
        · right
          rw [Finset.disjoint_left]
          intro w hw
          obtain ⟨t, ht, hwt⟩ := (mem_unionL _ _).1 hw
          obtain ⟨htL, hvt⟩ := List.mem_filter.1 ht
          rcases hP t htL with h | h
          · exact absurd (h (by simpa using hvt)) hvP
          · exact Finset.disjoint_left.1 h hwt
      · exact hP s (List.mem_filter.1 hs).1
    refine ih _ hU ?_ ?_
    · obtain ⟨s, hs, ⟨w, hw⟩, hsP⟩ := h1
      by_cases hvs : v ∈ s
      · refine ⟨unionL (L.filter (v ∈ ·)), by simp, ?_⟩
        have hm : w ∈ unionL (L.filter (v ∈ ·)) := (mem_unionL _ _).2 ⟨s, List.mem_filter.2 ⟨hs, by simpa using hvs⟩, hw⟩
        refine ⟨⟨w, hm⟩, ?_⟩
        rcases hU _ (List.mem_cons_self) with h | h
        · exact h
        · exact absurd (hsP hw) (Finset.disjoint_left.1 h hm)
      · exact ⟨s, List.mem_cons_of_mem _ (List.mem_filter.2 ⟨hs, by simpa using hvs⟩), ⟨w, hw⟩, hsP⟩
    · obtain ⟨s, hs, hsP⟩ := h2
      by_cases hvs : v ∈ s
      · refine ⟨unionL (L.filter (v ∈ ·)), by simp, ?_⟩
        have hm : v ∈ unionL (L.filter (v ∈ ·)) := (mem_unionL _ _).2 ⟨s, List.mem_filter.2 ⟨hs, by simpa using hvs⟩, hvs⟩
        rcases hU _ (List.mem_cons_self) with h | h
        · exact absurd (h hm) (Finset.disjoint_left.1 hsP hvs)
        · exact h
      · exact ⟨s, List.mem_cons_of_mem _ (List.mem_filter.2 ⟨hs, by simpa using hvs⟩), hsP⟩

/-- Four variables, each two of them with a set of their own, are never joined. -/
theorem elimOk_clique (T : Finset V) (v₁ v₂ s t : V) (vs : List V) (L : List (Finset V)) (h12 : v₁ ≠ v₂) (hs1 : s ≠ v₁) (hs2 : s ≠ v₂)
    (ht1 : t ≠ v₁) (hst : s ≠ t) (hsT : s ∈ T) (e1 : {v₁, v₂} ∈ L) (e2 : {v₁, s} ∈ L) (e3 : {v₂, s} ∈ L)
    (e4 : {v₂, t} ∈ L) : elimOk T (v₁ :: v₂ :: vs) L = false := by
  rw [elimOk, Bool.and_eq_false_iff]
  right
  rw [elimOk, Bool.and_eq_false_iff]
  left
  rw [decide_eq_false_iff_not]
  push Not
  refine ⟨s, hsT, ?_⟩
  have hU : ∀ w, {v₁, w} ∈ L → w ∈ unionL (L.filter (v₁ ∈ ·)) := by
    intro w hw
    exact (mem_unionL _ _).2 ⟨_, List.mem_filter.2 ⟨hw, by simp⟩, by simp⟩
  have hm : ∀ w, w ≠ v₁ → {v₂, w} ∈ L → ({v₂, w} : Finset V) ∈ (L.filter (v₁ ∉ ·)).filter (v₂ ∈ ·) := by
    intro w hw hwL
    rw [List.mem_filter, List.mem_filter]
    exact ⟨⟨hwL, by simp [h12, hw.symm]⟩, by simp⟩
  have hfil : (unionL (L.filter (v₁ ∈ ·)) :: L.filter (v₁ ∉ ·)).filter (v₂ ∈ ·) =
      unionL (L.filter (v₁ ∈ ·)) :: (L.filter (v₁ ∉ ·)).filter (v₂ ∈ ·) := by
    rw [List.filter_cons_of_pos]
    simpa using hU v₂ e1
  rw [hfil]
  constructor
  · rw [List.countP_cons_of_pos (by simpa using hU s e2)]
    have : 0 < ((L.filter (v₁ ∉ ·)).filter (v₂ ∈ ·)).countP (s ∈ ·) :=
      List.countP_pos_iff.2 ⟨_, hm s hs1 e3, by simp⟩
    omega
  · refine lt_of_le_of_ne (List.countP_le_length) ?_
    intro he
    rw [List.countP_eq_length] at he
    have := he _ (List.mem_cons_of_mem _ (hm t ht1 e4))
    simp [hs2, hst] at this

end Verif
