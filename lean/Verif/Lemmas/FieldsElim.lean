import Verif.Lemmas.PairElim

/-!
# Elimination when each variable has a set of its own
-/

namespace Verif

variable {V : Type} [DecidableEq V]

theorem sizeL_eq_sum (A : List (Finset V)) (U : Finset V) (hU : unionL A ⊆ U) : sizeL A = ∑ w ∈ U, A.countP (w ∈ ·) := by
  induction A with
  | nil => simp [sizeL]
  | cons s t ih =>
    have hsub : s ⊆ U ∧ unionL t ⊆ U := Finset.union_subset_iff.1 hU
    have := ih hsub.2
    simp only [sizeL, List.map_cons, List.sum_cons, List.countP_cons] at this ⊢
    rw [this, Finset.sum_add_distrib, add_comm]
    congr 1
    simp only [decide_eq_true_eq]
    rw [Finset.sum_boole, Finset.filter_mem_eq_inter, Finset.inter_eq_right.2 hsub.1]
    rfl

/-- Sets that have only `v` in common. -/
theorem star_card_eq (A : List (Finset V)) (v : V) (hA : ∀ s ∈ A, v ∈ s) (hne : A ≠ []) (h1 : ∀ w, w ≠ v → A.countP (w ∈ ·) ≤ 1) :
    (unionL A).card + A.length = sizeL A + 1 := by
  have hv : v ∈ unionL A := by
    obtain ⟨s, hs⟩ := List.exists_mem_of_ne_nil _ hne
    exact (mem_unionL _ _).2 ⟨s, hs, hA s hs⟩
  rw [sizeL_eq_sum A _ (Finset.Subset.refl _), ← Finset.add_sum_erase _ _ hv]
  have e1 : A.countP (v ∈ ·) = A.length := List.countP_eq_length.2 fun s hs => by simpa using hA s hs
  have e2 : ∑ w ∈ (unionL A).erase v, A.countP (w ∈ ·) = ∑ w ∈ (unionL A).erase v, 1 := by
    refine Finset.sum_congr rfl fun w hw => ?_
    obtain ⟨hwv, hwA⟩ := Finset.mem_erase.1 hw
    obtain ⟨s, hs, hws⟩ := (mem_unionL _ _).1 hwA
    have h0 : 0 < A.countP (w ∈ ·) := List.countP_pos_iff.2 ⟨s, hs, by simpa using hws⟩
    have := h1 w hwv
    omega
  rw [e1, e2, Finset.sum_const, smul_eq_mul, mul_one, Finset.card_erase_of_mem hv]
  have := Finset.card_pos.2 ⟨v, hv⟩
  omega

/-- If each variable has a set of its own, an elimination that succeeds shows that the sets form a tree. -/
theorem elimOk_fields (T : Finset V) (vs : List V) : ∀ L : List (Finset V), vs.Nodup → elimOk T vs L = true → (∀ v ∈ vs, {v} ∈ L) → unionL L ⊆ T → L ≠ [] →
    sizeL L + 1 = (unionL L).card + L.length := by
  induction vs with
  | nil =>
    intro L _ h _ _ hne
    rw [elimOk, decide_eq_true_eq] at h
    match L, h with
    | [s], _ => simp [sizeL, unionL]
  | cons v vs ih =>
    intro L hnd h hown hT hne
    rw [elimOk, Bool.and_eq_true, decide_eq_true_eq] at h
    obtain ⟨h1, h2⟩ := h
    set A := L.filter (v ∈ ·) with hA
    have hvA : {v} ∈ A := by rw [hA, List.mem_filter]; exact ⟨hown v (by simp), by simp⟩
    have hAne : A ≠ [] := List.ne_nil_of_mem hvA
    have hAv : ∀ s ∈ A, v ∈ s := fun s hs => by simpa using (List.mem_filter.1 hs).2
    have hAsub : ∀ s ∈ A, s ∈ L := fun s hs => (List.mem_filter.1 hs).1
    have hone : ∀ w, w ≠ v → A.countP (w ∈ ·) ≤ 1 := by
      intro w hwv
      by_contra hlt
      push Not at hlt
      have hw : w ∈ T := by
        have : 0 < A.countP (w ∈ ·) := by omega
        obtain ⟨s, hs, hws⟩ := List.countP_pos_iff.1 this
        exact hT ((mem_unionL _ _).2 ⟨s, hAsub s hs, by simpa using hws⟩)
      refine h1 w hw ⟨hlt, lt_of_le_of_ne List.countP_le_length fun he => ?_⟩
      rw [List.countP_eq_length] at he
      have := he {v} hvA
      simp only [Finset.mem_singleton, decide_eq_true_eq] at this
      exact hwv this
    have hstar := star_card_eq A v hAv hAne hone
    have hsplit := Multiset.coe_eq_coe.1 (filter_split L v)
    have hun : unionL (unionL A :: L.filter (v ∉ ·)) = unionL L := by
      ext w
      simp only [mem_unionL, List.mem_cons, exists_eq_or_imp]
      constructor
      · rintro (h | ⟨s, hs, hw⟩)
        · obtain ⟨s, hs, hw⟩ := h
          exact ⟨s, hAsub s hs, hw⟩
        · exact ⟨s, (List.mem_filter.1 hs).1, hw⟩
      · rintro ⟨s, hs, hw⟩
        by_cases hv : v ∈ s
        · exact Or.inl ⟨s, List.mem_filter.2 ⟨hs, by simpa using hv⟩, hw⟩
        · exact Or.inr ⟨s, List.mem_filter.2 ⟨hs, by simpa using hv⟩, hw⟩
    have := ih (unionL A :: L.filter (v ∉ ·)) (List.nodup_cons.1 hnd).2 h2 ?_ (by rw [hun]; exact hT) (by simp)
    · rw [hun] at this
      have hsz : sizeL L = sizeL A + sizeL (L.filter (v ∉ ·)) := by
        have := (hsplit.map Finset.card).sum_eq
        rw [List.map_append, List.sum_append] at this
        exact this.symm
      have hlen : L.length = A.length + (L.filter (v ∉ ·)).length := by
        have := hsplit.length_eq
        rw [List.length_append] at this
        exact this.symm
      simp only [sizeL, List.map_cons, List.sum_cons, List.length_cons] at this hsz hstar ⊢
      omega
    · intro u hu
      refine List.mem_cons_of_mem _ (List.mem_filter.2 ⟨hown u (by simp [hu]), ?_⟩)
      have : v ≠ u := by rintro rfl; exact (List.nodup_cons.1 hnd).1 hu
      simpa using this

/-- Connected sets with the count of a tree have this count in all parts. -/
theorem forest_of_connected {L : List (Finset V)} (hconn : ConnectedL L) (hnem : ∀ s ∈ L, s.Nonempty) (hc : sizeL L + 1 = (unionL L).card + L.length) : ForestL L := by
  have key : ∀ n (A : List (Finset V)), (A : Multiset (Finset V)) ≤ (L : Multiset (Finset V)) → A ≠ [] → L.length ≤ A.length + n →
      sizeL A + 1 ≤ (unionL A).card + A.length := by
    intro n
    induction n with
    | zero =>
      intro A hA hne hlen
      have he : (A : Multiset (Finset V)) = L := Multiset.eq_of_le_of_card_le hA (by simpa using hlen)
      have hp := Multiset.coe_eq_coe.1 he
      have e1 : sizeL A = sizeL L := (hp.map Finset.card).sum_eq
      rw [e1, unionL_perm hp, hp.length_eq]
      omega
    | succ n ih =>
      intro A hA hne hlen
      obtain ⟨B, hB⟩ := Multiset.le_iff_exists_add.1 hA
      have hAL : ∀ s ∈ A, s ∈ L := fun s hs => Multiset.mem_of_le hA hs
      have hBL : ∀ s ∈ B, s ∈ L := by
        intro s hs
        have : s ∈ (L : Multiset (Finset V)) := by rw [hB]; exact Multiset.mem_add.2 (Or.inr hs)
        exact this
      by_cases hex : ∃ s ∈ B, ¬ Disjoint s (unionL A)
      · obtain ⟨s, hs, hd⟩ := hex
        have hle : ((s :: A : List (Finset V)) : Multiset (Finset V)) ≤ L := by
          rw [hB, ← Multiset.cons_coe, ← Multiset.singleton_add, add_comm]
          exact Multiset.add_le_add_left (Multiset.singleton_le.2 hs)
        have := ih (s :: A) hle (by simp) (by simp only [List.length_cons]; omega)
        have hun : unionL (s :: A) = s ∪ unionL A := rfl
        have hcard := Finset.card_union_add_card_inter s (unionL A)
        have hpos : 0 < (s ∩ unionL A).card := by
          rw [Finset.card_pos, Finset.nonempty_iff_ne_empty, ne_eq, ← Finset.disjoint_iff_inter_eq_empty]
          exact hd
        rw [hun] at this
        simp only [sizeL, List.map_cons, List.sum_cons, List.length_cons] at this ⊢
        omega
      · push Not at hex
        have hall := hconn (unionL A) (by
          intro s hs
          have : s ∈ (L : Multiset (Finset V)) := hs
          rw [hB, Multiset.mem_add] at this
          rcases this with h | h
          · exact Or.inl fun w hw => (mem_unionL _ _).2 ⟨s, h, hw⟩
          · exact Or.inr (hex s h)) (by
          obtain ⟨s, hs⟩ := List.exists_mem_of_ne_nil _ hne
          exact ⟨s, hAL s hs, fun w hw => (mem_unionL _ _).2 ⟨s, hs, hw⟩⟩)
        have hBnil : B = 0 := by
          rw [Multiset.eq_zero_iff_forall_notMem]
          intro s hs
          obtain ⟨w, hw⟩ := hnem s (hBL s hs)
          exact Finset.disjoint_left.1 (hex s hs) hw (hall s (hBL s hs) hw)
        subst hBnil
        refine ih A hA hne ?_
        have := congrArg Multiset.card hB
        simp only [Multiset.coe_card, add_zero] at this
        omega
  intro A hA hne
  exact key L.length A hA hne (by omega)

end Verif
