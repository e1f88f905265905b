import Verif.Lemmas.Depth
import Verif.Props.Builder
import Mathlib.Data.Nat.Lattice

/-! Helper lemmas on the number of nested calls of `join_edges`. -/

set_option linter.unusedSectionVars false

namespace Verif

variable {V X R : Type} [DecidableEq V] [DecidableEq X] [DecidableEq R]

theorem Walk.uncons {E : Finset (Edge V X R)} {f : Option (Finset (Rel V R))} {k : ℕ} {a c : Node V X} (h : Walk E f (k + 1) a c) :
    ∃ b, Adj E f a b ∧ Walk E f k b c := by
  induction k generalizing c with
  | zero =>
    obtain ⟨b, hb, hbc⟩ := h
    cases hb
    exact ⟨c, hbc, rfl⟩
  | succ k ih =>
    obtain ⟨b, hb, hbc⟩ := h
    obtain ⟨b', h1, h2⟩ := ih hb
    exact ⟨b', h1, b, h2, hbc⟩

/-- A walk from `B` through `E` ends in a walk from `B` through the edges that were not absorbed into `B`. -/
theorem Walk.restrict {E nc : Finset (Edge V X R)} {B : Finset (Node V X)} (h : ∀ e ∈ E, e ∉ nc → e.endpoints ⊆ B) :
    ∀ (k : ℕ) (c n : Node V X), c ∈ B → Walk E none k c n → ∃ j ≤ k, ∃ c' ∈ B, Walk nc none j c' n := by
  intro k
  induction k with
  | zero => intro c n hc hw; cases hw; exact ⟨0, le_rfl, c, hc, rfl⟩
  | succ k ih =>
    rintro c n hc ⟨m, hw, e, he, hal, hm, hn⟩
    by_cases hnc : e ∈ nc
    · obtain ⟨j, hj, c', hc', hw'⟩ := ih c m hc hw
      exact ⟨j + 1, by omega, c', hc', m, hw', e, hnc, hal, hm, hn⟩
    · exact ⟨0, by omega, n, h e he hnc hn, rfl⟩

namespace Builder

theorem touches_of_mem {b : Builder V X R} {e : Edge V X R} {n : Node V X} (h1 : n ∈ e.endpoints) (h2 : n ∈ b.nodes) : b.touches e = true :=
  (b.touches_iff e).2 (Or.inl (Finset.not_disjoint_iff.2 ⟨n, h1, h2⟩))

/-- What one round leaves: edges with an endpoint in the builder are absorbed, and absorbed edges bring their endpoints. -/
theorem joinRound_left (l : List (Edge V X R)) (hnd : l.Nodup) (b : Builder V X R) (nc : Finset (Edge V X R)) (hnc : ∀ e ∈ l, e ∉ nc)
    (h : (joinRound l b nc).2.2 = none) : ∀ e ∈ l,
      (¬ Disjoint e.endpoints b.nodes → e ∉ (joinRound l b nc).2.1) ∧ (e ∉ (joinRound l b nc).2.1 → e.endpoints ⊆ (joinRound l b nc).1.nodes) := by
  induction l generalizing b nc with
  | nil => simp
  | cons x t ih =>
    rw [List.nodup_cons] at hnd
    have hsub := fun b' nc' => joinRound_nc_subset t b' nc'
    unfold joinRound at h ⊢
    split at h
    · rename_i ht
      split at h
      · rename_i hj
        simp only [ht, hj, if_true]
        have hI := ih hnd.2 (b.insertEdge x) nc (fun e he => hnc e (by simp [he])) h
        intro e he
        rcases List.mem_cons.1 he with rfl | he
        · refine ⟨fun _ hc => ?_, fun _ => ?_⟩
          · have := hsub _ _ hc
            rw [Finset.mem_union, List.mem_toFinset] at this
            rcases this with h | h
            · exact hnc e (by simp) h
            · exact hnd.1 h
          · refine Finset.Subset.trans ?_ (joinRound_mono t (b.insertEdge e) nc).1
            exact Finset.subset_union_right
        · refine ⟨fun hd => (hI e he).1 fun hd' => hd ?_, (hI e he).2⟩
          exact Finset.disjoint_of_subset_right Finset.subset_union_left hd'
      · simp at h
    · rename_i ht
      have hI := ih hnd.2 b (insert x nc) (fun e he => by
        rw [Finset.mem_insert]
        rintro (rfl | h)
        · exact hnd.1 he
        · exact hnc e (by simp [he]) h) h
      simp only [ht]
      intro e he
      rcases List.mem_cons.1 he with rfl | he
      · refine ⟨fun hd => absurd ((b.touches_iff e).2 (Or.inl hd)) (by simpa using ht), fun hc => ?_⟩
        exact absurd ((joinRound_mono t b (insert e nc)).2.2 (Finset.mem_insert_self _ _)) hc
      · exact hI e he

theorem joinRound_error (l : List (Edge V X R)) (b : Builder V X R) (nc : Finset (Edge V X R)) (er : Err) (h : (joinRound l b nc).2.2 = some er) :
    er = .assertion := by
  induction l generalizing b nc with
  | nil => simp [joinRound] at h
  | cons e t ih =>
    unfold joinRound at h
    split at h
    · split at h
      · exact ih _ _ h
      · simp at h; exact h.symm
    · exact ih _ _ h

/-- Edges near the builder are absorbed in few rounds. -/
theorem joinEdges_near (oE : Order (Edge V X R)) : ∀ (d : ℕ) (E : Finset (Edge V X R)) (b : Builder V X R), E ≠ ∅ →
    (∀ e ∈ E, ∃ k < d, ∃ c ∈ b.nodes, ∃ n ∈ e.endpoints, Walk E none k c n) → (joinEdges oE d E b).2 ≠ some .fuel := by
  intro d
  induction d with
  | zero =>
    intro E b hne h
    obtain ⟨e, he⟩ := Finset.nonempty_iff_ne_empty.2 hne
    obtain ⟨k, hk, -⟩ := h e he
    omega
  | succ d ih =>
    intro E b hne h
    unfold joinEdges
    have herr := joinRound_error (oE.run E) b ∅
    have hleft := joinRound_left (oE.run E) (oE.nodup E) b ∅ (by simp)
    have hmono := joinRound_mono (oE.run E) b ∅
    have h2 := joinRound_nc_subset (oE.run E) b ∅
    rw [Finset.empty_union, oE.toFinset_run] at h2
    match hr : joinRound (oE.run E) b ∅ with
    | (b', nc, some er) =>
      rw [hr] at herr
      simp only [ne_eq, Option.some.injEq]
      rintro rfl
      exact absurd (herr _ rfl) (by decide)
    | (b', nc, none) =>
      rw [hr] at hleft hmono h2
      simp only at hleft hmono h2 ⊢
      have hleft := hleft trivial
      split
      · simp
      · split
        · rename_i hnc
          apply ih nc b' hnc
          intro e he
          obtain ⟨k, hk, c, hc, n, hn, hw⟩ := h e (h2 he)
          have habs : ∀ e ∈ E, e ∉ nc → e.endpoints ⊆ b'.nodes := fun e he hx => (hleft e ((oE.mem _ _).2 he)).2 hx
          cases k with
          | zero =>
            cases hw
            exact absurd he ((hleft e ((oE.mem _ _).2 (h2 he))).1 (Finset.not_disjoint_iff.2 ⟨c, hn, hc⟩))
          | succ k =>
            obtain ⟨c1, ⟨x, hx, -, hxc, hxc1⟩, hw⟩ := hw.uncons
            have hc1 : c1 ∈ b'.nodes :=
              habs x hx ((hleft x ((oE.mem _ _).2 hx)).1 (Finset.not_disjoint_iff.2 ⟨c, hxc, hc⟩)) hxc1
            obtain ⟨j, hj, c', hc', hw'⟩ := Walk.restrict habs k c1 n hc1 hw
            exact ⟨j, by omega, c', hc', n, hn, hw'⟩
        · simp

/-- When the limit is not reached, a larger limit gives the same. -/
theorem joinEdges_mono (oE : Order (Edge V X R)) : ∀ (d : ℕ) (E : Finset (Edge V X R)) (b : Builder V X R),
    (joinEdges oE d E b).2 ≠ some .fuel → joinEdges oE (d + 1) E b = joinEdges oE d E b := by
  intro d
  induction d with
  | zero => intro E b h; exact absurd rfl h
  | succ d ih =>
    intro E b h
    rw [joinEdges]
    rw [joinEdges] at h
    conv_rhs => rw [joinEdges]
    match hr : joinRound (oE.run E) b ∅ with
    | (b', nc, some er) => rfl
    | (b', nc, none) =>
      rw [hr] at h
      simp only at h ⊢
      split
      · rfl
      · rename_i h1
        rw [if_neg h1] at h
        split
        · rename_i h2
          rw [if_pos h2] at h
          exact ih nc b' h
        · rfl

theorem joinEdges_eq (oE : Order (Edge V X R)) (d d' : ℕ) (E : Finset (Edge V X R)) (b : Builder V X R)
    (h : (joinEdges oE d E b).2 ≠ some .fuel) (h' : (joinEdges oE d' E b).2 ≠ some .fuel) : joinEdges oE d E b = joinEdges oE d' E b := by
  have key : ∀ (d k : ℕ), (joinEdges oE d E b).2 ≠ some .fuel → joinEdges oE (d + k) E b = joinEdges oE d E b := by
    intro d k h
    induction k with
    | zero => rfl
    | succ k ih => rw [← Nat.add_assoc, joinEdges_mono oE _ _ _ (by rw [ih]; exact h), ih]
  rcases Nat.le_total d d' with hd | hd
  · obtain ⟨k, rfl⟩ := Nat.exists_eq_add_of_le hd
    exact (key d k h).symm
  · obtain ⟨k, rfl⟩ := Nat.exists_eq_add_of_le hd
    exact key d' k h'

/-! ### An iteration order that takes far edges first -/

theorem joinRound_skip (l1 l2 : List (Edge V X R)) (b : Builder V X R) (nc : Finset (Edge V X R)) (h : ∀ e ∈ l1, ¬ b.touches e = true) :
    joinRound (l1 ++ l2) b nc = joinRound l2 b (nc ∪ l1.toFinset) := by
  induction l1 generalizing nc with
  | nil => simp
  | cons e t ih =>
    rw [List.cons_append, joinRound, if_neg (h e (by simp)), ih _ fun e he => h e (by simp [he])]
    congr 1
    ext x; simp

theorem joinRound_take (Q : Builder V X R → Prop) (S : Finset (Edge V X R))
    (hQ : ∀ b e, Q b → e ∈ S → b.touches e = true → b.joinOk e = true → Q (b.insertEdge e))
    (hJ : ∀ b e, Q b → e ∈ S → b.touches e = true → b.joinOk e = true) (l : List (Edge V X R)) (hl : ∀ e ∈ l, e ∈ S)
    (b : Builder V X R) (hb : Q b) (nc : Finset (Edge V X R)) (h : ∀ e ∈ l, ¬ Disjoint e.endpoints b.nodes) :
    ∃ b', joinRound l b nc = (b', nc, none) ∧ Q b' ∧ ∀ n, n ∈ b'.nodes ↔ n ∈ b.nodes ∨ ∃ e ∈ l, n ∈ e.endpoints := by
  induction l generalizing b with
  | nil => exact ⟨b, rfl, hb, by simp⟩
  | cons e t ih =>
    have ht : b.touches e = true := (b.touches_iff e).2 (Or.inl (h e (by simp)))
    have hj := hJ b e hb (hl e (by simp)) ht
    obtain ⟨b', h1, h2, h3⟩ := ih (fun e he => hl e (by simp [he])) (b.insertEdge e) (hQ b e hb (hl e (by simp)) ht hj) (by
      intro x hx hd
      exact h x (by simp [hx]) (Finset.disjoint_of_subset_right Finset.subset_union_left hd))
    refine ⟨b', ?_, h2, fun n => ?_⟩
    · rw [joinRound, if_pos ht, if_pos hj, h1]
    · rw [h3]
      simp only [insertEdge, Finset.mem_union, List.mem_cons, exists_eq_or_imp]
      tauto

/-- The smallest level in a set. -/
noncomputable def leastLevel {α : Type} (lev : α → ℕ) (s : Finset α) : ℕ := sInf {k | ∃ e ∈ s, lev e = k}

/-- Elements of the smallest level come last. -/
noncomputable def farFirst {α : Type} [DecidableEq α] (lev : α → ℕ) : Order α where
  run s := (s.filter fun e => lev e ≠ leastLevel lev s).toList ++ (s.filter fun e => lev e = leastLevel lev s).toList
  nodup s := by
    rw [List.nodup_append]
    refine ⟨Finset.nodup_toList _, Finset.nodup_toList _, ?_⟩
    intro a ha b hb hab
    subst hab
    rw [Finset.mem_toList, Finset.mem_filter] at ha hb
    exact ha.2 hb.2
  mem s a := by
    rw [List.mem_append, Finset.mem_toList, Finset.mem_toList, Finset.mem_filter, Finset.mem_filter]
    tauto

theorem leastLevel_eq {α : Type} (lev : α → ℕ) (s : Finset α) (j : ℕ) (h1 : ∃ e ∈ s, lev e = j) (h2 : ∀ e ∈ s, j ≤ lev e) : leastLevel lev s = j := by
  apply le_antisymm
  · exact Nat.sInf_le h1
  · obtain ⟨e, he, hk⟩ := Nat.sInf_mem (s := {k | ∃ e ∈ s, lev e = k}) ⟨j, h1⟩
    have := h2 e he
    unfold leastLevel
    omega

/-- With this order each round absorbs one level. -/
theorem joinEdges_far (Q : Builder V X R → Prop) (S : Finset (Edge V X R)) (B : Finset (Node V X)) (hS : ∀ e ∈ S, GoodEdge e)
    (hQ : ∀ b e, Q b → e ∈ S → b.touches e = true → b.joinOk e = true → Q (b.insertEdge e))
    (hJ : ∀ b e, Q b → e ∈ S → b.touches e = true → b.joinOk e = true)
    (lev : Edge V X R → ℕ)
    (hlev : ∀ e ∈ S, (∃ n ∈ e.endpoints, DistIs S none B n (lev e)) ∧ ∀ n ∈ e.endpoints, ∀ k, DistIs S none B n k → lev e ≤ k) :
    ∀ (d j : ℕ) (c : Builder V X R), Q c → (∀ e ∈ S, ∀ n ∈ e.endpoints, n ∈ c.nodes ↔ ∃ k ≤ j, DistIs S none B n k) → c.nodes ≠ ∅ →
      (∃ e ∈ S, j + d ≤ lev e) → (joinEdges (farFirst lev) d (S.filter fun e => j ≤ lev e) c).2 = some .fuel := by
  -- every level below an occupied one is occupied
  have hocc : ∀ k, (∃ e ∈ S, k + 1 ≤ lev e) → ∃ e ∈ S, lev e = k := by
    rintro k ⟨e, he, hk⟩
    obtain ⟨n, hn, hd⟩ := (hlev e he).1
    have : ∀ i m, DistIs S none B m (k + 1 + i) → ∃ m', DistIs S none B m' (k + 1) := by
      intro i
      induction i with
      | zero => intro m h; exact ⟨m, h⟩
      | succ i ih => intro m h; obtain ⟨m', hm', -⟩ := DistIs.pred h; exact ih m' hm'
    obtain ⟨m, hm⟩ := this (lev e - (k + 1)) n (by rwa [Nat.add_sub_cancel' hk])
    obtain ⟨m', hm', x, hx, -, hx1, hx2⟩ := hm.pred
    refine ⟨x, hx, ?_⟩
    obtain ⟨⟨y, hy, hyd⟩, hmin⟩ := hlev x hx
    have h1 := hmin m' hx1 k hm'
    obtain ⟨a, b, hab, hep⟩ := hS x hx
    have hmm : m ≠ m' := by
      rintro rfl
      have := hm.unique hm'
      omega
    have : y = m ∨ y = m' := by
      rw [hep] at hx1 hx2 hy
      simp only [Finset.mem_insert, Finset.mem_singleton] at hx1 hx2 hy
      rcases hx1 with rfl | rfl <;> rcases hx2 with rfl | rfl <;> rcases hy with rfl | rfl <;> simp_all
    rcases this with rfl | rfl
    · have := hyd.unique hm; omega
    · exact hyd.unique hm'
  intro d
  induction d with
  | zero => intro j c _ _ _ _; rfl
  | succ d ih =>
    intro j c hc hball hcne ⟨e0, he0, hle⟩
    have hleast : leastLevel lev (S.filter fun e => j ≤ lev e) = j := by
      apply leastLevel_eq
      · obtain ⟨e, he, hk⟩ := hocc j ⟨e0, he0, by omega⟩
        exact ⟨e, by rw [Finset.mem_filter]; exact ⟨he, by omega⟩, hk⟩
      · intro e he; exact (Finset.mem_filter.1 he).2
    have htouch : ∀ e ∈ S, ¬ Disjoint e.endpoints c.nodes ↔ lev e ≤ j := by
      intro e he
      rw [Finset.not_disjoint_iff]
      constructor
      · rintro ⟨n, hn, hnc⟩
        obtain ⟨k, hk, hd⟩ := (hball e he n hn).1 hnc
        exact ((hlev e he).2 n hn k hd).trans hk
      · intro h
        obtain ⟨n, hn, hd⟩ := (hlev e he).1
        exact ⟨n, hn, (hball e he n hn).2 ⟨_, h, hd⟩⟩
    have hrun : (farFirst lev).run (S.filter fun e => j ≤ lev e) =
        ((S.filter fun e => j ≤ lev e).filter fun e => lev e ≠ j).toList ++ ((S.filter fun e => j ≤ lev e).filter fun e => lev e = j).toList := by
      simp only [farFirst]
      rw [hleast]
    have hskip := joinRound_skip ((S.filter fun e => j ≤ lev e).filter fun e => lev e ≠ j).toList ((S.filter fun e => j ≤ lev e).filter fun e => lev e = j).toList c ∅ (by
      intro e he ht
      rw [Finset.mem_toList, Finset.mem_filter, Finset.mem_filter] at he
      rcases (c.touches_iff e).1 ht with h | h
      · have := (htouch e he.1.1).1 h
        omega
      · exact hcne h)
    obtain ⟨b', t1, t2, t3⟩ := joinRound_take Q S hQ hJ ((S.filter fun e => j ≤ lev e).filter fun e => lev e = j).toList (by
        intro e he
        rw [Finset.mem_toList, Finset.mem_filter, Finset.mem_filter] at he
        exact he.1.1) c hc (∅ ∪ (((S.filter fun e => j ≤ lev e).filter fun e => lev e ≠ j).toList).toFinset) (by
      intro e he
      rw [Finset.mem_toList, Finset.mem_filter, Finset.mem_filter] at he
      exact (htouch e he.1.1).2 (by omega))
    have hnc : ∅ ∪ (((S.filter fun e => j ≤ lev e).filter fun e => lev e ≠ j).toList).toFinset = S.filter fun e => j + 1 ≤ lev e := by
      ext e
      simp only [Finset.empty_union, Finset.toList_toFinset, Finset.mem_filter]
      constructor
      · rintro ⟨⟨h1, h2⟩, h3⟩; exact ⟨h1, by omega⟩
      · rintro ⟨h1, h2⟩; exact ⟨⟨h1, by omega⟩, by omega⟩
    unfold joinEdges
    rw [hrun, hskip, t1, hnc]
    simp only
    have hj : ∃ e ∈ S, lev e = j := hocc j ⟨e0, he0, by omega⟩
    rw [if_neg, if_pos]
    · apply ih (j + 1) b' t2 ?_ ?_ ⟨e0, he0, by omega⟩
      · intro e he n hn
        rw [t3]
        constructor
        · rintro (h | ⟨x, hx, hnx⟩)
          · obtain ⟨k, hk, hd⟩ := (hball e he n hn).1 h
            exact ⟨k, by omega, hd⟩
          · rw [Finset.mem_toList, Finset.mem_filter, Finset.mem_filter] at hx
            obtain ⟨m, hm, hd⟩ := (hlev x hx.1.1).1
            rw [hx.2] at hd
            exact hd.adj_le ⟨x, hx.1.1, trivial, hm, hnx⟩
        · rintro ⟨k, hk, hd⟩
          by_cases hkj : k ≤ j
          · exact Or.inl ((hball e he n hn).2 ⟨k, hkj, hd⟩)
          · have : k = j + 1 := by omega
            subst this
            obtain ⟨m, hm, x, hx, -, hx1, hx2⟩ := hd.pred
            have hxl := (hlev x hx).2 m hx1 j hm
            by_cases hlt : lev x < j
            · left
              obtain ⟨y, hy, hyd⟩ := (hlev x hx).1
              obtain ⟨i, hi, hid⟩ := hyd.adj_le (m := n) ⟨x, hx, trivial, hy, hx2⟩
              exact (hball e he n hn).2 ⟨i, by omega, hid⟩
            · right
              refine ⟨x, ?_, hx2⟩
              rw [Finset.mem_toList, Finset.mem_filter, Finset.mem_filter]
              exact ⟨⟨hx, by omega⟩, by omega⟩
      · intro h
        obtain ⟨n, hn⟩ := Finset.nonempty_iff_ne_empty.2 hcne
        have := (t3 n).2 (Or.inl hn)
        rw [h] at this
        simp at this
    · intro h
      have : e0 ∈ S.filter fun e => j + 1 ≤ lev e := by rw [Finset.mem_filter]; exact ⟨he0, by omega⟩
      rw [h] at this
      simp at this
    · intro h
      obtain ⟨e, he, hk⟩ := hj
      have : e ∈ S.filter fun e => j ≤ lev e := by rw [Finset.mem_filter]; exact ⟨he, by omega⟩
      rw [h, Finset.mem_filter] at this
      omega

end Builder

end Verif
