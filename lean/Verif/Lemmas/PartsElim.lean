import Verif.Lemmas.TwoFactors
import Mathlib.Logic.Relation

/-!
# Elimination without elimination

The state of the elimination (`elimOk`) after a list of variables consists of the parts that are linked by these variables, so the result can be stated
without carrying it out.
-/

namespace Verif

section
variable {ι V : Type} [DecidableEq ι] [DecidableEq V] (I : Finset ι) (s : ι → Finset V) (E : ι → ι → Prop)

/-- One step: related, or with a common variable that satisfies `P`. -/
def LinkStep (P : V → Prop) (i j : ι) : Prop := i ∈ I ∧ j ∈ I ∧ (E i j ∨ ∃ r, P r ∧ r ∈ s i ∧ r ∈ s j)

/-- Linked by a chain of steps. -/
def LinkedBy (P : V → Prop) : ι → ι → Prop := Relation.ReflTransGen (LinkStep I s E P)

/-- `w` is a variable of the part of `i`. -/
def InPart (P : V → Prop) (i : ι) (w : V) : Prop := ∃ j, LinkedBy I s E P i j ∧ w ∈ s j

/-- The variables of a block. -/
def blockU (B : Finset ι) : Finset V := B.biUnion s

/-- The blocks are the parts. -/
structure PartInv (P : V → Prop) (Bs : List (Finset ι)) : Prop where
  nonempty : ∀ B ∈ Bs, B.Nonempty
  sub : ∀ B ∈ Bs, B ⊆ I
  cover : ∀ i ∈ I, ∃ B ∈ Bs, i ∈ B
  disj : Bs.Pairwise Disjoint
  cls : ∀ B ∈ Bs, ∀ i ∈ B, ∀ j, j ∈ B ↔ LinkedBy I s E P i j

/-- The blocks after the elimination of a variable. -/
def mergeBlocks (v : V) (Bs : List (Finset ι)) : List (Finset ι) :=
  (Bs.filter fun B => v ∈ blockU s B).foldr (· ∪ ·) ∅ :: Bs.filter fun B => v ∉ blockU s B

/-- No further variable is in two of the parts of `v` but not in all of them. -/
def GoodAt (T : Finset V) (P : V → Prop) (v : V) : Prop :=
  ∀ w ∈ T, ∀ i ∈ I, ∀ j ∈ I, ∀ k ∈ I, v ∈ s i → v ∈ s j → v ∈ s k → InPart I s E P i w → InPart I s E P j w →
    LinkedBy I s E P i j ∨ InPart I s E P k w

variable {I s E}

theorem LinkedBy.symm (hE : ∀ i j, E i j → E j i) {P : V → Prop} {i j : ι} (h : LinkedBy I s E P i j) : LinkedBy I s E P j i := by
  have hs : ∀ x y, LinkStep I s E P x y → LinkStep I s E P y x := by
    rintro x y ⟨hx, hy, h | ⟨r, h1, h2, h3⟩⟩
    · exact ⟨hy, hx, Or.inl (hE _ _ h)⟩
    · exact ⟨hy, hx, Or.inr ⟨r, h1, h3, h2⟩⟩
  induction h with
  | refl => exact .refl
  | tail _ h ih => exact .head (hs _ _ h) ih

theorem LinkedBy.mono {P Q : V → Prop} (hPQ : ∀ r, P r → Q r) {i j : ι} (h : LinkedBy I s E P i j) : LinkedBy I s E Q i j := by
  have hs : ∀ x y, LinkStep I s E P x y → LinkStep I s E Q x y := by
    rintro x y ⟨hx, hy, h | ⟨r, h1, h2⟩⟩
    · exact ⟨hx, hy, Or.inl h⟩
    · exact ⟨hx, hy, Or.inr ⟨r, hPQ r h1, h2⟩⟩
  induction h with
  | refl => exact .refl
  | tail _ h ih => exact .tail ih (hs _ _ h)

theorem LinkedBy.closed {P : V → Prop} {S : Finset ι} (hS : ∀ i j, i ∈ S → LinkStep I s E P i j → j ∈ S) {i j : ι} (h : LinkedBy I s E P i j) (hi : i ∈ S) :
    j ∈ S := by
  induction h with
  | refl => exact hi
  | tail _ h ih => exact hS _ _ ih h

theorem mem_foldr_blocks (Bs : List (Finset ι)) (i : ι) : i ∈ Bs.foldr (· ∪ ·) ∅ ↔ ∃ B ∈ Bs, i ∈ B := mem_foldr_union Bs i

theorem blockU_foldr (Bs : List (Finset ι)) : blockU s (Bs.foldr (· ∪ ·) ∅) = (Bs.map (blockU s)).foldr (· ∪ ·) ∅ := by
  ext w
  rw [mem_foldr_union]
  simp only [blockU, Finset.mem_biUnion, mem_foldr_blocks, List.mem_map]
  constructor
  · rintro ⟨i, ⟨B, hB, hi⟩, hw⟩; exact ⟨_, ⟨B, hB, rfl⟩, Finset.mem_biUnion.2 ⟨i, hi, hw⟩⟩
  · rintro ⟨_, ⟨B, hB, rfl⟩, hw⟩
    obtain ⟨i, hi, hw⟩ := Finset.mem_biUnion.1 hw
    exact ⟨i, ⟨B, hB, hi⟩, hw⟩

theorem map_mergeBlocks (v : V) (Bs : List (Finset ι)) : (mergeBlocks s v Bs).map (blockU s) =
    ((Bs.map (blockU s)).filter (v ∈ ·)).foldr (· ∪ ·) ∅ :: (Bs.map (blockU s)).filter (v ∉ ·) := by
  unfold mergeBlocks
  rw [List.map_cons, blockU_foldr, List.filter_map, List.filter_map]
  rfl

namespace PartInv
variable {P : V → Prop} {Bs : List (Finset ι)}

theorem block_unique (h : PartInv I s E P Bs) {B C : Finset ι} (hB : B ∈ Bs) (hC : C ∈ Bs) {i : ι} (hi : i ∈ B) (hi' : i ∈ C) : B = C := by
  ext j
  rw [h.cls B hB i hi, h.cls C hC i hi']

theorem nodup (h : PartInv I s E P Bs) : Bs.Nodup := by
  refine List.Pairwise.imp_of_mem ?_ h.disj
  rintro B C hB - hd rfl
  obtain ⟨i, hi⟩ := h.nonempty B hB
  exact Finset.disjoint_left.1 hd hi hi

theorem step (h : PartInv I s E P Bs) (hE : ∀ i j, E i j → E j i) {v : V} (hv : ∃ i ∈ I, v ∈ s i) : PartInv I s E (fun r => P r ∨ r = v) (mergeBlocks s v Bs) := by
  set M := (Bs.filter fun B => v ∈ blockU s B).foldr (· ∪ ·) ∅ with hM
  have memM : ∀ i, i ∈ M ↔ ∃ B ∈ Bs, v ∈ blockU s B ∧ i ∈ B := by
    intro i
    rw [hM, mem_foldr_blocks]
    simp only [List.mem_filter, decide_eq_true_eq, and_assoc]
  have hstep : ∀ B ∈ Bs, ∀ i j, i ∈ B → LinkStep I s E P i j → j ∈ B := by
    intro B hB i j hi hij
    exact (h.cls B hB i hi j).2 (Relation.ReflTransGen.single hij)
  have hmono : ∀ {i j}, LinkedBy I s E P i j → LinkedBy I s E (fun r => P r ∨ r = v) i j := fun h => h.mono fun _ => Or.inl
  refine ⟨?_, ?_, ?_, ?_, ?_⟩
  · intro B hB
    rcases List.mem_cons.1 hB with rfl | hB
    · obtain ⟨i, hi, hvi⟩ := hv
      obtain ⟨B, hB, hiB⟩ := h.cover i hi
      exact ⟨i, (memM i).2 ⟨B, hB, Finset.mem_biUnion.2 ⟨i, hiB, hvi⟩, hiB⟩⟩
    · exact h.nonempty B (List.mem_filter.1 hB).1
  · intro B hB
    rcases List.mem_cons.1 hB with rfl | hB
    · intro i hi
      obtain ⟨C, hC, -, hiC⟩ := (memM i).1 hi
      exact h.sub C hC hiC
    · exact h.sub B (List.mem_filter.1 hB).1
  · intro i hi
    obtain ⟨B, hB, hiB⟩ := h.cover i hi
    by_cases hvB : v ∈ blockU s B
    · exact ⟨M, List.mem_cons_self, (memM i).2 ⟨B, hB, hvB, hiB⟩⟩
    · exact ⟨B, List.mem_cons_of_mem _ (List.mem_filter.2 ⟨hB, by simpa using hvB⟩), hiB⟩
  · unfold mergeBlocks
    rw [List.pairwise_cons]
    refine ⟨?_, h.disj.filter _⟩
    intro B hB
    obtain ⟨hB1, hB2⟩ := List.mem_filter.1 hB
    rw [Finset.disjoint_left]
    intro i hi hiB
    obtain ⟨C, hC, hvC, hiC⟩ := (memM i).1 hi
    rw [h.block_unique hC hB1 hiC hiB] at hvC
    simp [hvC] at hB2
  · intro B hB i hi j
    rcases List.mem_cons.1 hB with rfl | hB
    · constructor
      · intro hj
        obtain ⟨C, hC, hvC, hiC⟩ := (memM i).1 hi
        obtain ⟨D, hD, hvD, hjD⟩ := (memM j).1 hj
        obtain ⟨i', hi', hvi'⟩ := Finset.mem_biUnion.1 hvC
        obtain ⟨j', hj', hvj'⟩ := Finset.mem_biUnion.1 hvD
        have h1 := hmono ((h.cls C hC i hiC i').1 hi')
        have h2 := hmono ((h.cls D hD j' hj' j).1 hjD)
        exact (Relation.ReflTransGen.tail h1 ⟨h.sub C hC hi', h.sub D hD hj', Or.inr ⟨v, Or.inr rfl, hvi', hvj'⟩⟩).trans h2
      · intro hl
        refine hl.closed (S := M) ?_ hi
        rintro x y hx ⟨hxI, hyI, hxy⟩
        obtain ⟨C, hC, hvC, hxC⟩ := (memM x).1 hx
        have hcase : LinkStep I s E P x y ∨ (v ∈ s x ∧ v ∈ s y) := by
          rcases hxy with h | ⟨r, h1 | rfl, h2, h3⟩
          · exact Or.inl ⟨hxI, hyI, Or.inl h⟩
          · exact Or.inl ⟨hxI, hyI, Or.inr ⟨r, h1, h2, h3⟩⟩
          · exact Or.inr ⟨h2, h3⟩
        rcases hcase with hs | ⟨-, hy⟩
        · exact (memM y).2 ⟨C, hC, hvC, hstep C hC x y hxC hs⟩
        · obtain ⟨D, hD, hyD⟩ := h.cover y hyI
          exact (memM y).2 ⟨D, hD, Finset.mem_biUnion.2 ⟨y, hyD, hy⟩, hyD⟩
    · obtain ⟨hB1, hB2⟩ := List.mem_filter.1 hB
      have hvB : v ∉ blockU s B := by simpa using hB2
      constructor
      · intro hj
        exact hmono ((h.cls B hB1 i hi j).1 hj)
      · intro hl
        refine hl.closed (S := B) ?_ hi
        rintro x y hx ⟨hxI, hyI, hxy⟩
        rcases hxy with hxy | ⟨r, h1 | rfl, h2, h3⟩
        · exact hstep B hB1 x y hx ⟨hxI, hyI, Or.inl hxy⟩
        · exact hstep B hB1 x y hx ⟨hxI, hyI, Or.inr ⟨r, h1, h2, h3⟩⟩
        · exact absurd (Finset.mem_biUnion.2 ⟨x, hx, h2⟩) hvB

theorem good_iff (h : PartInv I s E P Bs) (T : Finset V) (v : V) :
    (∀ w ∈ T, ¬ (2 ≤ ((Bs.map (blockU s)).filter (v ∈ ·)).countP (w ∈ ·) ∧
      ((Bs.map (blockU s)).filter (v ∈ ·)).countP (w ∈ ·) < ((Bs.map (blockU s)).filter (v ∈ ·)).length)) ↔ GoodAt I s E T P v := by
  have hpart : ∀ B ∈ Bs, ∀ i ∈ B, ∀ w, InPart I s E P i w ↔ w ∈ blockU s B := by
    intro B hB i hi w
    unfold InPart blockU
    rw [Finset.mem_biUnion]
    exact exists_congr fun j => and_congr_left fun _ => (h.cls B hB i hi j).symm
  refine forall₂_congr fun w hw => ?_
  rw [List.filter_map, List.countP_map, List.length_map]
  set A := Bs.filter ((fun x => decide (v ∈ x)) ∘ blockU s) with hA
  have memA : ∀ B, B ∈ A ↔ B ∈ Bs ∧ v ∈ blockU s B := by
    intro B; rw [hA, List.mem_filter]; simp
  have ndA : A.Nodup := h.nodup.filter _
  constructor
  · intro hno i hi j hj k hk vi vj vk wi wj
    by_contra hc
    push Not at hc
    obtain ⟨Bi, hBi, hiB⟩ := h.cover i hi
    obtain ⟨Bj, hBj, hjB⟩ := h.cover j hj
    obtain ⟨Bk, hBk, hkB⟩ := h.cover k hk
    have hv : ∀ {B x}, x ∈ B → v ∈ s x → v ∈ blockU s B := fun hx hv => Finset.mem_biUnion.2 ⟨_, hx, hv⟩
    refine hno ⟨?_, ?_⟩
    · rw [List.countP_eq_length_filter]
      have : [Bi, Bj].Subperm (A.filter ((fun x => decide (w ∈ x)) ∘ blockU s)) := by
        refine List.subperm_of_subset ?_ ?_
        · simp only [List.nodup_cons, List.mem_singleton, List.not_mem_nil, not_false_eq_true, List.nodup_nil, and_true]
          rintro rfl
          exact hc.1 ((h.cls _ hBi i hiB j).1 hjB)
        · intro B hB
          simp only [List.mem_cons, List.not_mem_nil, or_false] at hB
          rw [List.mem_filter, memA]
          rcases hB with rfl | rfl
          · exact ⟨⟨hBi, hv hiB vi⟩, by simpa using (hpart _ hBi i hiB w).1 wi⟩
          · exact ⟨⟨hBj, hv hjB vj⟩, by simpa using (hpart _ hBj j hjB w).1 wj⟩
      exact this.length_le
    · refine lt_of_le_of_ne List.countP_le_length fun he => ?_
      rw [List.countP_eq_length] at he
      have := he Bk ((memA _).2 ⟨hBk, hv hkB vk⟩)
      simp only [Function.comp_apply, decide_eq_true_eq] at this
      exact hc.2 ((hpart _ hBk k hkB w).2 this)
  · rintro hgood ⟨h1, h2⟩
    rw [List.countP_eq_length_filter] at h1
    have hnd2 := ndA.filter ((fun x => decide (w ∈ x)) ∘ blockU s)
    have hmem : ∀ B ∈ A.filter ((fun x => decide (w ∈ x)) ∘ blockU s), B ∈ Bs ∧ v ∈ blockU s B ∧ w ∈ blockU s B := by
      intro B hB
      rw [List.mem_filter, memA] at hB
      exact ⟨hB.1.1, hB.1.2, by simpa using hB.2⟩
    match hm : A.filter ((fun x => decide (w ∈ x)) ∘ blockU s), h1 with
    | B₁ :: B₂ :: r, _ =>
      rw [hm] at hmem hnd2
      obtain ⟨a1, a2, a3⟩ := hmem B₁ (by simp)
      obtain ⟨b1, b2, b3⟩ := hmem B₂ (by simp)
      obtain ⟨B₃, c1, c2⟩ : ∃ B ∈ A, ¬ (w ∈ blockU s B) := by
        by_contra hall
        push Not at hall
        refine h2.ne (List.countP_eq_length.2 ?_)
        intro B hB
        simpa using hall B hB
      rw [memA] at c1
      obtain ⟨i, hi, vi⟩ := Finset.mem_biUnion.1 a2
      obtain ⟨j, hj, vj⟩ := Finset.mem_biUnion.1 b2
      obtain ⟨k, hk, vk⟩ := Finset.mem_biUnion.1 c1.2
      rcases hgood i (h.sub _ a1 hi) j (h.sub _ b1 hj) k (h.sub _ c1.1 hk) vi vj vk ((hpart _ a1 i hi w).2 a3) ((hpart _ b1 j hj w).2 b3) with hl | hl
      · have := h.block_unique a1 b1 ((h.cls _ a1 i hi j).2 hl) hj
        simp [this] at hnd2
      · exact c2 ((hpart _ c1.1 k hk w).1 hl)

/-- The elimination succeeds exactly if it is good at each variable and all is linked in the end. -/
theorem elimOk_iff (hE : ∀ i j, E i j → E j i) (T : Finset V) (vs : List V) : ∀ {P : V → Prop} {Bs : List (Finset ι)}, PartInv I s E P Bs →
    (∀ v ∈ vs, ∃ i ∈ I, v ∈ s i) → (elimOk T vs (Bs.map (blockU s)) = true ↔
      (∀ i ∈ I, ∀ j ∈ I, LinkedBy I s E (fun r => P r ∨ r ∈ vs) i j) ∧
      ∀ pre v post, vs = pre ++ v :: post → GoodAt I s E T (fun r => P r ∨ r ∈ pre) v) := by
  induction vs with
  | nil =>
    intro P Bs h _
    rw [elimOk, decide_eq_true_eq, List.length_map]
    have hP : (fun r => P r ∨ r ∈ ([] : List V)) = P := by funext r; simp
    rw [hP]
    constructor
    · intro hlen
      refine ⟨?_, by simp⟩
      intro i hi j hj
      obtain ⟨B, hB, hiB⟩ := h.cover i hi
      obtain ⟨C, hC, hjC⟩ := h.cover j hj
      have : B = C := by
        match Bs, hlen with
        | [D], _ => rw [List.mem_singleton] at hB hC; rw [hB, hC]
      subst this
      exact (h.cls B hB i hiB j).1 hjC
    · rintro ⟨hall, -⟩
      match Bs with
      | [] => simp
      | [_] => simp
      | B :: C :: t =>
        exfalso
        obtain ⟨i, hi⟩ := h.nonempty B (by simp)
        obtain ⟨j, hj⟩ := h.nonempty C (by simp)
        have := (h.cls B (by simp) i hi j).2 (hall i (h.sub B (by simp) hi) j (h.sub C (by simp) hj))
        have hne := h.block_unique (by simp) (by simp) this hj
        have := h.nodup
        simp [hne] at this
  | cons v vs ih =>
    intro P Bs h hvs
    rw [elimOk, Bool.and_eq_true, decide_eq_true_eq, h.good_iff T v, ← map_mergeBlocks,
      ih (h.step hE (hvs v List.mem_cons_self)) fun w hw => hvs w (List.mem_cons_of_mem _ hw)]
    have hP : ∀ l : List V, (fun r => (P r ∨ r = v) ∨ r ∈ l) = fun r => P r ∨ r ∈ v :: l := by
      intro l; funext r; simp only [List.mem_cons, eq_iff_iff, or_assoc]
    have hP0 : (fun r => P r ∨ r ∈ ([] : List V)) = P := by funext r; simp
    simp only [hP]
    constructor
    · rintro ⟨h1, h2, h3⟩
      refine ⟨h2, ?_⟩
      intro pre u post he
      match pre, he with
      | [], he =>
        simp only [List.nil_append, List.cons.injEq] at he
        rw [hP0, ← he.1]; exact h1
      | x :: pre, he =>
        simp only [List.cons_append, List.cons.injEq] at he
        rw [← he.1]; exact h3 pre u post he.2
    · rintro ⟨h1, h2⟩
      refine ⟨?_, h1, ?_⟩
      · have := h2 [] v vs rfl
        rwa [hP0] at this
      · intro pre u post he
        exact h2 (v :: pre) u post (by rw [he]; rfl)

end PartInv
end

end Verif
