import Verif.Spec.Distance
import Verif.Lemmas.Builder
import Verif.Props.SampleGraph

/-!
# Lemmas about `belt_nodes` and `external_nodes`
-/

set_option linter.unusedSectionVars false

namespace Verif
variable {V X R : Type} [DecidableEq V] [DecidableEq X] [DecidableEq R]

/-- The table of one belt: `n ↦ es`. -/
def BeltOf (E : Finset (Edge V X R)) (f : Option (Finset (Rel V R))) (C : Finset (Node V X)) (n : Node V X)
    (es : Finset (Edge V X R)) : Prop :=
  n ∉ C ∧ es.Nonempty ∧
  ∀ e, e ∈ es ↔ e ∈ E ∧ Allowed f e.relation ∧ n ∈ e.endpoints ∧ ∃ m ∈ e.endpoints, m ∈ C

theorem BeltOf.unique {E : Finset (Edge V X R)} {f : Option (Finset (Rel V R))} {C : Finset (Node V X)} {n : Node V X}
    {es es' : Finset (Edge V X R)} (h : BeltOf E f C n es) (h' : BeltOf E f C n es') : es = es' := by
  ext e; rw [h.2.2, h'.2.2]

/-- For an edge of two endpoints, one endpoint outside `C` means: that one outside and another inside. -/
theorem dif_card_one (e : Edge V X R) (hg : GoodEdge e) (C : Finset (Node V X)) (n : Node V X) :
    e.endpoints \ C = {n} ↔ n ∈ e.endpoints ∧ n ∉ C ∧ ∃ m ∈ e.endpoints, m ∈ C := by
  obtain ⟨a, b, hab, he⟩ := hg
  have hne : a ≠ b := fun h => hab (by rw [h])
  rw [he]
  constructor
  · intro h
    have hn : n ∈ ({a, b} : Finset (Node V X)) \ C := by rw [h]; simp
    rw [Finset.mem_sdiff] at hn
    refine ⟨hn.1, hn.2, ?_⟩
    by_contra hc
    push Not at hc
    have h1 : a ∈ ({a, b} : Finset (Node V X)) \ C := Finset.mem_sdiff.2 ⟨by simp, hc a (by simp)⟩
    have h2 : b ∈ ({a, b} : Finset (Node V X)) \ C := Finset.mem_sdiff.2 ⟨by simp, hc b (by simp)⟩
    rw [h, Finset.mem_singleton] at h1 h2
    exact hne (h1.trans h2.symm)
  · rintro ⟨hn, hnC, m, hm, hmC⟩
    ext x
    simp only [Finset.mem_sdiff, Finset.mem_insert, Finset.mem_singleton] at hn hm ⊢
    constructor
    · rintro ⟨hx, hxC⟩
      rcases hn with rfl | rfl <;> rcases hm with rfl | rfl <;> rcases hx with rfl | rfl <;> first | rfl | contradiction
    · rintro rfl; exact ⟨hn, hnC⟩

namespace SampleGraph

theorem belt_fold (oN : Order (Node V X)) (C : Finset (Node V X)) (f : Option (Finset (Rel V R))) :
    ∀ (l : List (Edge V X R)) (S : Finset (Edge V X R)) (acc : Dict (Node V X) (Finset (Edge V X R))),
      (∀ e ∈ l, GoodEdge e) → l.Nodup → (∀ e ∈ l, e ∉ S) → (∀ n es, acc.get? n = some es ↔ BeltOf S f C n es) →
      ∃ d, l.foldlM (beltStep oN C f) acc = .ok d ∧ ∀ n es, d.get? n = some es ↔ BeltOf (S ∪ l.toFinset) f C n es := by
  intro l
  induction l with
  | nil => intro S acc _ _ _ h; exact ⟨acc, rfl, by simpa using h⟩
  | cons e t ih =>
    intro S acc hg hnd hnS hacc
    rw [List.nodup_cons] at hnd
    have hge := hg e (by simp)
    have heS := hnS e (by simp)
    have heS' : S ∪ (e :: t).toFinset = insert e S ∪ t.toFinset := by ext x; simp
    have next : ∀ acc', beltStep oN C f acc e = .ok acc' →
        (∀ n es, acc'.get? n = some es ↔ BeltOf (insert e S) f C n es) →
        ∃ d, (e :: t).foldlM (beltStep oN C f) acc = .ok d ∧
          ∀ n es, d.get? n = some es ↔ BeltOf (S ∪ (e :: t).toFinset) f C n es := by
      intro acc' h1 h2
      obtain ⟨d, hd, hd'⟩ := ih (insert e S) acc' (fun x hx => hg x (by simp [hx])) hnd.2 (by
        intro x hx
        rw [Finset.mem_insert]
        rintro (rfl | h)
        · exact hnd.1 hx
        · exact hnS x (by simp [hx]) h) h2
      refine ⟨d, ?_, ?_⟩
      · rw [List.foldlM_cons, h1]; exact hd
      · rw [heS']; exact hd'
    -- an edge that contributes nothing
    have skip : ¬ (Allowed f e.relation ∧ ∃ n, e.endpoints \ C = {n}) →
        ∀ n es, acc.get? n = some es ↔ BeltOf (insert e S) f C n es := by
      intro hno n es
      rw [hacc]
      have : n ∉ C → ∀ e', (e' ∈ S ∧ Allowed f e'.relation ∧ n ∈ e'.endpoints ∧ ∃ m ∈ e'.endpoints, m ∈ C) ↔
          (e' ∈ insert e S ∧ Allowed f e'.relation ∧ n ∈ e'.endpoints ∧ ∃ m ∈ e'.endpoints, m ∈ C) := by
        intro hnC e'
        rw [Finset.mem_insert]
        constructor
        · rintro ⟨h1, h2⟩; exact ⟨Or.inr h1, h2⟩
        · rintro ⟨rfl | h1, h2⟩
          · exact absurd ⟨h2.1, n, (dif_card_one e' hge C n).2 ⟨h2.2.1, hnC, h2.2.2⟩⟩ hno
          · exact ⟨h1, h2⟩
      unfold BeltOf
      constructor
      · rintro ⟨h1, h2, h3⟩; exact ⟨h1, h2, fun e' => (h3 e').trans (this h1 e')⟩
      · rintro ⟨h1, h2, h3⟩; exact ⟨h1, h2, fun e' => (h3 e').trans (this h1 e').symm⟩
    by_cases hal : Allowed f e.relation
    · by_cases hc : (e.endpoints \ C).card = 1
      · obtain ⟨node, hnode⟩ := Finset.card_eq_one.1 hc
        obtain ⟨hn1, hn2, hn3⟩ := (dif_card_one e hge C node).1 hnode
        have hother : ∀ n, n ≠ node → n ∉ C → n ∉ e.endpoints := by
          intro n hn hnC hne
          have : n ∈ e.endpoints \ C := Finset.mem_sdiff.2 ⟨hne, hnC⟩
          rw [hnode, Finset.mem_singleton] at this
          exact hn this
        -- the table for other nodes does not change
        have hkeep : ∀ n es, n ≠ node → (BeltOf S f C n es ↔ BeltOf (insert e S) f C n es) := by
          intro n es hn
          unfold BeltOf
          refine and_congr_right fun hnC => and_congr_right fun _ => forall_congr' fun e' => iff_congr Iff.rfl ?_
          rw [Finset.mem_insert]
          constructor
          · rintro ⟨h1, h2⟩; exact ⟨Or.inr h1, h2⟩
          · rintro ⟨rfl | h1, h2⟩
            · exact absurd h2.2.1 (hother n hn hnC)
            · exact ⟨h1, h2⟩
        have hstep : beltStep oN C f acc e = match acc.get? node with
            | some es => if e ∈ es then .error .assertion else .ok (acc.set node (insert e es))
            | none => .ok (acc.set node {e}) := by
          unfold beltStep
          rw [if_pos ((relAllowed_iff f e.relation).2 hal)]
          simp only [hnode, Finset.card_singleton, if_true, Order.run_singleton]
          rfl
        cases hget : acc.get? node with
        | some es =>
          have hB := (hacc node es).1 hget
          have hnot : e ∉ es := fun h => heS ((hB.2.2 e).1 h).1
          rw [hget] at hstep
          refine next (acc.set node (insert e es)) (by simp only [hstep, hnot, if_false]) ?_
          intro n es'
          have hBnew : BeltOf (insert e S) f C node (insert e es) := by
            refine ⟨hB.1, Finset.insert_nonempty _ _, fun e' => ?_⟩
            rw [Finset.mem_insert, Finset.mem_insert, hB.2.2]
            constructor
            · rintro (rfl | ⟨h1, h2⟩)
              · exact ⟨Or.inl rfl, hal, hn1, hn3⟩
              · exact ⟨Or.inr h1, h2⟩
            · rintro ⟨rfl | h1, h2⟩
              · exact Or.inl rfl
              · exact Or.inr ⟨h1, h2⟩
          rw [Dict.get?_set]
          split
          · rename_i h; subst h
            simp only [Option.some.injEq]
            constructor
            · rintro rfl; exact hBnew
            · intro h; exact hBnew.unique h
          · rename_i h
            rw [hacc, hkeep n es' (fun h' => h h'.symm)]
        | none =>
          rw [hget] at hstep
          refine next (acc.set node {e}) hstep ?_
          intro n es'
          have hBnew : BeltOf (insert e S) f C node {e} := by
            refine ⟨hn2, Finset.singleton_nonempty _, fun e' => ?_⟩
            rw [Finset.mem_insert, Finset.mem_singleton]
            constructor
            · rintro rfl; exact ⟨Or.inl rfl, hal, hn1, hn3⟩
            · rintro ⟨rfl | h1, h2⟩
              · rfl
              · exfalso
                classical
                have : BeltOf S f C node (S.filter fun e' => Allowed f e'.relation ∧ node ∈ e'.endpoints ∧
                    ∃ m ∈ e'.endpoints, m ∈ C) :=
                  ⟨hn2, ⟨e', Finset.mem_filter.2 ⟨h1, h2⟩⟩, fun e'' => by rw [Finset.mem_filter]⟩
                rw [← hacc, hget] at this
                simp at this
          rw [Dict.get?_set]
          split
          · rename_i h; subst h
            simp only [Option.some.injEq]
            constructor
            · rintro rfl; exact hBnew
            · intro h; exact hBnew.unique h
          · rename_i h
            rw [hacc, hkeep n es' (fun h' => h h'.symm)]
      · refine next acc ?_ (skip ?_)
        · unfold beltStep
          rw [if_pos ((relAllowed_iff f e.relation).2 hal)]
          simp only [hc, if_false]
        · rintro ⟨-, n, hn⟩; apply hc; rw [hn]; simp
    · refine next acc ?_ (skip fun h => hal h.1)
      unfold beltStep
      rw [if_neg]
      rw [relAllowed_iff]; exact hal

theorem beltNodes_spec (oN : Order (Node V X)) (oE : Order (Edge V X R)) (g : SampleGraph V X R)
    (hg : ∀ e ∈ g.edges, GoodEdge e) (C : Finset (Node V X)) (hC : C ≠ ∅) (f : Option (Finset (Rel V R))) :
    ∃ d, g.beltNodes oN oE C f = .ok d ∧ ∀ n es, d.get? n = some es ↔ BeltOf g.edges f C n es := by
  obtain ⟨d, h1, h2⟩ := belt_fold oN C f (oE.run g.edges) ∅ Dict.empty (fun e he => hg e ((oE.mem _ _).1 he))
    (oE.nodup _) (by simp) (by
      intro n es
      simp only [Dict.get?_empty, reduceCtorEq, false_iff]
      rintro ⟨-, ⟨e, he⟩, h⟩
      exact absurd ((h e).1 he).1 (by simp))
  refine ⟨d, ?_, ?_⟩
  · unfold beltNodes; rw [if_neg hC]; exact h1
  · rw [oE.toFinset_run, Finset.empty_union] at h2; exact h2

end SampleGraph

/-! ### Distances -/

section dist
variable {E : Finset (Edge V X R)} {f : Option (Finset (Rel V R))} {C : Finset (Node V X)}

theorem DistIs.zero_iff (n : Node V X) : DistIs E f C n 0 ↔ n ∈ C := by
  constructor
  · rintro ⟨⟨c, hc, hw⟩, -⟩; cases hw; exact hc
  · intro h; exact ⟨⟨n, h, rfl⟩, by simp⟩

theorem DistIs.unique {n : Node V X} {k j : ℕ} (h : DistIs E f C n k) (h' : DistIs E f C n j) : k = j := by
  rcases lt_trichotomy k j with hl | rfl | hl
  · exact absurd h.1 (h'.2 k hl)
  · rfl
  · exact absurd h'.1 (h.2 j hl)

theorem DistIs.exists_le {n : Node V X} {k : ℕ} (h : ∃ c ∈ C, Walk E f k c n) : ∃ j ≤ k, DistIs E f C n j := by
  classical
  exact ⟨Nat.find ⟨k, h⟩, Nat.find_le h, Nat.find_spec (⟨k, h⟩ : ∃ k, ∃ c ∈ C, Walk E f k c n),
    fun j hj => Nat.find_min (⟨k, h⟩ : ∃ k, ∃ c ∈ C, Walk E f k c n) hj⟩

theorem DistIs.adj_le {n m : Node V X} {k : ℕ} (h : DistIs E f C n k) (ha : Adj E f n m) :
    ∃ j ≤ k + 1, DistIs E f C m j := by
  obtain ⟨c, hc, hw⟩ := h.1
  exact DistIs.exists_le ⟨c, hc, n, hw, ha⟩

theorem DistIs.pred {n : Node V X} {k : ℕ} (h : DistIs E f C n (k + 1)) : ∃ m, DistIs E f C m k ∧ Adj E f m n := by
  obtain ⟨c, hc, m, hw, ha⟩ := h.1
  obtain ⟨j, hj, hd⟩ := DistIs.exists_le ⟨c, hc, hw⟩
  obtain ⟨i, hi, hd'⟩ := hd.adj_le ha
  have := hd'.unique h
  have : j = k := by omega
  subst this
  exact ⟨m, hd, ha⟩

/-- First step instead of last step. -/
theorem Walk.cons {k : ℕ} {a b c : Node V X} (h : Adj E f a b) (hw : Walk E f k b c) : Walk E f (k + 1) a c := by
  induction k generalizing c with
  | zero => cases hw; exact ⟨a, rfl, h⟩
  | succ k ih => obtain ⟨d, hd, hdc⟩ := hw; exact ⟨d, ih hd, hdc⟩

theorem DistIs.one_iff (n : Node V X) : DistIs E f C n 1 ↔ n ∉ C ∧ ∃ m ∈ C, Adj E f m n := by
  constructor
  · intro h
    obtain ⟨m, hm, ha⟩ := h.pred
    rw [DistIs.zero_iff] at hm
    refine ⟨fun hn => ?_, m, hm, ha⟩
    have := h.unique ((DistIs.zero_iff n).2 hn)
    omega
  · rintro ⟨hn, m, hm, ha⟩
    refine ⟨⟨m, hm, m, rfl, ha⟩, fun j hj => ?_⟩
    have : j = 0 := by omega
    subst this
    rintro ⟨c, hc, hw⟩
    cases hw; exact hn hc

/-- Distances from the set extended by its first layer. -/
theorem distIs_extend (D : Finset (Node V X)) (hD : ∀ n, n ∈ D ↔ n ∈ C ∨ DistIs E f C n 1) (n : Node V X) (k : ℕ) :
    DistIs E f D n (k + 1) ↔ DistIs E f C n (k + 2) := by
  -- walks from D of length k give walks from C of length k or k + 1
  have up : ∀ k n, (∃ c ∈ D, Walk E f k c n) → (∃ c ∈ C, Walk E f k c n) ∨ (∃ c ∈ C, Walk E f (k + 1) c n) := by
    rintro k n ⟨c, hc, hw⟩
    rcases (hD c).1 hc with h | h
    · exact Or.inl ⟨c, h, hw⟩
    · obtain ⟨-, m, hm, ha⟩ := (DistIs.one_iff c).1 h
      exact Or.inr ⟨m, hm, hw.cons ha⟩
  have down : ∀ k n, (∃ c ∈ C, Walk E f (k + 1) c n) → ∃ j ≤ k, ∃ c ∈ D, Walk E f j c n := by
    intro k
    induction k with
    | zero =>
      rintro n ⟨c, hc, m, hw, ha⟩
      cases hw
      refine ⟨0, le_refl _, n, (hD n).2 ?_, rfl⟩
      by_cases hn : n ∈ C
      · exact Or.inl hn
      · exact Or.inr ((DistIs.one_iff n).2 ⟨hn, c, hc, ha⟩)
    | succ k ih =>
      rintro n ⟨c, hc, m, hw, ha⟩
      obtain ⟨j, hj, d, hd, hw'⟩ := ih m ⟨c, hc, hw⟩
      exact ⟨j + 1, by omega, d, hd, m, hw', ha⟩
  have sub : ∀ k n, (∃ c ∈ C, Walk E f k c n) → ∃ c ∈ D, Walk E f k c n := by
    rintro k n ⟨c, hc, hw⟩; exact ⟨c, (hD c).2 (Or.inl hc), hw⟩
  constructor
  · rintro ⟨h1, h2⟩
    have hno : ∀ j ≤ k + 1, ¬ ∃ c ∈ C, Walk E f j c n := by
      intro j hj hw
      cases j with
      | zero => exact h2 0 (by omega) (sub _ _ hw)
      | succ j =>
        obtain ⟨i, hi, hw'⟩ := down j n hw
        exact h2 i (by omega) hw'
    rcases up _ _ h1 with h | h
    · exact absurd h (hno _ (le_refl _))
    · exact ⟨h, fun j hj => hno j (by omega)⟩
  · rintro ⟨h1, h2⟩
    obtain ⟨j, hj, hw⟩ := down _ _ h1
    have hno : ∀ i < k + 1, ¬ ∃ c ∈ D, Walk E f i c n := by
      intro i hi hw'
      rcases up _ _ hw' with h | h
      · exact h2 i (by omega) h
      · exact h2 (i + 1) (by omega) h
    have : j = k + 1 := by
      by_contra hne
      exact hno j (by omega) hw
    subst this
    exact ⟨hw, hno⟩

end dist

/-- The table of `external_nodes`: `n ↦ es`. -/
def LayerOf (E : Finset (Edge V X R)) (f : Option (Finset (Rel V R))) (C : Finset (Node V X)) (n : Node V X)
    (es : Finset (Edge V X R)) : Prop :=
  ∃ k, DistIs E f C n (k + 1) ∧
    ∀ e, e ∈ es ↔ e ∈ E ∧ Allowed f e.relation ∧ n ∈ e.endpoints ∧ ∃ m ∈ e.endpoints, DistIs E f C m k

theorem beltOf_iff (E : Finset (Edge V X R)) (f : Option (Finset (Rel V R))) (C : Finset (Node V X)) (n : Node V X)
    (es : Finset (Edge V X R)) : BeltOf E f C n es ↔ DistIs E f C n 1 ∧
      ∀ e, e ∈ es ↔ e ∈ E ∧ Allowed f e.relation ∧ n ∈ e.endpoints ∧ ∃ m ∈ e.endpoints, DistIs E f C m 0 := by
  simp only [DistIs.one_iff, DistIs.zero_iff]
  constructor
  · rintro ⟨h1, ⟨e, he⟩, h3⟩
    obtain ⟨h4, h5, h6, m, hm, hmC⟩ := (h3 e).1 he
    exact ⟨⟨h1, m, hmC, e, h4, h5, hm, h6⟩, h3⟩
  · rintro ⟨⟨h1, m, hmC, e, h4, h5, h6, h7⟩, h3⟩
    exact ⟨h1, ⟨e, (h3 e).2 ⟨h4, h5, h7, m, h6, hmC⟩⟩, h3⟩

theorem layerOf_extend (E : Finset (Edge V X R)) (f : Option (Finset (Rel V R))) (C D : Finset (Node V X))
    (hD : ∀ n, n ∈ D ↔ n ∈ C ∨ DistIs E f C n 1) (n : Node V X) (es : Finset (Edge V X R)) :
    LayerOf E f C n es ↔ BeltOf E f C n es ∨ LayerOf E f D n es := by
  rw [beltOf_iff]
  have key : ∀ k, DistIs E f C n (k + 2) → ((∀ e, e ∈ es ↔ e ∈ E ∧ Allowed f e.relation ∧ n ∈ e.endpoints ∧
      ∃ m ∈ e.endpoints, DistIs E f C m (k + 1)) ↔ (∀ e, e ∈ es ↔ e ∈ E ∧ Allowed f e.relation ∧ n ∈ e.endpoints ∧
      ∃ m ∈ e.endpoints, DistIs E f D m k)) := by
    intro k hk
    refine forall_congr' fun e => iff_congr Iff.rfl <| and_congr_right fun he => and_congr_right fun hal =>
      and_congr_right fun hn => exists_congr fun m => and_congr_right fun hm => ?_
    cases k with
    | zero =>
      rw [DistIs.zero_iff, hD]
      constructor
      · exact Or.inr
      · rintro (h | h)
        · exfalso
          obtain ⟨j, hj, hd⟩ := ((DistIs.zero_iff m).2 h).adj_le ⟨e, he, hal, hm, hn⟩
          have := hd.unique hk
          omega
        · exact h
    | succ k => exact (distIs_extend D hD m k).symm
  constructor
  · rintro ⟨k, hk, h⟩
    cases k with
    | zero => exact Or.inl ⟨hk, h⟩
    | succ k => exact Or.inr ⟨k, (distIs_extend D hD n k).2 hk, (key k hk).1 h⟩
  · rintro (⟨h1, h2⟩ | ⟨k, hk, h⟩)
    · exact ⟨0, h1, h2⟩
    · have hk' := (distIs_extend D hD n k).1 hk
      exact ⟨k + 1, hk', (key k hk').2 h⟩

namespace SampleGraph

/-- Merging tables with disjoint keys. -/
theorem merge_disjoint : ∀ (l : List (Node V X × Finset (Edge V X R))) (acc : Dict (Node V X) (Finset (Edge V X R))),
    (l.map Prod.fst).Nodup → (∀ p ∈ l, acc.get? p.1 = none) →
    ∃ d, l.foldlM mergeStep acc = .ok d ∧ ∀ n es, d.get? n = some es ↔ acc.get? n = some es ∨ (n, es) ∈ l := by
  intro l
  induction l with
  | nil => intro acc _ _; exact ⟨acc, rfl, by simp⟩
  | cons p t ih =>
    intro acc hnd hno
    rw [List.map_cons, List.nodup_cons] at hnd
    have hp := hno p (by simp)
    obtain ⟨d, h1, h2⟩ := ih (acc.set p.1 p.2) hnd.2 (by
      intro q hq
      rw [Dict.get?_set_ne _ _ (by rintro h; exact hnd.1 (h ▸ List.mem_map_of_mem hq))]
      exact hno q (by simp [hq]))
    refine ⟨d, ?_, fun n es => ?_⟩
    · rw [List.foldlM_cons]
      have : mergeStep acc p = .ok (acc.set p.1 p.2) := by unfold mergeStep; rw [hp]
      rw [this]; exact h1
    · rw [h2, Dict.get?_set, List.mem_cons]
      split
      · rename_i h; subst h
        rw [hp]
        simp only [Option.some.injEq, reduceCtorEq, false_or]
        constructor
        · rintro (rfl | h)
          · exact Or.inl rfl
          · exact Or.inr h
        · rintro (h | h)
          · left; rw [← h]
          · exact Or.inr h
      · rename_i h
        have : (n, es) ≠ p := fun h' => h (by rw [← h'])
        simp [this]

theorem externalNodesFuel_spec (oN : Order (Node V X)) (oE : Order (Edge V X R)) (g : SampleGraph V X R)
    (hg : ∀ e ∈ g.edges, GoodEdge e) (f : Option (Finset (Rel V R))) :
    ∀ (fuel : ℕ) (C : Finset (Node V X)), C ≠ ∅ → ((g.edges.biUnion Edge.endpoints) \ C).card < fuel →
    ∃ d, g.externalNodesFuel oN oE f fuel C = .ok d ∧ ∀ n es, d.get? n = some es ↔ LayerOf g.edges f C n es := by
  intro fuel
  induction fuel with
  | zero => intro C _ h; omega
  | succ fuel ih =>
    intro C hC hfuel
    obtain ⟨acc, ha, hacc⟩ := g.beltNodes_spec oN oE hg C hC f
    have hkeys : ∀ n, n ∈ acc.keys ↔ DistIs g.edges f C n 1 := by
      intro n
      rw [Dict.mem_keys]
      constructor
      · rintro ⟨es, hes⟩; exact ((beltOf_iff _ _ _ _ _).1 ((hacc n es).1 hes)).1
      · intro h
        classical
        refine ⟨g.edges.filter fun e => Allowed f e.relation ∧ n ∈ e.endpoints ∧ ∃ m ∈ e.endpoints, DistIs g.edges f C m 0, ?_⟩
        rw [hacc, beltOf_iff]
        exact ⟨h, fun e => by rw [Finset.mem_filter]⟩
    unfold externalNodesFuel
    rw [ha]
    simp only
    by_cases he : acc.entries = []
    · rw [if_neg (by simpa using he)]
      refine ⟨Dict.empty, rfl, fun n es => ?_⟩
      simp only [Dict.get?_empty, reduceCtorEq, false_iff]
      rintro ⟨k, hk, -⟩
      -- no node at distance one, hence none further
      have none1 : ∀ m, ¬ DistIs g.edges f C m 1 := by
        intro m hm
        rw [← hkeys] at hm
        simp [Dict.keys, he] at hm
      have : ∀ k m, ¬ DistIs g.edges f C m (k + 1) := by
        intro k
        induction k with
        | zero => exact none1
        | succ k ih2 => intro m hm; obtain ⟨m', hm', -⟩ := hm.pred; exact ih2 m' hm'
      exact this k n hk
    · rw [if_pos he]
      set D := C ∪ acc.keys.toFinset with hDdef
      have hD : ∀ n, n ∈ D ↔ n ∈ C ∨ DistIs g.edges f C n 1 := by
        intro n; rw [hDdef, Finset.mem_union, List.mem_toFinset, hkeys]
      obtain ⟨p, hp⟩ := List.exists_mem_of_ne_nil _ he
      have hpk : p.1 ∈ acc.keys := List.mem_map_of_mem hp
      have hp1 := (DistIs.one_iff p.1).1 ((hkeys p.1).1 hpk)
      have hlt : ((g.edges.biUnion Edge.endpoints) \ D).card < ((g.edges.biUnion Edge.endpoints) \ C).card := by
        apply Finset.card_lt_card
        rw [Finset.ssubset_iff_of_subset]
        · refine ⟨p.1, ?_, ?_⟩
          · rw [Finset.mem_sdiff, Finset.mem_biUnion]
            obtain ⟨h1, m, hm, e, he1, he2, he3, he4⟩ := hp1
            exact ⟨⟨e, he1, he4⟩, h1⟩
          · rw [Finset.mem_sdiff, not_and_not_right]
            intro _
            exact (hD p.1).2 (Or.inr ((hkeys p.1).1 hpk))
        · exact Finset.sdiff_subset_sdiff (le_refl _) Finset.subset_union_left
      have hDne : D ≠ ∅ := by
        intro h
        rw [hDdef, Finset.union_eq_empty] at h
        exact hC h.1
      obtain ⟨rest, hr, hrest⟩ := ih D hDne (by omega)
      rw [hr]
      simp only
      obtain ⟨d, h1, h2⟩ := merge_disjoint rest.entries acc rest.nodup (by
        intro q hq
        rw [Dict.get?_eq_none, hkeys]
        intro hq1
        obtain ⟨k, hk, -⟩ := (hrest q.1 q.2).1 ((rest.mem_entries' q).1 hq)
        have := ((distIs_extend D hD q.1 k).1 hk).unique hq1
        omega)
      refine ⟨d, h1, fun n es => ?_⟩
      rw [h2, rest.mem_entries, hacc, hrest, ← layerOf_extend _ _ _ _ hD]

theorem externalNodes_spec (oN : Order (Node V X)) (oE : Order (Edge V X R)) (g : SampleGraph V X R)
    (hg : ∀ e ∈ g.edges, GoodEdge e) (C : Finset (Node V X)) (hC : C ≠ ∅) (f : Option (Finset (Rel V R))) :
    ∃ d, g.externalNodes oN oE C f = .ok d ∧ ∀ n es, d.get? n = some es ↔ LayerOf g.edges f C n es := by
  apply externalNodesFuel_spec oN oE g hg f _ C hC
  exact Nat.lt_succ_of_le (Finset.card_le_card Finset.sdiff_subset)

end SampleGraph
end Verif
