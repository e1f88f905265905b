import Verif.Model.SpacePower
import Verif.Lemmas.Builder
import Mathlib.Data.Finset.Powerset
import Mathlib.Data.Finset.Prod
import Mathlib.Data.Nat.Choose.Sum
import Mathlib.Algebra.Group.Action.Defs
import Mathlib.Algebra.BigOperators.Group.Finset.Powerset
import Mathlib.Algebra.BigOperators.Ring.Finset
import Mathlib.Algebra.Order.BigOperators.Ring.Finset
import Mathlib.Tactic.Ring
import Mathlib.Tactic.FieldSimp
import Mathlib.Tactic.Linarith

/-!
# Counting connected coloured graphs
-/

set_option linter.unusedSectionVars false
set_option linter.style.openClassical false

namespace Verif
open Relation Finset

section
variable {N R : Type} [DecidableEq N] [DecidableEq R]

/-- Partial maps from `P` to `rels`, as sets of pairs. -/
def partials {A : Type} [DecidableEq A] (P : Finset A) (rels : Finset R) : Finset (Finset (A × R)) :=
  (P ×ˢ rels).powerset.filter fun E => ∀ e ∈ E, ∀ e' ∈ E, e.1 = e'.1 → e = e'

theorem mem_partials {A : Type} [DecidableEq A] (P : Finset A) (rels : Finset R) (E : Finset (A × R)) :
    E ∈ partials P rels ↔ (∀ e ∈ E, e.1 ∈ P ∧ e.2 ∈ rels) ∧ ∀ e ∈ E, ∀ e' ∈ E, e.1 = e'.1 → e = e' := by
  unfold partials
  rw [mem_filter, mem_powerset]
  refine and_congr_left fun _ => ?_
  constructor
  · intro h e he; exact mem_product.1 (h he)
  · intro h e he; exact mem_product.2 (h e he)

theorem card_partials {A : Type} [DecidableEq A] (P : Finset A) (rels : Finset R) :
    (partials P rels).card = (rels.card + 1) ^ P.card := by
  induction P using Finset.induction_on with
  | empty =>
    have : partials (∅ : Finset A) rels = {∅} := by
      ext E
      rw [mem_partials, mem_singleton]
      constructor
      · rintro ⟨h, -⟩
        rw [eq_empty_iff_forall_notMem]
        intro e he; simpa using (h e he).1
      · rintro rfl; simp
    simp [this]
  | insert p P hp ih =>
    have hsplit : partials (insert p P) rels =
        partials P rels ∪ rels.biUnion fun r => (partials P rels).image (insert (p, r)) := by
      ext E
      simp only [mem_union, mem_biUnion, mem_image]
      constructor
      · intro hE
        obtain ⟨h1, h2⟩ := (mem_partials _ _ _).1 hE
        by_cases hex : ∃ e ∈ E, e.1 = p
        · obtain ⟨e, he, hep⟩ := hex
          right
          refine ⟨e.2, (h1 e he).2, E.erase e, ?_, ?_⟩
          · rw [mem_partials]
            refine ⟨?_, fun a ha b hb => h2 a (mem_of_mem_erase ha) b (mem_of_mem_erase hb)⟩
            intro a ha
            have ha' := mem_of_mem_erase ha
            refine ⟨?_, (h1 a ha').2⟩
            rcases mem_insert.1 (h1 a ha').1 with h | h
            · exact absurd (h2 a ha' e he (h.trans hep.symm)) (ne_of_mem_erase ha)
            · exact h
          · rw [← hep]; exact insert_erase he
        · left
          push Not at hex
          rw [mem_partials]
          refine ⟨fun e he => ⟨?_, (h1 e he).2⟩, h2⟩
          rcases mem_insert.1 (h1 e he).1 with h | h
          · exact absurd h (hex e he)
          · exact h
      · rintro (hE | ⟨r, hr, E', hE', rfl⟩)
        · obtain ⟨h1, h2⟩ := (mem_partials _ _ _).1 hE
          rw [mem_partials]
          exact ⟨fun e he => ⟨mem_insert_of_mem (h1 e he).1, (h1 e he).2⟩, h2⟩
        · obtain ⟨h1, h2⟩ := (mem_partials _ _ _).1 hE'
          rw [mem_partials]
          refine ⟨?_, ?_⟩
          · intro e he
            rcases mem_insert.1 he with rfl | he
            · simp [hr]
            · exact ⟨mem_insert_of_mem (h1 e he).1, (h1 e he).2⟩
          · intro a ha b hb hab
            rcases mem_insert.1 ha with rfl | ha <;> rcases mem_insert.1 hb with rfl | hb
            · rfl
            · simp only at hab; exact absurd (hab ▸ (h1 b hb).1) hp
            · simp only at hab; exact absurd (hab ▸ (h1 a ha).1) hp
            · exact h2 a ha b hb hab
    have hnot : ∀ E ∈ partials P rels, ∀ r, (p, r) ∉ E := by
      intro E hE r hmem
      exact hp (((mem_partials _ _ _).1 hE).1 _ hmem).1
    have hcard : ∀ r, ((partials P rels).image (insert (p, r))).card = (partials P rels).card := by
      intro r
      apply card_image_of_injOn
      intro E hE E' hE' heq
      rw [← erase_insert (hnot E hE r), ← erase_insert (hnot E' hE' r), heq]
    rw [hsplit, card_union_of_disjoint, card_biUnion]
    · rw [sum_congr rfl fun r _ => hcard r, sum_const, smul_eq_mul, ih, card_insert_of_notMem hp, pow_succ]
      ring
    · intro r _ r' _ hne
      rw [Function.onFun, disjoint_left]
      intro E h1 h2
      obtain ⟨A, hA, rfl⟩ := mem_image.1 h1
      obtain ⟨B, hB, heq⟩ := mem_image.1 h2
      have : (p, r') ∈ insert (p, r) A := by rw [← heq]; exact mem_insert_self _ _
      rcases mem_insert.1 this with h | h
      · simp only [Prod.mk.injEq, true_and] at h; exact hne h.symm
      · exact hnot A hA r' h
    · rw [disjoint_left]
      intro E h1 h2
      obtain ⟨r, -, h2⟩ := mem_biUnion.1 h2
      obtain ⟨A, hA, rfl⟩ := mem_image.1 h2
      exact hnot _ h1 r (mem_insert_self _ _)

/-- The coloured graphs on the node set `S`. -/
def cfgs (rels : Finset R) (S : Finset N) : Finset (Finset (Finset N × R)) := partials (S.powersetCard 2) rels

theorem mem_cfgs (rels : Finset R) (S : Finset N) (E : Finset (Finset N × R)) :
    E ∈ cfgs rels S ↔ (∀ e ∈ E, (e.1 ⊆ S ∧ e.1.card = 2) ∧ e.2 ∈ rels) ∧ ∀ e ∈ E, ∀ e' ∈ E, e.1 = e'.1 → e = e' := by
  unfold cfgs
  rw [mem_partials]
  simp only [mem_powersetCard]

theorem card_cfgs (rels : Finset R) (S : Finset N) : (cfgs rels S).card = (rels.card + 1) ^ (S.card * (S.card - 1) / 2) := by
  unfold cfgs
  rw [card_partials, card_powersetCard, Nat.choose_two_right]

open scoped Classical in
/-- The connected ones. -/
noncomputable def conns (rels : Finset R) (S : Finset N) : Finset (Finset (Finset N × R)) :=
  (cfgs rels S).filter fun E => ConnectedBy Prod.fst E (S : Set N)

theorem mem_conns (rels : Finset R) (S : Finset N) (E : Finset (Finset N × R)) :
    E ∈ conns rels S ↔ E ∈ cfgs rels S ∧ ConnectedBy Prod.fst E (S : Set N) := by
  classical unfold conns; rw [mem_filter]

open scoped Classical in
/-- The connected component of `v`. -/
noncomputable def comp (S : Finset N) (v : N) (E : Finset (Finset N × R)) : Finset N :=
  S.filter fun u => ReflTransGen (Linked Prod.fst E) v u

theorem mem_comp (S : Finset N) (v : N) (E : Finset (Finset N × R)) (u : N) :
    u ∈ comp S v E ↔ u ∈ S ∧ ReflTransGen (Linked Prod.fst E) v u := by
  classical unfold comp; rw [mem_filter]

theorem edge_in_comp (rels : Finset R) (S : Finset N) (v : N) (E : Finset (Finset N × R)) (hE : E ∈ cfgs rels S) (e)
    (he : e ∈ E) (x : N) (hx : x ∈ e.1) (hxc : x ∈ comp S v E) : e.1 ⊆ comp S v E := by
  intro y hy
  rw [mem_comp] at hxc ⊢
  exact ⟨(((mem_cfgs _ _ _).1 hE).1 e he).1.1 hy, hxc.2.tail ⟨e, he, hx, hy⟩⟩

theorem card_fiber (rels : Finset R) (S : Finset N) (v : N) (T : Finset N) (hT : T ⊆ S) (hvT : v ∈ T) :
    ((cfgs rels S).filter fun E => comp S v E = T).card = (conns rels T).card * (cfgs rels (S \ T)).card := by
  rw [← card_product]
  refine card_nbij' (fun E => (E.filter fun e => e.1 ⊆ T, E.filter fun e => e.1 ⊆ S \ T)) (fun p => p.1 ∪ p.2) ?_ ?_ ?_ ?_
  · intro E hE
    obtain ⟨hE, hc⟩ := mem_filter.1 hE
    obtain ⟨h1, h2⟩ := (mem_cfgs _ _ _).1 hE
    refine mem_product.2 ⟨?_, ?_⟩
    · simp only
      rw [mem_conns, mem_cfgs]
      refine ⟨⟨?_, ?_⟩, ?_⟩
      · intro e he
        obtain ⟨he, hs⟩ := mem_filter.1 he
        exact ⟨⟨hs, (h1 e he).1.2⟩, (h1 e he).2⟩
      · intro e he e' he'; exact h2 e (mem_filter.1 he).1 e' (mem_filter.1 he').1
      · have hreach : ∀ a, ReflTransGen (Linked Prod.fst E) v a →
            ReflTransGen (Linked Prod.fst (E.filter fun e => e.1 ⊆ T)) v a ∧ a ∈ T := by
          intro a ha
          induction ha with
          | refl => exact ⟨.refl, hvT⟩
          | tail _ hl ih =>
            obtain ⟨e, he, hx, hy⟩ := hl
            have hsub : e.1 ⊆ T := by
              have := edge_in_comp rels S v E hE e he _ hx (by rw [hc]; exact ih.2)
              rwa [hc] at this
            exact ⟨ih.1.tail ⟨e, mem_filter.2 ⟨he, hsub⟩, hx, hy⟩, hsub hy⟩
        intro a ha b hb
        have ha' : a ∈ comp S v E := by rw [hc]; exact ha
        have hb' : b ∈ comp S v E := by rw [hc]; exact hb
        exact (reach_symm (hreach a ((mem_comp _ _ _ _).1 ha').2).1).trans (hreach b ((mem_comp _ _ _ _).1 hb').2).1
    · simp only
      rw [mem_cfgs]
      refine ⟨?_, ?_⟩
      · intro e he
        obtain ⟨he, hs⟩ := mem_filter.1 he
        exact ⟨⟨hs, (h1 e he).1.2⟩, (h1 e he).2⟩
      · intro e he e' he'; exact h2 e (mem_filter.1 he).1 e' (mem_filter.1 he').1
  · rintro ⟨A, B⟩ hAB
    obtain ⟨hA, hB⟩ := mem_product.1 hAB
    simp only at hA hB
    obtain ⟨hA, hcon⟩ := (mem_conns _ _ _).1 hA
    obtain ⟨a1, a2⟩ := (mem_cfgs _ _ _).1 hA
    obtain ⟨b1, b2⟩ := (mem_cfgs _ _ _).1 hB
    have hdis : ∀ e ∈ A, ∀ e' ∈ B, e.1 ≠ e'.1 := by
      intro e he e' he' heq
      obtain ⟨x, hx⟩ := card_pos.1 (by rw [(a1 e he).1.2]; norm_num : 0 < e.1.card)
      have h1 := (a1 e he).1.1 hx
      have h2 := (b1 e' he').1.1 (heq ▸ hx)
      exact (mem_sdiff.1 h2).2 h1
    refine mem_filter.2 ⟨?_, ?_⟩
    · simp only
      rw [mem_cfgs]
      refine ⟨?_, ?_⟩
      · intro e he
        rcases mem_union.1 he with he | he
        · exact ⟨⟨(a1 e he).1.1.trans hT, (a1 e he).1.2⟩, (a1 e he).2⟩
        · exact ⟨⟨(b1 e he).1.1.trans sdiff_subset, (b1 e he).1.2⟩, (b1 e he).2⟩
      · intro e he e' he' heq
        rcases mem_union.1 he with he | he <;> rcases mem_union.1 he' with he' | he'
        · exact a2 e he e' he' heq
        · exact absurd heq (hdis e he e' he')
        · exact absurd heq.symm (hdis e' he' e he)
        · exact b2 e he e' he' heq
    · ext u
      rw [mem_comp]
      constructor
      · rintro ⟨-, hu⟩
        induction hu with
        | refl => exact hvT
        | tail _ hl ih =>
          obtain ⟨e, he, hx, hy⟩ := hl
          rcases mem_union.1 he with he | he
          · exact (a1 e he).1.1 hy
          · exact absurd ih (mem_sdiff.1 ((b1 e he).1.1 hx)).2
      · intro hu
        exact ⟨hT hu, reach_mono subset_union_left (hcon v hvT u hu)⟩
  · intro E hE
    obtain ⟨hE, hc⟩ := mem_filter.1 hE
    obtain ⟨h1, h2⟩ := (mem_cfgs _ _ _).1 hE
    simp only
    ext e
    rw [mem_union, mem_filter, mem_filter]
    constructor
    · rintro (h | h) <;> exact h.1
    · intro he
      by_cases hx : ∃ x ∈ e.1, x ∈ T
      · obtain ⟨x, hx, hxT⟩ := hx
        left
        refine ⟨he, ?_⟩
        have := edge_in_comp rels S v E hE e he x hx (by rw [hc]; exact hxT)
        rwa [hc] at this
      · right
        push Not at hx
        exact ⟨he, fun x hxe => mem_sdiff.2 ⟨(h1 e he).1.1 hxe, hx x hxe⟩⟩
  · rintro ⟨A, B⟩ hAB
    obtain ⟨hA, hB⟩ := mem_product.1 hAB
    simp only at hA hB
    obtain ⟨hA, -⟩ := (mem_conns _ _ _).1 hA
    obtain ⟨a1, -⟩ := (mem_cfgs _ _ _).1 hA
    obtain ⟨b1, -⟩ := (mem_cfgs _ _ _).1 hB
    have hone : ∀ e : Finset N × R, e.1.card = 2 → e.1 ⊆ T → e.1 ⊆ S \ T → False := by
      intro e hc h1 h2
      obtain ⟨x, hx⟩ := card_pos.1 (by rw [hc]; norm_num : 0 < e.1.card)
      exact (mem_sdiff.1 (h2 hx)).2 (h1 hx)
    simp only [Prod.mk.injEq]
    constructor
    · ext e
      rw [mem_filter, mem_union]
      constructor
      · rintro ⟨h | h, hs⟩
        · exact h
        · exact (hone e (b1 e h).1.2 hs (b1 e h).1.1).elim
      · intro h; exact ⟨Or.inl h, (a1 e h).1.1⟩
    · ext e
      rw [mem_filter, mem_union]
      constructor
      · rintro ⟨h | h, hs⟩
        · exact (hone e (a1 e h).1.2 (a1 e h).1.1 hs).elim
        · exact h
      · intro h; exact ⟨Or.inr h, (b1 e h).1.1⟩

/-- Splitting by the component of `v`. -/
theorem card_by_component (rels : Finset R) (S : Finset N) (v : N) (hv : v ∈ S) :
    (cfgs rels S).card = ∑ T ∈ S.powerset.filter (v ∈ ·), (conns rels T).card * (cfgs rels (S \ T)).card := by
  rw [card_eq_sum_card_fiberwise (f := comp S v) (t := S.powerset.filter (v ∈ ·))]
  · apply sum_congr rfl
    intro T hT
    obtain ⟨h1, h2⟩ := mem_filter.1 hT
    exact card_fiber rels S v T (mem_powerset.1 h1) h2
  · intro E _
    refine mem_filter.2 ⟨mem_powerset.2 ?_, ?_⟩
    · intro u hu; exact ((mem_comp _ _ _ _).1 hu).1
    · exact (mem_comp _ _ _ _).2 ⟨hv, .refl⟩

/-- Rooted count. -/
theorem rooted_count (rels : Finset R) (S : Finset N) :
    S.card * (cfgs rels S).card = ∑ T ∈ S.powerset, T.card * ((conns rels T).card * (cfgs rels (S \ T)).card) := by
  rw [← smul_eq_mul, ← sum_const, sum_congr rfl fun v hv => card_by_component rels S v hv]
  rw [sum_comm' (t' := S.powerset) (s' := fun T => T)]
  · apply sum_congr rfl
    intro T _
    rw [sum_const, smul_eq_mul]
  · intro v T
    simp only [mem_filter, mem_powerset]
    constructor
    · rintro ⟨h1, h2, h3⟩; exact ⟨h3, h2⟩
    · rintro ⟨h1, h2⟩; exact ⟨h2 h1, h2, h1⟩

theorem cK_zero (r : ℕ) : cK r 0 = 1 := by unfold cK; simp

theorem cK_pos (r k : ℕ) (hk : k ≠ 0) : cK r k = ((r : ℚ) + 1) ^ (k * (k - 1) / 2) -
    (∑ i ∈ Finset.Ico 1 k, (i : ℚ) * (Nat.choose k i : ℚ) * ((r : ℚ) + 1) ^ ((k - i) * (k - i - 1) / 2) * cK r i) / (k : ℚ) := by
  rw [cK, if_neg hk]
  congr 2
  exact Finset.sum_attach (Finset.Ico 1 k) (fun i =>
    (i : ℚ) * (Nat.choose k i : ℚ) * ((r : ℚ) + 1) ^ ((k - i) * (k - i - 1) / 2) * cK r i)

/-- The recurrence of the experiment counts the connected coloured graphs. -/
theorem card_conns (rels : Finset R) (S : Finset N) : ((conns rels S).card : ℚ) = cK rels.card S.card := by
  induction S using Finset.strongInduction with
  | H S ih =>
    by_cases hS : S = ∅
    · subst hS
      have : conns rels (∅ : Finset N) = {∅} := by
        ext E
        rw [mem_conns, mem_cfgs, mem_singleton]
        constructor
        · rintro ⟨⟨h, -⟩, -⟩
          rw [eq_empty_iff_forall_notMem]
          intro e he
          obtain ⟨⟨h1, h2⟩, -⟩ := h e he
          rw [subset_empty.1 h1] at h2
          simp at h2
        · rintro rfl; simp [ConnectedBy]
      rw [this, card_empty, cK_zero]; simp
    · have hk : S.card ≠ 0 := by rw [Ne, card_eq_zero]; exact hS
      set k := S.card with hkdef
      set r := rels.card with hr
      have hroot := congrArg (Nat.cast : ℕ → ℚ) (rooted_count rels S)
      push_cast at hroot
      set φ : ℕ → ℚ := fun i => (i : ℚ) * (cK r i * ((r : ℚ) + 1) ^ ((k - i) * (k - i - 1) / 2)) with hφ
      have hterm : ∀ T ∈ S.powerset, (T.card : ℚ) * (((conns rels T).card : ℚ) * ((cfgs rels (S \ T)).card : ℚ)) =
          φ T.card + if T = S then (k : ℚ) * ((conns rels S).card - cK r k) else 0 := by
        intro T hT
        have hTS := mem_powerset.1 hT
        have hW : ((cfgs rels (S \ T)).card : ℚ) = ((r : ℚ) + 1) ^ ((k - T.card) * (k - T.card - 1) / 2) := by
          rw [card_cfgs, card_sdiff_of_subset hTS]; push_cast; rfl
        by_cases h : T = S
        · subst h
          rw [if_pos rfl, hW]
          simp only [hφ, ← hkdef, Nat.sub_self, Nat.zero_mul, Nat.zero_div, pow_zero]
          ring
        · rw [if_neg h, hW, ih T (lt_of_le_of_ne hTS h)]
          simp only [hφ, add_zero]
      rw [sum_congr rfl hterm, sum_add_distrib, sum_powerset_apply_card φ, sum_ite_eq', if_pos (mem_powerset_self S),
        card_cfgs] at hroot
      have hsum : ∑ m ∈ range (#S + 1), (#S).choose m • φ m =
          (∑ i ∈ Finset.Ico 1 k, (i : ℚ) * (Nat.choose k i : ℚ) * ((r : ℚ) + 1) ^ ((k - i) * (k - i - 1) / 2) * cK r i) +
            (k : ℚ) * cK r k := by
        rw [sum_range_succ, ← hkdef, Nat.choose_self, range_eq_Ico]
        rw [← Finset.sum_Ioo_add_eq_sum_Ico (f := fun m => k.choose m • φ m) (Nat.pos_of_ne_zero hk)]
        have h0 : φ 0 = 0 := by simp [hφ]
        have hI : Finset.Ioo 0 k = Finset.Ico 1 k := by ext i; simp [Nat.succ_le_iff]
        rw [h0, nsmul_zero, add_zero, hI]
        congr 1
        · apply sum_congr rfl
          intro i _
          simp only [hφ, nsmul_eq_mul]; ring
        · simp only [hφ, Nat.sub_self, Nat.zero_mul, Nat.zero_div, pow_zero]; ring
      rw [hsum] at hroot
      have hkq : (k : ℚ) ≠ 0 := by exact_mod_cast hk
      rw [cK_pos r k hk] at hroot ⊢
      push_cast at hroot
      rw [← hkdef, ← hr] at hroot
      field_simp at hroot ⊢
      linarith

end
end Verif
