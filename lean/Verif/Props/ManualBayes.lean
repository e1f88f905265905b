import Verif.Model.ManualBayes
import Verif.Lemmas.SampleSpace
import Mathlib.Algebra.BigOperators.Ring.Finset
import Mathlib.Tactic.Ring

/-!
# Manual Bayesian inference: C67

`cpd_product`, `norm`, `margin` and `select_value` of `playaround/pgmpy_bayes_net_test.py`, and what the script computes with them.

The specification speaks of variables: `var e` is the variable of the text `e`; a key assigns one text to each variable of a finite set.
-/

namespace Verif.Manual
section
variable {I : Type} [DecidableEq I]

/-! ### Specification -/

/-- The key `k` holds exactly one text of each variable in `A`. -/
def Assigns (var : Str → I) (A : Finset I) (k : Finset Str) : Prop :=
  k.image var = A ∧ ∀ a ∈ k, ∀ b ∈ k, var a = var b → a = b

/-- A table over the variables `A`; assignments may be missing. -/
def TableOver (var : Str → I) (A : Finset I) (x : Table) : Prop := ∀ k v, x.get? k = some v → Assigns var A k

/-- The part of an assignment for the variables in `A`. -/
def part (var : Str → I) (A : Finset I) (k : Finset Str) : Finset Str := k.filter fun e => var e ∈ A

/-- The sum of the entries with `P`. -/
def total (x : Table) (P : Finset Str → Prop) [DecidablePred P] : ℚ := ∑ k ∈ x.keys.toFinset with P k, (x.get? k).getD 0

/-- `y` is `x` conditioned on `P`: the entries with `P`, divided by their sum. -/
def Conditioned (x : Table) (P : Finset Str → Prop) [DecidablePred P] (y : Table) : Prop :=
  ∀ k w, y.get? k = some w ↔ P k ∧ ∃ v, x.get? k = some v ∧ w = v / total x P

/-! ### Dictionaries -/

theorem ofList_snoc {K A : Type} [DecidableEq K] (l : List (K × A)) (p : K × A) :
    Dict.ofList (l ++ [p]) = (Dict.ofList l).set p.1 p.2 := by
  unfold Dict.ofList
  rw [List.foldl_append]
  rfl

theorem get?_ofList_func {K A : Type} [DecidableEq K] (l : List (K × A)) (hf : ∀ p ∈ l, ∀ q ∈ l, p.1 = q.1 → p.2 = q.2)
    (k : K) (a : A) : (Dict.ofList l).get? k = some a ↔ (k, a) ∈ l := by
  induction l using List.reverseRecOn with
  | nil => simp [Dict.ofList]
  | append_singleton l p ih =>
    rw [ofList_snoc, Dict.get?_set, List.mem_append, List.mem_singleton]
    have ih' := ih (fun p hp q hq => hf p (by simp [hp]) q (by simp [hq]))
    split
    · next h =>
      constructor
      · intro h'
        exact Or.inr (by cases h'; rw [← h])
      · rintro (h' | h')
        · exact congrArg some (hf (k, a) (by simp [h']) p (by simp) h.symm).symm
        · rw [← h']
    · next h =>
      rw [ih']
      constructor
      · exact Or.inl
      · rintro (h' | h')
        · exact h'
        · exact absurd (by rw [← h']) h

/-- The pairs combined by `cpd_product`, in order. -/
def pairs (x₁ x₂ : Table) : List (Finset Str × ℚ) :=
  x₁.entries.flatMap fun p => (x₂.entries.filter fun q => decide (¬ Disjoint p.1 q.1)).map fun q => (p.1 ∪ q.1, p.2 * q.2)

theorem cpdProduct_eq (x₁ x₂ : Table) : cpdProduct x₁ x₂ = Dict.ofList (pairs x₁ x₂) := by
  unfold cpdProduct Dict.ofList pairs
  rw [List.foldl_flatMap]
  congr 1
  funext res p
  rw [List.foldl_map, List.foldl_filter]
  simp only [decide_eq_true_eq]

theorem mem_pairs (x₁ x₂ : Table) (k : Finset Str) (w : ℚ) : (k, w) ∈ pairs x₁ x₂ ↔
    ∃ k₁ v₁ k₂ v₂, x₁.get? k₁ = some v₁ ∧ x₂.get? k₂ = some v₂ ∧ ¬ Disjoint k₁ k₂ ∧ k = k₁ ∪ k₂ ∧ w = v₁ * v₂ := by
  unfold pairs
  rw [List.mem_flatMap]
  constructor
  · rintro ⟨⟨k₁, v₁⟩, h1, h2⟩
    obtain ⟨⟨k₂, v₂⟩, h3, h4⟩ := List.mem_map.1 h2
    rw [List.mem_filter] at h3
    rw [Dict.mem_entries] at h1
    obtain ⟨h3, h5⟩ := h3
    rw [Dict.mem_entries] at h3
    cases h4
    exact ⟨k₁, v₁, k₂, v₂, h1, h3, by simpa using h5, rfl, rfl⟩
  · rintro ⟨k₁, v₁, k₂, v₂, h1, h2, h3, rfl, rfl⟩
    refine ⟨(k₁, v₁), (Dict.mem_entries _ _ _).2 h1, List.mem_map.2 ⟨(k₂, v₂), ?_, rfl⟩⟩
    rw [List.mem_filter]
    exact ⟨(Dict.mem_entries _ _ _).2 h2, by simpa using h3⟩

/-! ### Assignments -/

theorem Assigns.part_left {var : Str → I} {A B : Finset I} {j : I} (hj : A ∩ B = {j}) {k₁ k₂ : Finset Str} (h₁ : Assigns var A k₁)
    (h₂ : Assigns var B k₂) (hd : ¬ Disjoint k₁ k₂) : part var A (k₁ ∪ k₂) = k₁ := by
  obtain ⟨e, he1, he2⟩ := Finset.not_disjoint_iff.1 hd
  have hA : ∀ a ∈ k₁, var a ∈ A := fun a ha => by rw [← h₁.1]; exact Finset.mem_image_of_mem _ ha
  have hB : ∀ a ∈ k₂, var a ∈ B := fun a ha => by rw [← h₂.1]; exact Finset.mem_image_of_mem _ ha
  have hej : var e = j := by
    have : var e ∈ A ∩ B := Finset.mem_inter.2 ⟨hA e he1, hB e he2⟩
    rw [hj] at this
    exact Finset.mem_singleton.1 this
  ext a
  unfold part
  rw [Finset.mem_filter, Finset.mem_union]
  constructor
  · rintro ⟨h | h, ha⟩
    · exact h
    · have : var a ∈ A ∩ B := Finset.mem_inter.2 ⟨ha, hB a h⟩
      rw [hj, Finset.mem_singleton] at this
      rw [h₂.2 a h e he2 (this.trans hej.symm)]
      exact he1
  · exact fun h => ⟨Or.inl h, hA a h⟩

theorem Assigns.union {var : Str → I} {A B : Finset I} {j : I} (hj : A ∩ B = {j}) {k₁ k₂ : Finset Str} (h₁ : Assigns var A k₁)
    (h₂ : Assigns var B k₂) (hd : ¬ Disjoint k₁ k₂) :
    Assigns var (A ∪ B) (k₁ ∪ k₂) ∧ part var A (k₁ ∪ k₂) = k₁ ∧ part var B (k₁ ∪ k₂) = k₂ := by
  have hl := Assigns.part_left hj h₁ h₂ hd
  have hr : part var B (k₁ ∪ k₂) = k₂ := by
    rw [Finset.union_comm]
    exact Assigns.part_left (by rw [Finset.inter_comm]; exact hj) h₂ h₁ (fun h => hd h.symm)
  refine ⟨⟨by rw [Finset.image_union, h₁.1, h₂.1], ?_⟩, hl, hr⟩
  intro a ha b hb hab
  have hA : ∀ a ∈ k₁, var a ∈ A := fun a ha => by rw [← h₁.1]; exact Finset.mem_image_of_mem _ ha
  have hB : ∀ a ∈ k₂, var a ∈ B := fun a ha => by rw [← h₂.1]; exact Finset.mem_image_of_mem _ ha
  have key : ∀ x ∈ k₁ ∪ k₂, var x ∈ A → x ∈ k₁ := by
    intro x hx hxA
    rw [← hl]
    exact Finset.mem_filter.2 ⟨hx, hxA⟩
  rcases Finset.mem_union.1 ha with h | h
  · exact h₁.2 a h b (key b hb (hab ▸ hA a h)) hab
  · have hb2 : b ∈ k₂ := by
      rw [← hr]
      exact Finset.mem_filter.2 ⟨hb, hab ▸ hB a h⟩
    exact h₂.2 a h b hb2 hab

theorem Assigns.part {var : Str → I} {A B : Finset I} (hA : A ⊆ B) {k : Finset Str} (h : Assigns var B k) :
    Assigns var A (part var A k) := by
  refine ⟨?_, ?_⟩
  · ext i
    rw [Finset.mem_image]
    constructor
    · rintro ⟨e, he, rfl⟩
      exact (Finset.mem_filter.1 he).2
    · intro hi
      have : i ∈ k.image var := by rw [h.1]; exact hA hi
      obtain ⟨e, he, rfl⟩ := Finset.mem_image.1 this
      exact ⟨e, Finset.mem_filter.2 ⟨he, hi⟩, rfl⟩
  · intro a ha b hb hab
    exact h.2 a (Finset.mem_filter.1 ha).1 b (Finset.mem_filter.1 hb).1 hab

theorem part_self {var : Str → I} {B : Finset I} {k : Finset Str} (h : Assigns var B k) : part var B k = k := by
  refine Finset.filter_true_of_mem ?_
  intro e he
  rw [← h.1]
  exact Finset.mem_image_of_mem _ he

/-- **C67.** For tables that have exactly one variable in common, `cpd_product` is the product of factors: the result has exactly the
assignments of all variables whose two parts are in the tables, with the product of the two entries. -/
theorem C67_product (var : Str → I) (A B : Finset I) (j : I) (hj : A ∩ B = {j}) (x₁ x₂ : Table) (h₁ : TableOver var A x₁)
    (h₂ : TableOver var B x₂) : TableOver var (A ∪ B) (cpdProduct x₁ x₂) ∧
    ∀ k w, (cpdProduct x₁ x₂).get? k = some w ↔ Assigns var (A ∪ B) k ∧
      ∃ v₁ v₂, x₁.get? (part var A k) = some v₁ ∧ x₂.get? (part var B k) = some v₂ ∧ w = v₁ * v₂ := by
  have hget : ∀ k w, (cpdProduct x₁ x₂).get? k = some w ↔ (k, w) ∈ pairs x₁ x₂ := by
    intro k w
    rw [cpdProduct_eq, get?_ofList_func]
    rintro ⟨k, w⟩ hp ⟨k', w'⟩ hq hk
    obtain ⟨k₁, v₁, k₂, v₂, g1, g2, g3, rfl, rfl⟩ := (mem_pairs _ _ _ _).1 hp
    obtain ⟨l₁, u₁, l₂, u₂, g1', g2', g3', rfl, rfl⟩ := (mem_pairs _ _ _ _).1 hq
    obtain ⟨-, e1, e2⟩ := Assigns.union hj (h₁ _ _ g1) (h₂ _ _ g2) g3
    obtain ⟨-, e1', e2'⟩ := Assigns.union hj (h₁ _ _ g1') (h₂ _ _ g2') g3'
    change k₁ ∪ k₂ = l₁ ∪ l₂ at hk
    rw [hk, e1'] at e1
    rw [hk, e2'] at e2
    subst e1 e2
    rw [g1] at g1'
    rw [g2] at g2'
    cases g1'
    cases g2'
    rfl
  have hmain : ∀ k w, (cpdProduct x₁ x₂).get? k = some w ↔ Assigns var (A ∪ B) k ∧
      ∃ v₁ v₂, x₁.get? (part var A k) = some v₁ ∧ x₂.get? (part var B k) = some v₂ ∧ w = v₁ * v₂ := by
    intro k w
    rw [hget, mem_pairs]
    constructor
    · rintro ⟨k₁, v₁, k₂, v₂, g1, g2, g3, rfl, rfl⟩
      obtain ⟨e0, e1, e2⟩ := Assigns.union hj (h₁ _ _ g1) (h₂ _ _ g2) g3
      exact ⟨e0, v₁, v₂, by rw [e1]; exact g1, by rw [e2]; exact g2, rfl⟩
    · rintro ⟨hk, v₁, v₂, g1, g2, rfl⟩
      refine ⟨_, v₁, _, v₂, g1, g2, ?_, ?_, rfl⟩
      · have hjm : j ∈ A ∩ B := by rw [hj]; simp
        have : j ∈ k.image var := by rw [hk.1]; exact Finset.mem_union_left _ (Finset.mem_inter.1 hjm).1
        obtain ⟨e, he, rfl⟩ := Finset.mem_image.1 this
        exact Finset.not_disjoint_iff.2 ⟨e, Finset.mem_filter.2 ⟨he, (Finset.mem_inter.1 hjm).1⟩,
          Finset.mem_filter.2 ⟨he, (Finset.mem_inter.1 hjm).2⟩⟩
      · ext e
        unfold part
        rw [Finset.mem_union, Finset.mem_filter, Finset.mem_filter]
        constructor
        · intro he
          have : var e ∈ A ∪ B := by rw [← hk.1]; exact Finset.mem_image_of_mem _ he
          rcases Finset.mem_union.1 this with h | h
          · exact Or.inl ⟨he, h⟩
          · exact Or.inr ⟨he, h⟩
        · rintro (h | h) <;> exact h.1
  exact ⟨fun k w h => ((hmain k w).1 h).1, hmain⟩

/-- **C67.** Without a variable in common the result is empty (the product of factors would have all combinations). -/
theorem C67_product_apart (var : Str → I) (A B : Finset I) (hj : A ∩ B = ∅) (x₁ x₂ : Table) (h₁ : TableOver var A x₁)
    (h₂ : TableOver var B x₂) : (cpdProduct x₁ x₂).entries = [] := by
  have : pairs x₁ x₂ = [] := by
    rw [List.eq_nil_iff_forall_not_mem]
    rintro ⟨k, w⟩ hm
    obtain ⟨k₁, v₁, k₂, v₂, g1, g2, g3, -, -⟩ := (mem_pairs _ _ _ _).1 hm
    obtain ⟨e, he1, he2⟩ := Finset.not_disjoint_iff.1 g3
    have : var e ∈ A ∩ B := Finset.mem_inter.2 ⟨by rw [← (h₁ _ _ g1).1]; exact Finset.mem_image_of_mem _ he1,
      by rw [← (h₂ _ _ g2).1]; exact Finset.mem_image_of_mem _ he2⟩
    rw [hj] at this
    simp at this
  rw [cpdProduct_eq, this]
  rfl

/-- **C67.** With two or more variables in common the result is not a table of assignments: if two keys agree on one variable and differ
on another, their union, which has two texts of the latter, is a key of the result. -/
theorem C67_product_clash (var : Str → I) (x₁ x₂ : Table) (k₁ k₂ : Finset Str) (v₁ v₂ : ℚ) (h₁ : x₁.get? k₁ = some v₁)
    (h₂ : x₂.get? k₂ = some v₂) (c : Str) (hc₁ : c ∈ k₁) (hc₂ : c ∈ k₂) (a b : Str) (ha : a ∈ k₁) (hb : b ∈ k₂)
    (hab : var a = var b) (hne : a ≠ b) :
    (∃ w, (cpdProduct x₁ x₂).get? (k₁ ∪ k₂) = some w) ∧ ∀ A, ¬ TableOver var A (cpdProduct x₁ x₂) := by
  have hk : ∃ w, (cpdProduct x₁ x₂).get? (k₁ ∪ k₂) = some w := by
    have hm : (k₁ ∪ k₂, v₁ * v₂) ∈ pairs x₁ x₂ :=
      (mem_pairs _ _ _ _).2 ⟨k₁, v₁, k₂, v₂, h₁, h₂, Finset.not_disjoint_iff.2 ⟨c, hc₁, hc₂⟩, rfl, rfl⟩
    rw [cpdProduct_eq]
    generalize pairs x₁ x₂ = l at hm
    induction l using List.reverseRecOn with
    | nil => cases hm
    | append_singleton l p ih =>
      rw [ofList_snoc, Dict.get?_set]
      split
      · exact ⟨_, rfl⟩
      · next h =>
        refine ih ?_
        rcases List.mem_append.1 hm with hm | hm
        · exact hm
        · rw [List.mem_singleton] at hm
          exact absurd (by rw [← hm]) h
  refine ⟨hk, fun A hA => ?_⟩
  obtain ⟨w, hw⟩ := hk
  exact hne ((hA _ _ hw).2 a (by simp [ha]) b (by simp [hb]) hab)

/-! ### `norm`, `select_value`, `margin` -/

theorem vals_sum (x : Table) : x.vals.sum = total x fun _ => True := by
  unfold total
  rw [Finset.filter_true, List.sum_toFinset _ x.nodup_keys]
  congr 1
  unfold Dict.vals Dict.keys
  rw [List.map_map]
  refine List.map_congr_left ?_
  rintro ⟨k, v⟩ hm
  rw [Dict.mem_entries] at hm
  simp [hm]

theorem total_congr {x y : Table} {P Q : Finset Str → Prop} [DecidablePred P] [DecidablePred Q]
    (h : ∀ k v, (P k ∧ x.get? k = some v) ↔ (Q k ∧ y.get? k = some v)) : total x P = total y Q := by
  have hs : x.keys.toFinset.filter P = y.keys.toFinset.filter Q := by
    ext k
    simp only [Finset.mem_filter, List.mem_toFinset, Dict.mem_keys]
    constructor
    · rintro ⟨⟨v, hv⟩, hp⟩
      have := (h k v).1 ⟨hp, hv⟩
      exact ⟨⟨v, this.2⟩, this.1⟩
    · rintro ⟨⟨v, hv⟩, hp⟩
      have := (h k v).2 ⟨hp, hv⟩
      exact ⟨⟨v, this.2⟩, this.1⟩
  unfold total
  rw [hs]
  refine Finset.sum_congr rfl ?_
  intro k hk
  simp only [Finset.mem_filter, List.mem_toFinset, Dict.mem_keys] at hk
  obtain ⟨⟨v, hv⟩, hq⟩ := hk
  rw [hv, ((h k v).2 ⟨hq, hv⟩).2]

/-- `norm` fails on the entries of `x` with `P`. -/
def Fails (x : Table) (P : Finset Str → Prop) [DecidablePred P] : Prop := total x P = 0 ∧ ∃ k v, P k ∧ x.get? k = some v

/-- `norm` of the entries with `P`. -/
theorem norm_conditioned {x y : Table} {P : Finset Str → Prop} [DecidablePred P]
    (h : ∀ k v, y.get? k = some v ↔ P k ∧ x.get? k = some v) :
    (Fails x P ∧ norm y = .error .zeroDiv) ∨ (¬ Fails x P ∧ ∃ z, norm y = .ok z ∧ Conditioned x P z) := by
  have ht : y.vals.sum = total x P := by
    rw [vals_sum]
    exact total_congr fun k v => by rw [true_and, h]
  have hn : y.entries ≠ [] ↔ ∃ k v, P k ∧ x.get? k = some v := by
    constructor
    · intro hne
      obtain ⟨⟨k, v⟩, t, hm⟩ := List.exists_cons_of_ne_nil hne
      exact ⟨k, v, (h k v).1 ((Dict.mem_entries _ _ _).1 (by rw [hm]; simp))⟩
    · rintro ⟨k, v, hv⟩ hnil
      have := (Dict.mem_entries _ _ _).2 ((h k v).2 hv)
      rw [hnil] at this
      cases this
  have hc : (y.vals.sum = 0 ∧ y.entries ≠ []) ↔ Fails x P := by unfold Fails; rw [ht, hn]
  unfold norm
  simp only
  by_cases hf : Fails x P
  · exact Or.inl ⟨hf, if_pos (hc.2 hf)⟩
  · refine Or.inr ⟨hf, _, if_neg (fun h => hf (hc.1 h)), ?_⟩
    rw [ht]
    intro k w
    rw [Dict.get?_mapVals]
    constructor
    · intro hw
      obtain ⟨v, hv, rfl⟩ := Option.map_eq_some_iff.1 hw
      exact ⟨((h k v).1 hv).1, v, ((h k v).1 hv).2, rfl⟩
    · rintro ⟨hp, v, hv, rfl⟩
      rw [(h k v).2 ⟨hp, hv⟩]
      rfl

/-- **C67.** `norm` raises `ZeroDivisionError` exactly when there are entries and their sum is 0; otherwise it divides every entry by the
sum, and the entries of the result add up to 1 (if there are any). -/
theorem C67_norm (x : Table) : (norm x = .error .zeroDiv ↔ x.vals.sum = 0 ∧ ∃ k v, x.get? k = some v) ∧
    (norm x ≠ .error .zeroDiv → ∃ y, norm x = .ok y ∧ (∀ k w, y.get? k = some w ↔ ∃ v, x.get? k = some v ∧ w = v / x.vals.sum) ∧
      ((∃ k v, x.get? k = some v) → y.vals.sum = 1)) := by
  have h := norm_conditioned (x := x) (y := x) (P := fun _ => True) (fun k v => by rw [true_and])
  unfold Fails Conditioned at h
  rw [← vals_sum] at h
  simp only [true_and] at h
  rcases h with ⟨h1, h2⟩ | ⟨h1, y, h2, h3⟩
  · exact ⟨⟨fun _ => h1, fun _ => h2⟩, fun h => absurd h2 h⟩
  · refine ⟨⟨fun h => (by rw [h2] at h; cases h), fun h => absurd h h1⟩, fun _ => ⟨y, h2, h3, ?_⟩⟩
    intro hne
    have ht : x.vals.sum ≠ 0 := fun h => h1 ⟨h, hne⟩
    unfold norm at h2
    simp only at h2
    split at h2
    · cases h2
    · cases h2
      rw [Dict.vals_mapVals]
      have : ∀ (l : List ℚ) (d : ℚ), (l.map fun v => v / d).sum = l.sum / d := by
        intro l d
        induction l with
        | nil => simp
        | cons a t ih => rw [List.map_cons, List.sum_cons, List.sum_cons, ih, add_div]
      rw [this]
      exact div_self ht

/-- **C67.** `select_value` keeps exactly the entries whose key has the value. -/
theorem C67_select (x : Table) (e : Str) (k : Finset Str) (v : ℚ) :
    (selectValue x e).get? k = some v ↔ e ∈ k ∧ x.get? k = some v := by
  unfold selectValue
  rw [Dict.get?_filterKeys]
  by_cases h : e ∈ k <;> simp [h]

/-- The loop of `margin`. -/
theorem margin_get? (o : Order Str) (x : Table) (v e : Str) (w : ℚ) : (margin o x v).get? e = some w ↔
    (∃ p ∈ x.entries, pick o v p.1 = some e) ∧ w = ((x.entries.filter fun p => pick o v p.1 = some e).map Prod.snd).sum := by
  unfold margin
  generalize x.entries = l
  induction l using List.reverseRecOn generalizing e w with
  | nil => simp
  | append_singleton l p ih =>
    rw [List.foldl_append, List.foldl_cons, List.foldl_nil, List.filter_append, List.map_append, List.sum_append]
    generalize hr : l.foldl (marginStep o v) Dict.empty = res at ih
    unfold marginStep
    cases hp : pick o v p.1 with
    | none =>
      simp only
      rw [ih]
      simp [hp]
    | some a =>
      simp only
      rw [Dict.get?_set]
      split
      · next h =>
        subst h
        have hg : (res.get? a).getD 0 = ((l.filter fun p => pick o v p.1 = some a).map Prod.snd).sum := by
          cases hl : res.get? a with
          | some u => exact ((ih a u).1 hl).2
          | none =>
            have hno : ¬ ∃ p ∈ l, pick o v p.1 = some a := by
              intro hex
              have := (ih a _).2 ⟨hex, rfl⟩
              rw [hl] at this
              cases this
            have : (l.filter fun p => pick o v p.1 = some a) = [] := by
              rw [List.filter_eq_nil_iff]
              intro q hq hq'
              exact hno ⟨q, hq, by simpa using hq'⟩
            rw [this]
            rfl
        rw [hg]
        constructor
        · intro h
          cases h
          exact ⟨⟨p, by simp, hp⟩, by simp [hp]⟩
        · rintro ⟨-, rfl⟩
          simp [hp]
      · next h =>
        rw [ih]
        have h' : ¬ (some a = some e) := fun hh => h (Option.some.inj hh)
        simp [hp, h']

theorem pick_eq (o : Order Str) (v : Str) (var : Str → I) (A : Finset I) (j : I) (hj : j ∈ A) (k : Finset Str) (hk : Assigns var A k)
    (hv : ∀ e ∈ k, v <:+: e ↔ var e = j) (e : Str) : pick o v k = some e ↔ e ∈ k ∧ var e = j := by
  unfold pick
  have hmem : ∀ a, a ∈ ((o.run k).filter fun e => decide (v <:+: e)) ↔ a ∈ k ∧ var a = j := by
    intro a
    rw [List.mem_filter, o.mem, decide_eq_true_eq]
    exact and_congr_right fun ha => hv a ha
  constructor
  · intro h
    exact (hmem e).1 (List.mem_of_mem_head? h)
  · intro he
    cases hl : (o.run k).filter fun e => decide (v <:+: e) with
    | nil =>
      have := (hmem e).2 he
      rw [hl] at this
      cases this
    | cons a t =>
      have ha := (hmem a).1 (by rw [hl]; simp)
      rw [List.head?_cons, hk.2 a ha.1 e he.1 (ha.2.trans he.2.symm)]

/-- **C67.** When the name of a variable is part of the texts of this variable and of no others, `margin` is the marginal: for each text of
the variable that occurs it has the sum of the entries with this text. -/
theorem C67_margin (o : Order Str) (var : Str → I) (A : Finset I) (x : Table) (hx : TableOver var A x) (j : I) (hj : j ∈ A) (v : Str)
    (hv : ∀ k u, x.get? k = some u → ∀ e ∈ k, v <:+: e ↔ var e = j) (e : Str) (w : ℚ) :
    (margin o x v).get? e = some w ↔ var e = j ∧ (∃ k u, x.get? k = some u ∧ e ∈ k) ∧ w = total x fun k => e ∈ k := by
  rw [margin_get?]
  have hp : ∀ p ∈ x.entries, pick o v p.1 = some e ↔ e ∈ p.1 ∧ var e = j := by
    rintro ⟨k, u⟩ hm
    rw [Dict.mem_entries] at hm
    exact pick_eq o v var A j hj k (hx k u hm) (hv k u hm) e
  have hex : (∃ p ∈ x.entries, pick o v p.1 = some e) ↔ var e = j ∧ ∃ k u, x.get? k = some u ∧ e ∈ k := by
    constructor
    · rintro ⟨p, hm, h⟩
      have := (hp p hm).1 h
      exact ⟨this.2, p.1, p.2, (Dict.mem_entries' _ _).1 hm, this.1⟩
    · rintro ⟨hj, k, u, hm, he⟩
      exact ⟨(k, u), (Dict.mem_entries _ _ _).2 hm, (hp (k, u) ((Dict.mem_entries _ _ _).2 hm)).2 ⟨he, hj⟩⟩
  rw [hex, and_assoc]
  refine and_congr_right fun hj' => and_congr_right fun _ => ?_
  have : ((x.entries.filter fun p => pick o v p.1 = some e).map Prod.snd).sum = total x fun k => e ∈ k := by
    have h1 : (x.entries.filter fun p => pick o v p.1 = some e) = (selectValue x e).entries := by
      unfold selectValue Dict.filterKeys
      refine List.filter_congr ?_
      intro p hm
      rw [decide_eq_decide, hp p hm]
      simp [hj']
    rw [h1]
    change (selectValue x e).vals.sum = _
    rw [vals_sum]
    exact total_congr fun k v => by rw [true_and, C67_select]
  rw [this]

/-! ### The script -/

theorem mem_part {var : Str → I} {A : Finset I} {k : Finset Str} {e : Str} (he : var e ∈ A) : e ∈ part var A k ↔ e ∈ k := by
  unfold part
  rw [Finset.mem_filter]
  exact ⟨fun h => h.1, fun h => ⟨h, he⟩⟩

theorem TableOver.select {var : Str → I} {A : Finset I} {x : Table} (h : TableOver var A x) (e : Str) :
    TableOver var A (selectValue x e) := fun k v hk => h k v ((C67_select x e k v).1 hk).2

/-- **C67.** A value of one of the two tables may be selected before or after the product. -/
theorem C67_select_product (var : Str → I) (A B : Finset I) (j : I) (hj : A ∩ B = {j}) (x₁ x₂ : Table) (h₁ : TableOver var A x₁)
    (h₂ : TableOver var B x₂) (e : Str) :
    (var e ∈ A → (cpdProduct (selectValue x₁ e) x₂).Equiv (selectValue (cpdProduct x₁ x₂) e)) ∧
    (var e ∈ B → (cpdProduct x₁ (selectValue x₂ e)).Equiv (selectValue (cpdProduct x₁ x₂) e)) := by
  have hP := (C67_product var A B j hj x₁ x₂ h₁ h₂).2
  constructor
  · intro he k
    apply Option.ext
    intro w
    rw [(C67_product var A B j hj _ x₂ (h₁.select e) h₂).2, C67_select, hP]
    simp only [C67_select, mem_part he]
    constructor
    · rintro ⟨g0, v₁, v₂, ⟨g1, g2⟩, g3, rfl⟩
      exact ⟨g1, g0, v₁, v₂, g2, g3, rfl⟩
    · rintro ⟨g1, g0, v₁, v₂, g2, g3, rfl⟩
      exact ⟨g0, v₁, v₂, ⟨g1, g2⟩, g3, rfl⟩
  · intro he k
    apply Option.ext
    intro w
    rw [(C67_product var A B j hj x₁ _ h₁ (h₂.select e)).2, C67_select, hP]
    simp only [C67_select, mem_part he]
    constructor
    · rintro ⟨g0, v₁, v₂, g2, ⟨g1, g3⟩, rfl⟩
      exact ⟨g1, g0, v₁, v₂, g2, g3, rfl⟩
    · rintro ⟨g1, g0, v₁, v₂, g2, g3, rfl⟩
      exact ⟨g0, v₁, v₂, g2, ⟨g1, g3⟩, rfl⟩

/-- The joint distribution of the network `D → G ← I`: `w` is `P(D) · P(I) · P(G | I, D)` for the assignment `k`. -/
def Joint (var : Str → I) (vd vi vg : I) (d i g : Table) (k : Finset Str) (w : ℚ) : Prop :=
  Assigns var {vd, vi, vg} k ∧ ∃ p q r, d.get? (part var {vd} k) = some p ∧ i.get? (part var {vi} k) = some q ∧
    g.get? k = some r ∧ w = p * q * r

section
variable {var : Str → I} {vd vi vg : I} {d i g : Table}

theorem inner_inter : ({vi} : Finset I) ∩ {vi, vd, vg} = {vi} := by
  ext a
  simp only [Finset.mem_inter, Finset.mem_insert, Finset.mem_singleton]
  tauto

theorem outer_inter : ({vd} : Finset I) ∩ ({vi} ∪ {vi, vd, vg}) = {vd} := by
  ext a
  simp only [Finset.mem_inter, Finset.mem_union, Finset.mem_insert, Finset.mem_singleton]
  tauto

theorem inner_union : ({vi} : Finset I) ∪ {vi, vd, vg} = {vi, vd, vg} := by
  ext a
  simp only [Finset.mem_union, Finset.mem_insert, Finset.mem_singleton]
  tauto

theorem outer_union : ({vd} : Finset I) ∪ ({vi} ∪ {vi, vd, vg}) = {vd, vi, vg} := by
  ext a
  simp only [Finset.mem_union, Finset.mem_insert, Finset.mem_singleton]
  tauto

theorem inner_vars : ({vi, vd, vg} : Finset I) = {vd, vi, vg} := by
  ext a
  simp only [Finset.mem_insert, Finset.mem_singleton]
  tauto

theorem part_part {A B : Finset I} (h : A ⊆ B) (k : Finset Str) : part var A (part var B k) = part var A k := by
  unfold part
  rw [Finset.filter_filter]
  refine Finset.filter_congr fun e _ => ?_
  exact ⟨fun hh => hh.2, fun hh => ⟨h hh, hh⟩⟩

theorem joint_table (hd : TableOver var {vd} d) (hi : TableOver var {vi} i) (hg : TableOver var {vi, vd, vg} g) :
    TableOver var ({vi} ∪ {vi, vd, vg}) (cpdProduct i g) ∧ TableOver var {vd, vi, vg} (cpdProduct d (cpdProduct i g)) ∧
    ∀ k w, (cpdProduct d (cpdProduct i g)).get? k = some w ↔ Joint var vd vi vg d i g k w := by
  obtain ⟨h1, h2⟩ := C67_product var {vi} {vi, vd, vg} vi inner_inter i g hi hg
  obtain ⟨h3, h4⟩ := C67_product var {vd} ({vi} ∪ {vi, vd, vg}) vd outer_inter d (cpdProduct i g) hd h1
  rw [outer_union] at h3
  refine ⟨h1, h3, ?_⟩
  intro k w
  rw [h4, outer_union]
  unfold Joint
  refine and_congr_right fun hk => ?_
  have hk' : Assigns var {vi, vd, vg} k := by rw [inner_vars]; exact hk
  have hpart : part var ({vi} ∪ {vi, vd, vg}) k = k := by rw [inner_union]; exact part_self hk'
  simp only [h2, hpart, inner_union, part_self hk']
  constructor
  · rintro ⟨p, u, hp, ⟨-, q, r, hq, hr, rfl⟩, rfl⟩
    exact ⟨p, q, r, hp, hq, hr, by ring⟩
  · rintro ⟨p, q, r, hp, hq, hr, rfl⟩
    exact ⟨p, q * r, hp, ⟨hk', q, r, hq, hr, rfl⟩, by ring⟩

theorem total_smul {x y : Table} {P : Finset Str → Prop} [DecidablePred P] (c : ℚ)
    (h : ∀ k w, y.get? k = some w ↔ P k ∧ ∃ v, x.get? k = some v ∧ w = c * v) : total y (fun _ => True) = c * total x P := by
  have hs : y.keys.toFinset.filter (fun _ => True) = x.keys.toFinset.filter P := by
    ext k
    simp only [Finset.mem_filter, List.mem_toFinset, Dict.mem_keys, and_true]
    constructor
    · rintro ⟨w, hw⟩
      obtain ⟨hp, v, hv, -⟩ := (h k w).1 hw
      exact ⟨⟨v, hv⟩, hp⟩
    · rintro ⟨⟨v, hv⟩, hp⟩
      exact ⟨c * v, (h k _).2 ⟨hp, v, hv, rfl⟩⟩
  unfold total
  rw [hs, Finset.mul_sum]
  refine Finset.sum_congr rfl ?_
  intro k hk
  simp only [Finset.mem_filter, List.mem_toFinset, Dict.mem_keys] at hk
  obtain ⟨⟨v, hv⟩, hp⟩ := hk
  rw [hv, (h k _).2 ⟨hp, v, hv, rfl⟩]
  rfl

/-- `norm` takes a common factor out. -/
theorem norm_scaled {x y : Table} {P : Finset Str → Prop} [DecidablePred P] (c : ℚ)
    (h : ∀ k w, y.get? k = some w ↔ P k ∧ ∃ v, x.get? k = some v ∧ w = c * v) (hc : c = 0 → total x P = 0) :
    (Fails x P ∧ norm y = .error .zeroDiv) ∨ (¬ Fails x P ∧ ∃ z, norm y = .ok z ∧ Conditioned x P z) := by
  have ht := total_smul c h
  have hfail : Fails y (fun _ => True) ↔ Fails x P := by
    unfold Fails
    rw [ht]
    refine and_congr ?_ ?_
    · rw [mul_eq_zero]
      exact ⟨fun hh => hh.elim hc id, Or.inr⟩
    · constructor
      · rintro ⟨k, w, -, hw⟩
        obtain ⟨hp, v, hv, -⟩ := (h k w).1 hw
        exact ⟨k, v, hp, hv⟩
      · rintro ⟨k, v, hp, hv⟩
        exact ⟨k, c * v, trivial, (h k _).2 ⟨hp, v, hv, rfl⟩⟩
  rcases norm_conditioned (x := y) (y := y) (P := fun _ => True) (fun k v => by rw [true_and]) with ⟨h1, h2⟩ | ⟨h1, z, h2, h3⟩
  · exact Or.inl ⟨hfail.1 h1, h2⟩
  · refine Or.inr ⟨fun hh => h1 (hfail.2 hh), z, h2, ?_⟩
    intro k w
    rw [h3, ht]
    simp only [true_and]
    constructor
    · rintro ⟨u, hu, rfl⟩
      obtain ⟨hp, v, hv, rfl⟩ := (h k u).1 hu
      refine ⟨hp, v, hv, ?_⟩
      have hc0 : c ≠ 0 := by
        intro hc0
        exact h1 (hfail.2 ⟨hc hc0, k, v, hp, hv⟩)
      rw [mul_div_mul_left _ _ hc0]
    · rintro ⟨hp, v, hv, rfl⟩
      refine ⟨c * v, (h k _).2 ⟨hp, v, hv, rfl⟩, ?_⟩
      have hc0 : c ≠ 0 := by
        intro hc0
        exact h1 (hfail.2 ⟨hc hc0, k, v, hp, hv⟩)
      rw [mul_div_mul_left _ _ hc0]

end

/-- **C67.** The script, for tables of a network `D → G ← I` with any numbers of values, any entries and any observed values: `joint_factor`
is the joint distribution, the other three tables are the joint distribution conditioned on the value of `D`, on the value of `G` and on
both (also the last one, although the probability of the value of `D` is multiplied twice). `ZeroDivisionError` is raised exactly when
one of the three observations has entries that add up to 0. -/
theorem C67_script (var : Str → I) (vd vi vg : I) (d i g : Table)
    (hd : TableOver var {vd} d) (hi : TableOver var {vi} i) (hg : TableOver var {vi, vd, vg} g) (d₁ g₁ : Str) (hd₁ : var d₁ = vd)
    (hg₁ : var g₁ = vg) : ∃ joint : Table, (∀ k w, joint.get? k = some w ↔ Joint var vd vi vg d i g k w) ∧
    ((script d i g d₁ g₁ = .error .zeroDiv ∧
        (Fails joint (fun k => d₁ ∈ k) ∨ Fails joint (fun k => g₁ ∈ k) ∨ Fails joint fun k => d₁ ∈ k ∧ g₁ ∈ k)) ∨
      (¬ (Fails joint (fun k => d₁ ∈ k) ∨ Fails joint (fun k => g₁ ∈ k) ∨ Fails joint fun k => d₁ ∈ k ∧ g₁ ∈ k) ∧
        ∃ r, script d i g d₁ g₁ = .ok r ∧ r.joint = joint ∧ Conditioned joint (fun k => d₁ ∈ k) r.jointD ∧
          Conditioned joint (fun k => g₁ ∈ k) r.jointG ∧ Conditioned joint (fun k => d₁ ∈ k ∧ g₁ ∈ k) r.jointGD)) := by
  obtain ⟨t1, t2, hJ⟩ := joint_table hd hi hg
  refine ⟨_, hJ, ?_⟩
  set J := cpdProduct d (cpdProduct i g) with hJdef
  -- the table of the value of D
  have e1 : ∀ k v, (cpdProduct (selectValue d d₁) (cpdProduct i g)).get? k = some v ↔ d₁ ∈ k ∧ J.get? k = some v := by
    intro k v
    rw [(C67_select_product var {vd} ({vi} ∪ {vi, vd, vg}) vd outer_inter d (cpdProduct i g) hd t1 d₁).1 (by simp [hd₁]) k, C67_select]
  -- the table of the value of G
  have t1' := (joint_table hd hi (hg.select g₁)).1
  have e2 : ∀ k v, (cpdProduct d (cpdProduct i (selectValue g g₁))).get? k = some v ↔ g₁ ∈ k ∧ J.get? k = some v := by
    intro k v
    rw [(joint_table hd hi (hg.select g₁)).2.2, hJ]
    unfold Joint
    simp only [C67_select]
    constructor
    · rintro ⟨hk, p, q, r, hp, hq, ⟨hg, hr⟩, rfl⟩
      exact ⟨hg, hk, p, q, r, hp, hq, hr, rfl⟩
    · rintro ⟨hg, hk, p, q, r, hp, hq, hr, rfl⟩
      exact ⟨hk, p, q, r, hp, hq, ⟨hg, hr⟩, rfl⟩
  rcases norm_conditioned (P := fun k => d₁ ∈ k) e1 with ⟨f1, n1⟩ | ⟨f1, jd, n1, c1⟩
  · exact Or.inl ⟨by simp only [script, bind, Except.bind, n1], Or.inl f1⟩
  rcases norm_conditioned (P := fun k => g₁ ∈ k) e2 with ⟨f2, n2⟩ | ⟨f2, jg, n2, c2⟩
  · exact Or.inl ⟨by simp only [script, bind, Except.bind, n1, n2], Or.inr (Or.inl f2)⟩
  -- both
  have tg : TableOver var ({vi} ∪ {vi, vd, vg}) jg := by
    intro k w hw
    obtain ⟨-, v, hv, -⟩ := (c2 k w).1 hw
    have := t2 k v hv
    rw [inner_union, inner_vars]
    exact this
  have hone : ∀ k, Assigns var {vd, vi, vg} k → d₁ ∈ k → part var {vd} k = {d₁} := by
    intro k hk hdk
    ext e
    unfold part
    rw [Finset.mem_filter, Finset.mem_singleton, Finset.mem_singleton]
    constructor
    · rintro ⟨he, hv⟩
      exact hk.2 e he d₁ hdk (hv.trans hd₁.symm)
    · rintro rfl
      exact ⟨hdk, hd₁⟩
  have e3 : ∀ k w, (cpdProduct (selectValue d d₁) jg).get? k = some w ↔ (d₁ ∈ k ∧ g₁ ∈ k) ∧
      ∃ v, J.get? k = some v ∧ w = ((d.get? {d₁}).getD 0 / total J fun k => g₁ ∈ k) * v := by
    intro k w
    rw [(C67_product var {vd} ({vi} ∪ {vi, vd, vg}) vd outer_inter (selectValue d d₁) jg (hd.select d₁) tg).2, outer_union]
    constructor
    · rintro ⟨hk, p, u, hp, hu, rfl⟩
      obtain ⟨hdk, hp⟩ := (C67_select _ _ _ _).1 hp
      rw [mem_part (by simp [hd₁])] at hdk
      rw [inner_union, inner_vars, part_self hk] at hu
      obtain ⟨hgk, v, hv, rfl⟩ := (c2 k u).1 hu
      rw [hone k hk hdk] at hp
      refine ⟨⟨hdk, hgk⟩, v, hv, ?_⟩
      rw [hp]
      simp only [Option.getD_some]
      ring
    · rintro ⟨⟨hdk, hgk⟩, v, hv, rfl⟩
      have hk := t2 k v hv
      obtain ⟨-, p, q, r, hp, -, -, -⟩ := (hJ k v).1 hv
      refine ⟨hk, p, v / total J fun k => g₁ ∈ k, ?_, ?_, ?_⟩
      · rw [C67_select, mem_part (by simp [hd₁])]
        exact ⟨hdk, hp⟩
      · rw [inner_union, inner_vars, part_self hk]
        exact (c2 k _).2 ⟨hgk, v, hv, rfl⟩
      · rw [hone k hk hdk] at hp
        rw [hp]
        simp only [Option.getD_some]
        ring
  have hzero : ((d.get? {d₁}).getD 0 / total J fun k => g₁ ∈ k) = 0 → total J (fun k => d₁ ∈ k ∧ g₁ ∈ k) = 0 := by
    intro hz
    rcases div_eq_zero_iff.1 hz with hz | hz
    · unfold total
      refine Finset.sum_eq_zero ?_
      intro k hk
      simp only [Finset.mem_filter, List.mem_toFinset, Dict.mem_keys] at hk
      obtain ⟨⟨v, hv⟩, hdk, -⟩ := hk
      obtain ⟨hk, p, q, r, hp, -, -, rfl⟩ := (hJ k v).1 hv
      rw [hone k hk hdk] at hp
      rw [hp] at hz
      simp only [Option.getD_some] at hz
      rw [hv, hz]
      simp
    · have hno : ¬ ∃ k v, g₁ ∈ k ∧ J.get? k = some v := fun hex => f2 ⟨hz, hex⟩
      unfold total
      refine Finset.sum_eq_zero ?_
      intro k hk
      simp only [Finset.mem_filter, List.mem_toFinset, Dict.mem_keys] at hk
      obtain ⟨⟨v, hv⟩, -, hgk⟩ := hk
      exact absurd ⟨k, v, hgk, hv⟩ hno
  rcases norm_scaled (P := fun k => d₁ ∈ k ∧ g₁ ∈ k) _ e3 hzero with ⟨f3, n3⟩ | ⟨f3, jgd, n3, c3⟩
  · exact Or.inl ⟨by simp only [script, bind, Except.bind, n1, n2, n3], Or.inr (Or.inr f3)⟩
  · refine Or.inr ⟨by rintro (h | h | h); exacts [f1 h, f2 h, f3 h], ⟨J, jd, jg, jgd⟩, ?_, rfl, c1, c2, c3⟩
    simp only [script, bind, Except.bind, n1, n2, n3]
    rfl

/-! ### The margins of the joint distribution -/

theorem Assigns.single {var : Str → I} {v : I} {k : Finset Str} (h : Assigns var {v} k) : ∃ f, k = {f} ∧ var f = v := by
  have : v ∈ k.image var := by rw [h.1]; simp
  obtain ⟨f, hf, rfl⟩ := Finset.mem_image.1 this
  refine ⟨f, ?_, rfl⟩
  ext a
  rw [Finset.mem_singleton]
  constructor
  · intro ha
    refine h.2 a ha f hf ?_
    have : var a ∈ k.image var := Finset.mem_image_of_mem _ ha
    rw [h.1] at this
    exact Finset.mem_singleton.1 this
  · rintro rfl
    exact hf

theorem part_single {var : Str → I} {A : Finset I} {k : Finset Str} (hk : Assigns var A k) {f : Str} {v : I} (hf : var f = v) :
    f ∈ k ↔ part var {v} k = {f} ∧ v ∈ A := by
  unfold part
  constructor
  · intro h
    refine ⟨?_, ?_⟩
    · ext e
      rw [Finset.mem_filter, Finset.mem_singleton, Finset.mem_singleton]
      exact ⟨fun he => hk.2 e he.1 f h (he.2.trans hf.symm), by rintro rfl; exact ⟨h, hf⟩⟩
    · rw [← hk.1, ← hf]
      exact Finset.mem_image_of_mem _ h
  · rintro ⟨h, -⟩
    have : f ∈ ({f} : Finset Str) := Finset.mem_singleton_self f
    rw [← h] at this
    exact (Finset.mem_filter.1 this).1

theorem prior_left (var : Str → I) (vd vi vg : I) (d i g : Table)
    (hi : TableOver var {vi} i) (J : Table) (hJ : ∀ k w, J.get? k = some w ↔ Joint var vd vi vg d i g k w)
    (hg : TableOver var {vd, vi, vg} g)
    (hG : ∀ e f p q, var e = vd → var f = vi → d.get? {e} = some p → i.get? {f} = some q → total g (fun k => e ∈ k ∧ f ∈ k) = 1)
    (hI : i.vals.sum = 1) (e : Str) (p : ℚ) (he : var e = vd) (hp : d.get? {e} = some p) : total J (fun k => e ∈ k) = p := by
  have hmaps : ∀ k ∈ J.keys.toFinset.filter (fun k => e ∈ k), part var {vi} k ∈ i.keys.toFinset := by
    intro k hk
    simp only [Finset.mem_filter, List.mem_toFinset, Dict.mem_keys] at hk
    obtain ⟨⟨v, hv⟩, -⟩ := hk
    obtain ⟨-, -, q, -, -, hq, -, -⟩ := (hJ k v).1 hv
    rw [List.mem_toFinset, Dict.mem_keys]
    exact ⟨q, hq⟩
  unfold total
  rw [← Finset.sum_fiberwise_of_maps_to hmaps]
  have hin : ∀ κ ∈ i.keys.toFinset, ∑ k ∈ (J.keys.toFinset.filter fun k => e ∈ k) with part var {vi} k = κ, (J.get? k).getD 0 =
      p * (i.get? κ).getD 0 := by
    intro κ hκ
    rw [List.mem_toFinset, Dict.mem_keys] at hκ
    obtain ⟨q, hq⟩ := hκ
    obtain ⟨f, rfl, hf⟩ := (hi κ q hq).single
    have hset : ((J.keys.toFinset.filter fun k => e ∈ k).filter fun k => part var {vi} k = {f}) =
        g.keys.toFinset.filter fun k => e ∈ k ∧ f ∈ k := by
      ext k
      simp only [Finset.mem_filter, List.mem_toFinset, Dict.mem_keys]
      constructor
      · rintro ⟨⟨⟨v, hv⟩, hek⟩, hfk⟩
        obtain ⟨hk, -, -, r, -, -, hr, -⟩ := (hJ k v).1 hv
        exact ⟨⟨r, hr⟩, hek, (part_single hk hf).2 ⟨hfk, by simp⟩⟩
      · rintro ⟨⟨r, hr⟩, hek, hfk⟩
        have hk := hg k r hr
        have h1 := ((part_single hk hf).1 hfk).1
        have h2 := ((part_single hk he).1 hek).1
        exact ⟨⟨⟨p * q * r, (hJ k _).2 ⟨hk, p, q, r, by rw [h2]; exact hp, by rw [h1]; exact hq, hr, rfl⟩⟩, hek⟩, h1⟩
    rw [hset, hq]
    have hval : ∀ k ∈ g.keys.toFinset.filter (fun k => e ∈ k ∧ f ∈ k), (J.get? k).getD 0 = p * q * (g.get? k).getD 0 := by
      intro k hk
      simp only [Finset.mem_filter, List.mem_toFinset, Dict.mem_keys] at hk
      obtain ⟨⟨r, hr⟩, hek, hfk⟩ := hk
      have hk := hg k r hr
      have h1 := ((part_single hk hf).1 hfk).1
      have h2 := ((part_single hk he).1 hek).1
      rw [(hJ k (p * q * r)).2 ⟨hk, p, q, r, by rw [h2]; exact hp, by rw [h1]; exact hq, hr, rfl⟩, hr]
      rfl
    rw [Finset.sum_congr rfl hval, ← Finset.mul_sum]
    have := hG e f p q he hf hp hq
    unfold total at this
    rw [this, mul_one]
    rfl
  rw [Finset.sum_congr rfl hin, ← Finset.mul_sum]
  have : ∑ κ ∈ i.keys.toFinset, (i.get? κ).getD 0 = 1 := by
    rw [← hI, vals_sum]
    unfold total
    rw [Finset.filter_true]
  rw [this, mul_one]

/-- **C67.** When the tables are conditional distributions (the two priors add up to 1 and so does the table of `G` for each choice of the
other two values), the margins of the joint distribution on `D` and `I` are the priors. -/
theorem C67_priors (var : Str → I) (vd vi vg : I) (d i g : Table)
    (hd : TableOver var {vd} d) (hi : TableOver var {vi} i) (hg : TableOver var {vi, vd, vg} g)
    (hG : ∀ e f p q, d.get? {e} = some p → i.get? {f} = some q → total g (fun k => e ∈ k ∧ f ∈ k) = 1)
    (hD : d.vals.sum = 1) (hI : i.vals.sum = 1) :
    (∀ e p, d.get? {e} = some p → total (cpdProduct d (cpdProduct i g)) (fun k => e ∈ k) = p) ∧
    ∀ f q, i.get? {f} = some q → total (cpdProduct d (cpdProduct i g)) (fun k => f ∈ k) = q := by
  have hJ := (joint_table hd hi hg).2.2
  have hvar : ∀ {v : I} {x : Table}, TableOver var {v} x → ∀ e p, x.get? {e} = some p → var e = v := by
    intro v x hx e p he
    obtain ⟨f, hf, hv⟩ := (hx _ _ he).single
    rw [Finset.singleton_inj] at hf
    rw [hf]
    exact hv
  constructor
  · intro e p hp
    exact prior_left var vd vi vg d i g hi _ hJ (by rw [← inner_vars]; exact hg)
      (fun e f p q _ _ h1 h2 => hG e f p q h1 h2) hI e p (hvar hd e p hp) hp
  · intro f q hq
    refine prior_left var vi vd vg i d g hd _ ?_ hg ?_ hD f q (hvar hi f q hq) hq
    · intro k w
      rw [hJ]
      unfold Joint
      rw [inner_vars]
      refine and_congr_right fun _ => ?_
      constructor
      · rintro ⟨p, q, r, hp, hq, hr, rfl⟩
        exact ⟨q, p, r, hq, hp, hr, by ring⟩
      · rintro ⟨p, q, r, hp, hq, hr, rfl⟩
        exact ⟨q, p, r, hq, hp, hr, by ring⟩
    · intro e f p q _ _ h1 h2
      rw [← hG f e q p h2 h1]
      exact total_congr fun k v => by rw [and_comm (a := e ∈ k)]

/-- **C67.** When the name of the variable is part of a text of another one, `margin` depends on the iteration order of the sets. -/
theorem C67_margin_order : ∃ (x : Table) (v : Str) (o o' : Order Str), (margin o x v).entries ≠ (margin o' x v).entries := by
  refine ⟨⟨[({['a', 'd'], ['d']}, 1)], by simp⟩, ['d'], Order.ofList [['a', 'd'], ['d']], Order.ofList [['d'], ['a', 'd']], ?_⟩
  decide +kernel

/-- The tables of the script (76-96). -/
def cpdD : Table := ⟨[({['d', '0']}, 6/10), ({['d', '1']}, 4/10)], by decide⟩

/-- The table of `I`. -/
def cpdI : Table := ⟨[({['i', '0']}, 7/10), ({['i', '1']}, 3/10)], by decide⟩

/-- The table of `G`. -/
def cpdG : Table :=
  ⟨[({['i', '0'], ['d', '0'], ['g', '0']}, 3/10), ({['i', '0'], ['d', '0'], ['g', '1']}, 7/10),
    ({['i', '0'], ['d', '1'], ['g', '0']}, 5/100), ({['i', '0'], ['d', '1'], ['g', '1']}, 95/100),
    ({['i', '1'], ['d', '0'], ['g', '0']}, 9/10), ({['i', '1'], ['d', '0'], ['g', '1']}, 1/10),
    ({['i', '1'], ['d', '1'], ['g', '0']}, 5/10), ({['i', '1'], ['d', '1'], ['g', '1']}, 5/10)], by decide +kernel⟩

instance (var : Str → I) (A : Finset I) (k : Finset Str) : Decidable (Assigns var A k) := by
  unfold Assigns; infer_instance

theorem tableOver_of_entries (var : Str → I) (A : Finset I) (x : Table) (h : ∀ p ∈ x.entries, Assigns var A p.1) : TableOver var A x :=
  fun k v hk => h (k, v) ((Dict.mem_entries _ _ _).2 hk)

/-- Non-vacuity of C67: the tables of the script. The variable of a text is its first letter. -/
theorem script_tables : TableOver (fun s : Str => s.headD ' ') {'d'} cpdD ∧ TableOver (fun s : Str => s.headD ' ') {'i'} cpdI ∧
    TableOver (fun s : Str => s.headD ' ') {'i', 'd', 'g'} cpdG ∧ cpdD.vals.sum = 1 ∧ cpdI.vals.sum = 1 :=
  ⟨tableOver_of_entries _ _ _ (by decide +kernel), tableOver_of_entries _ _ _ (by decide +kernel),
    tableOver_of_entries _ _ _ (by decide +kernel), by decide +kernel, by decide +kernel⟩

/-- Non-vacuity of C67: the script on its tables does not fail; there are eight entries in the joint distribution, four in the next two
tables and two in the last one; the probability of `i_1` given both values is 3·1/2 : (3·1/2 + 7·19/20), that is 30/163. -/
example : (script cpdD cpdI cpdG ['d', '1'] ['g', '1']).toOption.map (fun r => (r.joint.entries.length, r.jointD.entries.length,
    r.jointG.entries.length, r.jointGD.entries.length, r.jointGD.get? {['i', '1'], ['d', '1'], ['g', '1']})) =
    some (8, 4, 4, 2, some (30 / 163)) := by
  decide +kernel

/-- Non-vacuity of C67_priors: the tables of the script are conditional distributions. -/
example : ∀ e f p q, cpdD.get? {e} = some p → cpdI.get? {f} = some q → total cpdG (fun k => e ∈ k ∧ f ∈ k) = 1 := by
  intro e f p q h1 h2
  rw [← Dict.mem_entries] at h1 h2
  simp only [cpdD, List.mem_cons, Prod.mk.injEq, List.not_mem_nil, or_false, Finset.singleton_inj] at h1
  simp only [cpdI, List.mem_cons, Prod.mk.injEq, List.not_mem_nil, or_false, Finset.singleton_inj] at h2
  rcases h1 with ⟨rfl, -⟩ | ⟨rfl, -⟩ <;> rcases h2 with ⟨rfl, -⟩ | ⟨rfl, -⟩ <;> decide +kernel

end
end Verif.Manual
