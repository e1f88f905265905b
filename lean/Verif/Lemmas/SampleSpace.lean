import Verif.Model.SampleSpace
import Verif.Lemmas.SampleSet
import Verif.Spec.Graph
import Mathlib.Tactic.Ring

/-!
# Lemmas about counting loops
-/

set_option linter.unusedSectionVars false

namespace Verif

section
variable {K A B : Type} [DecidableEq K] [DecidableEq A]

theorem assoc?_map (l : List (K × A)) (f : A → B) (k : K) :
    assoc? (l.map fun p => (p.1, f p.2)) k = (assoc? l k).map f := by
  induction l with
  | nil => rfl
  | cons h t ih =>
    simp only [List.map_cons, assoc?]
    split
    · rfl
    · exact ih

@[simp] theorem Dict.get?_mapVals (d : Dict K A) (f : A → B) (k : K) : (d.mapVals f).get? k = (d.get? k).map f :=
  assoc?_map d.entries f k

theorem Dict.vals_mapVals (d : Dict K A) (f : A → B) : (d.mapVals f).vals = d.vals.map f := by
  simp [Dict.mapVals, Dict.vals, List.map_map, Function.comp_def]

@[simp] theorem Dict.keys_mapVals (d : Dict K A) (f : A → B) : (d.mapVals f).keys = d.keys := by
  simp [Dict.mapVals, Dict.keys, List.map_map, Function.comp_def]

theorem assocSet_append (l : List (K × A)) (k : K) (a : A) (h : k ∉ l.map Prod.fst) : assocSet l k a = l ++ [(k, a)] := by
  induction l with
  | nil => rfl
  | cons x t ih =>
    obtain ⟨k', a'⟩ := x
    simp only [List.map_cons, List.mem_cons, not_or] at h
    simp [assocSet, Ne.symm h.1, ih h.2]

theorem Dict.entries_foldl_set (l : List (K × A)) (d : Dict K A) (hl : (l.map Prod.fst).Nodup)
    (hd : ∀ k ∈ l.map Prod.fst, k ∉ d.keys) : (l.foldl (fun d p => d.set p.1 p.2) d).entries = d.entries ++ l := by
  induction l generalizing d with
  | nil => simp
  | cons x t ih =>
    simp only [List.map_cons, List.nodup_cons] at hl
    rw [List.foldl_cons, ih _ hl.2]
    · show assocSet d.entries x.1 x.2 ++ t = _
      rw [assocSet_append _ _ _ (hd x.1 (by simp))]
      simp
    · intro k hk hk'
      rw [Dict.mem_keys_set] at hk'
      rcases hk' with rfl | hk'
      · exact hl.1 hk
      · exact hd k (by simp [hk]) hk'

theorem Dict.entries_ofList (l : List (K × A)) (hl : (l.map Prod.fst).Nodup) : (Dict.ofList l).entries = l := by
  unfold Dict.ofList
  rw [Dict.entries_foldl_set l _ hl (by simp)]
  simp

/-- The result of the counting idiom over a list of (key, subkey), count. -/
def tally (l : List ((K × A) × ℤ)) : Dict K (Dict A ℤ) := l.foldl (fun acc t => bump acc t.1.1 t.1.2 t.2) Dict.empty

/-- What a counting dictionary contains after the list `l`. -/
structure TallyInv (l : List ((K × A) × ℤ)) (d : Dict K (Dict A ℤ)) : Prop where
  keys : ∀ k, k ∈ d.keys ↔ ∃ t ∈ l, t.1.1 = k
  get : ∀ k m, d.get? k = some m → ∀ a, m.get? a = totalOf l (k, a)
  sum : ∀ k m, d.get? k = some m → m.vals.sum = ((l.filter fun t => t.1.1 = k).map Prod.snd).sum

theorem bump_eq (d : Dict K (Dict A ℤ)) (k : K) (a : A) (c : ℤ) :
    bump d k a c = d.set k (((d.get? k).getD Dict.empty).set a (((((d.get? k).getD Dict.empty).get? a).getD 0) + c)) := by
  unfold bump
  cases d.get? k <;> simp

theorem TallyInv.bump {l : List ((K × A) × ℤ)} {d : Dict K (Dict A ℤ)} (h : TallyInv l d) (t : (K × A) × ℤ) :
    TallyInv (l ++ [t]) (bump d t.1.1 t.1.2 t.2) := by
  obtain ⟨⟨k, a⟩, c⟩ := t
  rw [bump_eq]
  simp only
  have hfn : d.get? k = none → (l.filter fun t => t.1.1 = k) = [] := by
    intro hk
    rw [List.filter_eq_nil_iff]
    intro p hp hpk
    rw [Dict.get?_eq_none] at hk
    exact hk ((h.keys k).2 ⟨p, hp, by simpa using hpk⟩)
  have hget : ∀ b, ((d.get? k).getD Dict.empty).get? b = totalOf l (k, b) := by
    intro b
    cases hk : d.get? k with
    | some m => exact h.get k m hk b
    | none =>
      unfold totalOf
      rw [if_pos]
      · rfl
      · rw [List.map_eq_nil_iff, List.filter_eq_nil_iff]
        intro p hp hpk
        have hpk' : p.1 = (k, b) := by simpa using hpk
        rw [Dict.get?_eq_none] at hk
        exact hk ((h.keys k).2 ⟨p, hp, by rw [hpk']⟩)
  have hsum : ((d.get? k).getD Dict.empty).vals.sum = ((l.filter fun t => t.1.1 = k).map Prod.snd).sum := by
    cases hk : d.get? k with
    | some m => exact h.sum k m hk
    | none => rw [hfn hk]; rfl
  generalize (d.get? k).getD Dict.empty = m0 at *
  refine ⟨?_, ?_, ?_⟩
  · intro k'
    rw [Dict.mem_keys_set, h.keys]
    constructor
    · rintro (rfl | ⟨t, ht, hk⟩)
      · exact ⟨((k', a), c), by simp, rfl⟩
      · exact ⟨t, by simp [ht], hk⟩
    · rintro ⟨t, ht, hk⟩
      rw [List.mem_append, List.mem_singleton] at ht
      rcases ht with ht | rfl
      · exact Or.inr ⟨t, ht, hk⟩
      · exact Or.inl hk.symm
  · intro k' m hm b
    rw [totalOf_append, totalOf_cons, totalOf_nil, addCounts_none_right]
    rw [Dict.get?_set] at hm
    by_cases hkk : k = k'
    · subst hkk
      rw [if_pos rfl] at hm
      cases hm
      rw [Dict.get?_set, hget, hget]
      by_cases hab : a = b
      · subst hab
        simp only [if_true]
        cases totalOf l (k, a) <;> simp [addCounts]
      · simp [hab]
    · rw [if_neg hkk] at hm
      simp [hkk, h.get k' m hm]
  · intro k' m hm
    rw [List.filter_append, List.map_append, List.sum_append]
    rw [Dict.get?_set] at hm
    by_cases hkk : k = k'
    · subst hkk
      rw [if_pos rfl] at hm
      cases hm
      rw [Dict.sum_vals_set, hsum]
      simp
      ring
    · rw [if_neg hkk] at hm
      simp [hkk, h.sum k' m hm]

theorem tally_inv (l : List ((K × A) × ℤ)) : TallyInv l (tally l) := by
  induction l using List.reverseRecOn with
  | nil => exact ⟨by simp [tally], by simp [tally], by simp [tally]⟩
  | append_singleton l t ih =>
    have := ih.bump t
    unfold tally at this ⊢
    rwa [List.foldl_append, List.foldl_cons, List.foldl_nil]

theorem foldl_flatMap_bump {P : Type} (l : List P) (f : P → List ((K × A) × ℤ)) (g : Dict K (Dict A ℤ) → P → Dict K (Dict A ℤ))
    (hg : ∀ acc p, p ∈ l → g acc p = (f p).foldl (fun acc t => bump acc t.1.1 t.1.2 t.2) acc) :
    l.foldl g Dict.empty = tally (l.flatMap f) := by
  unfold tally
  rw [List.foldl_flatMap]
  generalize (Dict.empty : Dict K (Dict A ℤ)) = d
  induction l generalizing d with
  | nil => rfl
  | cons p t ih =>
    rw [List.foldl_cons, List.foldl_cons, hg d p (by simp)]
    exact ih (fun acc q hq => hg acc q (by simp [hq])) _

theorem totalOf_nodup (m : List (K × ℤ)) (c k) (hn : (m.map Prod.fst).Nodup) (hc : ∀ t ∈ m, t.2 = c) :
    totalOf m k = if k ∈ m.map Prod.fst then some c else none := by
  induction m with
  | nil => simp [totalOf]
  | cons s r ihr =>
    rw [List.map_cons, List.nodup_cons] at hn
    rw [totalOf_cons, ihr hn.2 (fun t ht => hc t (by simp [ht]))]
    by_cases hs : s.1 = k
    · subst hs
      simp only [if_true, List.map_cons, List.mem_cons, true_or, if_neg hn.1, addCounts_none_right, hc s (by simp)]
    · simp only [if_neg hs, List.map_cons, List.mem_cons, Ne.symm hs, false_or]

/-- Counting over a list of items each of which contributes its count at most once per key; `q` tells which ones do. -/
theorem totalOf_flatMap {P : Type} (cnt : P → ℤ) (f : P → List (K × ℤ)) (q : P → Prop) [DecidablePred q] (l : List P)
    (hn : ∀ p ∈ l, ((f p).map Prod.fst).Nodup) (hc : ∀ p ∈ l, ∀ t ∈ f p, t.2 = cnt p) (k : K)
    (hq : ∀ p ∈ l, k ∈ (f p).map Prod.fst ↔ q p) (c : ℤ) :
    totalOf (l.flatMap f) k = some c ↔ (∃ p ∈ l, q p) ∧ c = (l.map fun p => if q p then cnt p else 0).sum := by
  induction l generalizing c with
  | nil => simp [totalOf]
  | cons p t ih =>
    have ih' := ih (fun q hq => hn q (by simp [hq])) (fun q hq => hc q (by simp [hq])) (fun p hp => hq p (by simp [hp]))
    have hz : (¬ ∃ p ∈ t, q p) → (t.map fun p => if q p then cnt p else 0).sum = 0 := by
      intro h
      apply List.sum_eq_zero
      intro x hx
      rw [List.mem_map] at hx
      obtain ⟨r, hr, rfl⟩ := hx
      rw [if_neg]
      exact fun hk => h ⟨r, hr, hk⟩
    have hz' : (¬ ∃ p ∈ t, q p) → totalOf (t.flatMap f) k = none := by
      intro h
      cases hx : totalOf (t.flatMap f) k with
      | none => rfl
      | some d => exact absurd ((ih' d).1 hx).1 h
    have hp : totalOf (f p) k = if q p then some (cnt p) else none := by
      rw [totalOf_nodup (f p) (cnt p) k (hn p (by simp)) (hc p (by simp))]
      simp only [hq p (by simp)]
    rw [List.flatMap_cons, totalOf_append, List.map_cons, List.sum_cons, hp]
    by_cases h1 : q p
    · rw [if_pos h1, if_pos h1]
      have hex : ∃ r ∈ p :: t, q r := ⟨p, by simp, h1⟩
      by_cases h2 : ∃ p ∈ t, q p
      · rw [(ih' _).2 ⟨h2, rfl⟩]
        simp only [addCounts, hex, true_and, Option.some.injEq, eq_comm]
      · rw [hz' h2, hz h2]
        simp only [addCounts, hex, true_and, Option.some.injEq, eq_comm, add_zero]
    · rw [if_neg h1, if_neg h1, addCounts_none_left, ih', zero_add]
      have hiff : (∃ r ∈ p :: t, q r) ↔ ∃ r ∈ t, q r := by
        constructor
        · rintro ⟨r, hr, hk⟩
          rw [List.mem_cons] at hr
          rcases hr with rfl | hr
          · exact absurd hk h1
          · exact ⟨r, hr, hk⟩
        · rintro ⟨r, hr, hk⟩
          exact ⟨r, by simp [hr], hk⟩
      rw [hiff]

end

section
variable {V X R : Type} [DecidableEq V] [DecidableEq X] [DecidableEq R]

/-- Equality of sample sets is equality of the sets of items. -/
theorem pyEq_iff_items (a b : Samples V X R) : a.pyEq b = true ↔ a.items = b.items := by
  rw [Samples.pyEq_iff]
  constructor
  · intro h
    ext p
    rw [Samples.mem_items, Samples.mem_items, h p.1]
  · intro h k
    ext c
    have h1 := Samples.mem_items a (k, c)
    have h2 := Samples.mem_items b (k, c)
    rw [h] at h1
    exact h1.symm.trans h2

theorem valueForVariable_eq (oN : Order (Node V X)) (g : SampleGraph V X R) (hs : SingleValued g.nodes) (v : V) (x : X) :
    g.valueForVariable oN v = some x ↔ (⟨v, x⟩ : Node V X) ∈ g.nodes := by
  unfold SampleGraph.valueForVariable
  constructor
  · intro h
    rw [Option.map_eq_some_iff] at h
    obtain ⟨n, hn, rfl⟩ := h
    have h1 := List.mem_of_find?_eq_some hn
    have h2 := List.find?_some hn
    rw [oN.mem] at h1
    have : n.var = v := by simpa using h2
    subst this; exact h1
  · intro h
    cases hf : (oN.run g.nodes).find? (fun n => n.var = v) with
    | none =>
      rw [List.find?_eq_none] at hf
      exact absurd (by simp) (hf _ ((oN.mem _ _).2 h))
    | some n =>
      have h1 := List.mem_of_find?_eq_some hf
      have h2 := List.find?_some hf
      rw [oN.mem] at h1
      have : n.var = v := by simpa using h2
      have := hs n h1 _ h this
      subst this
      rfl

/-- The value of an included variable is never `None`. -/
theorem valueForVariable_included (oN : Order (Node V X)) (g : SampleGraph V X R) (v : V) (hv : v ∈ g.includedVariables) :
    ∃ x, g.valueForVariable oN v = some x := by
  unfold SampleGraph.valueForVariable
  unfold SampleGraph.includedVariables at hv
  rw [Finset.mem_image] at hv
  obtain ⟨n, hn, rfl⟩ := hv
  cases hf : (oN.run g.nodes).find? (fun m => m.var = n.var) with
  | none =>
    rw [List.find?_eq_none] at hf
    exact absurd (by simp) (hf _ ((oN.mem _ _).2 hn))
  | some m => exact ⟨m.val, rfl⟩

end

end Verif
