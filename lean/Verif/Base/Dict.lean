import Verif.Base.Core

/-!
# Python dictionaries

An insertion ordered association list with unique keys. `d[k] = v` updates in place or appends,
`pop` removes; iteration is in insertion order.
-/

namespace Verif

section raw
variable {K A B : Type} [DecidableEq K]

/-- Lookup in an association list. -/
def assoc? : List (K × A) → K → Option A
  | [], _ => none
  | (k', a) :: t, k => if k' = k then some a else assoc? t k

/-- `l[k] = a`: replace the value in place or append. -/
def assocSet : List (K × A) → K → A → List (K × A)
  | [], k, a => [(k, a)]
  | (k', a') :: t, k, a => if k' = k then (k', a) :: t else (k', a') :: assocSet t k a

/-- Remove the entry with key `k`. -/
def assocErase : List (K × A) → K → List (K × A)
  | [], _ => []
  | (k', a') :: t, k => if k' = k then t else (k', a') :: assocErase t k

theorem mem_keys_assocSet (l : List (K × A)) (k : K) (a : A) (x : K) :
    x ∈ (assocSet l k a).map Prod.fst ↔ x = k ∨ x ∈ l.map Prod.fst := by
  induction l with
  | nil => simp [assocSet]
  | cons h t ih =>
    obtain ⟨k', a'⟩ := h
    by_cases hk : k' = k
    · simp [assocSet, hk]
    · simp only [assocSet, hk, if_false, List.map_cons, List.mem_cons, ih]
      tauto

theorem nodup_assocSet (l : List (K × A)) (k : K) (a : A) (h : (l.map Prod.fst).Nodup) :
    ((assocSet l k a).map Prod.fst).Nodup := by
  induction l with
  | nil => simp [assocSet]
  | cons x t ih =>
    obtain ⟨k', a'⟩ := x
    simp only [List.map_cons, List.nodup_cons] at h
    by_cases hk : k' = k
    · simpa [assocSet, hk] using ⟨by simpa [hk] using h.1, h.2⟩
    · simp only [assocSet, hk, if_false, List.map_cons, List.nodup_cons]
      refine ⟨?_, ih h.2⟩
      rw [mem_keys_assocSet]
      tauto

theorem sublist_assocErase (l : List (K × A)) (k : K) : (assocErase l k).Sublist l := by
  induction l with
  | nil => simp [assocErase]
  | cons x t ih =>
    obtain ⟨k', a'⟩ := x
    by_cases hk : k' = k
    · simp [assocErase, hk]
    · simpa [assocErase, hk] using ih

theorem nodup_assocErase (l : List (K × A)) (k : K) (h : (l.map Prod.fst).Nodup) :
    ((assocErase l k).map Prod.fst).Nodup :=
  h.sublist ((sublist_assocErase l k).map _)

theorem assoc?_assocSet (l : List (K × A)) (k : K) (a : A) (x : K) :
    assoc? (assocSet l k a) x = if k = x then some a else assoc? l x := by
  induction l with
  | nil => simp [assocSet, assoc?]
  | cons h t ih =>
    obtain ⟨k', a'⟩ := h
    by_cases hk : k' = k
    · subst hk; by_cases hx : k' = x <;> simp [assocSet, assoc?, hx]
    · simp only [assocSet, hk, if_false, assoc?, ih]
      by_cases hx : k' = x
      · subst hx; simp [Ne.symm hk]
      · simp [hx]

theorem assoc?_eq_none_iff (l : List (K × A)) (k : K) :
    assoc? l k = none ↔ k ∉ l.map Prod.fst := by
  induction l with
  | nil => simp [assoc?]
  | cons h t ih =>
    obtain ⟨k', a'⟩ := h
    by_cases hk : k' = k
    · simp [assoc?, hk]
    · simp only [assoc?, hk, if_false, List.map_cons, List.mem_cons, ih]
      tauto

theorem assoc?_eq_some_iff (l : List (K × A)) (h : (l.map Prod.fst).Nodup) (k : K) (a : A) :
    assoc? l k = some a ↔ (k, a) ∈ l := by
  induction l with
  | nil => simp [assoc?]
  | cons x t ih =>
    obtain ⟨k', a'⟩ := x
    simp only [List.map_cons, List.nodup_cons] at h
    by_cases hk : k' = k
    · subst hk
      simp only [assoc?, if_true, Option.some.injEq, List.mem_cons, Prod.mk.injEq, true_and]
      constructor
      · rintro rfl; simp
      · rintro (rfl | h')
        · rfl
        · exact absurd (List.mem_map_of_mem (f := Prod.fst) h') h.1
    · have hk' : ¬ k = k' := fun e => hk e.symm
      simp [assoc?, hk, hk', ih h.2]

theorem assoc?_assocErase (l : List (K × A)) (h : (l.map Prod.fst).Nodup) (k x : K) :
    assoc? (assocErase l k) x = if k = x then none else assoc? l x := by
  induction l with
  | nil => simp [assocErase, assoc?]
  | cons y t ih =>
    obtain ⟨k', a'⟩ := y
    simp only [List.map_cons, List.nodup_cons] at h
    by_cases hk : k' = k
    · subst hk
      simp only [assocErase, if_true, assoc?]
      by_cases hx : k' = x
      · subst hx; simpa [assoc?_eq_none_iff] using h.1
      · simp [hx]
    · simp only [assocErase, hk, if_false, assoc?, ih h.2]
      by_cases hx : k' = x
      · subst hx; simp [Ne.symm hk]
      · simp [hx]

end raw

/-- A Python `dict`: insertion ordered, unique keys. -/
structure Dict (K A : Type) where
  entries : List (K × A)
  nodup : (entries.map Prod.fst).Nodup

namespace Dict
variable {K A B : Type}

@[ext] theorem ext {d e : Dict K A} (h : d.entries = e.entries) : d = e := by
  cases d; cases e; simp_all

instance [DecidableEq K] [DecidableEq A] : DecidableEq (Dict K A) := fun d e =>
  decidable_of_iff (d.entries = e.entries) ⟨ext, fun h => h ▸ rfl⟩

/-- `{}` -/
def empty : Dict K A := ⟨[], by simp⟩

/-- `d.keys()` in iteration order. -/
def keys (d : Dict K A) : List K := d.entries.map Prod.fst

/-- `d.values()` in iteration order. -/
def vals (d : Dict K A) : List A := d.entries.map Prod.snd

variable [DecidableEq K]

/-- `d.get(k)` -/
def get? (d : Dict K A) (k : K) : Option A := assoc? d.entries k

/-- `k in d` -/
def has (d : Dict K A) (k : K) : Bool := (d.get? k).isSome

/-- `d[k] = a` -/
def set (d : Dict K A) (k : K) (a : A) : Dict K A := ⟨assocSet d.entries k a, nodup_assocSet _ _ _ d.nodup⟩

/-- `d.pop(k)` (the removal; the value is `d.get? k`) -/
def erase (d : Dict K A) (k : K) : Dict K A := ⟨assocErase d.entries k, nodup_assocErase _ _ d.nodup⟩

/-- `{k: a for k, a in l}` -/
def ofList (l : List (K × A)) : Dict K A := l.foldl (fun d p => d.set p.1 p.2) empty

/-- `{k: a for k, a in d.items() if p k}` -/
def filterKeys (d : Dict K A) (p : K → Bool) : Dict K A :=
  ⟨d.entries.filter (fun e => p e.1), d.nodup.sublist (List.filter_sublist.map _)⟩

/-- Dictionary equality (`==`): same keys with same values, regardless of order. -/
def Equiv (d e : Dict K A) : Prop := ∀ k, d.get? k = e.get? k

omit [DecidableEq K] in
@[simp] theorem entries_empty : (empty : Dict K A).entries = [] := rfl
omit [DecidableEq K] in
@[simp] theorem keys_empty : (empty : Dict K A).keys = [] := rfl
omit [DecidableEq K] in
@[simp] theorem vals_empty : (empty : Dict K A).vals = [] := rfl

@[simp] theorem get?_empty (k : K) : (empty : Dict K A).get? k = none := rfl

theorem get?_set (d : Dict K A) (k : K) (a : A) (x : K) :
    (d.set k a).get? x = if k = x then some a else d.get? x := assoc?_assocSet _ _ _ _

@[simp] theorem get?_set_self (d : Dict K A) (k : K) (a : A) : (d.set k a).get? k = some a := by
  simp [get?_set]

theorem get?_set_ne (d : Dict K A) {k x : K} (a : A) (h : k ≠ x) : (d.set k a).get? x = d.get? x := by
  simp [get?_set, h]

theorem get?_erase (d : Dict K A) (k x : K) :
    (d.erase k).get? x = if k = x then none else d.get? x := assoc?_assocErase _ d.nodup _ _

theorem mem_entries (d : Dict K A) (k : K) (a : A) : (k, a) ∈ d.entries ↔ d.get? k = some a :=
  (assoc?_eq_some_iff _ d.nodup _ _).symm

theorem mem_entries' (d : Dict K A) (e : K × A) : e ∈ d.entries ↔ d.get? e.1 = some e.2 :=
  d.mem_entries e.1 e.2

theorem mem_keys (d : Dict K A) (k : K) : k ∈ d.keys ↔ ∃ a, d.get? k = some a := by
  have := assoc?_eq_none_iff d.entries k
  unfold keys get?
  cases h : assoc? d.entries k <;> simp_all

theorem get?_eq_none (d : Dict K A) (k : K) : d.get? k = none ↔ k ∉ d.keys :=
  assoc?_eq_none_iff _ _

theorem has_iff (d : Dict K A) (k : K) : d.has k = true ↔ k ∈ d.keys := by
  rw [mem_keys, has, Option.isSome_iff_exists]

theorem has_eq_false (d : Dict K A) (k : K) : d.has k = false ↔ d.get? k = none := by
  simp [has]

omit [DecidableEq K] in
theorem nodup_keys (d : Dict K A) : d.keys.Nodup := d.nodup

omit [DecidableEq K] in
theorem nodup_entries (d : Dict K A) : d.entries.Nodup := d.nodup.of_map

theorem mem_keys_set (d : Dict K A) (k : K) (a : A) (x : K) :
    x ∈ (d.set k a).keys ↔ x = k ∨ x ∈ d.keys := mem_keys_assocSet _ _ _ _

theorem mem_keys_erase (d : Dict K A) (k x : K) :
    x ∈ (d.erase k).keys ↔ x ≠ k ∧ x ∈ d.keys := by
  rw [mem_keys, mem_keys]
  constructor
  · rintro ⟨a, ha⟩
    rw [get?_erase] at ha
    by_cases h : k = x
    · simp [h] at ha
    · simp only [h, if_false] at ha; exact ⟨fun e => h e.symm, a, ha⟩
  · rintro ⟨h, a, ha⟩
    exact ⟨a, by simp [get?_erase, Ne.symm h, ha]⟩

theorem get?_filterKeys (d : Dict K A) (p : K → Bool) (k : K) :
    (d.filterKeys p).get? k = if p k then d.get? k else none := by
  apply Option.ext
  intro a
  rw [← mem_entries]
  simp only [filterKeys, List.mem_filter, mem_entries']
  split <;> simp_all

theorem equiv_iff_perm (d e : Dict K A) : d.Equiv e ↔ d.entries.Perm e.entries := by
  rw [List.perm_ext_iff_of_nodup d.nodup_entries e.nodup_entries]
  constructor
  · rintro h ⟨k, a⟩; rw [mem_entries, mem_entries, h]
  · intro h k
    apply Option.ext
    intro a
    rw [← mem_entries, ← mem_entries, h]

instance [DecidableEq A] (d e : Dict K A) : Decidable (d.Equiv e) :=
  decidable_of_iff _ (equiv_iff_perm d e).symm

theorem Equiv.refl (d : Dict K A) : d.Equiv d := fun _ => rfl
theorem Equiv.symm {d e : Dict K A} (h : d.Equiv e) : e.Equiv d := fun k => (h k).symm
theorem Equiv.trans {d e f : Dict K A} (h : d.Equiv e) (h' : e.Equiv f) : d.Equiv f :=
  fun k => (h k).trans (h' k)

theorem Equiv.mem_keys {d e : Dict K A} (h : d.Equiv e) (k : K) : k ∈ d.keys ↔ k ∈ e.keys := by
  rw [Dict.mem_keys, Dict.mem_keys, h]

theorem Equiv.keys_perm {d e : Dict K A} (h : d.Equiv e) : d.keys.Perm e.keys :=
  ((equiv_iff_perm d e).1 h).map _

theorem Equiv.vals_perm {d e : Dict K A} (h : d.Equiv e) : d.vals.Perm e.vals :=
  ((equiv_iff_perm d e).1 h).map _

/-- A fold of `set` over entries with a common update rule. -/
theorem get?_ofList_foldl (l : List (K × A)) (hl : (l.map Prod.fst).Nodup) (d : Dict K A) (k : K) :
    (l.foldl (fun d p => d.set p.1 p.2) d).get? k =
      match assoc? l k with
      | some a => some a
      | none => d.get? k := by
  induction l generalizing d with
  | nil => simp [assoc?]
  | cons x t ih =>
    obtain ⟨k', a⟩ := x
    simp only [List.map_cons, List.nodup_cons] at hl
    rw [List.foldl_cons, ih hl.2]
    by_cases hk : k' = k
    · subst hk
      have : assoc? t k' = none := (assoc?_eq_none_iff _ _).2 hl.1
      simp [this, assoc?]
    · simp only [assoc?, hk, if_false]
      cases assoc? t k <;> simp [get?_set, hk]

theorem get?_ofList (l : List (K × A)) (hl : (l.map Prod.fst).Nodup) (k : K) (a : A) :
    (ofList l).get? k = some a ↔ (k, a) ∈ l := by
  rw [ofList, get?_ofList_foldl l hl, ← assoc?_eq_some_iff l hl]
  cases assoc? l k <;> simp

theorem sum_entries_eq {M : Type} [AddCommMonoid M] (d : Dict K A) (f : K × A → M) [DecidableEq A] :
    (d.entries.map f).sum = ∑ e ∈ d.entries.toFinset, f e := by
  rw [List.sum_toFinset _ d.nodup_entries]

end Dict

end Verif
