import Mathlib.Data.Finset.Card
import Mathlib.Data.Finset.Image
import Mathlib.Data.Finset.Union
import Mathlib.Data.Finset.Dedup
import Mathlib.Data.Finset.Filter
import Mathlib.Algebra.BigOperators.Group.Finset.Basic
import Mathlib.Algebra.Order.BigOperators.Group.Finset
import Mathlib.Tactic.Tauto
import Mathlib.Tactic.Push

/-!
# Base notions: Python exceptions and set iteration

Exceptions are values of `Err`; a Python `set`/`frozenset` is a `Finset` and *iterating* it
goes through an `Order`, an arbitrary choice of a duplicate-free listing of every finite set.
-/

namespace Verif

/-- Kinds of Python exceptions raised by the modelled code. `fuel` is not a Python exception: it marks
the out-of-fuel branch of functions whose recursion is modelled with explicit fuel; it is proved
unreachable wherever fuel is used. -/
inductive Err
  | assertion | zeroDiv | stopIteration | typeError | keyError | indexError | fuel
  deriving DecidableEq, Repr

/-- Result of a Python call: a value or an exception. -/
abbrev Py (α : Type) := Except Err α

/-- `assert cond` -/
def pyAssert (b : Bool) : Py Unit := if b then .ok () else .error .assertion

/-- Did the call return (as opposed to raise)? -/
def Returns {α : Type} (p : Py α) : Prop := ∃ a, p = .ok a

/-- An arbitrary iteration order of Python sets: a duplicate free listing of each finite set. -/
structure Order (α : Type) where
  run : Finset α → List α
  nodup : ∀ s, (run s).Nodup
  mem : ∀ s a, a ∈ run s ↔ a ∈ s

namespace Order
variable {α : Type}

/-- An order that follows the given list for subsets of it (used for concrete, kernel-evaluable cases). -/
noncomputable def ofList [DecidableEq α] (l : List α) : Order α where
  run s := if s ⊆ l.toFinset then l.dedup.filter (· ∈ s) else s.toList
  nodup s := by
    split
    · exact (List.nodup_dedup l).filter _
    · exact s.nodup_toList
  mem s a := by
    split
    · rename_i h
      simp only [List.mem_filter, List.mem_dedup, decide_eq_true_eq, and_iff_right_iff_imp]
      intro ha
      simpa using h ha
    · simp

noncomputable instance : Inhabited (Order α) := ⟨⟨Finset.toList, Finset.nodup_toList, by simp⟩⟩

variable (o : Order α) (s : Finset α)

theorem toFinset_run [DecidableEq α] : (o.run s).toFinset = s := by
  ext a; simp [o.mem]

theorem length_run : (o.run s).length = s.card := by
  classical
  rw [← List.toFinset_card_of_nodup (o.nodup s), toFinset_run]

theorem perm_toList : (o.run s).Perm s.toList := by
  rw [List.perm_ext_iff_of_nodup (o.nodup s) s.nodup_toList]
  intro a; simp [o.mem]

theorem perm (o' : Order α) : (o.run s).Perm (o'.run s) :=
  (o.perm_toList s).trans (o'.perm_toList s).symm

@[simp] theorem run_empty : o.run ∅ = [] := by
  rw [List.eq_nil_iff_forall_not_mem]; intro a; simp [o.mem]

@[simp] theorem run_eq_nil : o.run s = [] ↔ s = ∅ := by
  constructor
  · intro h
    rw [Finset.eq_empty_iff_forall_notMem]
    intro a ha
    rw [← o.mem, h] at ha
    simp at ha
  · rintro rfl; simp

@[simp] theorem run_singleton (a : α) : o.run {a} = [a] := by
  have h1 := o.length_run {a}
  rw [Finset.card_singleton, List.length_eq_one_iff] at h1
  obtain ⟨b, hb⟩ := h1
  have := (o.mem {a} b).1 (by simp [hb])
  rw [hb]; simpa using this

theorem sum_map {M : Type} [AddCommMonoid M] (f : α → M) :
    ((o.run s).map f).sum = ∑ a ∈ s, f a := by
  rw [← Finset.sum_map_toList]
  exact ((o.perm_toList s).map f).sum_eq

theorem prod_map {M : Type} [CommMonoid M] (f : α → M) :
    ((o.run s).map f).prod = ∏ a ∈ s, f a := by
  rw [← Finset.prod_map_toList]
  exact ((o.perm_toList s).map f).prod_eq

theorem any_run (p : α → Bool) : (o.run s).any p = true ↔ ∃ a ∈ s, p a = true := by
  simp [List.any_eq_true, o.mem]

theorem all_run (p : α → Bool) : (o.run s).all p = true ↔ ∀ a ∈ s, p a = true := by
  simp [List.all_eq_true, o.mem]

end Order

end Verif

namespace Verif

/-- An order that lists `a` first. -/
noncomputable def Order.first {α : Type} [DecidableEq α] (a : α) : Order α where
  run s := if a ∈ s then a :: (s.erase a).toList else s.toList
  nodup s := by
    split
    · simp [Finset.nodup_toList]
    · exact s.nodup_toList
  mem s b := by
    split
    · rename_i h
      simp only [List.mem_cons, Finset.mem_toList, Finset.mem_erase]
      constructor
      · rintro (rfl | h')
        · exact h
        · exact h'.2
      · intro hb
        by_cases hba : b = a
        · exact Or.inl hba
        · exact Or.inr ⟨hba, hb⟩
    · simp

section mapM
variable {α β : Type}

/-- A comprehension whose element computations all return. -/
theorem mapM_ok (f : α → Py β) (g : α → β) (l : List α) (h : ∀ x ∈ l, f x = .ok (g x)) : l.mapM f = .ok (l.map g) := by
  induction l with
  | nil => rfl
  | cons x t ih =>
    rw [List.mapM_cons, h x (by simp), ih (fun y hy => h y (by simp [hy]))]
    rfl

/-- A comprehension of which some element computation raises; all raised kinds are `er`. -/
theorem mapM_error (f : α → Py β) (er : Err) (l : List α) (h : ∀ x ∈ l, ∀ e, f x = .error e → e = er)
    (hex : ∃ x ∈ l, ¬ Returns (f x)) : l.mapM f = .error er := by
  induction l with
  | nil => simp at hex
  | cons x t ih =>
    rw [List.mapM_cons]
    cases hx : f x with
    | error e => rw [h x (by simp) e hx]; rfl
    | ok y =>
      rw [ih (fun y hy => h y (by simp [hy]))]
      · rfl
      · obtain ⟨z, hz, hn⟩ := hex
        rcases List.mem_cons.1 hz with rfl | hz
        · exact absurd ⟨y, hx⟩ hn
        · exact ⟨z, hz, hn⟩

theorem not_returns {p : Py α} (h : ¬ Returns p) : ∃ e, p = .error e := by
  cases p with
  | error e => exact ⟨e, rfl⟩
  | ok a => exact absurd ⟨a, rfl⟩ h

end mapM

end Verif
