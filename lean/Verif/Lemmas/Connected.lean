import Verif.Model.SampleGraphBuilder
import Verif.Spec.Graph

/-! Helper lemmas on the depth-first trace of `is_edges_connected`. -/

namespace Verif
open Relation

section trace
variable {N : Type} [DecidableEq N]

/-- What a `trace` call achieves. -/
structure TraceSpec (adj : N → List N) (n : N) (t r : Finset N) : Prop where
  sub : t ⊆ r
  mem : n ∈ r
  reach : ∀ m ∈ r, m ∈ t ∨ ReflTransGen (fun a b => b ∈ adj a) n m
  closed : ∀ m ∈ r, m ∉ t → ∀ k ∈ adj m, k ∈ r

theorem trace_fold (adj : N → List N) (f : Nat → N → Finset N → Finset N) (fuel : Nat) (U : Finset N)
    (ih : ∀ n t, n ∈ U → t ⊆ U → (U \ t).card < fuel → f fuel n t ⊆ U ∧ TraceSpec adj n t (f fuel n t))
    (l : List N) (t : Finset N) (hl : ∀ k ∈ l, k ∈ U) (htU : t ⊆ U) (ht : (U \ t).card < fuel) :
    let r := l.foldl (fun t m => f fuel m t) t
    r ⊆ U ∧ t ⊆ r ∧ (∀ k ∈ l, k ∈ r) ∧
      (∀ m ∈ r, m ∈ t ∨ ∃ k ∈ l, ReflTransGen (fun a b => b ∈ adj a) k m) ∧
      (∀ m ∈ r, m ∉ t → ∀ k ∈ adj m, k ∈ r) := by
  induction l generalizing t with
  | nil => simp only [List.foldl_nil]; exact ⟨htU, fun _ h => h, by simp, by tauto, by tauto⟩
  | cons x l ihl =>
    simp only [List.foldl_cons]
    obtain ⟨hU1, h1⟩ := ih x t (hl x (by simp)) htU ht
    have hcard : (U \ f fuel x t).card < fuel :=
      lt_of_le_of_lt (Finset.card_le_card (Finset.sdiff_subset_sdiff (fun _ h => h) h1.sub)) ht
    obtain ⟨a1, a2, a3, a4, a5⟩ := ihl (f fuel x t) (fun k hk => hl k (by simp [hk])) hU1 hcard
    refine ⟨a1, h1.sub.trans a2, ?_, ?_, ?_⟩
    · intro k hk
      rcases List.mem_cons.1 hk with rfl | hk
      · exact a2 h1.mem
      · exact a3 k hk
    · intro m hm
      rcases a4 m hm with h | ⟨k, hk, h⟩
      · rcases h1.reach m h with h | h
        · exact Or.inl h
        · exact Or.inr ⟨x, by simp, h⟩
      · exact Or.inr ⟨k, by simp [hk], h⟩
    · intro m hm hmt k hk
      by_cases h : m ∈ f fuel x t
      · exact a2 (h1.closed m h hmt k hk)
      · exact a5 m hm h k hk

theorem trace_spec (adj : N → List N) (U : Finset N) (hU : ∀ n ∈ U, ∀ k ∈ adj n, k ∈ U) (fuel : Nat) :
    ∀ n t, n ∈ U → t ⊆ U → (U \ t).card < fuel →
      trace adj fuel n t ⊆ U ∧ TraceSpec adj n t (trace adj fuel n t) := by
  induction fuel with
  | zero => intro n t _ _ h; exact absurd h (Nat.not_lt_zero _)
  | succ fuel ih =>
    intro n t hn htU hcard
    unfold trace
    split
    · rename_i h
      exact ⟨htU, ⟨fun _ h => h, h, fun m hm => Or.inl hm, fun m hm hmt => absurd hm hmt⟩⟩
    · rename_i h
      have hsub : insert n t ⊆ U := Finset.insert_subset hn htU
      have hlt : (U \ insert n t).card < fuel := by
        have : (U \ insert n t).card < (U \ t).card := by
          apply Finset.card_lt_card
          refine ⟨Finset.sdiff_subset_sdiff (fun _ h => h) (Finset.subset_insert _ _), ?_⟩
          intro hs
          have := hs (Finset.mem_sdiff.2 ⟨hn, h⟩)
          simp at this
        omega
      obtain ⟨a1, a2, a3, a4, a5⟩ :=
        trace_fold adj (trace adj) fuel U ih (adj n) (insert n t) (hU n hn) hsub hlt
      refine ⟨a1, ⟨(Finset.subset_insert _ _).trans a2, a2 (by simp), ?_, ?_⟩⟩
      · intro m hm
        rcases a4 m hm with h | ⟨k, hk, h⟩
        · rcases Finset.mem_insert.1 h with rfl | h
          · exact Or.inr .refl
          · exact Or.inl h
        · exact Or.inr (ReflTransGen.head hk h)
      · intro m hm hmt k hk
        by_cases hmn : m = n
        · subst hmn; exact a3 k hk
        · exact a5 m hm (by simp [hmn, hmt]) k hk

/-- With enough fuel, a trace started from the empty set visits exactly the reachable nodes. -/
theorem mem_trace_iff (adj : N → List N) (U : Finset N) (hU : ∀ n ∈ U, ∀ k ∈ adj n, k ∈ U) (n : N) (hn : n ∈ U)
    (fuel : Nat) (hf : U.card < fuel) (m : N) :
    m ∈ trace adj fuel n ∅ ↔ ReflTransGen (fun a b => b ∈ adj a) n m := by
  obtain ⟨-, h⟩ := trace_spec adj U hU fuel n ∅ hn (by simp) (by simpa using hf)
  constructor
  · intro hm
    rcases h.reach m hm with h' | h'
    · simp at h'
    · exact h'
  · intro hr
    induction hr with
    | refl => exact h.mem
    | tail _ hbc ih => exact h.closed _ ih (by simp) _ hbc

end trace

section map
variable {N : Type} [DecidableEq N]

theorem getD_traceAdd (m : Dict N (Finset N)) (a b x : N) :
    ((traceAdd m a b).get? x).getD ∅ = if x = a then insert b ((m.get? x).getD ∅) else (m.get? x).getD ∅ := by
  unfold traceAdd
  rw [Dict.get?_set]
  by_cases h : a = x
  · subst h; simp
  · simp [h, Ne.symm h]

theorem mem_keys_traceAdd (m : Dict N (Finset N)) (a b x : N) :
    x ∈ (traceAdd m a b).keys ↔ x = a ∨ x ∈ m.keys := by
  unfold traceAdd; rw [Dict.mem_keys_set]

theorem tracingMap_ok (ls : List (List N)) (m0 : Dict N (Finset N)) (h : ∀ l ∈ ls, l.length = 2) :
    ∃ m, tracingMap ls m0 = .ok m ∧
      (∀ x, x ∈ m.keys ↔ x ∈ m0.keys ∨ ∃ l ∈ ls, x ∈ l) ∧
      (∀ x y, y ∈ (m.get? x).getD ∅ ↔ y ∈ (m0.get? x).getD ∅ ∨ ∃ l ∈ ls, l = [x, y] ∨ l = [y, x]) := by
  induction ls generalizing m0 with
  | nil => exact ⟨m0, rfl, by simp, by simp⟩
  | cons l ls ih =>
    obtain ⟨a, b, rfl⟩ := List.length_eq_two.1 (h l (by simp))
    obtain ⟨m, hm, hk, hg⟩ := ih (traceAdd (traceAdd m0 a b) b a) (fun l hl => h l (by simp [hl]))
    refine ⟨m, hm, ?_, ?_⟩
    · intro x
      rw [hk]
      simp only [mem_keys_traceAdd, List.mem_cons, exists_eq_or_imp, List.not_mem_nil, or_false]
      tauto
    · intro x y
      rw [hg]
      simp only [getD_traceAdd, List.mem_cons, exists_eq_or_imp, List.cons.injEq, and_true]
      by_cases h1 : x = b <;> by_cases h2 : x = a <;> simp [h1, h2] <;> grind

theorem tracingMap_error (ls : List (List N)) (m0 : Dict N (Finset N)) (h : ∃ l ∈ ls, l.length ≠ 2) :
    tracingMap ls m0 = .error .assertion := by
  induction ls generalizing m0 with
  | nil => simp at h
  | cons l ls ih =>
    by_cases hl : l.length = 2
    · obtain ⟨a, b, rfl⟩ := List.length_eq_two.1 hl
      simp only [tracingMap]
      apply ih
      obtain ⟨l, hl', h⟩ := h
      rcases List.mem_cons.1 hl' with rfl | hl'
      · exact absurd hl h
      · exact ⟨l, hl', h⟩
    · match l, hl with
      | [], _ => rfl
      | [_], _ => rfl
      | _ :: _ :: _ :: _, _ => rfl

end map

end Verif
