import Verif.Lemmas.Connected

/-!
# C04 – `is_edges_connected` decides connectivity
-/

namespace Verif
open Relation

variable {V X R : Type} [DecidableEq V] [DecidableEq X]

/-- C04. For a non-empty set of two-endpoint edges `is_edges_connected` returns, and returns `True` exactly when any two
mentioned nodes are joined by a path of the given edges; for all iteration orders. -/
theorem C04_is_edges_connected (oE : Order (RawEdge V X R)) (oN : Order (V × X)) (edges : Finset (RawEdge V X R))
    (hne : edges.Nonempty) (h2 : ∀ e ∈ edges, e.1.card = 2) :
    ∃ b, isEdgesConnected oE oN edges = .ok b ∧
      (b = true ↔ ConnectedBy Prod.fst edges {n | ∃ e ∈ edges, n ∈ e.1}) := by
  obtain ⟨m, hm, hk, hg⟩ := tracingMap_ok ((oE.run edges).map fun e => oN.run e.1) Dict.empty (by
    intro l hl
    obtain ⟨e, he, rfl⟩ := List.mem_map.1 hl
    rw [oN.length_run]
    exact h2 e ((oE.mem _ _).1 he))
  have hk' : ∀ x, x ∈ m.keys ↔ ∃ e ∈ edges, x ∈ e.1 := by
    intro x; rw [hk]
    constructor
    · rintro (h | ⟨l, hl, hx⟩)
      · simp at h
      · obtain ⟨e, he, rfl⟩ := List.mem_map.1 hl
        exact ⟨e, (oE.mem _ _).1 he, (oN.mem _ _).1 hx⟩
    · rintro ⟨e, he, hx⟩
      exact Or.inr ⟨_, List.mem_map_of_mem ((oE.mem _ _).2 he), (oN.mem _ _).2 hx⟩
  have hg' : ∀ x y, y ∈ oN.run ((m.get? x).getD ∅) ↔ x ≠ y ∧ Linked Prod.fst edges x y := by
    intro x y
    rw [oN.mem, hg]
    constructor
    · rintro (h | ⟨l, hl, hxy⟩)
      · simp at h
      · obtain ⟨e, he, rfl⟩ := List.mem_map.1 hl
        have hnd := oN.nodup e.1
        refine ⟨?_, e, (oE.mem _ _).1 he, (oN.mem _ _).1 ?_, (oN.mem _ _).1 ?_⟩
        · rcases hxy with h | h <;> rw [h] at hnd <;> simp at hnd <;> tauto
        · rcases hxy with h | h <;> simp [h]
        · rcases hxy with h | h <;> simp [h]
    · rintro ⟨hne, e, he, hx, hy⟩
      refine Or.inr ⟨_, List.mem_map_of_mem ((oE.mem _ _).2 he), ?_⟩
      obtain ⟨a, b, hab⟩ := List.length_eq_two.1 ((oN.length_run e.1).trans (h2 e he))
      have hx' := (oN.mem _ _).2 hx
      have hy' := (oN.mem _ _).2 hy
      rw [hab] at hx' hy' ⊢
      simp only [List.mem_cons, List.not_mem_nil, or_false] at hx' hy'
      rcases hx' with rfl | rfl <;> rcases hy' with rfl | rfl <;> simp_all
  unfold isEdgesConnected
  rw [hm]
  simp only
  have hkne : m.keys ≠ [] := by
    obtain ⟨e, he⟩ := hne
    have : e.1.Nonempty := by rw [← Finset.card_pos, h2 e he]; omega
    obtain ⟨x, hx⟩ := this
    intro h
    have := (hk' x).2 ⟨e, he, hx⟩
    rw [h] at this; simp at this
  cases hks : m.keys with
  | nil => exact absurd hks hkne
  | cons start rest =>
    simp only
    refine ⟨_, rfl, ?_⟩
    rw [← hks]
    set U := m.keys.toFinset with hU
    set adj := (fun n => oN.run ((m.get? n).getD ∅)) with hadj
    have hUcard : U.card = m.keys.length := by rw [hU, List.toFinset_card_of_nodup m.nodup_keys]
    have hclosed : ∀ n ∈ U, ∀ k ∈ adj n, k ∈ U := by
      intro n _ k hkn
      obtain ⟨-, e, he, -, hk2⟩ := (hg' n k).1 hkn
      rw [hU, List.mem_toFinset, hk']; exact ⟨e, he, hk2⟩
    have hstart : start ∈ U := by rw [hU, List.mem_toFinset, hks]; simp
    have hmem := mem_trace_iff adj U hclosed start hstart (m.keys.length + 1) (by omega)
    have hsub := (trace_spec adj U hclosed (m.keys.length + 1) start ∅ hstart (by simp) (by simp; omega)).1
    have hstep : ∀ a b, ReflTransGen (fun a b => b ∈ adj a) a b ↔ ReflTransGen (Linked Prod.fst edges) a b := by
      intro a b
      constructor
      · exact ReflTransGen.mono (fun a b h => ((hg' a b).1 h).2) a b
      · intro h
        induction h with
        | refl => exact .refl
        | @tail b c _ hbc ih =>
          by_cases hbc' : b = c
          · subst hbc'; exact ih
          · exact ih.tail ((hg' b c).2 ⟨hbc', hbc⟩)
    have hsymm : ∀ a b, ReflTransGen (Linked Prod.fst edges) a b → ReflTransGen (Linked Prod.fst edges) b a := by
      intro a b h
      induction h with
      | refl => exact .refl
      | tail _ hbc ih =>
        obtain ⟨e, he, h1, h2⟩ := hbc
        exact ReflTransGen.head ⟨e, he, h2, h1⟩ ih
    simp only [decide_eq_true_eq]
    constructor
    · intro hc a ha b hb
      have heq := Finset.eq_of_subset_of_card_le hsub (le_of_eq (hUcard.trans hc))
      have key : ∀ x, (∃ e ∈ edges, x ∈ e.1) → ReflTransGen (Linked Prod.fst edges) start x := by
        intro x hx
        rw [← hstep, ← hmem, heq, hU, List.mem_toFinset, hk']; exact hx
      exact (hsymm _ _ (key a ha)).trans (key b hb)
    · intro hc
      refine hUcard.symm.trans (congrArg Finset.card (Finset.Subset.antisymm ?_ hsub))
      intro x hx
      rw [hmem, hstep]
      rw [hU, List.mem_toFinset, hk'] at hx hstart
      exact hc start hstart x hx


/-- C04, empty input: `next(iter({}.keys()))` raises `StopIteration`. -/
theorem C04_empty (oE : Order (RawEdge V X R)) (oN : Order (V × X)) :
    isEdgesConnected oE oN ∅ = .error .stopIteration := by
  simp [isEdgesConnected, tracingMap]


/-- C04, malformed input: an edge without exactly two endpoints raises `AssertionError`, whatever the orders. -/
theorem C04_malformed (oE : Order (RawEdge V X R)) (oN : Order (V × X)) (edges : Finset (RawEdge V X R))
    (h : ∃ e ∈ edges, e.1.card ≠ 2) : isEdgesConnected oE oN edges = .error .assertion := by
  obtain ⟨e, he, hc⟩ := h
  have := tracingMap_error ((oE.run edges).map fun e => oN.run e.1) Dict.empty
    ⟨_, List.mem_map_of_mem ((oE.mem _ _).2 he), by rwa [oN.length_run]⟩
  simp [isEdgesConnected, this]

/-- Non-vacuity: a two-edge path meets the hypotheses of `C04_is_edges_connected` and is connected, two disjoint edges
meet them and are not. -/
example : ∃ edges : Finset (RawEdge ℕ ℕ ℕ), edges.Nonempty ∧ (∀ e ∈ edges, e.1.card = 2) ∧
    ConnectedBy Prod.fst edges {n | ∃ e ∈ edges, n ∈ e.1} := by
  refine ⟨{({(0, 0), (1, 0)}, .plain 0)}, by simp, by simp, ?_⟩
  rintro a ⟨e, he, ha⟩ b ⟨e', he', hb⟩
  simp only [Finset.mem_singleton] at he he'
  subst he; subst he'
  exact .single ⟨_, Finset.mem_singleton_self _, ha, hb⟩

example : ∃ edges : Finset (RawEdge ℕ ℕ ℕ), edges.Nonempty ∧ (∀ e ∈ edges, e.1.card = 2) ∧
    ¬ ConnectedBy Prod.fst edges {n | ∃ e ∈ edges, n ∈ e.1} := by
  refine ⟨{({(0, 0), (1, 0)}, .plain 0), ({(2, 0), (3, 0)}, .plain 0)}, by simp, by simp, ?_⟩
  intro h
  have h1 := h (0, 0) ⟨({(0, 0), (1, 0)}, .plain 0), by simp, by simp⟩ (2, 0)
    ⟨({(2, 0), (3, 0)}, .plain 0), by simp, by simp⟩
  have key : ∀ x, ReflTransGen (Linked (Prod.fst : RawEdge ℕ ℕ ℕ → _)
      {({(0, 0), (1, 0)}, .plain 0), ({(2, 0), (3, 0)}, .plain 0)}) (0, 0) x → x.1 < 2 := by
    intro x hx
    induction hx with
    | refl => simp
    | tail _ hl ih =>
      obtain ⟨e, he, h1, h2⟩ := hl
      simp only [Finset.mem_insert, Finset.mem_singleton] at he
      rcases he with rfl | rfl
      · simp only [Finset.mem_insert, Finset.mem_singleton] at h2
        rcases h2 with rfl | rfl <;> simp
      · simp only [Finset.mem_insert, Finset.mem_singleton] at h1
        rcases h1 with rfl | rfl <;> simp at ih
  have := key _ h1
  simp at this

end Verif
