import Verif.Lemmas.PacDisplayInit
import Verif.Model.PacFirstPerson

/-!
# Changing the picture of an agent between ghost and pacman (C71, C99)

In this game no agent changes its kind, but `update` handles states in which one did (graphicsDisplay.py 222-234, 240).
-/

set_option linter.unusedSectionVars false

namespace Verif.Pac

theorem foldl_delete_get (l : List ℕ) : ∀ (c : Canvas) (k : ℕ),
    (l.foldl Canvas.delete c)[k]? = if k ∈ l ∧ k < c.length then some none else c[k]? := by
  induction l with
  | nil => intro c k; simp
  | cons a t ih =>
    intro c k
    rw [List.foldl_cons, ih]
    unfold Canvas.delete
    rw [List.length_set, List.getElem?_set]
    by_cases h1 : k ∈ t <;> by_cases h2 : a = k <;> by_cases h3 : k < c.length <;> simp_all [eq_comm]

theorem foldl_delete_length (l : List ℕ) : ∀ c : Canvas, (l.foldl Canvas.delete c).length = c.length := by
  induction l with
  | nil => intro c; rfl
  | cons a t ih => intro c; rw [List.foldl_cons, ih, Canvas.delete, List.length_set]

/-- **C71.** `swapImages` changes the picture of an agent: all items of the old picture are gone, all other items stay, the items of the new picture are drawn as
for a new display, in order, with identifiers never used before, and are remembered with the new state of the agent; nothing else changes. It fails exactly if
the new picture cannot be drawn. -/
theorem C71_swap (sn : ℚ → ℚ) (d : Disp) (i : ℕ) (a : Agent) (image : List ℕ) :
    (∀ e, swapImages sn d i a image = .error e ↔ agentItems sn d.gridSize d.height a i = .error e) ∧
    ∀ d', swapImages sn d i a image = .ok d' → ∃ its ids, agentItems sn d.gridSize d.height a i = .ok its ∧
      d' = { d with canvas := d'.canvas, agents := d.agents.set i (a, ids) } ∧
      (∀ id ∈ image, id < d.canvas.length → d'.canvas.item? id = none) ∧
      (∀ id, id ∉ image → id < d.canvas.length → d'.canvas.item? id = d.canvas.item? id) ∧
      ids.length = its.length ∧ ids.Nodup ∧
      ∀ (k id : ℕ) (it : Item), ids[k]? = some id → its[k]? = some it → d.canvas.length ≤ id ∧ d'.canvas.item? id = some it := by
  unfold swapImages
  cases hi : agentItems sn d.gridSize d.height a i with
  | error e => exact ⟨fun e' => by simp, fun d' h => by simp at h⟩
  | ok its =>
    refine ⟨fun e' => by simp, fun d' h => ?_⟩
    simp only [addAll_eq, foldl_delete_length] at h
    obtain rfl := Except.ok.inj h
    refine ⟨its, List.range' d.canvas.length its.length, rfl, rfl, fun id h1 h2 => ?_, fun id h1 h2 => ?_, by simp, List.nodup_range', fun k id it h1 h2 => ?_⟩
    · unfold Canvas.item?
      rw [List.getElem?_append_left (by rw [foldl_delete_length]; exact h2), foldl_delete_get, if_pos ⟨h1, h2⟩]
      rfl
    · unfold Canvas.item?
      rw [List.getElem?_append_left (by rw [foldl_delete_length]; exact h2), foldl_delete_get, if_neg fun h => h1 h.1]
    · rw [List.getElem?_eq_some_iff] at h1
      obtain ⟨hk, rfl⟩ := h1
      rw [List.getElem_range', one_mul]
      refine ⟨Nat.le_add_right _ _, ?_⟩
      unfold Canvas.item?
      rw [List.getElem?_append_right (by rw [foldl_delete_length]; exact Nat.le_add_right _ _), foldl_delete_length, Nat.add_sub_cancel_left, List.getElem?_map, h2]
      rfl

/-- **C71.** An agent that changed its kind is first given the new picture and then moved as any other agent; one that did not keeps its picture. -/
theorem C71_swap_first (sn : ℚ → ℚ) (slow : Bool) (d : Disp) (i : ℕ) (a p : Agent) (im : List ℕ) (h : d.agents[i]? = some (p, im))
    (hk : p.isPacman ≠ a.isPacman) : d.moveAgent sn slow i a = (swapImages sn d i a im).bind fun d' => d'.moveAgent sn slow i a := by
  cases hs : swapImages sn d i a im with
  | error e =>
    unfold Disp.moveAgent
    simp only [h, if_pos hk, hs, bind, Except.bind]
  | ok d' =>
    obtain ⟨its, ids, -, h2, -⟩ := (C71_swap sn d i a im).2 d' hs
    have hlt : i < d.agents.length := (List.getElem?_eq_some_iff.1 h).1
    have h3 : d'.agents[i]? = some (a, ids) := by
      rw [h2]
      simp only
      rw [List.getElem?_set_self hlt]
    unfold Disp.moveAgent
    simp only [h, if_pos hk, hs, bind, Except.bind, h3, ne_eq, not_true, if_false]

/-- **C99.** The same for the first person display, which inherits `swapImages`: all items of the old picture are gone, all other items stay, the items of the new picture are drawn as
for a new display, in order, with identifiers never used before, and are remembered with the new state of the agent; nothing else changes. It fails exactly if
the new picture cannot be drawn. -/
theorem C99_swap (shown : Bool) (sn : ℚ → ℚ) (d : Disp) (i : ℕ) (a : Agent) (image : List ℕ) :
    (∀ e, fpSwapImages shown sn d i a image = .error e ↔ fpAgentItems shown sn d.gridSize d.height a i = .error e) ∧
    ∀ d', fpSwapImages shown sn d i a image = .ok d' → ∃ its ids, fpAgentItems shown sn d.gridSize d.height a i = .ok its ∧
      d' = { d with canvas := d'.canvas, agents := d.agents.set i (a, ids) } ∧
      (∀ id ∈ image, id < d.canvas.length → d'.canvas.item? id = none) ∧
      (∀ id, id ∉ image → id < d.canvas.length → d'.canvas.item? id = d.canvas.item? id) ∧
      ids.length = its.length ∧ ids.Nodup ∧
      ∀ (k id : ℕ) (it : Item), ids[k]? = some id → its[k]? = some it → d.canvas.length ≤ id ∧ d'.canvas.item? id = some it := by
  unfold fpSwapImages
  cases hi : fpAgentItems shown sn d.gridSize d.height a i with
  | error e => exact ⟨fun e' => by simp, fun d' h => by simp at h⟩
  | ok its =>
    refine ⟨fun e' => by simp, fun d' h => ?_⟩
    simp only [addAll_eq, foldl_delete_length] at h
    obtain rfl := Except.ok.inj h
    refine ⟨its, List.range' d.canvas.length its.length, rfl, rfl, fun id h1 h2 => ?_, fun id h1 h2 => ?_, by simp, List.nodup_range', fun k id it h1 h2 => ?_⟩
    · unfold Canvas.item?
      rw [List.getElem?_append_left (by rw [foldl_delete_length]; exact h2), foldl_delete_get, if_pos ⟨h1, h2⟩]
      rfl
    · unfold Canvas.item?
      rw [List.getElem?_append_left (by rw [foldl_delete_length]; exact h2), foldl_delete_get, if_neg fun h => h1 h.1]
    · rw [List.getElem?_eq_some_iff] at h1
      obtain ⟨hk, rfl⟩ := h1
      rw [List.getElem_range', one_mul]
      refine ⟨Nat.le_add_right _ _, ?_⟩
      unfold Canvas.item?
      rw [List.getElem?_append_right (by rw [foldl_delete_length]; exact Nat.le_add_right _ _), foldl_delete_length, Nat.add_sub_cancel_left, List.getElem?_map, h2]
      rfl

/-- The hypotheses are met: a ghost that became a pacman on a window with its picture of two items and one more. -/
theorem swap_demo : ∃ d', swapImages (fun _ => 0) ⟨[none, none, none], 3, 30, 0, [], Dict.empty, [(⟨⟨(1, 1), .stop⟩, ⟨(1, 1), .stop⟩, false, 0⟩, [0, 1])]⟩ 0
    ⟨⟨(1, 1), .stop⟩, ⟨(1, 1), .stop⟩, true, 0⟩ [0, 1] = .ok d' := ⟨_, rfl⟩

end Verif.Pac
