import Verif.Props.Components

/-!
# C03: edges that do not have two endpoints
-/

namespace Verif

variable {V X R : Type} [DecidableEq V] [DecidableEq X]

/-- **C03** An edge with fewer than two endpoints cannot be constructed: `RelationEdge.__init__` raises `IndexError`; in the model the queries pass it on. -/
theorem C03_degenerate (o : Order (Node V X)) (e : Edge V X R) (h : e.endpoints.card < 2) (n : Node V X) :
    e.ab o = .error .indexError ∧ e.oppositeEndpoint o n = .error .indexError := by
  have hl : (o.run e.endpoints).length < 2 := (o.length_run e.endpoints).trans_lt h
  unfold Edge.oppositeEndpoint Edge.ab
  match hx : o.run e.endpoints with
  | [] => exact ⟨rfl, rfl⟩
  | [a] => exact ⟨rfl, rfl⟩
  | a :: b :: t => rw [hx] at hl; simp at hl; omega

/-- Non-vacuity of C03_degenerate. -/
example : (⟨{⟨0, 0⟩}, .plain 0⟩ : Edge ℕ ℕ ℕ).endpoints.card < 2 := by decide

end Verif
