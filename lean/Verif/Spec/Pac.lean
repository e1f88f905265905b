import Verif.Model.PacGame
import Verif.Lemmas.PacGrid

/-!
# Small specifications for the game: the maze as a set of open cells, neighbours, places of agents
-/

namespace Verif.Pac

theorem Grid.at_iff (g : Grid) (x y : ℕ) (b : Bool) : g.At x y b ↔ ((g.data[x]?).bind fun c => c[y]?) = some b := by
  unfold Grid.At
  simp [Option.bind_eq_some_iff]

instance (g : Grid) (x y : ℕ) (b : Bool) : Decidable (g.At x y b) := decidable_of_iff _ (g.at_iff x y b).symm

/-- The cell next to a cell. -/
def nextCell (x y : ℕ) : Dir → ℕ × ℕ
  | .north => (x, y + 1)
  | .south => (x, y - 1)
  | .east => (x + 1, y)
  | .west => (x - 1, y)
  | .stop => (x, y)

/-- A cell without a wall. -/
def Grid.Free (g : Grid) (p : ℕ × ℕ) : Prop := g.At p.1 p.2 false

instance (g : Grid) (p : ℕ × ℕ) : Decidable (g.Free p) := by unfold Grid.Free; infer_instance

/-- The outermost cells are walls. -/
structure Grid.Bordered (g : Grid) : Prop where
  shaped : g.Shaped
  inner : ∀ x y, g.At x y false → 0 < x ∧ x + 1 < g.width ∧ 0 < y ∧ y + 1 < g.height

/-- The position of a cell. -/
def cellAt (p : ℕ × ℕ) : Pos := ((p.1 : ℚ), (p.2 : ℚ))

/-- In the middle between two free neighbouring cells and facing one of them. -/
def Between (walls : Grid) (c : Config) : Prop :=
  ∃ x y : ℕ, walls.Free (x, y) ∧
    ((walls.Free (x + 1, y) ∧ c.pos = ((x : ℚ) + 1 / 2, (y : ℚ)) ∧ (c.dir = .east ∨ c.dir = .west)) ∨
     (walls.Free (x, y + 1) ∧ c.pos = ((x : ℚ), (y : ℚ) + 1 / 2) ∧ (c.dir = .north ∨ c.dir = .south)))

/-- On a free cell. -/
def OnFree (walls : Grid) (c : Config) : Prop := ∃ p, walls.Free p ∧ c.pos = cellAt p

/-- Within 0.7 of a position in Manhattan distance. -/
def Near (p : Pos) (g : Agent) : Prop := |g.conf.pos.1 - p.1| + |g.conf.pos.2 - p.2| ≤ 7 / 10

instance (p : Pos) (g : Agent) : Decidable (Near p g) := by unfold Near; infer_instance

/-- What a meeting does to a ghost: a scared one returns to its start and is no longer scared. -/
def Agent.meet (p : Pos) (g : Agent) : Agent := if Near p g ∧ 0 < g.scared then { g with conf := g.start, scared := 0 } else g

/-- Is this ghost eaten when Pacman is at the position? -/
def Agent.Eaten (p : Pos) (g : Agent) : Prop := Near p g ∧ 0 < g.scared

/-- Does this ghost kill Pacman at the position? -/
def Agent.Kills (p : Pos) (g : Agent) : Prop := Near p g ∧ g.scared = 0

instance (p : Pos) (g : Agent) : Decidable (g.Eaten p) := by unfold Agent.Eaten; infer_instance
instance (p : Pos) (g : Agent) : Decidable (g.Kills p) := by unfold Agent.Kills; infer_instance

end Verif.Pac
