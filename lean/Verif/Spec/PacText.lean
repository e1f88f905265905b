import Verif.Spec.Pac
import Verif.Model.Text

/-!
# Specification of the text of a state: what is to be seen at each cell
-/

namespace Verif.Pac

/-- The cell belongs to the agent: its position is nearest to the centre of the cell, to the upper and to the right one in the middle. -/
def Stands (p : ℕ × ℕ) (a : Agent) : Prop :=
  (p.1 : ℚ) - 1 / 2 ≤ a.conf.pos.1 ∧ a.conf.pos.1 < p.1 + 1 / 2 ∧ (p.2 : ℚ) - 1 / 2 ≤ a.conf.pos.2 ∧ a.conf.pos.2 < p.2 + 1 / 2

instance (p : ℕ × ℕ) (a : Agent) : Decidable (Stands p a) := by unfold Stands; infer_instance

/-- The character of an agent: Pacman's mouth is open in its direction, ghosts look all the same. -/
def glyph (a : Agent) : Char :=
  match a.isPacman, a.conf.dir with
  | true, .north => 'v'
  | true, .south => '^'
  | true, .west => '>'
  | true, .east => '<'
  | true, .stop => '<'
  | false, _ => 'G'

/-- The character of a cell: a capsule hides the agents, the last agent hides the others, and agents hide the ground. -/
def cellText (s : GState) (p : ℕ × ℕ) : Char :=
  if ((p.1 : ℤ), (p.2 : ℤ)) ∈ s.capsules then 'o'
  else match s.agents.reverse.find? fun a => decide (Stands p a) with
    | some a => glyph a
    | none => if s.food.At p.1 p.2 true then '.' else if s.layout.walls.At p.1 p.2 true then '%' else ' '

/-- The rows of the picture of the cells, the top row first. -/
def pictureRows (w h : ℕ) (f : ℕ × ℕ → Char) : List Str := ((List.range h).map fun y => (List.range w).map fun x => f (x, h - 1 - y))

/-- Lines joined by line breaks. -/
def asLines (rows : List Str) : Str := (rows.map fun r => r ++ ['\n']).flatten.dropLast

/-- The text of a state with the given rows. -/
def withScore (rows : List Str) (score : ℤ) : Str := (rows.map fun r => r ++ ['\n']).flatten ++ "Score: ".toList ++ (toString score).toList ++ ['\n']

/-- What is shown of a character of a layout. -/
def startChar (c : Char) : Char :=
  if c ∈ ['%', '.', 'o'] then c else if c = 'P' then '<' else if c ∈ ['G', '1', '2', '3', '4'] then 'G' else ' '

end Verif.Pac
