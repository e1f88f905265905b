import Verif.Model.PacDisplay
import Verif.Spec.Pac

/-!
# What the screen should show: a picture of a state of the game in closed form
-/

namespace Verif.Pac

/-- The point of the screen for a place of the maze: `g` pixels per cell, rows upwards. -/
def centre (g : ℚ) (h : ℕ) (p : Pos) : ℚ × ℚ := ((p.1 + 1) * g, (h - p.2) * g)

/-- A disc. -/
def disc (c : ℚ × ℚ) (rad : ℚ) (color : String) : Item :=
  { kind := .pieslice, coords := [c.1 - rad - 1, c.2 - rad - 1, c.1 + rad, c.2 + rad], outline := color.toList, fill := color.toList, start := 0, extent := 359 }

/-- The angle of a direction, counterclockwise from east. -/
def facing : Dir → ℚ
  | .north => 90
  | .west => 180
  | .south => 270
  | _ => 0

/-- Pacman: a yellow disc one cell wide with its mouth, of 30 degrees, in its direction. -/
def pacPicture (g : ℚ) (h : ℕ) (a : Agent) : Item :=
  let c := centre g h a.conf.pos
  { kind := .pieslice, coords := [c.1 - g / 2 - 1, c.2 - g / 2 - 1, c.1 + g / 2, c.2 + g / 2], outline := "#ffff3d".toList, fill := "#ffff3d".toList
    start := facing a.conf.dir + 15, extent := 330 }

/-- The colours of the ghosts; the one of agent 0 is not used. -/
def palette : List String := ["#e50000", "#004ce5", "#f96811", "#19bfb2", "#ff9900", "#6621e8"]

/-- The colour of a ghost: white if it is scared, else its own. -/
def ghostPaint (a : Agent) (i : ℕ) : String := if 0 < a.scared then "#ffffff" else palette.getD i ""

/-- The outline of the body of a ghost, in units of 0.65 cells. -/
def bodyShape : List (ℚ × ℚ) :=
  [(0, 3 / 10), (1 / 4, 3 / 4), (1 / 2, 3 / 10), (3 / 4, 3 / 4), (3 / 4, -1 / 2), (1 / 2, -3 / 4), (-1 / 2, -3 / 4), (-3 / 4, -1 / 2),
   (-3 / 4, 3 / 4), (-1 / 2, 3 / 10), (-1 / 4, 3 / 4)]

/-- A ghost: its body, two white eyes and two black pupils. Eyes are shifted by 2/15 and pupils by 1/5 in the direction of the ghost. -/
def ghostPicture (g : ℚ) (h : ℕ) (a : Agent) (i : ℕ) : List Item :=
  let c := centre g h a.conf.pos
  let u := 13 / 20 * g
  let v : ℚ × ℚ := (a.conf.dir.vec.1, a.conf.dir.vec.2)
  let eye (side shift rad : ℚ) (color : String) := disc (c.1 + u * (side * (3 / 10) + shift * v.1), c.2 - u * (3 / 10 + shift * v.2)) (u * rad) color
  [{ kind := .polygon, coords := bodyShape.flatMap fun p => [c.1 + u * p.1, c.2 + u * p.2], outline := (ghostPaint a i).toList, fill := (ghostPaint a i).toList },
   eye (-1) (2 / 15) (1 / 5) "#ffffff", eye 1 (2 / 15) (1 / 5) "#ffffff", eye (-1) (1 / 5) (2 / 25) "#000000", eye 1 (1 / 5) (2 / 25) "#000000"]

/-- An agent. -/
def agentPicture (g : ℚ) (h : ℕ) (a : Agent) (i : ℕ) : List Item := if a.isPacman then [pacPicture g h a] else ghostPicture g h a i

/-- The cells of the maze, column by column. -/
def gridCells (w h : ℕ) : List (ℕ × ℕ) := (List.range w).flatMap fun x => (List.range h).map fun y => (x, y)

/-- The line with the score. -/
def scoreLine (n : ℤ) : Str :=
  let t := (if n < 0 then ['-'] else [' ']) ++ Nat.toDigits 10 n.natAbs
  "SCORE: ".toList ++ List.replicate (4 - t.length) ' ' ++ t

/-- The picture of a state: the black background, the score, the walls, the dots of the remaining food, the remaining capsules and the given agents,
in the order of stacking. -/
def picture (g : ℚ) (walls : List Item) (s : GState) (agents : List Agent) : List Item :=
  let w := s.layout.width
  let h := s.layout.height
  { kind := .polygon, coords := [0, 0, 0, (h + 1) * g + 34, (w + 1) * g - 1, (h + 1) * g + 34, (w + 1) * g - 1, 0]
    outline := "#000000".toList, fill := "#000000".toList } ::
  { kind := .text, coords := [g, (h + 1) * g], outline := [], fill := "#ffff3d".toList, text := scoreLine s.score } ::
  walls ++ ((gridCells w h).filter fun p => decide (s.food.At p.1 p.2 true)).map (fun p => disc (centre g h (cellAt p)) (g / 10) "#ffffff") ++
  s.capsules.map (fun p => disc (centre g h (toPos p)) (g / 4) "#ffffff") ++
  agents.zipIdx.flatMap fun p => agentPicture g h p.1 p.2

/-- What can be seen. -/
def Disp.visible (d : Disp) : List Item := d.canvas.filterMap id

/-- The last move of agent `i` is the `k`-th; `k = 0` if there is none. -/
def LastOwn (ms : List (ℕ × Dir)) (i k : ℕ) : Prop :=
  k ≤ ms.length ∧ (k = 0 ∨ ∃ m, ms[k - 1]? = some m ∧ m.1 = i) ∧ ∀ m ∈ ms.drop k, m.1 ≠ i

end Verif.Pac
