import Verif.Model.PacGame
import Verif.Model.Text

/-!
# Model of the text of a game state (`demo/game.py` 186-189, 435-485, `demo/layout.py` 90-91, `demo/pacman.py` 246-248)

`GameStateData.__str__` makes a `Grid` of booleans, overwrites its cells by characters and prints it. Each cell is a character here; a cell
that was not overwritten would be printed as the first letter of `False`. The food is a `Grid` in all states of the model, so that the branch for
packed food (438-439) is not taken; agents always have a configuration (447-448).
-/

namespace Verif.Pac

/-- `grid[x][y]` for a grid with columns of any kind (game.py 180-181). -/
def colGet {A : Type} (d : List (List A)) (x y : ℤ) : Except PErr A :=
  match pyGet d x with
  | .error e => .error e
  | .ok col => pyGet col y

/-- `grid[x][y] = c` for a grid with columns of any kind (game.py 180-181). -/
def colPut {A : Type} (d : List (List A)) (x y : ℤ) (c : A) : Except PErr (List (List A)) :=
  match pyIdx d.length x with
  | none => .error .index
  | some i => match d[i]? with
    | none => .error .index
    | some col => match pyIdx col.length y with
      | none => .error .index
      | some j => .ok (d.set i (col.set j c))

/-- `'\n'.join(lines)` (game.py 189, layout.py 91). -/
def joinLines : List Str → Str
  | [] => []
  | [l] => l
  | l :: t => l ++ '\n' :: joinLines t

/-- The rows made by `Grid.__str__` (game.py 187-188): from the top row down; `first` gives `str(item)[0]`. -/
def gridRows {A : Type} (first : A → Char) (w h : ℕ) (d : List (List A)) : Except PErr (List Str) :=
  ((List.range h).mapM fun (y : ℕ) => (List.range w).mapM fun (x : ℕ) => (colGet d x y).map first).map List.reverse

/-- `Grid.__str__` (game.py 186-189). -/
def gridStr {A : Type} (first : A → Char) (w h : ℕ) (d : List (List A)) : Except PErr Str := (gridRows first w h d).map joinLines

/-- `str(b)[0]` for a boolean. -/
def boolFirst (b : Bool) : Char := if b then 'T' else 'F'

/-- `str(grid)` for a grid of booleans (game.py 186-189). -/
def Grid.str (g : Grid) : Except PErr Str := gridStr boolFirst g.width g.height g.data

/-- `Layout.__str__` (layout.py 90-91). -/
def Layout.str (l : Layout) : Str := joinLines l.text

/-- `_foodWallStr` (game.py 460-466). -/
def foodWallStr (hasFood hasWall : Bool) : Char := if hasFood then '.' else if hasWall then '%' else ' '

/-- `_pacStr` (game.py 468-475). -/
def pacStr (d : Dir) : Char := if d = .north then 'v' else if d = .south then '^' else if d = .west then '>' else '<'

/-- `_ghostStr` (game.py 477-478); the rest of the method is not reached. -/
def ghostStr (_ : Dir) : Char := 'G'

/-- Body of the loops over the cells (game.py 442-443). -/
def fillCell (food walls : Grid) (d : List (List Char)) (p : ℕ × ℕ) : Except PErr (List (List Char)) :=
  match food.get p.1 p.2 with
  | .error e => .error e
  | .ok f => match walls.get p.1 p.2 with
    | .error e => .error e
    | .ok w => colPut d p.1 p.2 (foodWallStr f w)

/-- Body of the loop over the agents (game.py 449-453). -/
def putAgent (d : List (List Char)) (a : Agent) : Except PErr (List (List Char)) :=
  let p := nearestPoint a.conf.pos
  colPut d p.1 p.2 (if a.isPacman then pacStr a.conf.dir else ghostStr a.conf.dir)

/-- Body of the loop over the capsules (game.py 455-456). -/
def putCapsule (d : List (List Char)) (p : ℤ × ℤ) : Except PErr (List (List Char)) := colPut d p.1 p.2 'o'

/-- `GameStateData.__str__` (game.py 435-458), with `"%d" % score` as decimal digits; `GameState.__str__` returns it (pacman.py 246-248). -/
def GState.str (s : GState) : Except PErr Str := do
  let w := s.layout.width
  let h := s.layout.height
  let d ← (Grid.cells w h).foldlM (fillCell s.food s.layout.walls) (List.replicate w (List.replicate h 'F'))
  let d ← s.agents.foldlM putAgent d
  let d ← s.capsules.foldlM putCapsule d
  let t ← gridStr id w h d
  return t ++ "\nScore: ".toList ++ intStr s.score ++ ['\n']

end Verif.Pac
