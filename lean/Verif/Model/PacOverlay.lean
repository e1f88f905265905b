import Verif.Model.PacDisplay

/-!
# Model of the overlays of the display: expanded cells, belief distributions and distances of ghosts (`demo/graphicsDisplay.py`)

On top of `Verif/Model/PacDisplay.lean` the order of the items on the screen is followed, as these functions draw behind other items. Of `tkinter` it is assumed
that a new item is above all others and that `tag_lower(a, b)` puts `a` just below `b` and raises `TclError` if there is no `b`; the identifier `2` of `tkinter` is
the position 1 of the model.

Simplifications: those of `PacDisplay`; `refresh` is left out; `x ** .3` is a function `pw` given as parameter, the weights are not negative (Python gives complex numbers
otherwise). A belief distribution is a function of the cells, as a `Counter` has the value 0 for missing keys; that the counters are copied plays no part then.
The colours of the cells are computed with the rounding of doubles.
-/

namespace Verif.Pac

/-- `IndexError`, `TypeError`, `TclError` (graphicsDisplay.py 108-134, 564-609). -/
inductive OErr where
  | index | type | tcl
  deriving DecidableEq, Repr

/-- The screen and the attributes of `PacmanGraphics` and `InfoPane` for the overlays; `none` is a missing attribute or `None`. `stack` has the identifiers from the
lowest item to the highest (graphicsDisplay.py 82-178). -/
structure Overlay where
  canvas : Canvas
  stack : List ℕ
  width : ℕ
  height : ℕ
  gridSize : ℚ
  expanded : Option (List ℕ) := none
  dist : Option (List (List ℕ)) := none
  distances : Option (List ℕ) := none

/-- `square` (graphicsUtils.py 177-180) with `filled = 1`, and `polygon` (165-172). -/
def squareItem (p : ℚ × ℚ) (r : ℚ) (color : Str) : Item :=
  polygonItem [(p.1 - r, p.2 - r), (p.1 + r, p.2 - r), (p.1 + r, p.2 + r), (p.1 - r, p.2 + r)] color

/-- `_canvas.create_*` with the new item above all others (graphicsUtils.py 172, 231). -/
def Overlay.create (o : Overlay) (it : Item) : Overlay × ℕ := ({ o with canvas := o.canvas ++ [some it], stack := o.stack ++ [o.canvas.length] }, o.canvas.length)

/-- `_canvas.tag_lower(a, b)` (graphicsUtils.py 174). -/
def lower (a b : ℕ) (st : List ℕ) : Except OErr (List ℕ) :=
  if b ∈ st then .ok ((st.erase a).takeWhile (· ≠ b) ++ a :: (st.erase a).dropWhile (· ≠ b)) else .error .tcl

/-- `polygon` with `behind = 2` (graphicsUtils.py 172-175): the item goes below the item with identifier 2 of `tkinter`. -/
def Overlay.createBehind (o : Overlay) (it : Item) : Except OErr (Overlay × ℕ) := do
  let (o, id) := o.create it
  let st ← lower id 1 o.stack
  return ({ o with stack := st }, id)

/-- `remove_from_screen` (graphicsUtils.py 316-320). -/
def Overlay.remove (o : Overlay) (id : ℕ) : Overlay := { o with canvas := o.canvas.delete id, stack := o.stack.erase id }

/-- `clearExpandedCells` (graphicsDisplay.py 583-586): the list is not emptied. -/
def Overlay.clearExpanded (o : Overlay) : Overlay :=
  match o.expanded with
  | none => o
  | some ids => ids.foldl Overlay.remove o

/-- The colour of cell `k` of `n` (graphicsDisplay.py 568, 574), `(n - k) * c * .5 / n + .25` for `c = 1.0, 0.0, 0.0`. -/
def cellColor (n k : ℕ) : Str :=
  let f (c : ℚ) : ℚ := fl (fl (fl (fl (((n : ℚ) - k) * c) * (1 / 2)) / n) + 1 / 4)
  formatColor (f 1) (f 0) (f 0)

/-- The loop of `drawExpandedCells` (graphicsDisplay.py 572-579), from cell `k` on. -/
def Overlay.drawCells (n : ℕ) : ℕ → List Pos → Overlay → Except OErr Overlay
  | _, [], o => .ok o
  | k, p :: t, o => do
    let (o, id) ← o.createBehind (squareItem (toScreen o.gridSize o.height p) (1 / 2 * o.gridSize) (cellColor n k))
    drawCells n (k + 1) t { o with expanded := some (o.expanded.getD [] ++ [id]) }

/-- `drawExpandedCells` (graphicsDisplay.py 564-581). -/
def Overlay.drawExpanded (o : Overlay) (cells : List Pos) : Except OErr Overlay :=
  Overlay.drawCells cells.length 0 cells { o.clearExpanded with expanded := some [] }

/-- A column of `drawDistributions` (graphicsDisplay.py 193-201): `m` blocks from row `y` on. -/
def Overlay.drawColumn (x : ℕ) : ℕ → ℕ → Overlay → Except OErr (Overlay × List ℕ)
  | 0, _, o => .ok (o, [])
  | m + 1, y, o => do
    let (o, id) ← o.createBehind (squareItem (toScreen o.gridSize o.height ((x : ℚ), (y : ℚ))) (1 / 2 * o.gridSize) backgroundColor)
    let (o, ids) ← drawColumn x m (y + 1) o
    return (o, id :: ids)

/-- The loop of `drawDistributions` (graphicsDisplay.py 192-201): `m` columns from `x` on. -/
def Overlay.drawColumns : ℕ → ℕ → Overlay → Except OErr (Overlay × List (List ℕ))
  | 0, _, o => .ok (o, [])
  | m + 1, x, o => do
    let (o, col) ← o.drawColumn x o.height 0
    let (o, cols) ← drawColumns m (x + 1) o
    return (o, col :: cols)

/-- `drawDistributions` (graphicsDisplay.py 189-202). -/
def Overlay.drawDistributions (o : Overlay) : Except OErr Overlay := do
  let (o, cols) ← Overlay.drawColumns o.width 0 o
  return { o with dist := some cols }

/-- `changeColor` (graphicsUtils.py 238-239). -/
def Overlay.changeColor (o : Overlay) (id : ℕ) (color : Str) : Overlay := { o with canvas := o.canvas.change id fun it => { it with fill := color } }

/-- `GHOST_VEC_COLORS[1:]` (graphicsDisplay.py 61, 604; `capture` is false). -/
def ghostVecs : List (List ℚ) := (ghostColors.map colorToVector).drop 1

/-- The colour for some weights (graphicsDisplay.py 603-608); `0.95` is the nearest double. -/
def beliefColor (pw : ℚ → ℚ) (weights : List ℚ) : Str :=
  match (weights.zip ghostVecs).foldl (fun color q => (color.zip q.2).map fun p => min 1 (fl (p.1 + fl (fl (fl (95 / 100) * p.2) * pw q.1)))) [0, 0, 0] with
  | [r, g, b] => formatColor r g b
  | _ => []

/-- One step of the loops of `updateDistributions` (graphicsDisplay.py 597-608). `it` are the distributions the iterator `map(...)` has still to give: the
list comprehension takes them all. -/
def Overlay.beliefStep (pw : ℚ → ℚ) (r : Overlay × List (ℕ × ℕ → ℚ)) (c : (ℕ × ℕ) × ℕ) : Overlay × List (ℕ × ℕ → ℚ) :=
  (r.1.changeColor c.2 (beliefColor pw (r.2.map fun d => d c.1)), [])

/-- The cells with their images in the order of the loops (graphicsDisplay.py 595-597); `IndexError` if a column is shorter than the first. -/
def beliefCells (imgs : List (List ℕ)) : Except OErr (List ((ℕ × ℕ) × ℕ)) :=
  match imgs with
  | [] => .ok []
  | col :: _ => (((List.range imgs.length).product (List.range col.length)).mapM fun c =>
    match imgs[c.1]?.bind (·[c.2]?) with
    | some id => .ok (c, id)
    | none => .error .index)

/-- `updateDistributions` (graphicsDisplay.py 589-609). -/
def Overlay.updateDistributions (pw : ℚ → ℚ) (o : Overlay) (ds : List (ℕ × ℕ → ℚ)) : Except OErr Overlay := do
  let o ← if o.dist = none then o.drawDistributions else .ok o
  let cells ← beliefCells (o.dist.getD [])
  return (cells.foldl (Overlay.beliefStep pw) (o, ds)).1

/-- The loop of `initializeGhostDistances` (graphicsDisplay.py 108-119) from `i` on; `//` rounds floats down; the sizes of the fonts (111-115) are left out. `toScreen` is that of `InfoPane`
(93-104). -/
def Overlay.initDistances : ℕ → List Str → Overlay → Except (OErr × Overlay) Overlay
  | _, [], o => .ok o
  | i, d :: t, o =>
    let w : ℚ := o.width * o.gridSize
    match ghostColors[i + 1]? with
    | none => .error (.index, o)
    | some col =>
      let r := o.create (textItem (o.gridSize + ((⌊w / 2⌋ + ⌊w / 8⌋ * i : ℤ) : ℚ), (o.height + 1) * o.gridSize + 0) col d)
      initDistances (i + 1) t { r.1 with distances := some (r.1.distances.getD [] ++ [r.2]) }

/-- The loop of `updateGhostDistances` (graphicsDisplay.py 133-134) from `i` on. -/
def Overlay.changeDistances (ids : List ℕ) : ℕ → List Str → Overlay → Except (OErr × Overlay) Overlay
  | _, [], o => .ok o
  | i, d :: t, o => match ids[i]? with
    | none => .error (.index, o)
    | some id => changeDistances ids (i + 1) t { o with canvas := o.canvas.change id fun it => { it with text := d } }

/-- `updateGhostDistances` (graphicsDisplay.py 129-134). With an exception the display is left as it is then. -/
def Overlay.updateDistances (o : Overlay) (ds : List Str) : Except (OErr × Overlay) Overlay :=
  if ds = [] then .ok o
  else match o.distances with
    | none => Overlay.initDistances 0 ds { o with distances := some [] }
    | some ids => Overlay.changeDistances ids 0 ds o

/-- `setTeam` (graphicsDisplay.py 124-127): `text` is a local variable with a string, which is called. -/
def Overlay.setTeam (_ : Overlay) (_ : Bool) : Except OErr Overlay := .error .type

end Verif.Pac
