import Verif.Model.PacRun
import Verif.Model.Text
import Verif.Base.Dict
import Verif.Base.Float

/-!
# Model of the display of the game: `demo/graphicsDisplay.py` and the drawing functions of `demo/graphicsUtils.py`

A canvas of `tkinter` is the list of all items created so far, in the order of creation; a deleted item is `none`. An identifier is the
position in this list (`tkinter` counts from one). Of `tkinter` the documented behaviour of `create_*`, `delete`, `itemconfigure` and
`coords` is assumed: `coords` of a missing item is an empty list, the other operations on a missing item do nothing.

Simplifications: coordinates are rationals (the floats of the program are rounded); line widths, fonts and smoothing are left out;
`capture` is false (its default, nothing sets it); there is no file called `flag` in the working directory (graphicsUtils.py 218);
`refresh`, `sleep` and the waiting for keys are left out. `math.sin(math.pi * x)` is a function `sn` given as parameter.
-/

namespace Verif.Pac

/-- Exceptions of the display: `IndexError`, `KeyError`, `ValueError`, `TypeError` (graphicsDisplay.py 222-250). -/
inductive DErr where
  | index | key | value | type
  deriving DecidableEq, Repr

/-! ### Colours (graphicsUtils.py 36-40, graphicsDisplay.py 26-77) -/

/-- `'%02x' % n`: at least two hexadecimal digits. -/
def hex2 (n : ℤ) : Str :=
  let d := Nat.toDigits 16 n.natAbs
  if n < 0 then '-' :: d else if d.length < 2 then '0' :: d else d

/-- `formatColor` (graphicsUtils.py 36-37) for floats. -/
def formatColor (r g b : ℚ) : Str := '#' :: hex2 (pyInt (fl (r * 255))) ++ hex2 (pyInt (fl (g * 255))) ++ hex2 (pyInt (fl (b * 255)))

/-- Value of a hexadecimal digit (graphicsUtils.py 39-40). -/
def hexVal (c : Char) : ℕ := if c.isDigit then c.toNat - '0'.toNat else c.toNat - 'a'.toNat + 10

/-- `colorToVector` (graphicsUtils.py 39-40): `int(x, 16) / 256.0` for the three parts. -/
def colorToVector (c : Str) : List ℚ :=
  [(c.drop 1).take 2, (c.drop 3).take 2, (c.drop 5).take 2].map fun x => fl ((x.foldl (fun n d => 16 * n + hexVal d) 0 : ℕ) / 256)

/-- `BACKGROUND_COLOR` (graphicsDisplay.py 28). -/
def backgroundColor : Str := formatColor 0 0 0

/-- `WALL_COLOR` (graphicsDisplay.py 29). -/
def wallColor : Str := formatColor (fl (0 / 255)) (fl (51 / 255)) (fl (255 / 255))

/-- `GHOST_COLORS` (graphicsDisplay.py 35-41). -/
def ghostColors : List Str :=
  [formatColor (fl (9 / 10)) 0 0, formatColor 0 (fl (3 / 10)) (fl (9 / 10)), formatColor (fl (98 / 100)) (fl (41 / 100)) (fl (7 / 100)),
   formatColor (fl (1 / 10)) (fl (75 / 100)) (fl (7 / 10)), formatColor 1 (fl (6 / 10)) 0, formatColor (fl (4 / 10)) (fl (13 / 100)) (fl (91 / 100))]

/-- `SCARED_COLOR` (graphicsDisplay.py 59). -/
def scaredColor : Str := formatColor 1 1 1

/-- `PACMAN_COLOR` (graphicsDisplay.py 63). -/
def pacmanColor : Str := formatColor (fl (255 / 255)) (fl (255 / 255)) (fl (61 / 255))

/-- `FOOD_COLOR` (graphicsDisplay.py 68). -/
def foodColor : Str := formatColor 1 1 1

/-- `CAPSULE_COLOR` (graphicsDisplay.py 76). -/
def capsuleColor : Str := formatColor 1 1 1

/-- `GHOST_SHAPE` (graphicsDisplay.py 45-57). -/
def ghostShape : List (ℚ × ℚ) :=
  [(0, 3 / 10), (1 / 4, 3 / 4), (1 / 2, 3 / 10), (3 / 4, 3 / 4), (3 / 4, -1 / 2), (1 / 2, -3 / 4), (-1 / 2, -3 / 4), (-3 / 4, -1 / 2),
   (-3 / 4, 3 / 4), (-1 / 2, 3 / 10), (-1 / 4, 3 / 4)]

/-- `GHOST_SIZE` (graphicsDisplay.py 58). -/
def ghostSize : ℚ := 65 / 100

/-- `PACMAN_SCALE` (graphicsDisplay.py 64). -/
def pacmanScale : ℚ := 1 / 2

/-- `FOOD_SIZE` (graphicsDisplay.py 69). -/
def foodSize : ℚ := 1 / 10

/-- `CAPSULE_SIZE` (graphicsDisplay.py 77). -/
def capsuleSize : ℚ := 1 / 4

/-- `WALL_RADIUS` (graphicsDisplay.py 80). -/
def wallRadius : ℚ := 15 / 100

/-! ### The canvas (graphicsUtils.py 165-371) -/

/-- The kinds of items: polygons, arcs, texts and lines (graphicsUtils.py 172, 192, 231, 244). -/
inductive Kind where
  | polygon | pieslice | arc | line | text
  deriving DecidableEq, Repr

/-- An item of a canvas (graphicsUtils.py 165-244). -/
structure Item where
  kind : Kind
  coords : List ℚ
  outline : Str
  fill : Str
  start : ℚ := 0
  extent : ℚ := 0
  text : Str := []
  deriving DecidableEq

/-- `_canvas` (graphicsUtils.py 27, 79). -/
abbrev Canvas := List (Option Item)

/-- `_canvas.create_*`: the new canvas and the identifier of the item (graphicsUtils.py 172, 192, 231, 244). -/
def Canvas.add (c : Canvas) (it : Item) : Canvas × ℕ := (c ++ [some it], c.length)

/-- Several items one after the other (graphicsDisplay.py 267-284, 335-369). -/
def Canvas.addAll (c : Canvas) : List Item → Canvas × List ℕ
  | [] => (c, [])
  | it :: t => let r := c.add it; let r' := Canvas.addAll r.1 t; (r'.1, r.2 :: r'.2)

/-- `_canvas.delete(id)`, with `remove_from_screen` (graphicsUtils.py 316-320). -/
def Canvas.delete (c : Canvas) (id : ℕ) : Canvas := c.set id none

/-- The item with an identifier, if it exists (graphicsUtils.py 337). -/
def Canvas.item? (c : Canvas) (id : ℕ) : Option Item := (c[id]?).join

/-- `_canvas.itemconfigure`, `_canvas.coords(id, ...)`: nothing happens if the item is missing (graphicsUtils.py 225-239,
347, 368). -/
def Canvas.change (c : Canvas) (id : ℕ) (f : Item → Item) : Canvas :=
  match c.item? id with
  | none => c
  | some it => c.set id (some (f it))

/-- `polygon` (graphicsUtils.py 165-175) with `filled = 1` and without `fillColor`. -/
def polygonItem (coords : List (ℚ × ℚ)) (outline : Str) : Item := { kind := .polygon, coords := coords.flatMap fun p => [p.1, p.2], outline := outline, fill := outline }

/-- `line` (graphicsUtils.py 241-244). -/
def lineItem (a b : ℚ × ℚ) (color : Str) : Item := { kind := .line, coords := [a.1, a.2, b.1, b.2], outline := [], fill := color }

/-- `text` (graphicsUtils.py 227-231). -/
def textItem (p : ℚ × ℚ) (color contents : Str) : Item := { kind := .text, coords := [p.1, p.2], outline := [], fill := color, text := contents }

/-- `while e[0] > e[1]: e[1] = e[1] + 360` (graphicsUtils.py 190, 216). -/
def wrapAngle (e₀ e₁ : ℚ) : ℚ := if e₀ > e₁ then e₁ + 360 * ⌈(e₀ - e₁) / 360⌉ else e₁

/-- The box of a circle (graphicsUtils.py 183-185, 208-211). -/
def circleBox (p : ℚ × ℚ) (r : ℚ) : List ℚ := [p.1 - r - 1, p.2 - r - 1, p.1 + r, p.2 + r]

/-- `circle` (graphicsUtils.py 182-193). -/
def circleItem (p : ℚ × ℚ) (r : ℚ) (outline fill : Str) (ends : ℚ × ℚ := (0, 359)) (kind : Kind := .pieslice) : Item :=
  { kind := kind, coords := circleBox p r, outline := outline, fill := fill, start := ends.1, extent := wrapAngle ends.1 ends.2 - ends.1 }

/-- The loops of `move_by` and `move_to` (graphicsUtils.py 337-345, 358-367): coordinates are shifted alternately by `x` and `y`. -/
def shift (x y : ℚ) : Bool → List ℚ → List ℚ
  | _, [] => []
  | true, c :: t => (c + x) :: shift x y false t
  | false, c :: t => (c + y) :: shift x y true t

/-- `move_by` (graphicsUtils.py 350-371). -/
def Canvas.moveBy (c : Canvas) (id : ℕ) (d : ℚ × ℚ) : Canvas := c.change id fun it => { it with coords := shift d.1 d.2 true it.coords }

/-- `move_to` (graphicsUtils.py 328-348); `ValueError` if there are not two coordinates. -/
def Canvas.moveTo (c : Canvas) (id : ℕ) (x y : ℚ) : Except DErr Canvas :=
  match (c.item? id).map Item.coords with
  | some (cx :: cy :: _) => .ok (c.change id fun it => { it with coords := shift (x - cx) (y - cy) true it.coords })
  | _ => .error .value

/-- `moveCircle` (graphicsUtils.py 204-222). -/
def Canvas.moveCircle (c : Canvas) (id : ℕ) (p : ℚ × ℚ) (r : ℚ) (ends : ℚ × ℚ := (0, 359)) : Except DErr Canvas :=
  (c.change id fun it => { it with start := ends.1, extent := wrapAngle ends.1 ends.2 - ends.1 }).moveTo id (p.1 - r - 1) (p.2 - r - 1)

/-! ### `PacmanGraphics` (graphicsDisplay.py 155-562) -/

/-- `PacmanGraphics` after `initialize` (graphicsDisplay.py 155-178). -/
structure Disp where
  canvas : Canvas
  height : ℕ
  gridSize : ℚ
  scoreText : ℕ
  food : List (List (Option ℕ))
  capsules : Dict (ℤ × ℤ) ℕ
  agents : List (Agent × List ℕ)

/-- `to_screen` (graphicsDisplay.py 416-421, 424-429). -/
def toScreen (g : ℚ) (h : ℕ) (p : Pos) : ℚ × ℚ := ((p.1 + 1) * g, (h - p.2) * g)

/-- `getEndpoints` (graphicsDisplay.py 286-300). -/
def getEndpoints (sn : ℚ → ℚ) (d : Dir) (p : Pos) : ℚ × ℚ :=
  let pos := p.1 - pyInt p.1 + p.2 - pyInt p.2
  let width := 30 + 80 * sn pos
  let delta := width / 2
  match d with
  | .west => (180 + delta, 180 - delta)
  | .north => (90 + delta, 90 - delta)
  | .south => (270 + delta, 270 - delta)
  | _ => (0 + delta, 0 - delta)

/-- `drawPacman` (graphicsDisplay.py 267-284). -/
def pacmanItems (sn : ℚ → ℚ) (g : ℚ) (h : ℕ) (a : Agent) : List Item :=
  [circleItem (toScreen g h a.conf.pos) (pacmanScale * g) pacmanColor pacmanColor (getEndpoints sn a.conf.dir (0, 0))]

/-- `getGhostColor` (graphicsDisplay.py 329-333). -/
def ghostColor (a : Agent) (i : ℕ) : Except DErr Str :=
  if a.scared > 0 then .ok scaredColor else match ghostColors[i]? with
    | some c => .ok c
    | none => .error .index

/-- `dx, dy` (graphicsDisplay.py 348-357, 373-382). -/
def eyeShift (d : Dir) : ℚ × ℚ :=
  match d with
  | .north => (0, -2 / 10)
  | .south => (0, 2 / 10)
  | .east => (2 / 10, 0)
  | .west => (-2 / 10, 0)
  | .stop => (0, 0)

/-- Places and radii of the eyes (graphicsDisplay.py 358-361, 383-386). -/
def eyes (g : ℚ) (s : ℚ × ℚ) (d : Dir) : List ((ℚ × ℚ) × ℚ) :=
  let dx := (eyeShift d).1
  let dy := (eyeShift d).2
  [((s.1 + g * ghostSize * (-3 / 10 + dx / (15 / 10)), s.2 - g * ghostSize * (3 / 10 - dy / (15 / 10))), g * ghostSize * (2 / 10)),
   ((s.1 + g * ghostSize * (3 / 10 + dx / (15 / 10)), s.2 - g * ghostSize * (3 / 10 - dy / (15 / 10))), g * ghostSize * (2 / 10)),
   ((s.1 + g * ghostSize * (-3 / 10 + dx), s.2 - g * ghostSize * (3 / 10 - dy)), g * ghostSize * (8 / 100)),
   ((s.1 + g * ghostSize * (3 / 10 + dx), s.2 - g * ghostSize * (3 / 10 - dy)), g * ghostSize * (8 / 100))]

/-- The colours of eyes and pupils (graphicsDisplay.py 345-346, 358-361). -/
def eyeColors : List Str := [formatColor 1 1 1, formatColor 1 1 1, formatColor 0 0 0, formatColor 0 0 0]

/-- `drawGhost` (graphicsDisplay.py 335-369): body, two eyes, two pupils. -/
def ghostItems (g : ℚ) (h : ℕ) (a : Agent) (i : ℕ) : Except DErr (List Item) :=
  let s := toScreen g h a.conf.pos
  match ghostColor a i with
  | .error e => .error e
  | .ok col => .ok (polygonItem (ghostShape.map fun p => (p.1 * g * ghostSize + s.1, p.2 * g * ghostSize + s.2)) col ::
      List.zipWith (fun e c => circleItem e.1 e.2 c c) (eyes g s a.conf.dir) eyeColors)

/-- The items of an agent (graphicsDisplay.py 214-219). -/
def agentItems (sn : ℚ → ℚ) (g : ℚ) (h : ℕ) (a : Agent) (i : ℕ) : Except DErr (List Item) :=
  if a.isPacman then .ok (pacmanItems sn g h a) else ghostItems g h a i

/-- Loop of `drawAgentObjects` (graphicsDisplay.py 211-220) from agent `i` on. -/
def drawAgents (sn : ℚ → ℚ) (g : ℚ) (h : ℕ) : ℕ → List Agent → Canvas → Except DErr (Canvas × List (Agent × List ℕ))
  | _, [], c => .ok (c, [])
  | i, a :: t, c => match agentItems sn g h a i with
    | .error e => .error e
    | .ok its =>
      let r := c.addAll its
      match drawAgents sn g h (i + 1) t r.1 with
      | .error e => .error e
      | .ok r' => .ok (r'.1, (a, r.2) :: r'.2)

/-- A dot of food (graphicsDisplay.py 534-538). -/
def foodItem (g : ℚ) (h : ℕ) (p : ℕ × ℕ) : Item := circleItem (toScreen g h (p.1, p.2)) (foodSize * g) foodColor foodColor

/-- One column of `drawFood` (graphicsDisplay.py 532-541), from row `y` on. -/
def drawColumn (g : ℚ) (h : ℕ) (x : ℕ) : ℕ → List Bool → Canvas → Canvas × List (Option ℕ)
  | _, [], c => (c, [])
  | y, true :: t, c => let r := c.add (foodItem g h (x, y)); let r' := drawColumn g h x (y + 1) t r.1; (r'.1, some r.2 :: r'.2)
  | y, false :: t, c => let r' := drawColumn g h x (y + 1) t c; (r'.1, none :: r'.2)

/-- `drawFood` (graphicsDisplay.py 524-542), from column `x` on. -/
def drawFood (g : ℚ) (h : ℕ) : ℕ → List (List Bool) → Canvas → Canvas × List (List (Option ℕ))
  | _, [], c => (c, [])
  | x, col :: t, c => let r := drawColumn g h x 0 col c; let r' := drawFood g h (x + 1) t r.1; (r'.1, r.2 :: r'.2)

/-- A capsule (graphicsDisplay.py 547-552). -/
def capsuleItem (g : ℚ) (h : ℕ) (p : ℤ × ℤ) : Item := circleItem (toScreen g h (toPos p)) (capsuleSize * g) capsuleColor capsuleColor

/-- `drawCapsules` (graphicsDisplay.py 544-554). -/
def drawCapsules (g : ℚ) (h : ℕ) : List (ℤ × ℤ) → Canvas → Dict (ℤ × ℤ) ℕ → Canvas × Dict (ℤ × ℤ) ℕ
  | [], c, d => (c, d)
  | p :: t, c, d => let r := c.add (capsuleItem g h p); drawCapsules g h t r.1 (d.set p r.2)

/-! ### Walls (graphicsDisplay.py 431-522) -/

/-- `isWall` (graphicsDisplay.py 517-522). -/
def isWall (w : Grid) (x y : ℤ) : Except DErr Bool :=
  if x < 0 ∨ y < 0 then .ok false
  else if x ≥ w.width ∨ y ≥ w.height then .ok false
  else match w.get x y with
    | .ok b => .ok b
    | .error _ => .error .index

/-- The walls around a cell (graphicsDisplay.py 444-451). -/
structure Around where
  w : Bool
  e : Bool
  n : Bool
  s : Bool
  nw : Bool
  sw : Bool
  ne : Bool
  se : Bool
  deriving DecidableEq

/-- The calls of `isWall` (graphicsDisplay.py 444-451). -/
def around (m : Grid) (x y : ℤ) : Except DErr Around := do
  let w ← isWall m (x - 1) y
  let e ← isWall m (x + 1) y
  let n ← isWall m x (y + 1)
  let s ← isWall m x (y - 1)
  let nw ← isWall m (x - 1) (y + 1)
  let sw ← isWall m (x - 1) (y - 1)
  let ne ← isWall m (x + 1) (y + 1)
  let se ← isWall m (x + 1) (y - 1)
  return ⟨w, e, n, s, nw, sw, ne, se⟩

/-- `add(screen, (x, y))` (graphicsDisplay.py 657-658). -/
def addPt (p q : ℚ × ℚ) : ℚ × ℚ := (p.1 + q.1, p.2 + q.2)

/-- The north east quadrant (graphicsDisplay.py 453-467); `p` is `screen`. -/
def quadNE (g : ℚ) (p : ℚ × ℚ) (a : Around) : List Item :=
  let r := g * wallRadius
  (if !a.n && !a.e then [circleItem p (wallRadius * g) wallColor wallColor (0, 91) .arc] else []) ++
  (if a.n && !a.e then [lineItem (addPt p (r, 0)) (addPt p (r, g * (-1 / 2) - 1)) wallColor] else []) ++
  (if !a.n && a.e then [lineItem (addPt p (0, -r)) (addPt p (g * (1 / 2) + 1, -r)) wallColor] else []) ++
  (if a.n && a.e && !a.ne then
    [circleItem (addPt p (2 * r, -2 * r)) (wallRadius * g - 1) wallColor wallColor (180, 271) .arc,
     lineItem (addPt p (2 * r - 1, -r)) (addPt p (g * (1 / 2) + 1, -r)) wallColor,
     lineItem (addPt p (r, -2 * r + 1)) (addPt p (r, g * (-1 / 2))) wallColor] else [])

/-- The north west quadrant (graphicsDisplay.py 469-483). -/
def quadNW (g : ℚ) (p : ℚ × ℚ) (a : Around) : List Item :=
  let r := g * wallRadius
  (if !a.n && !a.w then [circleItem p (wallRadius * g) wallColor wallColor (90, 181) .arc] else []) ++
  (if a.n && !a.w then [lineItem (addPt p (-r, 0)) (addPt p (-r, g * (-1 / 2) - 1)) wallColor] else []) ++
  (if !a.n && a.w then [lineItem (addPt p (0, -r)) (addPt p (g * (-1 / 2) - 1, -r)) wallColor] else []) ++
  (if a.n && a.w && !a.nw then
    [circleItem (addPt p (-2 * r, -2 * r)) (wallRadius * g - 1) wallColor wallColor (270, 361) .arc,
     lineItem (addPt p (-2 * r + 1, -r)) (addPt p (g * (-1 / 2), -r)) wallColor,
     lineItem (addPt p (-r, -2 * r + 1)) (addPt p (-r, g * (-1 / 2))) wallColor] else [])

/-- The south east quadrant (graphicsDisplay.py 485-499). -/
def quadSE (g : ℚ) (p : ℚ × ℚ) (a : Around) : List Item :=
  let r := g * wallRadius
  (if !a.s && !a.e then [circleItem p (wallRadius * g) wallColor wallColor (270, 361) .arc] else []) ++
  (if a.s && !a.e then [lineItem (addPt p (r, 0)) (addPt p (r, g * (1 / 2) + 1)) wallColor] else []) ++
  (if !a.s && a.e then [lineItem (addPt p (0, r)) (addPt p (g * (1 / 2) + 1, r)) wallColor] else []) ++
  (if a.s && a.e && !a.se then
    [circleItem (addPt p (2 * r, 2 * r)) (wallRadius * g - 1) wallColor wallColor (90, 181) .arc,
     lineItem (addPt p (2 * r - 1, r)) (addPt p (g * (1 / 2), r)) wallColor,
     lineItem (addPt p (r, 2 * r - 1)) (addPt p (r, g * (1 / 2))) wallColor] else [])

/-- The south west quadrant (graphicsDisplay.py 501-515). -/
def quadSW (g : ℚ) (p : ℚ × ℚ) (a : Around) : List Item :=
  let r := g * wallRadius
  (if !a.s && !a.w then [circleItem p (wallRadius * g) wallColor wallColor (180, 271) .arc] else []) ++
  (if a.s && !a.w then [lineItem (addPt p (-r, 0)) (addPt p (-r, g * (1 / 2) + 1)) wallColor] else []) ++
  (if !a.s && a.w then [lineItem (addPt p (0, r)) (addPt p (g * (-1 / 2) - 1, r)) wallColor] else []) ++
  (if a.s && a.w && !a.sw then
    [circleItem (addPt p (-2 * r, 2 * r)) (wallRadius * g - 1) wallColor wallColor (0, 91) .arc,
     lineItem (addPt p (-2 * r + 1, r)) (addPt p (g * (-1 / 2), r)) wallColor,
     lineItem (addPt p (-r, 2 * r - 1)) (addPt p (-r, g * (1 / 2))) wallColor] else [])

/-- The items of one wall (graphicsDisplay.py 438-515). -/
def wallItems (g : ℚ) (h : ℕ) (a : Around) (x y : ℕ) : List Item :=
  let p := toScreen g h ((x : ℚ), (y : ℚ))
  quadNE g p a ++ quadNW g p a ++ quadSE g p a ++ quadSW g p a

/-- One column of `drawWalls` (graphicsDisplay.py 437-515), from row `y` on. -/
def wallsColumn (m : Grid) (g : ℚ) (h : ℕ) (x : ℕ) : ℕ → List Bool → Except DErr (List Item)
  | _, [] => .ok []
  | y, b :: t => do
    let its ← if b then (do let a ← around m x y; return wallItems g h a x y) else .ok []
    let rest ← wallsColumn m g h x (y + 1) t
    return its ++ rest

/-- `drawWalls` (graphicsDisplay.py 431-515), from column `x` on. -/
def wallsFrom (m : Grid) (g : ℚ) (h : ℕ) : ℕ → List (List Bool) → Except DErr (List Item)
  | _, [] => .ok []
  | x, col :: t => do
    let its ← wallsColumn m g h x 0 col
    let rest ← wallsFrom m g h (x + 1) t
    return its ++ rest

/-! ### `initialize` and `update` -/

/-- `"SCORE: % 4d" % score` (graphicsDisplay.py 122). -/
def scoreStr (n : ℤ) : Str :=
  let d := (if n < 0 then '-' else ' ') :: Nat.toDigits 10 n.natAbs
  ['S', 'C', 'O', 'R', 'E', ':', ' '] ++ List.replicate (4 - d.length) ' ' ++ d

/-- `make_window` (graphicsDisplay.py 256-265) with `begin_graphics` (graphicsUtils.py 57-83) and `draw_background` (133-135):
a new canvas with its background; `INFO_PANE_HEIGHT = 35` (27). -/
def makeWindow (g : ℚ) (w h : ℕ) : Canvas :=
  let xs := 2 * g + (w - 1) * g - 1
  let ys := 2 * g + (h - 1) * g + 35 - 1
  (Canvas.add [] (polygonItem [(0, 0), (0, ys), (xs, ys), (xs, 0)] backgroundColor)).1

/-- `InfoPane` (graphicsDisplay.py 82-106): the text for the score. -/
def infoPane (g : ℚ) (h : ℕ) (c : Canvas) : Canvas × ℕ :=
  c.add (textItem (g + 0, (h + 1) * g + 0) pacmanColor "SCORE:    0".toList)

/-- `initialize` (graphicsDisplay.py 168-187, 204-220). -/
def Disp.initialize (sn : ℚ → ℚ) (g : ℚ) (s : GState) : Except DErr Disp := do
  let l := s.layout
  let c := makeWindow g l.width l.height
  let (c, score) := infoPane g l.height c
  let walls ← wallsFrom l.walls g l.height 0 l.walls.data
  let (c, _) := c.addAll walls
  let (c, food) := drawFood g l.height 0 l.food.data c
  let (c, caps) := drawCapsules g l.height l.capsules c Dict.empty
  let (c, ags) ← drawAgents sn g l.height 0 s.agents c
  return ⟨c, l.height, g, score, food, caps, ags⟩

/-- `movePacman` (graphicsDisplay.py 302-307). -/
def movePacman (sn : ℚ → ℚ) (d : Disp) (p : Pos) (dir : Dir) (image : List ℕ) (c : Canvas) : Except DErr Canvas :=
  match image[0]? with
  | none => .error .index
  | some id => c.moveCircle id (toScreen d.gridSize d.height p) (pacmanScale * d.gridSize) (getEndpoints sn dir p)

/-- `animatePacman` (graphicsDisplay.py 309-327); `slow` says whether `frameTime` asks for four frames. -/
def animatePacman (sn : ℚ → ℚ) (slow : Bool) (d : Disp) (a prev : Agent) (image : List ℕ) (c : Canvas) : Except DErr Canvas :=
  if slow then
    [1, 2, 3, 4].foldlM (init := c) fun c (i : ℚ) =>
      movePacman sn d (a.conf.pos.1 * i / 4 + prev.conf.pos.1 * (4 - i) / 4, a.conf.pos.2 * i / 4 + prev.conf.pos.2 * (4 - i) / 4) a.conf.dir image c
  else movePacman sn d a.conf.pos a.conf.dir image c

/-- Loop of `moveEyes` (graphicsDisplay.py 371-386). -/
def moveEyes : List ((ℚ × ℚ) × ℚ) → List ℕ → Canvas → Except DErr Canvas
  | [], _, c => .ok c
  | _ :: _, [], _ => .error .index
  | e :: t, id :: ids, c => match c.moveCircle id e.1 e.2 with
    | .error err => .error err
    | .ok c' => moveEyes t ids c'

/-- `moveGhost` (graphicsDisplay.py 388-403). -/
def moveGhost (d : Disp) (a : Agent) (i : ℕ) (prev : Agent) (parts : List ℕ) (c : Canvas) : Except DErr Canvas := do
  let o := toScreen d.gridSize d.height prev.conf.pos
  let n := toScreen d.gridSize d.height a.conf.pos
  let c := parts.foldl (fun c id => c.moveBy id (n.1 - o.1, n.2 - o.2)) c
  let color ← ghostColor a i
  match parts[0]? with
  | none => .error .index
  | some body =>
    let c := c.change body fun it => { it with fill := color, outline := color }
    moveEyes (eyes d.gridSize n a.conf.dir) (parts.drop (parts.length - 4)) c

/-- `swapImages` (graphicsDisplay.py 222-234). -/
def swapImages (sn : ℚ → ℚ) (d : Disp) (i : ℕ) (a : Agent) (image : List ℕ) : Except DErr Disp :=
  let c := image.foldl Canvas.delete d.canvas
  match agentItems sn d.gridSize d.height a i with
  | .error e => .error e
  | .ok its => let r := c.addAll its; .ok { d with canvas := r.1, agents := d.agents.set i (a, r.2) }

/-- `removeFood` (graphicsDisplay.py 556-558); deleting `None` does nothing. -/
def removeFood (d : Disp) (p : ℤ × ℤ) : Except DErr Disp :=
  match pyGet d.food p.1 with
  | .error _ => .error .index
  | .ok col => match pyGet col p.2 with
    | .error _ => .error .index
    | .ok none => .ok d
    | .ok (some id) => .ok { d with canvas := d.canvas.delete id }

/-- `removeCapsule` (graphicsDisplay.py 560-562). -/
def removeCapsule (d : Disp) (p : ℤ × ℤ) : Except DErr Disp :=
  match d.capsules.get? p with
  | none => .error .key
  | some id => .ok { d with canvas := d.canvas.delete id }

/-- The first part of `update` (graphicsDisplay.py 237-246): the agent that moved. -/
def Disp.moveAgent (sn : ℚ → ℚ) (slow : Bool) (d : Disp) (i : ℕ) (a : Agent) : Except DErr Disp := do
  match d.agents[i]? with
  | none => .error .index
  | some (p, im) =>
    let d ← if p.isPacman ≠ a.isPacman then swapImages sn d i a im else .ok d
    match d.agents[i]? with
    | none => .error .index
    | some (prev, image) =>
      let c ← if a.isPacman then animatePacman sn slow d a prev image d.canvas else moveGhost d a i prev image d.canvas
      return { d with canvas := c, agents := d.agents.set i (a, image) }

/-- `update` (graphicsDisplay.py 236-254). -/
def Disp.update (sn : ℚ → ℚ) (slow : Bool) (d : Disp) (s : GState) : Except DErr Disp := do
  match s.agentMoved with
  | none => .error .type
  | some i => match s.agents[i]? with
    | none => .error .index
    | some a =>
      let d ← d.moveAgent sn slow i a
      let d ← match s.foodEaten with
        | none => .ok d
        | some p => removeFood d p
      let d ← match s.capsuleEaten with
        | none => .ok d
        | some p => removeCapsule d p
      return { d with canvas := d.canvas.change d.scoreText fun it => { it with text := scoreStr s.score } }

/-! ### A game with a display -/

/-- The moves of a game, each followed by `self.display.update(self.state.data)` (game.py 688-702). The left error is that of the game, the right one that
of the display. -/
def playShown (sn : ℚ → ℚ) (slow : Bool) : Disp × GState → List (ℕ × Dir) → Except (PErr ⊕ DErr) (Disp × GState)
  | r, [] => .ok r
  | (d, s), m :: t => match generateSuccessor s m.1 m.2 with
    | .error e => .error (.inl e)
    | .ok s' => match d.update sn slow s' with
      | .error e => .error (.inr e)
      | .ok d' => playShown sn slow (d', s') t

end Verif.Pac
