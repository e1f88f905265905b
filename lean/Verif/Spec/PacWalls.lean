import Verif.Spec.PacDisplay

/-!
# The drawing of the walls: specification

Each wall is drawn as an outline around the centres of the wall cells, at 0.15 cells from them. A cell has four corners; what is drawn in a
corner depends only on the three cells next to it, and the four corners are mirror images of each other.
-/

namespace Verif.Pac

/-- There is a wall at a cell; outside of the grid there is none. -/
def Grid.Wall (m : Grid) (x y : ℤ) : Prop := 0 ≤ x ∧ 0 ≤ y ∧ m.At x.toNat y.toNat true

instance (m : Grid) (x y : ℤ) : Decidable (m.Wall x y) := by unfold Grid.Wall; infer_instance

/-- The corners of a cell. -/
inductive Corner where
  | ne | nw | se | sw
  deriving DecidableEq

/-- To the right or to the left. -/
def Corner.sx : Corner → ℤ
  | .ne | .se => 1
  | _ => -1

/-- Down or up (on the screen `y` grows downwards). -/
def Corner.sy : Corner → ℤ
  | .se | .sw => 1
  | _ => -1

/-- The angle at which the quarter of a circle in a corner starts. -/
def Corner.angle : Corner → ℚ
  | .ne => 0
  | .nw => 90
  | .sw => 180
  | .se => 270

/-- The opposite angle. -/
def Corner.opposite : Corner → ℚ
  | .ne => 180
  | .nw => 270
  | .sw => 0
  | .se => 90

/-- One line of the program goes one pixel further than its mirror images. -/
def Corner.over : Corner → ℚ
  | .ne => 1
  | _ => 0

/-- A line in the colour of walls. -/
def wallLine (x y x' y' : ℚ) : Item := { kind := .line, coords := [x, y, x', y'], outline := [], fill := "#0033ff".toList }

/-- A quarter of a circle in the colour of walls. -/
def wallArc (x y rad start : ℚ) : Item :=
  { kind := .arc, coords := [x - rad - 1, y - rad - 1, x + rad, y + rad], outline := "#0033ff".toList, fill := "#0033ff".toList, start := start, extent := 91 }

/-- The drawing in a corner of a wall with centre `c`; the arguments tell whether there are walls above or below it (`v`), beside it (`b`) and
diagonally (`d`). -/
def cornerPicture (g : ℚ) (c : ℚ × ℚ) (k : Corner) (v b d : Bool) : List Item :=
  let r := 3 / 20 * g
  let x (t : ℚ) := c.1 + k.sx * t
  let y (t : ℚ) := c.2 + k.sy * t
  match v, b, d with
  | false, false, _ => [wallArc (x 0) (y 0) r k.angle]
  | true, false, _ => [wallLine (x r) (y 0) (x r) (y (g / 2 + 1))]
  | false, true, _ => [wallLine (x 0) (y r) (x (g / 2 + 1)) (y r)]
  | true, true, false => [wallArc (x (2 * r)) (y (2 * r)) (r - 1) k.opposite, wallLine (x (2 * r - 1)) (y r) (x (g / 2 + k.over)) (y r),
      wallLine (x r) (y (2 * r - 1)) (x r) (y (g / 2))]
  | true, true, true => []

/-- The drawing in a corner of the cell `(x, y)` of a maze. -/
def cornerAt (g : ℚ) (h : ℕ) (m : Grid) (k : Corner) (x y : ℕ) : List Item :=
  cornerPicture g (centre g h (cellAt (x, y))) k (decide (m.Wall x (y - k.sy))) (decide (m.Wall (x + k.sx) y)) (decide (m.Wall (x + k.sx) (y - k.sy)))

/-- The drawing of a wall. -/
def wallPicture (g : ℚ) (h : ℕ) (m : Grid) (p : ℕ × ℕ) : List Item :=
  [Corner.ne, .nw, .se, .sw].flatMap fun k => cornerAt g h m k p.1 p.2

/-- The drawing of all walls. -/
def mazePicture (g : ℚ) (h : ℕ) (m : Grid) : List Item :=
  ((gridCells m.width m.height).filter fun p => decide (m.At p.1 p.2 true)).flatMap (wallPicture g h m)

/-! ### Geometry of items -/

/-- The point of an oval at a multiple of 90 degrees. -/
def axisPoint (x0 y0 x1 y1 angle : ℚ) : ℚ × ℚ :=
  if angle = 90 then ((x0 + x1) / 2, y0)
  else if angle = 180 then (x0, (y0 + y1) / 2)
  else if angle = 270 then ((x0 + x1) / 2, y1)
  else (x1, (y0 + y1) / 2)

/-- The two ends of a line or of a quarter of a circle (the arcs of the program are one degree longer). -/
def Item.ends (it : Item) : List (ℚ × ℚ) :=
  match it.kind, it.coords with
  | .line, [x, y, x', y'] => [(x, y), (x', y')]
  | .arc, [x0, y0, x1, y1] => [axisPoint x0 y0 x1 y1 it.start, axisPoint x0 y0 x1 y1 (it.start + 90)]
  | _, _ => []

/-- Two points are at most `δ` pixels apart in each direction. -/
def Close (δ : ℚ) (p q : ℚ × ℚ) : Prop := |p.1 - q.1| ≤ δ ∧ |p.2 - q.2| ≤ δ

/-- The first coordinates of a list of coordinates. -/
def evens : List ℚ → List ℚ
  | x :: _ :: t => x :: evens t
  | _ => []

/-- The second coordinates of a list of coordinates. -/
def odds : List ℚ → List ℚ
  | _ :: y :: t => y :: odds t
  | _ => []

/-- All coordinates of an item, and so the item itself, are at least `δ` away from a rectangle, on one of its four sides. -/
def Aside (δ : ℚ) (it : Item) (x0 y0 x1 y1 : ℚ) : Prop :=
  (∀ x ∈ evens it.coords, x + δ ≤ x0) ∨ (∀ x ∈ evens it.coords, x1 + δ ≤ x) ∨ (∀ y ∈ odds it.coords, y + δ ≤ y0) ∨ (∀ y ∈ odds it.coords, y1 + δ ≤ y)

/-- The bounding boxes of two items do not meet. -/
def Apart (a b : Item) : Prop :=
  (∀ x ∈ evens a.coords, ∀ x' ∈ evens b.coords, x < x') ∨ (∀ x ∈ evens a.coords, ∀ x' ∈ evens b.coords, x' < x) ∨
  (∀ y ∈ odds a.coords, ∀ y' ∈ odds b.coords, y < y') ∨ (∀ y ∈ odds a.coords, ∀ y' ∈ odds b.coords, y' < y)

end Verif.Pac
