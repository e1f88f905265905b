import Verif.Model.PacOverlay

/-!
# What the overlays of the display are to show
-/

namespace Verif.Pac

/-- The calls. -/
inductive OCmd where
  | expand (cells : List Pos)
  | clear
  | beliefs (ds : List (ℕ × ℕ → ℚ))
  | distances (ds : List Str)
  | team (blue : Bool)

/-- What has been asked for: the expanded cells, the beliefs for the cell (0, 0), the texts of the distances. -/
structure OState where
  cells : List Pos := []
  belief : Option (List ℚ) := none
  texts : Option (List Str) := none

/-- The effect of a call and the exception it raises. -/
def OState.step (s : OState) : OCmd → OState × Option OErr
  | .expand cells => ({ s with cells := cells }, none)
  | .clear => ({ s with cells := [] }, none)
  | .beliefs ds => ({ s with belief := some (ds.map fun d => d (0, 0)) }, none)
  | .distances ds =>
    if ds = [] then (s, none)
    else match s.texts with
      | none => ({ s with texts := some (ds.take 5) }, if ds.length ≤ 5 then none else some .index)
      | some old => ({ s with texts := some (ds.take old.length ++ old.drop ds.length) }, if ds.length ≤ old.length then none else some .index)
  | .team _ => (s, some .type)

/-- A history of calls with their exceptions. -/
def OState.run : OState → List OCmd → OState × List (Option OErr)
  | s, [] => (s, [])
  | s, c :: t => let r := s.step c; let r' := OState.run r.1 t; (r'.1, r.2 :: r'.2)

/-- A square of the size of a cell. -/
def block (g : ℚ) (h : ℕ) (p : Pos) (outline fill : Str) : Item :=
  let x := (p.1 + 1) * g
  let y := (h - p.2) * g
  { kind := .polygon, coords := [x - g / 2, y - g / 2, x + g / 2, y - g / 2, x + g / 2, y + g / 2, x - g / 2, y + g / 2], outline := outline, fill := fill }

/-- The expanded cells; the first ones have the strongest colours. -/
def cellsPicture (g : ℚ) (h : ℕ) (cells : List Pos) : List Item :=
  cells.zipIdx.map fun q => block g h q.1 (cellColor cells.length q.2) (cellColor cells.length q.2)

/-- The cells of the maze, column by column. -/
def mazeCells (w h : ℕ) : List (ℕ × ℕ) := (List.range w).product (List.range h)

/-- The beliefs: all cells are black but for (0, 0). -/
def beliefPicture (pw : ℚ → ℚ) (g : ℚ) (w h : ℕ) : Option (List ℚ) → List Item
  | none => []
  | some ws => (mazeCells w h).map fun c => block g h ((c.1 : ℚ), (c.2 : ℚ)) "#000000".toList (if c = (0, 0) then beliefColor pw ws else "#000000".toList)

/-- The colours of the texts. -/
def textColors : List String := ["#004ce5", "#f96811", "#19bfb2", "#ff9900", "#6621e8"]

/-- The texts of the distances. -/
def textsPicture (g : ℚ) (w h : ℕ) (texts : List Str) : List Item :=
  texts.zipIdx.map fun q =>
    { kind := .text, coords := [g + (⌊w * g / 2⌋ + ⌊w * g / 8⌋ * q.2 : ℤ), (h + 1) * g], outline := [], fill := ((textColors[q.2]?).getD "").toList, text := q.1 }

/-- What can be seen, from the lowest item to the highest. -/
def Overlay.shown (o : Overlay) : List Item := o.stack.filterMap o.canvas.item?

/-- A call on the display, with its exception. -/
def Overlay.call (pw : ℚ → ℚ) (o : Overlay) : OCmd → Overlay × Option OErr
  | .expand cells => match o.drawExpanded cells with
    | .ok o' => (o', none)
    | .error e => (o, some e)
  | .clear => (o.clearExpanded, none)
  | .beliefs ds => match o.updateDistributions pw ds with
    | .ok o' => (o', none)
    | .error e => (o, some e)
  | .distances ds => match o.updateDistances ds with
    | .ok o' => (o', none)
    | .error (e, o') => (o', some e)
  | .team b => match o.setTeam b with
    | .ok o' => (o', none)
    | .error e => (o, some e)

/-- A history of calls. -/
def Overlay.calls (pw : ℚ → ℚ) : Overlay → List OCmd → Overlay × List (Option OErr)
  | o, [] => (o, [])
  | o, c :: t => let r := o.call pw c; let r' := Overlay.calls pw r.1 t; (r'.1, r.2 :: r'.2)

/-- A display before any overlay: the background, the score and other items. -/
structure Plain (o : Overlay) (bg score : Item) (rest : List Item) : Prop where
  stack : o.stack = List.range o.canvas.length
  items : o.canvas = some bg :: some score :: rest.map some
  attrs : o.expanded = none ∧ o.dist = none ∧ o.distances = none

end Verif.Pac
