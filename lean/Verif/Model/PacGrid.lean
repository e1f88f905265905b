import Mathlib.Data.Rat.Floor
import Mathlib.Algebra.Order.Field.Rat
import Mathlib.Algebra.Order.Group.Abs
import Mathlib.Data.List.Basic

/-!
# Model of `demo/game.py`: directions, configurations, grids, actions (lines 49-118, 162-370)

Coordinates are multiples of one half of small integers, for which float arithmetic is exact; they are rationals here. Grids hold
booleans (the constructor demands it, game.py 171; the text grid made inside `GameStateData.__str__` is in `Verif.Model.PacText`).
-/

namespace Verif.Pac

/-- Exceptions: a plain `Exception` for an illegal action, for a successor of a finished game, for a wrong ghost index; `IndexError`;
`ValueError` (pacman.py 99, 153, 343, 405; game.py 267). -/
inductive PErr where
  | illegal | finished | ghostIndex | index | value
  deriving DecidableEq, Repr

/-- `Directions` (game.py 49-54). -/
inductive Dir where
  | north | south | east | west | stop
  deriving DecidableEq, Repr

/-- `Directions.LEFT` (game.py 56-60). -/
def Dir.left : Dir → Dir
  | .north => .west
  | .south => .east
  | .east => .north
  | .west => .south
  | .stop => .stop

/-- The items of `Directions.LEFT` in their order (game.py 56-60). -/
def leftItems : List (Dir × Dir) := [Dir.north, .south, .east, .west, .stop].map fun d => (d, d.left)

/-- `Directions.RIGHT` (game.py 62): the swapped items of `LEFT`; `none` is a missing key. -/
def Dir.right (d : Dir) : Option Dir := ((leftItems.map fun p => (p.2, p.1)).reverse.find? fun p => p.1 = d).map Prod.snd

/-- `Directions.REVERSE` (game.py 64-68). -/
def Dir.reverse : Dir → Dir
  | .north => .south
  | .south => .north
  | .east => .west
  | .west => .east
  | .stop => .stop

/-- `Actions._directions` (game.py 292-296). -/
def Dir.vec : Dir → ℤ × ℤ
  | .north => (0, 1)
  | .south => (0, -1)
  | .east => (1, 0)
  | .west => (-1, 0)
  | .stop => (0, 0)

/-- The keys of `Actions._directionsAsList` in their order (game.py 292-298). -/
def dirList : List Dir := [.north, .south, .east, .west, .stop]

/-- `Actions.reverseDirection` (game.py 302-311). -/
def reverseDirection (a : Dir) : Dir :=
  if a = .north then .south else if a = .south then .north else if a = .east then .west else if a = .west then .east else a

/-- A position (game.py 79). -/
abbrev Pos := ℚ × ℚ

/-- `Actions.vectorToDirection` (game.py 314-324). -/
def vectorToDirection (v : Pos) : Dir :=
  if v.2 > 0 then .north else if v.2 < 0 then .south else if v.1 < 0 then .west else if v.1 > 0 then .east else .stop

/-- `Actions.directionToVector` (game.py 327-329). -/
def directionToVector (d : Dir) (speed : ℚ) : Pos := (d.vec.1 * speed, d.vec.2 * speed)

/-- `Actions.getSuccessor` (game.py 365-368). -/
def getSuccessor (p : Pos) (a : Dir) : Pos := (p.1 + (directionToVector a 1).1, p.2 + (directionToVector a 1).2)

/-- `int(x)`: truncation towards zero (game.py 91, 335). -/
def pyInt (q : ℚ) : ℤ := if 0 ≤ q then ⌊q⌋ else ⌈q⌉

/-- `nearestPoint` (util.py 534-542). -/
def nearestPoint (p : Pos) : ℤ × ℤ := (pyInt (p.1 + 1 / 2), pyInt (p.2 + 1 / 2))

/-- `manhattanDistance` (util.py 225-227). -/
def manhattan (p q : Pos) : ℚ := |p.1 - q.1| + |p.2 - q.2|

/-- An integer position as a position (util.py 534-542). -/
def toPos (p : ℤ × ℤ) : Pos := (p.1, p.2)

/-- `Configuration` (game.py 70-81). -/
structure Config where
  pos : Pos
  dir : Dir
  deriving DecidableEq

/-- `Configuration.isInteger` (game.py 89-91). -/
def Config.isInteger (c : Config) : Bool := c.pos.1 = pyInt c.pos.1 && c.pos.2 = pyInt c.pos.2

/-- `Configuration.generateSuccessor` (game.py 105-118). -/
def Config.succ (c : Config) (v : Pos) : Config :=
  ⟨(c.pos.1 + v.1, c.pos.2 + v.2), if vectorToDirection v = .stop then c.dir else vectorToDirection v⟩

/-! ### Lists and grids -/

/-- The position meant by an index of a Python list of length `n`: negative indices count from the end (game.py 180-181). -/
def pyIdx (n : ℕ) (i : ℤ) : Option ℕ :=
  if 0 ≤ i then (if i < n then some i.toNat else none)
  else if -n ≤ i then some (n + i).toNat else none

/-- `l[i]` (game.py 180-181). -/
def pyGet {A : Type} (l : List A) (i : ℤ) : Except PErr A :=
  match pyIdx l.length i with
  | none => .error .index
  | some k => match l[k]? with
    | some a => .ok a
    | none => .error .index

/-- `Grid` (game.py 162-178). -/
structure Grid where
  width : ℕ
  height : ℕ
  data : List (List Bool)
  deriving DecidableEq

namespace Grid

/-- `Grid(width, height, initialValue)` (game.py 170-176). -/
def new (w h : ℕ) (b : Bool) : Grid := ⟨w, h, List.replicate w (List.replicate h b)⟩

/-- `grid[x][y]` (game.py 180-181). -/
def get (g : Grid) (x y : ℤ) : Except PErr Bool :=
  match pyGet g.data x with
  | .error e => .error e
  | .ok col => pyGet col y

/-- `grid[x][y] = b` (game.py 180-181). -/
def put (g : Grid) (x y : ℤ) (b : Bool) : Except PErr Grid :=
  match pyIdx g.data.length x with
  | none => .error .index
  | some i => match g.data[i]? with
    | none => .error .index
    | some col => match pyIdx col.length y with
      | none => .error .index
      | some j => .ok { g with data := g.data.set i (col.set j b) }

/-- `__eq__` (game.py 191-193) for grids. -/
def pyEq (g h : Grid) : Bool := g.data = h.data

/-- The argument of `hash` in `__hash__` (game.py 195-204): `(base, h)` after the loops. -/
def hashLoop (g : Grid) : ℕ × ℕ :=
  g.data.foldl (fun s l => l.foldl (fun s i => (s.1 * 2, if i then s.2 + s.1 else s.2)) s) (1, 0)

/-- `count(item)` (game.py 219-220). -/
def count (g : Grid) (b : Bool) : ℕ := (g.data.map fun col => col.count b).sum

/-- The cells in the order of the loops of `asList` (game.py 224-225). -/
def cells (w h : ℕ) : List (ℕ × ℕ) := (List.range w).flatMap fun x => (List.range h).map fun y => (x, y)

/-- Loop of `asList` (game.py 223-227). -/
def asListLoop (g : Grid) (key : Bool) : List (ℕ × ℕ) → Except PErr (List (ℤ × ℤ))
  | [] => .ok []
  | p :: t =>
    match g.get p.1 p.2 with
    | .error e => .error e
    | .ok b => match asListLoop g key t with
      | .error e => .error e
      | .ok l => .ok (if b = key then ((p.1 : ℤ), (p.2 : ℤ)) :: l else l)

/-- `asList(key)` (game.py 222-227). -/
def asList (g : Grid) (key : Bool) : Except PErr (List (ℤ × ℤ)) := g.asListLoop key (cells g.width g.height)

/-- `_cellIndexToPosition` (game.py 248-251). -/
def cellPos (g : Grid) (i : ℕ) : ℕ × ℕ := (i / g.height, i % g.height)

/-- Loop of `packBits` (game.py 237-244): state `(bits, currentInt)`. -/
def packStep (g : Grid) (s : List ℕ × ℕ) (i : ℕ) : Except PErr (List ℕ × ℕ) :=
  match g.get (g.cellPos i).1 (g.cellPos i).2 with
  | .error e => .error e
  | .ok b =>
    let cur := if b then s.2 + 2 ^ (30 - i % 30 - 1) else s.2
    .ok (if (i + 1) % 30 = 0 then (s.1 ++ [cur], 0) else (s.1, cur))

/-- `packBits` (game.py 229-246). -/
def packBits (g : Grid) : Except PErr (List ℕ) :=
  match (List.range (g.height * g.width)).foldlM (packStep g) ([g.width, g.height], 0) with
  | .error e => .error e
  | .ok s => .ok (s.1 ++ [s.2])

/-- Loop of `_unpackInt` (game.py 265-275) from position `i` on; `CELLS_PER_INT = 30`. -/
def unpackFrom (packed : ℕ) (i : ℕ) : ℕ → List Bool
  | 0 => []
  | k + 1 =>
    let n := 2 ^ (30 - i - 1)
    if packed ≥ n then true :: unpackFrom (packed - n) (i + 1) k else false :: unpackFrom packed (i + 1) k

/-- Inner loop of `_unpackBits` (game.py 259-263): stops when all cells are filled. -/
def fillBits : Grid × ℕ → List Bool → Except PErr (Grid × ℕ)
  | s, [] => .ok s
  | (g, cell), b :: t =>
    if cell = g.width * g.height then .ok (g, cell)
    else match g.put (g.cellPos cell).1 (g.cellPos cell).2 b with
      | .error e => .error e
      | .ok g' => fillBits (g', cell + 1) t

/-- `_unpackBits` (game.py 253-263). -/
def unpackBits (g : Grid) (bits : List ℕ) : Except PErr Grid :=
  match bits.foldlM (fun s packed => fillBits s (unpackFrom packed 0 30)) (g, 0) with
  | .error e => .error e
  | .ok s => .ok s.1

/-- `Grid(width, height, bitRepresentation=bits)` (game.py 170-178). -/
def ofBits (w h : ℕ) (bits : List ℕ) : Except PErr Grid :=
  if bits ≠ [] then (new w h false).unpackBits bits else .ok (new w h false)

/-- `reconstituteGrid` of a tuple (game.py 277-281): unpacking the first two raises `ValueError` if there are fewer. -/
def reconstitute : List ℕ → Except PErr Grid
  | w :: h :: bits => ofBits w h bits
  | _ => .error .value

end Grid

/-! ### Possible moves -/

/-- Loop of `Actions.getPossibleActions` (game.py 341-345). -/
def possibleLoop (walls : Grid) (x y : ℤ) : List Dir → Except PErr (List Dir)
  | [] => .ok []
  | d :: t =>
    match walls.get (x + d.vec.1) (y + d.vec.2) with
    | .error e => .error e
    | .ok w => match possibleLoop walls x y t with
      | .error e => .error e
      | .ok l => .ok (if w then l else d :: l)

/-- `Actions.getPossibleActions` (game.py 332-347); `TOLERANCE = .001` (300). -/
def possibleActions (c : Config) (walls : Grid) : Except PErr (List Dir) :=
  let x := pyInt (c.pos.1 + 1 / 2)
  let y := pyInt (c.pos.2 + 1 / 2)
  if |c.pos.1 - x| + |c.pos.2 - y| > 1 / 1000 then .ok [c.dir]
  else possibleLoop walls x y dirList

/-- Loop of `Actions.getLegalNeighbors` (game.py 355-361). -/
def neighborLoop (walls : Grid) (x y : ℤ) : List Dir → Except PErr (List (ℤ × ℤ))
  | [] => .ok []
  | d :: t =>
    let nx := x + d.vec.1
    let ny := y + d.vec.2
    if nx < 0 ∨ nx = walls.width then neighborLoop walls x y t
    else if ny < 0 ∨ ny = walls.height then neighborLoop walls x y t
    else match walls.get nx ny with
      | .error e => .error e
      | .ok w => match neighborLoop walls x y t with
        | .error e => .error e
        | .ok l => .ok (if w then l else (nx, ny) :: l)

/-- `Actions.getLegalNeighbors` (game.py 351-362). -/
def legalNeighbors (p : Pos) (walls : Grid) : Except PErr (List (ℤ × ℤ)) :=
  neighborLoop walls (pyInt (p.1 + 1 / 2)) (pyInt (p.2 + 1 / 2)) dirList

end Verif.Pac
