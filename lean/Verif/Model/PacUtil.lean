import Verif.Model.PacGame
import Verif.Base.Dict

/-!
# Model of `Counter` and the sampling functions of `demo/util.py`, and of the agents of `demo/ghostAgents.py` and `demo/keyboardAgents.py`

Floats are rationals; a random number is an argument `0 ≤ r < 1`. Errors that Python reports as `TypeError`, `AttributeError`, `ValueError` or
`ZeroDivisionError` are `PErr.value`.
-/

namespace Verif.Pac

/-! ### `Counter` (util.py 235-446) -/

/-- `Counter`: a dictionary with numbers as values (util.py 235-273). -/
abbrev Counter (K : Type) : Type := Dict K ℚ

section counter
variable {K : Type} [DecidableEq K]

/-- The value of `c[k]` (util.py 275-277). -/
def Counter.at (c : Counter K) (k : K) : ℚ := (c.get? k).getD 0

/-- The counter after `c[k]` was evaluated: `setdefault` stores a missing key (util.py 276). -/
def Counter.touch (c : Counter K) (k : K) : Counter K := if c.has k then c else c.set k 0

/-- `c[k] += v` (util.py 291, 394). -/
def Counter.inc (c : Counter K) (k : K) (v : ℚ) : Counter K := (c.touch k).set k (c.at k + v)

/-- `incrementAll` (util.py 279-291). -/
def Counter.incrementAll (c : Counter K) (ks : List K) (v : ℚ) : Counter K := ks.foldl (fun c k => Counter.inc c k v) c

/-- `argMax` (util.py 293-301): `dict.items()` cannot be subscripted in Python 3. -/
def Counter.argMax (c : Counter K) : Except PErr (Option K) := if c.keys = [] then .ok none else .error .value

/-- `sortedKeys` (util.py 303-318): `dict.items()` has no `sort` in Python 3. -/
def Counter.sortedKeys (_ : Counter K) : Except PErr (List K) := .error .value

/-- `totalCount` (util.py 320-324). -/
def Counter.total (c : Counter K) : ℚ := c.vals.sum

/-- Body of the loop of `normalize` and `divideAll` (util.py 326-346). -/
def Counter.divAt (d : ℚ) (c : Counter K) (k : K) : Counter K := c.set k (Counter.at c k / d)

/-- `Counter.normalize` (util.py 326-336). -/
def Counter.normalize (c : Counter K) : Counter K := if c.total = 0 then c else c.keys.foldl (Counter.divAt c.total) c

/-- `divideAll` (util.py 338-344). -/
def Counter.divideAll (c : Counter K) (d : ℚ) : Except PErr (Counter K) :=
  if d = 0 ∧ c.keys ≠ [] then .error .value else .ok (c.keys.foldl (Counter.divAt d) c)

/-- Loop of `__mul__` (util.py 372-375). -/
def Counter.mulLoop (x y : Counter K) : ℚ := x.keys.foldl (fun s k => if y.has k then s + Counter.at x k * Counter.at y k else s) 0

/-- `__mul__` (util.py 352-376). -/
def Counter.mul (x y : Counter K) : ℚ := if x.keys.length > y.keys.length then Counter.mulLoop y x else Counter.mulLoop x y

/-- `__radd__` (util.py 378-394): changes the counter and returns `None`. -/
def Counter.radd (c y : Counter K) : Counter K × Option (Counter K) := (y.entries.foldl (fun c e => Counter.inc c e.1 e.2) c, none)

/-- First loop of `__add__` and `__sub__` (util.py 411-415, 437-441). -/
def Counter.combine (f : ℚ → ℚ → ℚ) (x y : Counter K) (c : Counter K) (k : K) : Counter K :=
  c.set k (if y.has k then f (Counter.at x k) (Counter.at y k) else Counter.at x k)

/-- Second loop of `__add__` and `__sub__` (util.py 416-419, 442-445). -/
def Counter.rest (f : ℚ → ℚ) (x y : Counter K) (c : Counter K) (k : K) : Counter K :=
  if x.has k then c else c.set k (f (Counter.at y k))

/-- `__add__` (util.py 396-420). -/
def Counter.add (x y : Counter K) : Counter K :=
  y.keys.foldl (Counter.rest id x y) (x.keys.foldl (Counter.combine (· + ·) x y) Dict.empty)

/-- `__sub__` (util.py 422-446). -/
def Counter.sub (x y : Counter K) : Counter K :=
  y.keys.foldl (Counter.rest (fun v => -1 * v) x y) (x.keys.foldl (Counter.combine (· - ·) x y) Dict.empty)

end counter

/-! ### Sampling (util.py 456-532) -/

/-- `normalize` of a list (util.py 469-473). -/
def normalizeList (p : List ℚ) : List ℚ := if p.sum = 0 then p else p.map fun x => x / p.sum

/-- Loop of `sample` (util.py 500-502): `rest` are the entries after `i`. -/
def sampleLoop (r : ℚ) : ℚ → ℕ → List ℚ → Except PErr ℕ
  | total, i, [] => if r > total then .error .index else .ok i
  | total, i, p :: t => if r > total then sampleLoop r (total + p) (i + 1) t else .ok i

/-- The index chosen by `sample` (util.py 496-503). -/
def sampleIdx (p : List ℚ) (r : ℚ) : Except PErr ℕ :=
  match (if p.sum ≠ 1 then normalizeList p else p) with
  | [] => .error .index
  | q :: t => sampleLoop r q 0 t

/-- `sample(distribution, values)` for lists (util.py 491-503). -/
def sampleList {K : Type} (p : List ℚ) (vs : List K) (r : ℚ) : Except PErr K :=
  match sampleIdx p r with
  | .error e => .error e
  | .ok i => match vs[i]? with
    | none => .error .index
    | some v => .ok v

/-- `sample(counter)` (util.py 492-495): the items are sorted by key (keys are different, so values are never compared). -/
def sampleCounter {K : Type} (le : K → K → Bool) (c : Counter K) (r : ℚ) : Except PErr K :=
  let items := c.entries.mergeSort fun a b => le a.1 b.1
  sampleList (items.map Prod.snd) (items.map Prod.fst) r

/-- Loop of `nSample` (util.py 482-488): `d` are the entries after `distPos`. -/
def nSampleLoop {K : Type} : ℚ → List ℚ → List K → List ℚ → Except PErr (List K)
  | _, _, _, [] => .ok []
  | cdf, d, vs, r :: rs =>
    if r < cdf then match vs with
      | [] => .error .index
      | v :: _ => match nSampleLoop cdf d vs rs with
        | .error e => .error e
        | .ok l => .ok (v :: l)
    else match d with
      | [] => .error .index
      | p :: t => nSampleLoop (cdf + p) t vs.tail (r :: rs)
  termination_by _ d _ rs => d.length + rs.length

/-- `nSample` (util.py 475-489); `rs` are the random numbers after sorting. -/
def nSample {K : Type} (p : List ℚ) (vs : List K) (rs : List ℚ) : Except PErr (List K) :=
  match (if p.sum ≠ 1 then normalizeList p else p) with
  | [] => .error .index
  | q :: t => nSampleLoop q t vs rs

/-- `getProbability` (util.py 509-518). -/
def getProbability {K : Type} [DecidableEq K] (v : K) (p : List ℚ) (vs : List K) : ℚ :=
  (p.zip vs).foldl (fun total e => if e.2 = v then total + e.1 else total) 0

/-- `chooseFromDistribution` for a list of pairs (util.py 528-532), with `base` summed so far; `None` if the list ends. -/
def choosePairs {K : Type} (r : ℚ) : ℚ → List (ℚ × K) → Option K
  | _, [] => none
  | base, (p, v) :: t => if r ≤ base + p then some v else choosePairs r (base + p) t

/-! ### Ghosts (ghostAgents.py) -/

/-- Rank of the name of a direction in the order of strings: East, North, South, Stop, West (game.py 49-54). -/
def Dir.rank : Dir → ℕ
  | .east => 0
  | .north => 1
  | .south => 2
  | .stop => 3
  | .west => 4

/-- Order of the names of directions (game.py 50-54, compared in util.py 493, 506). -/
def Dir.le (a b : Dir) : Bool := a.rank ≤ b.rank

/-- `GhostAgent.getAction` (ghostAgents.py 26-31). -/
def ghostAction (dist : Except PErr (Counter Dir)) (r : ℚ) : Except PErr Dir :=
  match dist with
  | .error e => .error e
  | .ok c => if c.keys.length = 0 then .ok .stop else sampleCounter Dir.le c r

/-- `RandomGhost.getDistribution` (ghostAgents.py 39-43). -/
def randomDist (s : GState) (i : ℕ) : Except PErr (Counter Dir) :=
  match legalActions s i with
  | .error e => .error e
  | .ok legal => .ok (Counter.normalize (legal.foldl (fun c a => c.set a 1) Dict.empty))

/-- The position of a ghost after an action, as `DirectionalGhost` computes it (ghostAgents.py 59-63). -/
def newPos (g : Agent) (a : Dir) : Pos :=
  let v := directionToVector a (if g.scared > 0 then 1 / 2 else 1)
  (g.conf.pos.1 + v.1, g.conf.pos.2 + v.2)

/-- The best score (ghostAgents.py 68-73): `max` or `min` of a list that is not empty. -/
def bestScore (scared : Bool) : List ℚ → Except PErr ℚ
  | [] => .error .value
  | d :: t => .ok (if scared then t.foldl max d else t.foldl min d)

/-- The distribution over actions (ghostAgents.py 74-80). -/
def mixDist (legal best : List Dir) (bestProb : ℚ) : Counter Dir :=
  Counter.normalize (legal.foldl (fun c a => Counter.inc c a ((1 - bestProb) / legal.length))
    (best.foldl (fun c a => c.set a (bestProb / best.length)) Dict.empty))

/-- `DirectionalGhost.getDistribution` (ghostAgents.py 52-81). -/
def directionalDist (probAttack probFlee : ℚ) (s : GState) (i : ℕ) : Except PErr (Counter Dir) :=
  match ghostState s i with
  | .error e => .error e
  | .ok g => match legalActions s i, s.agents[0]? with
    | .error e, _ => .error e
    | .ok _, none => .error .index
    | .ok legal, some pac =>
      let scared : Bool := g.scared > 0
      let dist := fun a => manhattan (newPos g a) pac.conf.pos
      match bestScore scared (legal.map dist) with
      | .error e => .error e
      | .ok b => .ok (mixDist legal (legal.filter fun a => dist a = b) (if scared then probFlee else probAttack))

/-! ### Keyboard (keyboardAgents.py 19-84) -/

/-- `getMove` (keyboardAgents.py 59-65); `key d` says whether a key for the direction is among `self.keys`. -/
def keyMove (key : Dir → Bool) (legal : List Dir) : Dir :=
  let m := Dir.stop
  let m := if key .west ∧ Dir.west ∈ legal then .west else m
  let m := if key .east ∧ Dir.east ∈ legal then .east else m
  let m := if key .north ∧ Dir.north ∈ legal then .north else m
  if key .south ∧ Dir.south ∈ legal then .south else m

/-- `KeyboardAgent.getAction` (keyboardAgents.py 36-57); `c` chooses in `random.choice`, `lastMove` is the previous answer. -/
def keyboardAction (key : Dir → Bool) (lastMove : Dir) (c : ℕ) (legal : List Dir) : Except PErr Dir :=
  let m := keyMove key legal
  let m := if m = .stop ∧ lastMove ∈ legal then lastMove else m
  let m := if key .stop ∧ Dir.stop ∈ legal then .stop else m
  if m ∈ legal then .ok m
  else match legal[c % legal.length]? with
    | none => .error .index
    | some a => .ok a

end Verif.Pac
