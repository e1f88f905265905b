import Verif.Model.PacEq

/-!
# Model of the queries of a game state (`demo/pacman.py` 70-213) for any integer index, and of the set of explored states

In `PacGame.lean` agent indices are natural numbers. Python accepts negative ones in most places; here indices are integers and lists are read and
written with the index rules of Python. `_agentMoved` of a new state is returned beside the state. `GameState.explored` is a list of states without
equal ones in order of insertion; the order is never used. `float(score)` is exact below 2^53 and is modelled as the score.
-/

namespace Verif.Pac

/-- `l[i] = a` (game.py 183-184). -/
def pySet {A : Type} (l : List A) (i : ℤ) (a : A) : Except PErr (List A) :=
  match pyIdx l.length i with
  | none => .error .index
  | some k => .ok (l.set k a)

/-! ### Queries -/

/-- `getPacmanState` (pacman.py 136-143). -/
def pacmanState (s : GState) : Except PErr Agent := (pyGet s.agents 0).map Agent.copy

/-- `getPacmanPosition` (pacman.py 145-146). -/
def pacmanPosition (s : GState) : Except PErr Pos := (pyGet s.agents 0).map fun a => a.conf.pos

/-- `getGhostStates` (pacman.py 148-149). -/
def ghostStates (s : GState) : List Agent := s.agents.drop 1

/-- `getGhostPositions` (pacman.py 161-162). -/
def ghostPositions (s : GState) : List Pos := (ghostStates s).map fun a => a.conf.pos

/-- `getNumAgents` (pacman.py 164-165). -/
def numAgents (s : GState) : ℕ := s.agents.length

/-- `getScore` (pacman.py 167-168). -/
def getScore (s : GState) : ℚ := s.score

/-- `getCapsules` (pacman.py 170-174). -/
def getCapsules (s : GState) : List (ℤ × ℤ) := s.capsules

/-- `getNumFood` (pacman.py 176-177). -/
def numFood (s : GState) : ℕ := s.food.count true

/-- `getFood` (pacman.py 179-189). -/
def getFood (s : GState) : Grid := s.food

/-- `getWalls` (pacman.py 191-201). -/
def getWalls (s : GState) : Grid := s.layout.walls

/-- `hasFood` (pacman.py 203-204). -/
def hasFood (s : GState) (x y : ℤ) : Except PErr Bool := s.food.get x y

/-- `hasWall` (pacman.py 206-207). -/
def hasWall (s : GState) (x y : ℤ) : Except PErr Bool := s.layout.walls.get x y

/-- `isLose` (pacman.py 209-210). -/
def isLose (s : GState) : Bool := s.lose

/-- `isWin` (pacman.py 212-213). -/
def isWin (s : GState) : Bool := s.win

/-- `getGhostState` (pacman.py 151-154). -/
def ghostStateZ (s : GState) (i : ℤ) : Except PErr Agent :=
  if i = 0 ∨ (numAgents s : ℤ) ≤ i then .error .ghostIndex else pyGet s.agents i

/-- `getGhostPosition` (pacman.py 156-159). -/
def ghostPositionZ (s : GState) (i : ℤ) : Except PErr Pos :=
  if i = 0 then .error .ghostIndex else (pyGet s.agents i).map fun a => a.conf.pos

/-! ### Moves -/

/-- `GhostRules.getLegalActions` (pacman.py 386-399). -/
def ghostLegalZ (s : GState) (i : ℤ) : Except PErr (List Dir) :=
  match ghostStateZ s i with
  | .error e => .error e
  | .ok a => match possibleActions a.conf (getWalls s) with
    | .error e => .error e
    | .ok l => .ok (ghostFilter a.conf.dir l)

/-- `getLegalActions` (pacman.py 82-92). -/
def legalActionsZ (s : GState) (i : ℤ) : Except PErr (List Dir) :=
  if isWin s || isLose s then .ok [] else if i = 0 then pacLegal s else ghostLegalZ s i

/-- `getLegalPacmanActions` (pacman.py 127-128). -/
def legalPacmanActions (s : GState) : Except PErr (List Dir) := legalActionsZ s 0

/-- `GhostRules.applyAction` (pacman.py 401-412). -/
def ghostApplyZ (s : GState) (a : Dir) (i : ℤ) : Except PErr GState :=
  match ghostLegalZ s i with
  | .error e => .error e
  | .ok legal =>
    if a ∉ legal then .error .illegal
    else match pyGet s.agents i with
      | .error e => .error e
      | .ok g =>
        let speed : ℚ := if g.scared > 0 then 1 / 2 else 1
        match pySet s.agents i { g with conf := g.conf.succ (directionToVector a speed) } with
        | .error e => .error e
        | .ok l => .ok { s with agents := l }

/-- `GhostRules.decrementTimer( state.data.agentStates[agentIndex] )` (pacman.py 115, 414-419). -/
def decrementZ (s : GState) (i : ℤ) : Except PErr GState :=
  match pyGet s.agents i with
  | .error e => .error e
  | .ok g => match pySet s.agents i (decrement g) with
    | .error e => .error e
    | .ok l => .ok { s with agents := l }

/-- `GhostRules.collide` (pacman.py 436-447) with `placeGhost` (453-455). -/
def collideZ (s : GState) (g : Agent) (i : ℤ) : Except PErr GState :=
  if g.scared > 0 then
    match pySet s.agents i { g with conf := g.start, scared := 0 } with
    | .error e => .error e
    | .ok l => match pySet s.eaten i true with
      | .error e => .error e
      | .ok m => .ok { s with scoreChange := s.scoreChange + 200, agents := l, eaten := m }
  else if s.win = false then .ok { s with scoreChange := s.scoreChange - 500, lose := true } else .ok s

/-- `GhostRules.checkDeath` (pacman.py 421-434) for a ghost. -/
def checkDeathZ (s : GState) (i : ℤ) : Except PErr GState :=
  match pacmanPosition s with
  | .error e => .error e
  | .ok p => match pyGet s.agents i with
    | .error e => .error e
    | .ok g => if canKill p g.conf.pos then collideZ s g i else .ok s

/-- `generateSuccessor` (pacman.py 94-125): the new state (without `_agentMoved`) and its `_agentMoved`. -/
def generateSuccessorZ (s : GState) (i : ℤ) (a : Dir) : Except PErr (GState × ℤ) :=
  if isWin s || isLose s then .error .finished
  else if i = 0 then
    match pacApply { s.next with eaten := List.replicate (numAgents s.next) false } a with
    | .error e => .error e
    | .ok s1 => match checkDeath { s1 with scoreChange := s1.scoreChange - 1 } 0 with
      | .error e => .error e
      | .ok s2 => .ok ({ s2 with agentMoved := none, score := s2.score + s2.scoreChange }, i)
  else
    match ghostApplyZ s.next a i with
    | .error e => .error e
    | .ok s1 => match decrementZ s1 i with
      | .error e => .error e
      | .ok s2 => match checkDeathZ s2 i with
        | .error e => .error e
        | .ok s3 => .ok ({ s3 with agentMoved := none, score := s3.score + s3.scoreChange }, i)

/-- `generatePacmanSuccessor` (pacman.py 130-134). -/
def generatePacmanSuccessor (s : GState) (a : Dir) : Except PErr (GState × ℤ) := generateSuccessorZ s 0 a

/-! ### Explored states -/

/-- `explored.add(s)` (pacman.py 123-124). -/
def addExplored (e : List GState) (s : GState) : List GState := if e.any (fun t => t.pyEq s) then e else e ++ [s]

/-- A use of the game: a call of `generateSuccessor` or of `getAndResetExplored` (pacman.py 75-80, 94-125). -/
inductive ExpOp where
  | move (s : GState) (i : ℤ) (a : Dir)
  | reset

/-- What the call does to `GameState.explored`, and what `getAndResetExplored` (pacman.py 76-79) returns. A call of `generateSuccessor` that raises has
not reached the two `add`s. -/
def expStep (e : List GState) : ExpOp → List GState × Option (List GState)
  | .move s i a => match generateSuccessorZ s i a with
    | .error _ => (e, none)
    | .ok t => (addExplored (addExplored e s) t.1, none)
  | .reset => ([], some e)

/-- The explored states after some uses (pacman.py 75-80, 94-125). -/
def expRun (e : List GState) (ops : List ExpOp) : List GState := ops.foldl (fun e o => (expStep e o).1) e

end Verif.Pac
