import Verif.Model.PacGrid

/-!
# Model of `demo/layout.py` (parsing) and of the game state and rules of `demo/game.py` and `demo/pacman.py`

Simplifications: agent indices are natural numbers (negative ones are in `PacQuery.lean`); `_eaten` is a value (its sharing
between states is left out here); `numCarrying`, `numReturned` and `_foodAdded`, which are
never read, are left out; `GameState.explored` is in `PacQuery.lean`; `visibility` (its initialisation is commented out, layout.py 40) is left out.
-/

namespace Verif.Pac

/-! ### Layouts (layout.py 23-130) -/

/-- `Layout` (layout.py 28-40). -/
structure Layout where
  width : ℕ
  height : ℕ
  walls : Grid
  food : Grid
  capsules : List (ℤ × ℤ)
  agentPositions : List (Bool × (ℤ × ℤ))
  numGhosts : ℕ
  text : List (List Char)
  totalFood : ℕ
  deriving DecidableEq

/-- The part of a layout that `processLayoutChar` changes; `agents` before sorting (layout.py 117-130). -/
structure Scan where
  walls : Grid
  food : Grid
  capsules : List (ℤ × ℤ)
  agents : List (ℕ × (ℤ × ℤ))
  numGhosts : ℕ
  deriving DecidableEq

/-- `processLayoutChar` (layout.py 117-130). -/
def Scan.char (s : Scan) (x y : ℕ) (c : Char) : Except PErr Scan :=
  if c = '%' then s.walls.put x y true |>.map fun g => { s with walls := g }
  else if c = '.' then s.food.put x y true |>.map fun g => { s with food := g }
  else if c = 'o' then .ok { s with capsules := s.capsules ++ [((x : ℤ), (y : ℤ))] }
  else if c = 'P' then .ok { s with agents := s.agents ++ [(0, ((x : ℤ), (y : ℤ)))] }
  else if c = 'G' then .ok { s with agents := s.agents ++ [(1, ((x : ℤ), (y : ℤ)))], numGhosts := s.numGhosts + 1 }
  else if c = '1' ∨ c = '2' ∨ c = '3' ∨ c = '4' then
    .ok { s with agents := s.agents ++ [(c.toNat - '0'.toNat, ((x : ℤ), (y : ℤ)))], numGhosts := s.numGhosts + 1 }
  else .ok s

/-- Body of the loops of `processLayoutText` (layout.py 110-113). -/
def Scan.cell (text : List (List Char)) (h : ℕ) (s : Scan) (p : ℕ × ℕ) : Except PErr Scan :=
  match pyGet text ((h : ℤ) - 1 - p.2) with
  | .error e => .error e
  | .ok row => match pyGet row p.1 with
    | .error e => .error e
    | .ok c => s.char p.1 p.2 c

/-- Order of Python tuples `(i, (x, y))` (layout.py 114). -/
def agentLe (a b : ℕ × (ℤ × ℤ)) : Bool :=
  a.1 < b.1 || (a.1 = b.1 && (a.2.1 < b.2.1 || (a.2.1 = b.2.1 && a.2.2 ≤ b.2.2)))

/-- The cells in the order of the loops (layout.py 110-111): rows upwards, in each row from the left. -/
def scanCells (w h : ℕ) : List (ℕ × ℕ) := (List.range h).flatMap fun y => (List.range w).map fun x => (x, y)

/-- `Layout(layoutText)` (layout.py 28-40, 96-115). -/
def Layout.ofText (text : List (List Char)) : Except PErr Layout :=
  match text with
  | [] => .error .index
  | row :: _ =>
    let w := row.length
    let h := text.length
    match (scanCells w h).foldlM (Scan.cell text h) ⟨Grid.new w h false, Grid.new w h false, [], [], 0⟩ with
    | .error e => .error e
    | .ok s => match s.food.asList true with
      | .error e => .error e
      | .ok fl => .ok
        { width := w, height := h, walls := s.walls, food := s.food, capsules := s.capsules
          agentPositions := (s.agents.mergeSort agentLe).map fun p => (decide (p.1 = 0), p.2)
          numGhosts := s.numGhosts, text := text, totalFood := fl.length }

/-- `Layout.deepCopy` (layout.py 93-94). -/
def Layout.deepCopy (l : Layout) : Except PErr Layout := Layout.ofText l.text

/-! ### Game states (game.py 120-160, 371-510) -/

/-- `AgentState` (game.py 120-131). -/
structure Agent where
  start : Config
  conf : Config
  isPacman : Bool
  scared : ℕ
  deriving DecidableEq

/-- `AgentState.copy` (game.py 147-153). -/
def Agent.copy (a : Agent) : Agent := ⟨a.start, a.conf, a.isPacman, a.scared⟩

/-- `GameState`/`GameStateData` (game.py 371-393). -/
structure GState where
  food : Grid
  capsules : List (ℤ × ℤ)
  agents : List Agent
  layout : Layout
  eaten : List Bool
  score : ℤ
  foodEaten : Option (ℤ × ℤ)
  capsuleEaten : Option (ℤ × ℤ)
  agentMoved : Option ℕ
  lose : Bool
  win : Bool
  scoreChange : ℤ
  deriving DecidableEq

/-- `GameStateData(prevState)` (game.py 375-393). -/
def GState.next (s : GState) : GState :=
  { food := s.food, capsules := s.capsules, agents := s.agents.map Agent.copy, layout := s.layout, eaten := s.eaten, score := s.score
    foodEaten := none, capsuleEaten := none, agentMoved := none, lose := false, win := false, scoreChange := 0 }

/-- `deepCopy` (game.py 395-403, pacman.py 229-232). -/
def GState.deepCopy (s : GState) : Except PErr GState :=
  match s.layout.deepCopy with
  | .error e => .error e
  | .ok l => .ok { s.next with layout := l, agentMoved := s.agentMoved, foodEaten := s.foodEaten, capsuleEaten := s.capsuleEaten }

/-- Loop of `initialize` (game.py 499-506): `k` ghosts were placed. -/
def placeAgents (max : ℕ) : ℕ → List (Bool × (ℤ × ℤ)) → List Agent
  | _, [] => []
  | k, (pac, pos) :: t =>
    if pac then ⟨⟨toPos pos, .stop⟩, ⟨toPos pos, .stop⟩, true, 0⟩ :: placeAgents max k t
    else if k = max then placeAgents max k t
    else ⟨⟨toPos pos, .stop⟩, ⟨toPos pos, .stop⟩, false, 0⟩ :: placeAgents max (k + 1) t

/-- `initialize` (game.py 487-507). -/
def GState.init (l : Layout) (numGhostAgents : ℕ) : GState :=
  { food := l.food, capsules := l.capsules, agents := placeAgents numGhostAgents 0 l.agentPositions, layout := l
    eaten := (placeAgents numGhostAgents 0 l.agentPositions).map fun _ => false
    score := 0, foodEaten := none, capsuleEaten := none, agentMoved := none, lose := false, win := false, scoreChange := 0 }

/-! ### Rules (pacman.py 262-455) -/

/-- `SCARED_TIME` (pacman.py 262). -/
def scaredTime : ℕ := 40

/-- `PacmanRules.getLegalActions` (pacman.py 330-334). -/
def pacLegal (s : GState) : Except PErr (List Dir) :=
  match s.agents[0]? with
  | none => .error .index
  | some a => possibleActions a.copy.conf s.layout.walls

/-- `getGhostState` (pacman.py 151-154). -/
def ghostState (s : GState) (i : ℕ) : Except PErr Agent :=
  match s.agents[i]? with
  | none => .error .ghostIndex
  | some a => if i = 0 then .error .ghostIndex else .ok a

/-- The two removals of `GhostRules.getLegalActions` (pacman.py 394-397). -/
def ghostFilter (dir : Dir) (l : List Dir) : List Dir :=
  let l := l.erase .stop
  if reverseDirection dir ∈ l ∧ l.length > 1 then l.erase (reverseDirection dir) else l

/-- `GhostRules.getLegalActions` (pacman.py 386-399). -/
def ghostLegal (s : GState) (i : ℕ) : Except PErr (List Dir) :=
  match ghostState s i with
  | .error e => .error e
  | .ok a => match possibleActions a.conf s.layout.walls with
    | .error e => .error e
    | .ok l => .ok (ghostFilter a.conf.dir l)

/-- `getLegalActions` (pacman.py 82-92). -/
def legalActions (s : GState) (i : ℕ) : Except PErr (List Dir) :=
  if s.win || s.lose then .ok [] else if i = 0 then pacLegal s else ghostLegal s i

/-- Eating food in `consume` (pacman.py 361-371). -/
def consumeFood (s : GState) (p : ℤ × ℤ) : Except PErr GState :=
  match s.food.get p.1 p.2 with
  | .error e => .error e
  | .ok false => .ok s
  | .ok true => match s.food.put p.1 p.2 false with
    | .error e => .error e
    | .ok g =>
      if g.count true = 0 ∧ s.lose = false then
        .ok { s with food := g, foodEaten := some p, scoreChange := s.scoreChange + 10 + 500, win := true }
      else .ok { s with food := g, foodEaten := some p, scoreChange := s.scoreChange + 10 }

/-- Setting the scared timers of all agents but the first (pacman.py 377-378). -/
def scareAll : List Agent → List Agent
  | [] => []
  | a :: t => a :: t.map fun g => { g with scared := scaredTime }

/-- Eating a capsule in `consume` (pacman.py 373-378). -/
def consumeCapsule (s : GState) (p : ℤ × ℤ) : GState :=
  if p ∈ s.capsules then { s with capsules := s.capsules.erase p, capsuleEaten := some p, agents := scareAll s.agents } else s

/-- `PacmanRules.consume` (pacman.py 359-379). -/
def consume (s : GState) (p : ℤ × ℤ) : Except PErr GState :=
  match consumeFood s p with
  | .error e => .error e
  | .ok s' => .ok (consumeCapsule s' p)

/-- `PacmanRules.applyAction` (pacman.py 337-357). -/
def pacApply (s : GState) (a : Dir) : Except PErr GState :=
  match pacLegal s with
  | .error e => .error e
  | .ok legal =>
    if a ∉ legal then .error .illegal
    else match s.agents with
      | [] => .error .index
      | pac :: rest =>
        let c := pac.conf.succ (directionToVector a 1)
        let s' := { s with agents := { pac with conf := c } :: rest }
        if manhattan (toPos (nearestPoint c.pos)) c.pos ≤ 1 / 2 then consume s' (nearestPoint c.pos) else .ok s'

/-- `GhostRules.applyAction` (pacman.py 401-412). -/
def ghostApply (s : GState) (a : Dir) (i : ℕ) : Except PErr GState :=
  match ghostLegal s i with
  | .error e => .error e
  | .ok legal =>
    if a ∉ legal then .error .illegal
    else match s.agents[i]? with
      | none => .error .index
      | some g =>
        let speed : ℚ := if g.scared > 0 then 1 / 2 else 1
        .ok { s with agents := s.agents.set i { g with conf := g.conf.succ (directionToVector a speed) } }

/-- `GhostRules.decrementTimer` (pacman.py 414-419). -/
def decrement (g : Agent) : Agent :=
  { g with conf := if g.scared = 1 then { g.conf with pos := toPos (nearestPoint g.conf.pos) } else g.conf, scared := g.scared - 1 }

/-- `GhostRules.canKill` (pacman.py 449-451); `COLLISION_TOLERANCE = 0.7` (263). -/
def canKill (pac ghost : Pos) : Bool := manhattan ghost pac ≤ 7 / 10

/-- `GhostRules.collide` (pacman.py 436-447) with `placeGhost` (453-455). -/
def collide (s : GState) (i : ℕ) : GState :=
  match s.agents[i]? with
  | none => s
  | some g =>
    if g.scared > 0 then
      { s with scoreChange := s.scoreChange + 200, agents := s.agents.set i { g with conf := g.start, scared := 0 }, eaten := s.eaten.set i true }
    else if s.win = false then { s with scoreChange := s.scoreChange - 500, lose := true } else s

/-- Body of the loop of `checkDeath` (pacman.py 425-428, 430-433). -/
def deathAt (pac : Pos) (s : GState) (i : ℕ) : GState :=
  match s.agents[i]? with
  | none => s
  | some g => if canKill pac g.conf.pos then collide s i else s

/-- `GhostRules.checkDeath` (pacman.py 421-434). -/
def checkDeath (s : GState) (i : ℕ) : Except PErr GState :=
  match s.agents[0]? with
  | none => .error .index
  | some p =>
    if i = 0 then .ok ((List.range' 1 (s.agents.length - 1)).foldl (deathAt p.conf.pos) s)
    else match s.agents[i]? with
      | none => .error .index
      | some _ => .ok (deathAt p.conf.pos s i)

/-- The book keeping at the end of `generateSuccessor` (pacman.py 121-122). -/
def bookKeep (s : GState) (i : ℕ) : GState := { s with agentMoved := some i, score := s.score + s.scoreChange }

/-- `generateSuccessor` (pacman.py 94-125); `TIME_PENALTY = 1` (264). -/
def generateSuccessor (s : GState) (i : ℕ) (a : Dir) : Except PErr GState :=
  if s.win || s.lose then .error .finished
  else if i = 0 then
    match pacApply { s.next with eaten := List.replicate s.next.agents.length false } a with
    | .error e => .error e
    | .ok s1 => match checkDeath { s1 with scoreChange := s1.scoreChange - 1 } 0 with
      | .error e => .error e
      | .ok s2 => .ok (bookKeep s2 0)
  else
    match ghostApply s.next a i with
    | .error e => .error e
    | .ok s1 => match checkDeath { s1 with agents := s1.agents.modify i decrement } i with
      | .error e => .error e
      | .ok s2 => .ok (bookKeep s2 i)

/-! ### Executions -/

/-- A sequence of moves, each by some agent, applied one after the other (the calls of pacman.py 94-129). -/
def playMoves (s : GState) : List (ℕ × Dir) → Except PErr GState
  | [] => .ok s
  | m :: t => match generateSuccessor s m.1 m.2 with
    | .error e => .error e
    | .ok s' => playMoves s' t

end Verif.Pac
