import Verif.Model.PacGame
import Mathlib.Logic.Function.Basic

/-!
# Model of the objects behind game states (`demo/game.py` 70-160, 222-231, 371-507; `demo/pacman.py` 94-125, 217-232, 321-455)

In `PacGame.lean` states are values. Here a state refers to objects that can be shared between states and changed in place: configurations, agent states, the rows
of food grids, capsule lists, `_eaten` lists and the state data themselves. Copying and writing follow the Python code statement by statement.

Simplifications: a `Grid` object is a size and a reference to its list of rows (its attributes are never assigned after construction; the outer list
and its rows are always copied together or shared together, so they are one object); the list `agentStates` is never changed after construction and is part of
the state data; a `GameState` and its `data` are one object; layouts are never changed and are values; objects that become garbage at once are left out
(the copy made by `getPacmanState`, the first of the two copies made by `GameState.deepCopy`). What is only read is read as a value with
the functions of `PacGame.lean`.
-/

namespace Verif.Pac

/-- A reference to an object. -/
scoped notation "Ref" => ℕ

/-- An `AgentState` object (game.py 125-131). -/
structure AgentObj where
  start : Ref
  conf : Ref
  isPacman : Bool
  scared : ℕ

/-- A `Grid` object (game.py 170-176). -/
structure GridObj where
  width : ℕ
  height : ℕ
  data : Ref

/-- A `GameStateData` object (game.py 375-393). -/
structure StateObj where
  food : GridObj
  capsules : Ref
  agents : List Ref
  layout : Layout
  eaten : Ref
  score : ℤ
  foodEaten : Option (ℤ × ℤ)
  capsuleEaten : Option (ℤ × ℤ)
  agentMoved : Option ℕ
  lose : Bool
  win : Bool
  scoreChange : ℤ

/-- The objects by kind and reference; references from `next` on are unused (the objects of game.py 70, 120, 162, 371). -/
structure PHeap where
  next : Ref
  conf : Ref → Config
  agent : Ref → AgentObj
  cells : Ref → List (List Bool)
  caps : Ref → List (ℤ × ℤ)
  eaten : Ref → List Bool
  state : Ref → StateObj

namespace PHeap

/-! ### Reading -/

/-- The value of an agent state object (game.py 120-160). -/
def readAgent (h : PHeap) (r : Ref) : Agent := ⟨h.conf (h.agent r).start, h.conf (h.agent r).conf, (h.agent r).isPacman, (h.agent r).scared⟩

/-- The value of a state (game.py 371-395). -/
def read (h : PHeap) (s : Ref) : GState :=
  { food := ⟨(h.state s).food.width, (h.state s).food.height, h.cells (h.state s).food.data⟩
    capsules := h.caps (h.state s).capsules
    agents := (h.state s).agents.map h.readAgent
    layout := (h.state s).layout
    eaten := h.eaten (h.state s).eaten
    score := (h.state s).score
    foodEaten := (h.state s).foodEaten
    capsuleEaten := (h.state s).capsuleEaten
    agentMoved := (h.state s).agentMoved
    lose := (h.state s).lose
    win := (h.state s).win
    scoreChange := (h.state s).scoreChange }

/-! ### New objects and writes in place -/

/-- A new configuration object (game.py 79-81, 116-118). -/
def newConf (h : PHeap) (c : Config) : PHeap := { h with next := h.next + 1, conf := Function.update h.conf h.next c }
/-- A new agent state object (game.py 125-131, 147-153). -/
def newAgent (h : PHeap) (a : AgentObj) : PHeap := { h with next := h.next + 1, agent := Function.update h.agent h.next a }
/-- A new list of rows of a grid (game.py 176, 206-213). -/
def newCells (h : PHeap) (d : List (List Bool)) : PHeap := { h with next := h.next + 1, cells := Function.update h.cells h.next d }
/-- A new list of capsules (game.py 381). -/
def newCaps (h : PHeap) (c : List (ℤ × ℤ)) : PHeap := { h with next := h.next + 1, caps := Function.update h.caps h.next c }
/-- A new list of marks (pacman.py 106, game.py 505). -/
def newEaten (h : PHeap) (e : List Bool) : PHeap := { h with next := h.next + 1, eaten := Function.update h.eaten h.next e }
/-- A new state object (game.py 375-393). -/
def newState (h : PHeap) (s : StateObj) : PHeap := { h with next := h.next + 1, state := Function.update h.state h.next s }

/-- A change of a configuration object in place; the code never makes one (game.py 70-118). -/
def setConf (h : PHeap) (r : Ref) (f : Config → Config) : PHeap := { h with conf := Function.update h.conf r (f (h.conf r)) }
/-- An agent state is changed in place (game.py 120-160). -/
def setAgent (h : PHeap) (r : Ref) (f : AgentObj → AgentObj) : PHeap := { h with agent := Function.update h.agent r (f (h.agent r)) }
/-- The food of a grid is changed in place (game.py 183-184). -/
def setCells (h : PHeap) (r : Ref) (d : List (List Bool)) : PHeap := { h with cells := Function.update h.cells r d }
/-- A list of capsules is changed in place (game.py 371-395). -/
def setCaps (h : PHeap) (r : Ref) (c : List (ℤ × ℤ)) : PHeap := { h with caps := Function.update h.caps r c }
/-- A list of marks is changed in place (game.py 371-395). -/
def setEaten (h : PHeap) (r : Ref) (e : List Bool) : PHeap := { h with eaten := Function.update h.eaten r e }
/-- A state object is changed in place (game.py 371-395). -/
def setState (h : PHeap) (r : Ref) (f : StateObj → StateObj) : PHeap := { h with state := Function.update h.state r (f (h.state r)) }

/-! ### Copying (game.py 147-153, 214-217, 375-409) -/

/-- `copyAgentStates` (game.py 405-409) with `AgentState.copy` (147-153): new agent states that refer to the same configurations. -/
def copyAgents (h : PHeap) : List Ref → PHeap × List Ref
  | [] => (h, [])
  | r :: t =>
    let p := copyAgents (h.newAgent ⟨(h.agent r).start, (h.agent r).conf, (h.agent r).isPacman, (h.agent r).scared⟩) t
    (p.1, h.next :: p.2)

/-- `GameStateData(prevState)` (game.py 375-393), `GameState(prevState)` (pacman.py 220-227): the rows of the food grid (`shallowCopy`, game.py 214-217) and the `_eaten` list
are shared with the previous state, the capsule list is copied. -/
def copyState (h : PHeap) (s : Ref) : PHeap × Ref :=
  let o := h.state s
  let h1 := h.newCaps (h.caps o.capsules)
  let p := h1.copyAgents o.agents
  (p.1.newState ⟨⟨o.food.width, o.food.height, o.food.data⟩, h.next, p.2, o.layout, o.eaten, o.score, none, none, none, false, false, 0⟩, p.1.next)

/-- `deepCopy` (game.py 395-403, pacman.py 229-232): copies the rows of the food grid, too, but not the `_eaten` list. -/
def deepCopy (h : PHeap) (s : Ref) : Except PErr Ref × PHeap :=
  let p := h.copyState s
  let h1 := p.1.newCells (p.1.cells (h.state s).food.data)
  let h2 := h1.setState p.2 fun o => { o with food := ⟨o.food.width, o.food.height, p.1.next⟩ }
  match (h.state s).layout.deepCopy with
  | .error e => (.error e, h2)
  | .ok l => (.ok p.2, h2.setState p.2 fun o =>
      { o with layout := l, agentMoved := (h.state s).agentMoved, foodEaten := (h.state s).foodEaten, capsuleEaten := (h.state s).capsuleEaten })

/-- Loop of `initialize` (game.py 499-506): one configuration object is the start and the configuration of a new agent state. -/
def placeAgents (max : ℕ) : PHeap → ℕ → List (Bool × (ℤ × ℤ)) → PHeap × List Ref
  | h, _, [] => (h, [])
  | h, k, (pac, pos) :: t =>
    if pac then
      let h1 := h.newConf ⟨toPos pos, .stop⟩
      let p := placeAgents max (h1.newAgent ⟨h.next, h.next, true, 0⟩) k t
      (p.1, h1.next :: p.2)
    else if k = max then placeAgents max h k t
    else
      let h1 := h.newConf ⟨toPos pos, .stop⟩
      let p := placeAgents max (h1.newAgent ⟨h.next, h.next, false, 0⟩) (k + 1) t
      (p.1, h1.next :: p.2)

/-- `GameState()` and `initialize` (pacman.py 250-254, game.py 487-507). -/
def initState (h : PHeap) (l : Layout) (numGhostAgents : ℕ) : PHeap × Ref :=
  let h1 := h.newCells l.food.data
  let h2 := h1.newCaps l.capsules
  let p := placeAgents numGhostAgents h2 0 l.agentPositions
  let h3 := p.1.newEaten (p.2.map fun _ => false)
  (h3.newState ⟨⟨l.food.width, l.food.height, h.next⟩, h1.next, p.2, l, p.1.next, 0, none, none, none, false, false, 0⟩, h3.next)

/-! ### Rules (pacman.py 321-455) -/

/-- Eating food in `consume` (pacman.py 361-371): the grid is copied before it is written. -/
def consumeFood (h : PHeap) (s : Ref) (p : ℤ × ℤ) : Except PErr Unit × PHeap :=
  match (h.read s).food.get p.1 p.2 with
  | .error e => (.error e, h)
  | .ok false => (.ok (), h)
  | .ok true =>
    let h1 := h.setState s fun o => { o with scoreChange := o.scoreChange + 10 }
    let r := h1.next
    let h2 := h1.newCells (h1.cells (h1.state s).food.data)
    let h3 := h2.setState s fun o => { o with food := ⟨o.food.width, o.food.height, r⟩ }
    match (h3.read s).food.put p.1 p.2 false with
    | .error e => (.error e, h3)
    | .ok g =>
      let h4 := h3.setCells (h3.state s).food.data g.data
      let h5 := h4.setState s fun o => { o with foodEaten := some p }
      if (h5.read s).food.count true = 0 ∧ (h5.state s).lose = false then
        (.ok (), h5.setState s fun o => { o with scoreChange := o.scoreChange + 500, win := true })
      else (.ok (), h5)

/-- Loop of `consume` over the ghosts (pacman.py 377-378). -/
def scare (h : PHeap) : List Ref → PHeap
  | [] => h
  | r :: t => scare (h.setAgent r fun a => { a with scared := scaredTime }) t

/-- Eating a capsule in `consume` (pacman.py 373-378): the capsule list is changed in place. -/
def consumeCapsule (h : PHeap) (s : Ref) (p : ℤ × ℤ) : PHeap :=
  if p ∈ h.caps (h.state s).capsules then
    let h1 := h.setCaps (h.state s).capsules ((h.caps (h.state s).capsules).erase p)
    let h2 := h1.setState s fun o => { o with capsuleEaten := some p }
    h2.scare (h2.state s).agents.tail
  else h

/-- `PacmanRules.consume` (pacman.py 359-379). -/
def consume (h : PHeap) (s : Ref) (p : ℤ × ℤ) : Except PErr Unit × PHeap :=
  match h.consumeFood s p with
  | (.error e, h1) => (.error e, h1)
  | (.ok _, h1) => (.ok (), h1.consumeCapsule s p)

/-- `PacmanRules.applyAction` (pacman.py 337-357): Pacman gets a new configuration object. -/
def pacApply (h : PHeap) (s : Ref) (a : Dir) : Except PErr Unit × PHeap :=
  match pacLegal (h.read s) with
  | .error e => (.error e, h)
  | .ok legal =>
    if a ∉ legal then (.error .illegal, h)
    else match (h.state s).agents with
      | [] => (.error .index, h)
      | p :: _ =>
        let h1 := h.newConf ((h.conf (h.agent p).conf).succ (directionToVector a 1))
        let h2 := h1.setAgent p fun o => { o with conf := h.next }
        let next := (h2.conf (h2.agent p).conf).pos
        if manhattan (toPos (nearestPoint next)) next ≤ 1 / 2 then h2.consume s (nearestPoint next) else (.ok (), h2)

/-- `GhostRules.applyAction` (pacman.py 401-412): the ghost gets a new configuration object. -/
def ghostApply (h : PHeap) (s : Ref) (a : Dir) (i : ℕ) : Except PErr Unit × PHeap :=
  match ghostLegal (h.read s) i with
  | .error e => (.error e, h)
  | .ok legal =>
    if a ∉ legal then (.error .illegal, h)
    else match (h.state s).agents[i]? with
      | none => (.error .index, h)
      | some g =>
        let speed : ℚ := if (h.agent g).scared > 0 then 1 / 2 else 1
        let h1 := h.newConf ((h.conf (h.agent g).conf).succ (directionToVector a speed))
        (.ok (), h1.setAgent g fun o => { o with conf := h.next })

/-- `GhostRules.decrementTimer` (pacman.py 414-419): the position is written into the configuration object. -/
def decrement (h : PHeap) (g : Ref) : PHeap :=
  let timer := (h.agent g).scared
  let h1 := if timer = 1 then h.setConf (h.agent g).conf fun c => { c with pos := toPos (nearestPoint c.pos) } else h
  h1.setAgent g fun o => { o with scared := timer - 1 }

/-- `l[i] = b` for a list (pacman.py 442). -/
def listSet (l : List Bool) (i : ℕ) (b : Bool) : Except PErr (List Bool) := if i < l.length then .ok (l.set i b) else .error .index

/-- `GhostRules.collide` (pacman.py 436-447) with `placeGhost` (453-455): the configuration becomes the start object itself, and the `_eaten` list is
changed in place. -/
def collide (h : PHeap) (s g : Ref) (i : ℕ) : Except PErr Unit × PHeap :=
  if (h.agent g).scared > 0 then
    let h1 := h.setState s fun o => { o with scoreChange := o.scoreChange + 200 }
    let h2 := h1.setAgent g fun o => { o with conf := o.start }
    let h3 := h2.setAgent g fun o => { o with scared := 0 }
    match listSet (h3.eaten (h3.state s).eaten) i true with
    | .error e => (.error e, h3)
    | .ok l => (.ok (), h3.setEaten (h3.state s).eaten l)
  else if (h.state s).win = false then (.ok (), h.setState s fun o => { o with scoreChange := o.scoreChange - 500, lose := true })
  else (.ok (), h)

/-- Body of the loop of `checkDeath` (pacman.py 425-428, 430-433). -/
def deathAt (pac : Pos) (h : PHeap) (s g : Ref) (i : ℕ) : Except PErr Unit × PHeap :=
  if canKill pac (h.conf (h.agent g).conf).pos then h.collide s g i else (.ok (), h)

/-- The loop of `checkDeath` over the ghosts (pacman.py 424-428): the ghost at the head of the list has index `i`. -/
def deaths (pac : Pos) (h : PHeap) (s : Ref) : ℕ → List Ref → Except PErr Unit × PHeap
  | _, [] => (.ok (), h)
  | i, g :: t => match deathAt pac h s g i with
    | (.error e, h1) => (.error e, h1)
    | (.ok _, h1) => deaths pac h1 s (i + 1) t

/-- `GhostRules.checkDeath` (pacman.py 421-434). -/
def checkDeath (h : PHeap) (s : Ref) (i : ℕ) : Except PErr Unit × PHeap :=
  match (h.state s).agents with
  | [] => (.error .index, h)
  | p :: rest =>
    let pac := (h.conf (h.agent p).conf).pos
    if i = 0 then deaths pac h s 1 rest
    else match (h.state s).agents[i]? with
      | none => (.error .index, h)
      | some g => deathAt pac h s g i

/-- `generateSuccessor` (pacman.py 94-125). -/
def generateSuccessor (h : PHeap) (s : Ref) (i : ℕ) (a : Dir) : Except PErr Ref × PHeap :=
  if (h.state s).win || (h.state s).lose then (.error .finished, h)
  else
    let p := h.copyState s
    let t := p.2
    if i = 0 then
      let h1 := p.1.newEaten (List.replicate (p.1.state t).agents.length false)
      let h2 := h1.setState t fun o => { o with eaten := p.1.next }
      match h2.pacApply t a with
      | (.error e, h3) => (.error e, h3)
      | (.ok _, h3) =>
        let h4 := h3.setState t fun o => { o with scoreChange := o.scoreChange - 1 }
        match h4.checkDeath t 0 with
        | (.error e, h5) => (.error e, h5)
        | (.ok _, h5) => (.ok t, h5.setState t fun o => { o with agentMoved := some 0, score := o.score + o.scoreChange })
    else
      match p.1.ghostApply t a i with
      | (.error e, h3) => (.error e, h3)
      | (.ok _, h3) => match (h3.state t).agents[i]? with
        | none => (.error .index, h3)
        | some g => match (h3.decrement g).checkDeath t i with
          | (.error e, h5) => (.error e, h5)
          | (.ok _, h5) => (.ok t, h5.setState t fun o => { o with agentMoved := some i, score := o.score + o.scoreChange })

end PHeap

end Verif.Pac
