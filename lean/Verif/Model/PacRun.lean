import Verif.Model.PacGame

/-!
# Model of the control loop `Game.run` (`demo/game.py` 571-729) and of `ClassicGameRules` (`demo/pacman.py` 266-325)

Agents are a function `act`: the answer of agent `i` at turn `k` to an observation is a direction or an exception. It may depend on the turn,
so that stateful and random agents are included; an agent that times out is an agent that raises. Agents are assumed to have neither
`registerInitialState` nor `observationFunction` nor `final` (the agents in `demo/` have none), and to answer with one of the five
directions. Displays and the printed messages are left out.
-/

namespace Verif.Pac

/-- How the loop stands (game.py 519-524). -/
inductive Status
  /-- `gameOver` is false. -/
  | running
  /-- The loop ended because `rules.process` set `gameOver`. -/
  | finished
  /-- `_agentCrash` was called (`agentCrashed` and `gameOver` are true). -/
  | crashed
  /-- An exception left `run`. -/
  | raised (e : PErr)
  deriving DecidableEq

/-- `Game` (game.py 518-533) during `run`. -/
structure Run where
  state : GState
  agentIndex : ℕ
  moveHistory : List (ℕ × Dir)
  numMoves : ℕ
  status : Status
  deriving DecidableEq

/-- `ClassicGameRules.newGame` (pacman.py 274-282): number of agents of the game. -/
def newGameAgents (l : Layout) (ghostAgents : ℕ) : ℕ := 1 + min ghostAgents l.numGhosts

/-- `newGame` (pacman.py 274-282) with the start of `run` (game.py 575-576, 609). -/
def Run.start (l : Layout) (ghostAgents : ℕ) : Run := ⟨GState.init l ghostAgents, 0, [], 0, .running⟩

/-- `_agentCrash` (game.py 541-546) when exceptions are caught, otherwise the exception leaves `run`. -/
def Run.fail (r : Run) (catchExc : Bool) (e : PErr) : Run := { r with status := if catchExc then .crashed else .raised e }

/-- `ClassicGameRules.process` (pacman.py 284-297). -/
def Run.process (r : Run) : Run := if r.state.win || r.state.lose then { r with status := .finished } else r

/-- Executing an action (game.py 688-715). -/
def Run.execute (catchExc : Bool) (numAgents : ℕ) (r : Run) (a : Dir) : Run :=
  let r := { r with moveHistory := r.moveHistory ++ [(r.agentIndex, a)] }
  match generateSuccessor r.state r.agentIndex a with
  | .error e => r.fail catchExc e
  | .ok s =>
    let r := { r with state := s }.process
    { r with numMoves := if r.agentIndex = numAgents + 1 then r.numMoves + 1 else r.numMoves
             agentIndex := (r.agentIndex + 1) % numAgents }

/-- One turn of the loop (game.py 612-715); the observation is made outside of any `try` (640). -/
def Run.turn (act : ℕ → ℕ → GState → Except PErr Dir) (catchExc : Bool) (numAgents : ℕ) (k : ℕ) (r : Run) : Run :=
  match r.state.deepCopy with
  | .error e => { r with status := .raised e }
  | .ok obs => match act k r.agentIndex obs with
    | .error e => r.fail catchExc e
    | .ok a => r.execute catchExc numAgents a

/-- The first `n` turns of the loop `while not self.gameOver` (game.py 612-715), counted from turn `k`. -/
def Run.loop (act : ℕ → ℕ → GState → Except PErr Dir) (catchExc : Bool) (numAgents : ℕ) : ℕ → ℕ → Run → Run
  | 0, _, r => r
  | n + 1, k, r => if r.status = .running then Run.loop act catchExc numAgents n (k + 1) (r.turn act catchExc numAgents k) else r

/-- `Game.getProgress` (game.py 535-539) with `ClassicGameRules.getProgress` (pacman.py 299-300); `food0` is the food at the start. -/
def Run.progress (r : Run) (food0 : ℕ) : Except PErr ℚ :=
  if r.status ≠ .running then .ok 1 else if food0 = 0 then .error .value else .ok ((r.state.food.count true : ℚ) / food0)

end Verif.Pac
