import Verif.Model.PacGame

/-!
# Model of equality and hashing of game states (`demo/game.py` 93-100, 139-145, 411-438; `demo/pacman.py` 234-244)

`Grid.__eq__` and `Grid.__hash__` are in `PacGrid.lean`. The hash functions of Python for numbers, strings and tuples are parameters: only that
equal arguments have equal hashes is used. Comparisons with objects of other types are left out. So is the loop of `GameStateData.__hash__` (game.py 428-433),
which only prints.
-/

namespace Verif.Pac

/-- `Configuration.__eq__` (game.py 93-95). -/
def Config.pyEq (c d : Config) : Bool := c.pos = d.pos && c.dir = d.dir

/-- `AgentState.__eq__` (game.py 139-142). -/
def Agent.pyEq (a b : Agent) : Bool := a.conf.pyEq b.conf && a.scared = b.scared

/-- Python's `==` of two lists of agent states (game.py 417). -/
def agentsEq : List Agent → List Agent → Bool
  | [], [] => true
  | a :: s, b :: t => a.pyEq b && agentsEq s t
  | _, _ => false

/-- `GameStateData.__eq__` (game.py 411-421), `GameState.__eq__` (pacman.py 234-238). -/
def GState.pyEq (s t : GState) : Bool :=
  if !agentsEq s.agents t.agents then false
  else if !s.food.pyEq t.food then false
  else if !decide (s.capsules = t.capsules) then false
  else if !decide (s.score = t.score) then false
  else true

/-- The hash functions of Python: of numbers, of strings (only the names of directions are hashed), and of a tuple from the
hashes of its items (game.py 423-433). -/
structure Hashes where
  num : ℚ → ℤ
  str : Dir → ℤ
  tuple : List ℤ → ℤ

variable (H : Hashes)

/-- `Configuration.__hash__` (game.py 97-100). -/
def Config.hash (c : Config) : ℤ := H.num ((H.tuple [H.num c.pos.1, H.num c.pos.2] + 13 * H.str c.dir : ℤ))

/-- `AgentState.__hash__` (game.py 144-145). -/
def Agent.hash (a : Agent) : ℤ := H.num ((a.conf.hash H + 13 * H.num (a.scared : ℚ) : ℤ))

/-- `Grid.__hash__` (game.py 195-204). -/
def Grid.hash (g : Grid) : ℤ := H.num (g.hashLoop.2 : ℚ)

/-- `GameStateData.__hash__` (game.py 423-434), `GameState.__hash__` (pacman.py 240-244). -/
def GState.hash (s : GState) : ℤ :=
  (H.tuple (s.agents.map (Agent.hash H)) + 13 * s.food.hash H + 113 * H.tuple (s.capsules.map fun c => H.tuple [H.num (c.1 : ℚ), H.num (c.2 : ℚ)]) +
    7 * H.num (s.score : ℚ)) % 1048575

end Verif.Pac
