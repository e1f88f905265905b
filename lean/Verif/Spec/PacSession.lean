import Verif.Model.PacSession

/-!
# Specification of the command line and of a session (C75)
-/

namespace Verif.Pac

/-- What one piece of the agent arguments says: `k=v`, or the mere name `k`, which stands for the value 1. -/
def Says (p k : Str) (v : ArgVal) : Prop :=
  (∃ t, p = k ++ '=' :: t ∧ v = .text t ∧ '=' ∉ k ∧ '=' ∉ t) ∨ (p = k ∧ '=' ∉ k ∧ v = .num 1)

/-- The file belongs to a module that can be imported and has the name. -/
def World.Has (w : World) (name f : Str) : Prop := ∃ names, w.imports (f.take (f.length - 3)) = some names ∧ name ∈ names

/-- The directories in which agents are looked for, in order: those of `PYTHONPATH`, which are separated by semicolons if it has any and by colons otherwise, then the current directory.
Without the variable its name with `$` is taken for a directory. -/
def World.SearchPath (w : World) (dirs : List Str) : Prop :=
  ∃ ps : List Str, dirs = ps ++ [".".toList] ∧ ps ≠ [] ∧
    (match w.pythonPath with
    | none => ps = ["$PYTHONPATH".toList]
    | some path => (';' ∈ path → (∀ p ∈ ps, ';' ∉ p) ∧ [';'].intercalate ps = path) ∧ (';' ∉ path → (∀ p ∈ ps, ':' ∉ p) ∧ [':'].intercalate ps = path))

/-- The files that may be agent modules, in the order of the directories and of their listings. -/
def World.Candidates (w : World) (dirs : List Str) : List Str := (dirs.filter fun d => w.isDir d).flatMap fun d => (w.listDir d).filter fun f => decide ("gents.py".toList <:+ f)

/-- The parameters of the classes that can be found in the two agent modules of `demo/`: those that have to be given, and the others.
`KeyboardAgent` (keyboardAgents.py 30), `KeyboardAgent2` (67), `Agent` (game.py 39), `GhostAgent` (ghostAgents.py 23), `RandomGhost` (37), `DirectionalGhost` (47);
`Directions` and `Actions` (game.py 49, 287) have no constructor. -/
def signature (name : Str) : Option (List Str × List Str) :=
  if name = "KeyboardAgent".toList ∨ name = "KeyboardAgent2".toList ∨ name = "Agent".toList then some ([], ["index".toList])
  else if name = "GhostAgent".toList ∨ name = "RandomGhost".toList then some (["index".toList], [])
  else if name = "DirectionalGhost".toList then some (["index".toList], ["prob_attack".toList, "prob_scaredFlee".toList])
  else if name = "Directions".toList ∨ name = "Actions".toList then some ([], [])
  else none

/-- The class can be called with keywords of these names. -/
def TakesKeywords (name : Str) (keys : List Str) : Prop :=
  ∃ need more, signature name = some (need, more) ∧ (∀ k ∈ need, k ∈ keys) ∧ ∀ k ∈ keys, k ∈ need ∨ k ∈ more

/-- The class can be called with one argument without keyword. -/
def TakesNumber (name : Str) : Prop := ∃ need more, signature name = some (need, more) ∧ need.length ≤ 1 ∧ 1 ≤ (need ++ more).length

/-- The names every module has. -/
def moduleNames : List Str :=
  ["__builtins__", "__cached__", "__doc__", "__file__", "__loader__", "__name__", "__package__", "__spec__"].map String.toList

/-- `dir(keyboardAgents)` (keyboardAgents.py 15-19, 67). -/
def keyboardNames : List Str := ["Agent", "Directions", "KeyboardAgent", "KeyboardAgent2", "random"].map String.toList ++ moduleNames

/-- `dir(ghostAgents)` (ghostAgents.py 15-22, 37, 45). -/
def ghostNames : List Str :=
  ["Actions", "Agent", "DirectionalGhost", "Directions", "GhostAgent", "RandomGhost", "manhattanDistance", "random", "util"].map String.toList ++ moduleNames

/-- The program runs in `demo/` as it is in the repository: the only agent modules to be seen are the two of `demo/`, and there is no module `textDisplay`. -/
structure InDemo (w : World) : Prop where
  here : w.isDir ".".toList = true
  files : "keyboardAgents.py".toList ∈ w.listDir ".".toList ∧ "ghostAgents.py".toList ∈ w.listDir ".".toList
  only : ∀ d f, w.isDir d = true → f ∈ w.listDir d → "gents.py".toList <:+ f → f = "keyboardAgents.py".toList ∨ f = "ghostAgents.py".toList
  keyboard : w.imports "keyboardAgents".toList = some keyboardNames
  ghosts : w.imports "ghostAgents".toList = some ghostNames
  noText : w.imports "textDisplay".toList = none
  keywords : ∀ m n d, w.callable m n (.keywords d) = true ↔ TakesKeywords n d.keys
  number : ∀ m n i, w.callable m n (.number i) = true ↔ TakesNumber n

/-- `r` is a game of the session that came to an end: some number of turns with some agents. -/
def Ended (l : Layout) (ghostAgents : ℕ) (catchExc : Bool) (r : Run) : Prop :=
  ∃ act n, r = Run.loop act catchExc (newGameAgents l ghostAgents) n 0 (Run.start l ghostAgents) ∧ r.status ≠ .running

end Verif.Pac
