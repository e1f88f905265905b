import Verif.Model.PacRun
import Verif.Model.PacLoad
import Verif.Model.Drawing
import Verif.Base.Dict

/-!
# Model of the command line and of a session of games (`demo/pacman.py` 461-635)

`optparse` and the values that only reach the display or the clock (zoom, frame time, time limit, random seed) are left out: an `Options` is what the parser returns.
What the program sees of its surroundings is a `World`: files, the environment variable `PYTHONPATH`, directory listings, importable modules with their names, and what
happens when a named object is called. Importing `graphicsDisplay` and making the window are assumed to succeed; modules that raise something else than `ImportError` when imported are
not considered.
-/

namespace Verif.Pac

/-- `s.split(c)` for one character (pacman.py 466, 470, 578, 580). -/
def splitBy (c : Char) : Str → List Str
  | [] => [[]]
  | x :: t =>
    if x = c then [] :: splitBy c t
    else match splitBy c t with
      | [] => [[x]]
      | w :: ws => (x :: w) :: ws

/-- A value given to an agent: a text or a number (pacman.py 469-475). -/
inductive ArgVal where
  | text (s : Str)
  | num (n : ℤ)
  deriving DecidableEq

/-- Exceptions of `readCommand`: of `getLayout`, the three of its own (pacman.py 534, 590, 593), `ValueError`, `ModuleNotFoundError`, and those of calling an agent type. -/
inductive CmdErr where
  | load (e : LoadErr)
  | noLayout
  | keyboard
  | noAgent
  | value
  | noModule
  | call
  deriving DecidableEq

/-- The body of the loop of `parseAgentArgs` (pacman.py 469-473). -/
def parsePiece (p : Str) : Except CmdErr (Str × ArgVal) :=
  if '=' ∈ p then
    match splitBy '=' p with
    | [k, v] => .ok (k, .text v)
    | _ => .error .value
  else .ok (p, .num 1)

/-- The loop of `parseAgentArgs` (pacman.py 468-473). -/
def parsePieces : List Str → Dict Str ArgVal → Except CmdErr (Dict Str ArgVal)
  | [], d => .ok d
  | p :: t, d => match parsePiece p with
    | .error e => .error e
    | .ok (k, v) => parsePieces t (d.set k v)

/-- `parseAgentArgs` (pacman.py 464-474). -/
def parseAgentArgs : Option Str → Except CmdErr (Dict Str ArgVal)
  | none => .ok Dict.empty
  | some s => parsePieces (splitBy ',' s) Dict.empty

/-- A call of an agent type: with keywords (pacman.py 543) or with a number (pacman.py 553). -/
inductive AgentCall where
  | keywords (d : Dict Str ArgVal)
  | number (i : ℕ)

/-- What the program sees of its surroundings (pacman.py 574-595). -/
structure World where
  files : Files
  cwd : Folder
  /-- The environment variable `PYTHONPATH`, if it is set. -/
  pythonPath : Option Str
  isDir : Str → Bool
  listDir : Str → List Str
  /-- `dir(__import__(name))`; `none` is `ImportError`. -/
  imports : Str → Option (List Str)
  /-- Does calling the object of this name in this module return? -/
  callable : Str → Str → AgentCall → Bool
  /-- Does `int` accept this text? -/
  isInt : Str → Bool

/-- The directories that `loadAgent` looks through (pacman.py 574-579). `os.path.expandvars` leaves an unset variable as it is. -/
def World.agentDirs (w : World) : List Str :=
  let s := w.pythonPath.getD "$PYTHONPATH".toList
  (if ';' ∉ s then splitBy ':' s else splitBy ';' s) ++ [".".toList]

/-- The inner loop of `loadAgent` (pacman.py 584-592). -/
def World.fromModules (w : World) (name : Str) (nographics : Bool) : List Str → Option (Except CmdErr (Str × Str))
  | [] => none
  | f :: t =>
    match w.imports (f.take (f.length - 3)) with
    | none => w.fromModules name nographics t
    | some names =>
      if name ∈ names then
        if nographics && decide (f = "keyboardAgents.py".toList) then some (.error .keyboard) else some (.ok (f.take (f.length - 3), name))
      else w.fromModules name nographics t

/-- The outer loop of `loadAgent` (pacman.py 581-593). -/
def World.fromDirs (w : World) (name : Str) (nographics : Bool) : List Str → Except CmdErr (Str × Str)
  | [] => .error .noAgent
  | d :: t =>
    if w.isDir d then
      match w.fromModules name nographics ((w.listDir d).filter fun f => "gents.py".toList.isSuffixOf f) with
      | some r => r
      | none => w.fromDirs name nographics t
    else w.fromDirs name nographics t

/-- `loadAgent` (pacman.py 572-593): the module and the name in it. -/
def World.loadAgent (w : World) (name : Str) (nographics : Bool) : Except CmdErr (Str × Str) := w.fromDirs name nographics w.agentDirs

/-- The options (pacman.py 491-524) without those for the display, the clock and the random seed. -/
structure Options where
  numGames : ℤ := 1
  layout : Str := "mediumClassic".toList
  pacman : Str := "KeyboardAgent".toList
  textGraphics : Bool := false
  quietGraphics : Bool := false
  ghost : Str := "RandomGhost".toList
  numGhosts : ℤ := 4
  record : Bool := false
  agentArgs : Option Str := none
  numTraining : ℤ := 0
  catchExceptions : Bool := false

/-- The arguments for `runGames` (pacman.py 529, 568); the number of training games may be missing. -/
structure GameArgs where
  layout : Layout
  numTraining : Option ℤ
  pacman : Str × Str
  ghosts : List (Str × Str)
  numGames : ℤ
  record : Bool
  catchExceptions : Bool

/-- The keywords for Pacman (pacman.py 539-542). -/
def agentOpts (o : Options) (d : Dict Str ArgVal) : Dict Str ArgVal :=
  if o.numTraining > 0 ∧ "numTraining".toList ∉ d.keys then d.set "numTraining".toList (.num o.numTraining) else d

/-- `readCommand` after parsing the options (pacman.py 529-570). The only effect of the option `numTrain` is that `int` may refuse it (547-549). -/
def readCommand (w : World) (o : Options) : Except CmdErr GameArgs :=
  match (getLayout w.files w.cwd o.layout).2 with
  | .error e => .error (.load e)
  | .ok none => .error .noLayout
  | .ok (some l) =>
    let noKeyboard := o.textGraphics || o.quietGraphics
    match w.loadAgent o.pacman noKeyboard with
    | .error e => .error e
    | .ok pac =>
      match parseAgentArgs o.agentArgs with
      | .error e => .error e
      | .ok d =>
        let opts := agentOpts o d
        if ¬ w.callable pac.1 pac.2 (.keywords opts) then .error .call
        else if (match opts.get? "numTrain".toList with | some (.text s) => !w.isInt s | _ => false) then .error .value
        else match w.loadAgent o.ghost noKeyboard with
          | .error e => .error e
          | .ok gh =>
            if ∃ i ∈ Finset.range o.numGhosts.toNat, w.callable gh.1 gh.2 (.number (i + 1)) = false then .error .call
            else if (o.quietGraphics || o.textGraphics) && (w.imports "textDisplay".toList).isNone then .error .noModule
            else .ok ⟨l, if o.numTraining > 0 then some o.numTraining else none, pac, List.replicate o.numGhosts.toNat gh, o.numGames, o.record, o.catchExceptions⟩

/-- Exceptions of `runGames`: `ModuleNotFoundError`, those that leave a game, `ZeroDivisionError` (pacman.py 597-635). -/
inductive SessErr where
  | noModule
  | game (e : PErr)
  | zeroDiv
  deriving DecidableEq

/-- `time.localtime()[1:6]`. -/
structure Stamp where
  month : ℕ
  day : ℕ
  hour : ℕ
  minute : ℕ
  second : ℕ
  deriving DecidableEq

/-- `('recorded-game-%d' % (i + 1)) + '-'.join([str(t) for t in time.localtime()[1:6]])` (pacman.py 619). -/
def recordName (i : ℕ) (t : Stamp) : Str :=
  "recorded-game-".toList ++ natStr (i + 1) ++ ['-'].intercalate [natStr t.month, natStr t.day, natStr t.hour, natStr t.minute, natStr t.second]

/-- What is printed at the end (pacman.py 625-633). -/
structure Report where
  average : ℚ
  scores : List ℤ
  wins : ℕ
  total : ℕ
  rate : ℚ
  record : List String

/-- A session under way: the recorded files (name and moves, in the order of writing) and the list `games` (pacman.py 602-626). -/
structure Session where
  files : List (Str × List (ℕ × Dir)) := []
  games : List Run := []

/-- The loop of `runGames` (pacman.py 604-623) over the remaining game numbers. `game i` is game `i` after `game.run()`, `hasText` tells whether there is a module `textDisplay`. -/
def playGames (hasText : Bool) (numTraining : ℤ) (record : Bool) (game : ℕ → Run) (now : ℕ → Stamp) : List ℕ → Session → Session × Option SessErr
  | [], s => (s, none)
  | i :: t, s =>
    let beQuiet := decide ((i : ℤ) < numTraining)
    if beQuiet && !hasText then (s, some .noModule)
    else match (game i).status with
      | .raised e => (s, some (.game e))
      | _ =>
        let s := if beQuiet then s else { s with games := s.games ++ [game i] }
        let s := if record then { s with files := s.files ++ [(recordName i (now i), (game i).moveHistory)] } else s
        playGames hasText numTraining record game now t s

/-- The report (pacman.py 625-633). -/
def makeReport (games : List Run) : Except SessErr Report :=
  let scores : List ℤ := games.map fun r => r.state.score
  let wins := games.map fun r => r.state.win
  if wins.length = 0 then .error .zeroDiv
  else .ok ⟨((scores.sum : ℤ) : ℚ) / scores.length, scores, wins.count true, wins.length, (wins.count true : ℚ) / wins.length,
    wins.map fun b => if b then "Win" else "Loss"⟩

/-- `runGames` (pacman.py 597-635): the files written, and the report with the list of games or an exception. -/
def runGames (hasText : Bool) (numGames numTraining : ℤ) (record : Bool) (game : ℕ → Run) (now : ℕ → Stamp) :
    List (Str × List (ℕ × Dir)) × Except SessErr (Option Report × List Run) :=
  match playGames hasText numTraining record game now (List.range numGames.toNat) {} with
  | (s, some e) => (s.files, .error e)
  | (s, none) =>
    if numGames - numTraining > 0 then
      match makeReport s.games with
      | .error e => (s.files, .error e)
      | .ok r => (s.files, .ok (some r, s.games))
    else (s.files, .ok (none, s.games))

end Verif.Pac
