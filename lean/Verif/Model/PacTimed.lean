import Verif.Model.PacRun
import Verif.Model.PacTimeout

/-!
# Model of `Game.run` (`demo/game.py` 517-729) with time limits, muted output and the optional methods of agents

A call of a method of an agent takes some time (in microseconds, as in `PacTimeout.lean`) and then returns or raises; it neither uses time limits nor prints on its own
account. Everything else takes no time, so that the differences of `time.time()` are the times of the calls. The results of `observationFunction` depend on the
observed state only, so that `getAction` may be a function of the state. Displays and printed texts are left out; where output goes is kept. The
rules are `ClassicGameRules`: all limits are `timeout`, the number of allowed warnings is 0 (pacman.py 308-321).
-/

namespace Verif.Pac

/-- A call of a method: the time it takes and what comes out of it (game.py 590-672). -/
structure Call (α : Type) where
  time : ℕ
  res : Option α

/-- The program of a call, for `TimeoutFunction` (game.py 590, 624, 647). -/
def Call.prog {α : Type} (c : Call α) : Prog := .seq (.work c.time) (if c.res.isSome then .work 0 else .raise)

/-- The agents of a game: at turn `k` agent `i` sees a state (game.py 578-725). -/
structure Agents where
  loaded : ℕ → Bool
  register : ℕ → Option (Call Unit)
  hasObserve : ℕ → Bool
  observe : ℕ → ℕ → GState → Call Unit
  action : ℕ → ℕ → GState → Call Dir
  final : ℕ → Option (Call Unit)

/-- The parameters of a game (game.py 518-533). -/
structure TConf where
  muteAgents : Bool
  catchExc : Bool
  timeout : ℤ
  numAgents : ℕ

/-- Where `sys.stdout` and `sys.stderr` go (game.py 551-566). -/
inductive Stream
  | console
  | buffer (i : ℕ)
  deriving DecidableEq

/-- How the game stands (game.py 519-529, 578-729). -/
inductive TStatus
  | running
  /-- The loop ended because `rules.process` set `gameOver`. -/
  | finished
  /-- `_agentCrash` was called for the agent. -/
  | crashed (i : ℕ)
  /-- An exception left `run`. -/
  | raised
  /-- `unmute` before `mute`: `OLD_STDOUT` is not defined. -/
  | nameError
  /-- `SIGALRM` ended the process. -/
  | killed
  deriving DecidableEq

/-- `Game` during `run`; times in microseconds (game.py 518-531). -/
structure TRun where
  state : GState
  agentIndex : ℕ
  moveHistory : List (ℕ × Dir)
  times : List ℕ
  warnings : List ℕ
  agentTimeout : Bool
  status : TStatus
  out : Stream
  old : Option Stream
  sig : Sig

namespace TRun

variable (C : TConf)

/-- `mute` (game.py 550-557). -/
def mute (r : TRun) (i : ℕ) : TRun := if C.muteAgents then { r with old := some r.out, out := .buffer i } else r

/-- `unmute` (game.py 559-564). -/
def unmute (r : TRun) : TRun :=
  if C.muteAgents then
    match r.old with
    | none => { r with status := .nameError }
    | some o => { r with out := o }
  else r

/-- `_agentCrash` (game.py 541-546). -/
def crash (r : TRun) (i : ℕ) : TRun := { r with status := .crashed i }

/-- Calling a method with `TimeoutFunction(f, s)` (game.py 590-600, 624-634, 647-656). -/
def timed {α : Type} (r : TRun) (s : ℤ) (c : Call α) : Ending × TRun :=
  let p := (Prog.timed s c.prog).run r.sig
  (p.1, { r with sig := p.2 })

/-- Calling a method (game.py 607, 637, 686). -/
def plain {α : Type} (r : TRun) (c : Call α) : Ending × TRun :=
  let p := c.prog.run r.sig
  (p.1, { r with sig := p.2 })

/-- `self.totalAgentTimes[i] += t` (game.py 595, 672). -/
def addTime (r : TRun) (i t : ℕ) : TRun := { r with times := r.times.modify i (· + t) }

/-- One agent in the loop that informs about the start (game.py 579-607). -/
def register (A : Agents) (r : TRun) (i : ℕ) : TRun :=
  if !A.loaded i then ((r.mute C i).unmute C).crash i
  else match A.register i with
    | none => r
    | some c =>
      let r1 := r.mute C i
      if C.catchExc then
        match r.state.deepCopy with
        | .error _ => (r1.crash i).unmute C
        | .ok _ => match r1.timed C.timeout c with
          | (.ok, r2) => (r2.addTime i (r2.sig.now - r1.sig.now)).unmute C
          | (.timeout, r2) => { (r2.unmute C).crash i with agentTimeout := true }
          | (.exn, r2) => (r2.crash i).unmute C
          | (_, r2) => { r2 with status := .killed }
      else
        match r.state.deepCopy with
        | .error _ => { r1 with status := .raised }
        | .ok _ => match r1.plain c with
          | (.ok, r2) => r2.unmute C
          | (.killed, r2) => { r2 with status := .killed }
          | (_, r2) => { r2 with status := .raised }

/-- The loop over the agents (game.py 579-607). -/
def registerAll (A : Agents) (r : TRun) : List ℕ → TRun
  | [] => r
  | i :: t => if r.status = .running then registerAll A (r.register C A i) t else r

/-- Executing the action (game.py 687-715); what `Run.execute` does, with `mute` and `unmute` around the report of a crash. -/
def execute (r : TRun) (a : Dir) : TRun :=
  let r := { r with moveHistory := r.moveHistory ++ [(r.agentIndex, a)] }
  match generateSuccessor r.state r.agentIndex a with
  | .error _ => if C.catchExc then ((r.mute C r.agentIndex).crash r.agentIndex).unmute C else { r with status := .raised }
  | .ok s =>
    { r with state := s, agentIndex := (r.agentIndex + 1) % C.numAgents
             status := if s.win || s.lose then .finished else r.status }

/-- Asking for an action (game.py 643-686); `spent` is `move_time`, the time of the observation, `skip` is `skip_action`. -/
def ask (A : Agents) (k : ℕ) (r : TRun) (obs : GState) (spent : ℕ) (skip : Bool) : TRun :=
  let i := r.agentIndex
  let r1 := r.mute C i
  if C.catchExc then
    if skip then { (r1.crash i).unmute C with agentTimeout := true }
    else match r1.timed (C.timeout - (spent / 1000000 : ℕ)) (A.action k i obs) with
      | (.ok, r2) =>
        let moveTime := spent + (r2.sig.now - r1.sig.now)
        if 1000000 * C.timeout < (moveTime : ℤ) then
          let r3 := { r2 with warnings := r2.warnings.modify i (· + 1) }
          if r3.warnings.getD i 0 > 0 then { (r3.crash i).unmute C with agentTimeout := true }
          else match (A.action k i obs).res with
            | some a => (((r3.addTime i moveTime).unmute C).unmute C).execute C a
            | none => r3
        else
          let r3 := r2.addTime i moveTime
          if 1000000 * C.timeout < ((r3.times.getD i 0 : ℕ) : ℤ) then { (r3.crash i).unmute C with agentTimeout := true }
          else match (A.action k i obs).res with
            | some a => ((r3.unmute C).unmute C).execute C a
            | none => r3
      | (.timeout, r2) => { (r2.crash i).unmute C with agentTimeout := true }
      | (.exn, r2) => (r2.crash i).unmute C
      | (_, r2) => { r2 with status := .killed }
  else match r1.plain (A.action k i obs) with
    | (.ok, r2) => match (A.action k i obs).res with
      | some a => (r2.unmute C).execute C a
      | none => r2
    | (.killed, r2) => { r2 with status := .killed }
    | (_, r2) => { r2 with status := .raised }

/-- One turn of the loop (game.py 612-715). -/
def turn (A : Agents) (k : ℕ) (r : TRun) : TRun :=
  let i := r.agentIndex
  match A.hasObserve i, r.state.deepCopy with
  | false, .error _ => { r with status := .raised }
  | false, .ok obs => r.ask C A k obs 0 false
  | true, .error _ => if C.catchExc then ((r.mute C i).crash i).unmute C else { r.mute C i with status := .raised }
  | true, .ok obs =>
    let r1 := r.mute C i
    if C.catchExc then
      match r1.timed C.timeout (A.observe k i obs) with
      | (.ok, r2) => ((r2.unmute C).unmute C).ask C A k obs (r2.sig.now - r1.sig.now) false
      | (.timeout, r2) => ((r2.unmute C).unmute C).ask C A k obs (r2.sig.now - r1.sig.now) true
      | (.exn, r2) => (r2.crash i).unmute C
      | (_, r2) => { r2 with status := .killed }
    else match r1.plain (A.observe k i obs) with
      | (.ok, r2) => (r2.unmute C).ask C A k obs 0 false
      | (.killed, r2) => { r2 with status := .killed }
      | (_, r2) => { r2 with status := .raised }

/-- The first `n` turns of the loop (game.py 612-715), counted from turn `k`. -/
def loop (A : Agents) : ℕ → ℕ → TRun → TRun
  | 0, _, r => r
  | n + 1, k, r => if r.status = .running then loop A n (k + 1) (r.turn C A k) else r

/-- One agent in the loop that informs about the result (game.py 718-728). It is not timed. The second component tells whether `run` goes on. -/
def final (A : Agents) (r : TRun) (i : ℕ) : TRun × Bool :=
  match A.final i with
  | none => (r, true)
  | some c => match (r.mute C i).plain c with
    | (.ok, r2) => (r2.unmute C, true)
    | (.killed, r2) => ({ r2 with status := .killed }, false)
    | (_, r2) => if C.catchExc then ((r2.crash i).unmute C, false) else ({ r2 with status := .raised }, false)

/-- The loop over the agents at the end (game.py 718-728). -/
def finals (A : Agents) (r : TRun) : List ℕ → TRun
  | [] => r
  | i :: t => match r.final C A i with
    | (r', true) => finals A r' t
    | (r', false) => r'

/-- The game before `run` (game.py 518-533) in a process without pending alarm. -/
def start (s : GState) : TRun :=
  ⟨s, 0, [], List.replicate C.numAgents 0, List.replicate C.numAgents 0, false, .running, .console, none, ⟨0, .dfl, none⟩⟩

/-- `run` (game.py 571-729) with at most `n` turns. -/
def run (A : Agents) (n : ℕ) (r : TRun) : TRun :=
  let r1 := r.registerAll C A (List.range C.numAgents)
  if r1.status = .running then
    let r2 := r1.loop C A n 0
    if r2.status = .finished then r2.finals C A (List.range C.numAgents) else r2
  else r1

end TRun

end Verif.Pac
