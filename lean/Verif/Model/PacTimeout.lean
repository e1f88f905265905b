import Verif.Model.PacGrid

/-!
# Model of `TimeoutFunction` (`demo/util.py` 600-641)

Programs are made of what matters for time limits: computing for some time, endless loops, exceptions, `try`, and calls of a `TimeoutFunction`. Time is counted in
microseconds and passes only in computing. The operating system is represented by the handler of `SIGALRM` and the time of the pending alarm; a call of
`signal.alarm` replaces the pending alarm (one per process), `signal.alarm(0)` cancels it, a negative number is taken as an unsigned 32 bit number, a number that is no C `int`
raises `OverflowError`. A signal is delivered as soon as
its time has come. The default handler ends the process. All handlers that are installed by the code raise `TimeoutFunctionException`.
-/

namespace Verif.Pac

/-- The handler of `SIGALRM`: the default, or `handle_timeout` (util.py 620-621). -/
inductive Handler
  | dfl
  | timeout
  deriving DecidableEq

/-- Time, handler and pending alarm (util.py 628-634). -/
structure Sig where
  now : ℕ
  handler : Handler
  alarm : Option ℕ
  deriving DecidableEq

/-- A program; `timed s p` calls `TimeoutFunction(p, s)`, `catch p q` is `try: p except Exception: q` (util.py 615-645). -/
inductive Prog
  | work (d : ℕ)
  | forever
  | raise
  | seq (p q : Prog)
  | catch (p q : Prog)
  | timed (s : ℤ) (p : Prog)

/-- How a program ends (util.py 620-645). -/
inductive Ending
  /-- It returns. -/
  | ok
  /-- It raises an exception of its own. -/
  | exn
  /-- It raises `TimeoutFunctionException`. -/
  | timeout
  /-- The process was ended by the signal. -/
  | killed
  /-- It runs for ever. -/
  | diverges
  deriving DecidableEq

/-- The time of the alarm after `signal.alarm(s)` (util.py 629). -/
def alarmAt (now : ℕ) (s : ℤ) : Option ℕ :=
  if s = 0 then none else if 0 < s then some (now + 1000000 * s.toNat) else some (now + 1000000 * (2 ^ 32 + s).toNat)

/-- The argument of `signal.alarm` is converted to a C `int` (util.py 629). -/
def fitsInt (s : ℤ) : Bool := decide (-2 ^ 31 ≤ s) && decide (s < 2 ^ 31)

/-- The signal is delivered at time `t` (util.py 620-621). -/
def Sig.deliver (σ : Sig) (t : ℕ) : Ending × Sig :=
  (match σ.handler with
   | .dfl => .killed
   | .timeout => .timeout, { σ with now := max σ.now t, alarm := none })

/-- Running a program where `SIGALRM` exists; `timed` is `TimeoutFunction.__call__` (util.py 623-634). -/
def Prog.run : Prog → Sig → Ending × Sig
  | .work d, σ => match σ.alarm with
    | some t => if t ≤ σ.now + d then σ.deliver t else (.ok, { σ with now := σ.now + d })
    | none => (.ok, { σ with now := σ.now + d })
  | .forever, σ => match σ.alarm with
    | some t => σ.deliver t
    | none => (.diverges, σ)
  | .raise, σ => (.exn, σ)
  | .seq p q, σ => match p.run σ with
    | (.ok, σ') => q.run σ'
    | r => r
  | .catch p q, σ => match p.run σ with
    | (.exn, σ') => q.run σ'
    | (.timeout, σ') => q.run σ'
    | r => r
  | .timed s p, σ =>
    let old := σ.handler
    if !fitsInt s then (.exn, { σ with handler := .timeout })
    else match p.run { σ with handler := .timeout, alarm := alarmAt σ.now s } with
    | (.ok, σ') => (.ok, { σ' with handler := old, alarm := none })
    | (.exn, σ') => (.exn, { σ' with handler := old })
    | (.timeout, σ') => (.timeout, { σ' with handler := old })
    | r => r

/-- Running a program where `SIGALRM` does not exist: the time is looked at afterwards (util.py 635-640). The state is the time only. -/
def Prog.runPoll : Prog → ℕ → Ending × ℕ
  | .work d, t => (.ok, t + d)
  | .forever, t => (.diverges, t)
  | .raise, t => (.exn, t)
  | .seq p q, t => match p.runPoll t with
    | (.ok, t') => q.runPoll t'
    | r => r
  | .catch p q, t => match p.runPoll t with
    | (.exn, t') => q.runPoll t'
    | (.timeout, t') => q.runPoll t'
    | r => r
  | .timed s p, t => match p.runPoll t with
    | (.ok, t') => if 1000000 * s ≤ ((t' - t : ℕ) : ℤ) then (.timeout, t') else (.ok, t')
    | r => r

end Verif.Pac
