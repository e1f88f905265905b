import Verif.Model.PacSession
import Verif.Model.Drawing

/-!
# Model of mouse clicks, saved frames, muted prints and names

`wait_for_click` and the handlers of clicks (`demo/graphicsUtils.py` 98-131), `saveFrame` (`demo/graphicsDisplay.py` 667-679) with `writePostscript`
(`demo/graphicsUtils.py` 373-379), `mutePrint` and `unmutePrint` (`demo/util.py` 645-670) and `lookup` (`demo/util.py` 575-591).

The clicks that Tk delivers during one `sleep` (`graphicsUtils.py` 131) are given as a list; one click calls one handler, because Tk calls only the most specific
binding (`graphicsUtils.py` 91-94). Times are left out.
-/

namespace Verif.Pac

/-! ### Mouse clicks -/

/-- The three kinds of clicks (graphicsUtils.py 91-94, 122, 126, 130). -/
inductive Button where
  | left
  | right
  | ctrlLeft
  deriving DecidableEq

/-- `_leftclick_loc`, `_rightclick_loc`, `_ctrl_leftclick_loc` (graphicsUtils.py 98-100). -/
structure Clicks where
  left : Option (ℤ × ℤ)
  right : Option (ℤ × ℤ)
  ctrlLeft : Option (ℤ × ℤ)
  deriving DecidableEq

/-- `_leftclick`, `_rightclick`, `_ctrl_leftclick` (graphicsUtils.py 102-112). -/
def Clicks.click (c : Clicks) (e : Button × (ℤ × ℤ)) : Clicks :=
  match e.1 with
  | .left => { c with left := some e.2 }
  | .right => { c with right := some e.2 }
  | .ctrlLeft => { c with ctrlLeft := some e.2 }

/-- One round of the loop of `wait_for_click` without `sleep` (graphicsUtils.py 119-130). -/
def Clicks.poll (c : Clicks) : Option (((ℤ × ℤ) × Button) × Clicks) :=
  match c.left with
  | some p => some ((p, .left), { c with left := none })
  | none => match c.right with
    | some p => some ((p, .right), { c with right := none })
    | none => match c.ctrlLeft with
      | some p => some ((p, .ctrlLeft), { c with ctrlLeft := none })
      | none => none

/-- `wait_for_click` (graphicsUtils.py 114-131); `bs` are the clicks during the calls of `sleep` to come. The result is what is returned and what is left of
`bs`; `none`: the loop is still running when `bs` ends. -/
def waitForClick : Clicks → List (List (Button × (ℤ × ℤ))) → Option (((ℤ × ℤ) × Button) × Clicks × List (List (Button × (ℤ × ℤ))))
  | c, bs => match c.poll with
    | some (r, c') => some (r, c', bs)
    | none => match bs with
      | [] => none
      | b :: t => waitForClick (b.foldl Clicks.click c) t

/-- What a program does: something during which clicks come, or a call of `wait_for_click` (graphicsUtils.py 114) with the clicks during its calls of `sleep`. -/
inductive MouseOp where
  | pause (b : List (Button × (ℤ × ℤ)))
  | wait (bs : List (List (Button × (ℤ × ℤ))))

/-- The clicks reported to a program (graphicsUtils.py 98-131). Clicks that are left when `wait_for_click` returns come after that. -/
def reportClicks : Clicks → List MouseOp → List ((ℤ × ℤ) × Button)
  | _, [] => []
  | c, .pause b :: t => reportClicks (b.foldl Clicks.click c) t
  | c, .wait bs :: t => match waitForClick c bs with
    | none => []
    | some (r, c', bs') => r :: reportClicks (bs'.flatten.foldl Clicks.click c') t

/-! ### Saved frames -/

/-- `'%08d' % n` (graphicsDisplay.py 677). -/
def padEight (n : ℕ) : Str := List.replicate (8 - (natStr n).length) '0' ++ natStr n

/-- The name of a frame within its directory (graphicsDisplay.py 677). -/
def frameName (n : ℕ) : Str := ['f', 'r', 'a', 'm', 'e', '_'] ++ padEight n ++ ['.', 'p', 's']

/-- `SAVE_POSTSCRIPT`, `FRAME_NUMBER` and the directory for frames: `none` if it is missing (graphicsDisplay.py 667-669). `A` is the type of the pictures. -/
structure Frames (A : Type) where
  save : Bool
  number : ℕ
  folder : Option (Str → Option A)

/-- `saveFrame` (graphicsDisplay.py 672-679) with `writePostscript` (graphicsUtils.py 373-379): `p` is what `_canvas.postscript` returns. -/
def saveFrame {A : Type} (f : Frames A) (p : A) : Frames A :=
  if f.save then
    let d := match f.folder with
      | some d => d
      | none => fun _ => none
    ⟨f.save, f.number + 1, some (Function.update d (frameName f.number) (some p))⟩
  else f

/-! ### Muted prints -/

/-- What `sys.stdout` can be: nothing that keeps what is written (`WritableNull`, util.py 649-651), or a file. -/
inductive Sink where
  | null
  | file (k : ℕ)
  deriving DecidableEq

/-- `sys.stdout`, `_ORIGINAL_STDOUT` and `_MUTED` (util.py 645-647). -/
structure Muting where
  stdout : Option Sink
  original : Option Sink
  muted : Bool
  deriving DecidableEq

/-- `mutePrint` (util.py 653-662). -/
def mutePrint (s : Muting) : Muting := if s.muted then s else ⟨some .null, s.stdout, true⟩

/-- `unmutePrint` (util.py 664-670). -/
def unmutePrint (s : Muting) : Muting := if s.muted then ⟨s.original, s.original, false⟩ else s

/-- What a program does: the two functions (util.py 653-670), setting `sys.stdout` itself, printing. -/
inductive PrintOp where
  | mute
  | unmute
  | redirect (o : Option Sink)
  | print (t : Str)
  deriving DecidableEq

/-- One step: the new state and what is written to which file (util.py 645-670). -/
def printStep (s : Muting) : PrintOp → Muting × List (ℕ × Str)
  | .mute => (mutePrint s, [])
  | .unmute => (unmutePrint s, [])
  | .redirect o => ({ s with stdout := o }, [])
  | .print t => (s, match s.stdout with
    | some (.file k) => [(k, t)]
    | _ => [])

/-- A sequence of steps (util.py 645-670). -/
def printRun : Muting → List PrintOp → Muting × List (ℕ × Str)
  | s, [] => (s, [])
  | s, op :: t =>
    let p := printStep s op
    let q := printRun p.1 t
    (q.1, p.2 ++ q.2)

/-! ### Names -/

/-- Errors of `lookup`: `ModuleNotFoundError`, `AttributeError`, `Exception` (util.py 583-591). -/
inductive LookErr where
  | noModule
  | noAttribute
  | notFound
  | conflict
  deriving DecidableEq

/-- `lookup` (util.py 575-591). `imports` maps the full name of a module that can be imported to the objects in it, and `__import__('a.b')` imports `a.b` and
returns `a` (util.py 583). In Python 3 `str(type(obj))` is `"<class 'module'>"`, so that the list of modules at line 586 is always empty. -/
def lookup (imports : List Str → Option (List (Str × ℕ))) (name : Str) (namespace' : List (Str × ℕ)) : Except LookErr ℕ :=
  let parts := splitBy '.' name
  if name.count '.' > 0 then
    match imports parts.dropLast with
    | none => .error .noModule
    | some _ => match imports (parts.take 1) with
      | none => .error .noModule
      | some d => match d.lookup (parts.getLastD []) with
        | none => .error .noAttribute
        | some o => .ok o
  else
    match (namespace'.filter fun p => p.1 = name).map Prod.snd with
    | [] => .error .notFound
    | [o] => .ok o
    | _ => .error .conflict

end Verif.Pac
