import Verif.Model.FloatProb

/-!
# `FoldedNode.marginal_distribution` with counts of any size

`Verif/Model/FloatProb.lean` rounds without an upper limit. Here the limit of a `float` is kept: an `int` which rounds to `2 ^ 1024` or more has no `float`
and `OverflowError` is raised when it meets a `float` in `+` or `/`, the sum of two floats may be infinite, and the quotient of two `int`s raises
`OverflowError` only if the quotient itself is too large.
-/

set_option exponentiation.threshold 1100

namespace Verif

/-- What the function raises: an exception of the exact model, or `OverflowError`. -/
inductive OvErr where
  | py (e : Err)
  | overflow
deriving DecidableEq

/-- The rounded value is outside of the range of `float`. -/
def huge (q : ℚ) : Prop := 2 ^ 1024 ≤ |fl q|

instance (q : ℚ) : Decidable (huge q) := by unfold huge; infer_instance

/-- A number of `acc` (folded_graph.py 66, 79): a `float`, where `none` is an infinity (of either sign), or an `int`. -/
inductive AccNum where
  | float (q : Option ℚ)
  | int (z : ℤ)
deriving DecidableEq

/-- `a += count` (folded_graph.py 72) for a `float` `a` and an `int` `count`: `count` is converted first. -/
def addCount (a : Option ℚ) (c : ℤ) : Except OvErr (Option ℚ) :=
  if huge c then .error .overflow
  else match a with
    | none => .ok none
    | some q => if huge (q + fl c) then .ok none else .ok (some (fl (q + fl c)))

/-- `count / self._number_of_outcomes` (folded_graph.py 81). With a `float` on the left the divisor is converted; two `int`s are divided exactly and the
quotient is rounded once. -/
def AccNum.divBy (n : ℤ) : AccNum → Except OvErr (Option ℚ)
  | .float a =>
    if huge n then .error .overflow
    else if n = 0 then .error (.py .zeroDiv)
    else match a with
      | none => .ok none
      | some q => if huge (q / fl n) then .ok none else .ok (some (fl (q / fl n)))
  | .int z =>
    if n = 0 then .error (.py .zeroDiv)
    else if huge ((z : ℚ) / (n : ℚ)) then .error .overflow
    else .ok (some (fl ((z : ℚ) / (n : ℚ))))

namespace FoldedNode
variable {V X : Type} [DecidableEq V] [DecidableEq X]

/-- The loop of `marginal_distribution` (folded_graph.py 69-73). -/
def distLoopOv : List (Node V X × ℤ) → Dict X (Option ℚ) × ℤ → Except OvErr (Dict X (Option ℚ) × ℤ)
  | [], st => .ok st
  | (n, c) :: t, (acc, total) =>
    match acc.get? n.val with
    | none => .error (.py .assertion)
    | some a =>
      match addCount a c with
      | .error e => .error e
      | .ok s => distLoopOv t (acc.set n.val s, total + c)

/-- The comprehension which is returned (folded_graph.py 81). -/
def divideOv (n : ℤ) : List (X × AccNum) → Except OvErr (List (X × Option ℚ))
  | [] => .ok []
  | (x, a) :: t =>
    match a.divBy n with
    | .error e => .error e
    | .ok q =>
      match divideOv n t with
      | .error e => .error e
      | .ok r => .ok ((x, q) :: r)

/-- `marginal_distribution` (folded_graph.py 59-81). -/
def marginalDistributionOv (unobs : X) (oX : Order X) (oN : Order (Node V X × ℤ)) (f : FoldedNode V X) : Except OvErr (Dict X (Option ℚ)) :=
  match distLoopOv (oN.run f.valueNodes) (Dict.ofList ((oX.run f.values).map fun x => (x, some 0)), 0) with
  | .error e => .error e
  | .ok (acc, total) =>
    if f.n < total then .error (.py .assertion)
    else match divideOv f.n ((acc.mapVals AccNum.float).set unobs (.int (f.n - total))).entries with
      | .error e => .error e
      | .ok l => .ok (Dict.ofList l)

end FoldedNode
end Verif
