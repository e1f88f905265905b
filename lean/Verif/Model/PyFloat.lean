import Verif.Base.Float

/-!
# Functions of Python on floats

`sum` adds from left to right; since Python 3.12 it also collects the rounding errors of the additions and adds them at the end. Both variants are modelled, the
project does not fix a version. `0 + x` is `x`, so both begin with zero.
-/

namespace Verif

/-- Variants of `sum` for floats: up to Python 3.11, and later. -/
inductive PyVer
  | plain
  | compensated

/-- `sum` up to Python 3.11. -/
def plainSum (l : List ℚ) : ℚ := l.foldl (fun s x => fl (s + x)) 0

/-- One round of `sum` since Python 3.12, with the sum `f` and the collected errors `c`: `t = f + x; c += (f - t) + x if abs(f) >= abs(x) else (x - t) + f; f = t`. -/
def compStep (st : ℚ × ℚ) (x : ℚ) : ℚ × ℚ :=
  let t := fl (st.1 + x)
  (t, fl (st.2 + if |x| ≤ |st.1| then fl (fl (st.1 - t) + x) else fl (fl (x - t) + st.1)))

/-- `sum` since Python 3.12. -/
def compSum (l : List ℚ) : ℚ :=
  let st := l.foldl compStep (0, 0)
  fl (st.1 + st.2)

/-- `sum` of a list of floats (sample_set.py 218, sample_space.py 137). -/
def pySum : PyVer → List ℚ → ℚ
  | .plain => plainSum
  | .compensated => compSum

/-- `math.isclose(a, b, rel_tol=.., abs_tol=..)` for finite floats (sample_set.py 220, sample_space.py 139). -/
def isclose (a b relTol absTol : ℚ) : Bool :=
  decide (a = b) || decide (|fl (b - a)| ≤ |fl (relTol * b)|) || decide (|fl (b - a)| ≤ |fl (relTol * a)|) || decide (|fl (b - a)| ≤ absTol)

/-- The literal `1e-9`. -/
def nano : ℚ := fl (1 / 10 ^ 9)

end Verif
