import Verif.Model.SampleSet

/-!
# Model of `len` of a sample set (`relnet/sample_set.py`)

The function `len` of CPython accepts what `__len__` returns only if it fits in a `Py_ssize_t` (64 bits here).
-/

namespace Verif

/-- What a call of `len` does: it returns a number, or raises `ValueError` or `OverflowError`. -/
inductive LenResult where
  | ok (n : ℕ)
  | valueError
  | overflowError
deriving DecidableEq

/-- The built-in `len` on the number that `__len__` returned: first its sign is looked at, then it is converted. -/
def pyLen (n : ℤ) : LenResult :=
  if n < 0 then .valueError
  else if n < 2 ^ 63 then .ok n.toNat
  else .overflowError

section
variable {V X R : Type} [DecidableEq V] [DecidableEq X] [DecidableEq R]

/-- `len(sample_set)`: `SampleSet.__len__` (sample_set.py 90-91) returns the attribute `length` (line 87). -/
def Samples.len (a : Samples V X R) : LenResult := pyLen a.length

end

end Verif
