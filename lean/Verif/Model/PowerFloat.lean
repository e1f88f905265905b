import Verif.Model.SpacePower
import Verif.Base.Float

/-!
# Model of `calc_number_of_outcomes` with floats (`experiments/outcomes_space_power.py` 48-75)

Every operation on floats rounds its exact result to the nearest float, and whole numbers are converted before an operation with a float. The power of floats is a parameter, as its rounding is not
specified. Its exponents `k * ((k - 1) / 2)` are whole numbers here; as floats they are exact for all numbers of variables below `2 ^ 26`. Numbers beyond the largest float (`OverflowError`, `inf`) are
not modelled: the theorems are about numbers up to `2 ^ 53`.
-/

namespace Verif

/-- `c_k` with floats (outcomes_space_power.py 50-59). -/
def cKF (pw : ℕ → ℕ → ℚ) (r : ℕ) (k : ℕ) : ℚ :=
  if k = 0 then 1
  else
    let st := (List.range' 1 (k - 1)).attach.foldl (init := (0 : ℚ)) fun st i =>
      fl (st + fl (fl (fl ((i.1 * Nat.choose k i.1 : ℕ) : ℚ) * pw (r + 1) ((k - i.1) * (k - i.1 - 1) / 2)) * cKF pw r i.1))
    fl (pw (r + 1) (k * (k - 1) / 2) - fl (st / k))
termination_by k
decreasing_by
  have := List.mem_range'_1.1 i.2
  omega

/-- `n_k` with floats (outcomes_space_power.py 61-67). -/
def nKF (pw : ℕ → ℕ → ℚ) (nValues r n : ℕ) : ℚ :=
  (List.range' 1 n).foldl (init := (0 : ℚ)) fun sk k => fl (sk + fl (fl (Nat.choose n k : ℚ) * fl (cKF pw r k * fl (((nValues - 1) ^ k : ℕ) : ℚ))))

/-- `int(x)` of a float (outcomes_space_power.py 69). -/
def truncF (x : ℚ) : ℤ := if 0 ≤ x then ⌊x⌋ else ⌈x⌉

/-- `calc_number_of_outcomes` with floats (outcomes_space_power.py 48-75). -/
def calcNumberOfOutcomesF (pw : ℕ → ℕ → ℚ) (nVariables nValues nRelType : ℕ) : ℤ := truncF (nKF pw nValues nRelType nVariables)

end Verif
