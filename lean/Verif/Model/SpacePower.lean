import Mathlib.Data.Nat.Choose.Basic
import Mathlib.Data.Rat.Defs
import Mathlib.Algebra.BigOperators.Group.Finset.Basic
import Mathlib.Algebra.Order.Field.Rat
import Mathlib.Order.Interval.Finset.Nat

/-!
# Model of `calc_number_of_outcomes` (`experiments/outcomes_space_power.py` 46-75)

Python computes with floats; the model computes with rationals, and the exponents `k * ((k - 1) / 2)`, which are whole
numbers, are natural numbers.
-/

namespace Verif

/-- `c_k` (outcomes_space_power.py 48-57). -/
def cK (r : ℕ) (k : ℕ) : ℚ :=
  if k = 0 then 1
  else
    ((r : ℚ) + 1) ^ (k * (k - 1) / 2) -
      (∑ i ∈ (Finset.Ico 1 k).attach,
        (i.1 : ℚ) * (Nat.choose k i.1 : ℚ) * ((r : ℚ) + 1) ^ ((k - i.1) * (k - i.1 - 1) / 2) * cK r i.1) / (k : ℚ)
termination_by k
decreasing_by exact (Finset.mem_Ico.1 i.2).2

/-- `n_k(n_variables)` (outcomes_space_power.py 59-67); `n_values` counts "unobserved" as a value. The final `int(…)` is
not modelled (the value is proved to be a whole number). -/
def calcNumberOfOutcomes (nVariables nValues nRelType : ℕ) : ℚ :=
  ∑ k ∈ Finset.Ico 1 (nVariables + 1), (Nat.choose nVariables k : ℚ) * (cK nRelType k * ((nValues : ℚ) - 1) ^ k)

end Verif
