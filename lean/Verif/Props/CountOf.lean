import Verif.Props.SampleSet

/-!
Property C20: what `count_of` answers after any history of a builder of sample sets.
-/

namespace Verif

variable {V X R : Type} [DecidableEq V] [DecidableEq X] [DecidableEq R]

/-- **C20.** After any list of operations `count_of` answers the number of times the sample was added since its last removal; it raises an
`AssertionError` if the sample was never added or if it was not added again after a removal. `remove` returns the sample with that number. -/
theorem C20_count_of (prov : ℕ) (ops : List (SetOp V X R)) :
    ∃ log, History prov ops (runSetOps (Samples.empty prov) ops).2 log ∧
      ∀ g, (∀ p, ((runSetOps (Samples.empty prov) ops).1.remove g).2 = .ok p ↔ ∃ c, p = (g, c) ∧ sinceLastRemoval log g = some c) ∧
        (∀ c, (runSetOps (Samples.empty prov) ops).1.countOf g = .ok c ↔ sinceLastRemoval log g = some c) ∧
        (∀ e, (runSetOps (Samples.empty prov) ops).1.countOf g = .error e ↔ e = .assertion ∧ sinceLastRemoval log g = none) := by
  obtain ⟨log, h1, h2, -, -⟩ := C20_history prov ops
  refine ⟨log, h1, fun g => ?_⟩
  unfold Samples.countOf Samples.remove
  rw [h2 g]
  cases sinceLastRemoval log g with
  | none => simp [eq_comm]
  | some c => simp [eq_comm]

end Verif
