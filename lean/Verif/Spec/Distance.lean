import Verif.Spec.Graph

/-!
# Distances in a sample, by walks
-/

namespace Verif

section
variable {V X R : Type}

/-- What a relation filter lets through: no filter and the empty filter let everything through. -/
def Allowed (f : Option (Finset (Rel V R))) (r : Rel V R) : Prop :=
  match f with
  | none => True
  | some s => s = ∅ ∨ r ∈ s

/-- Two nodes joined by an allowed edge. -/
def Adj (E : Finset (Edge V X R)) (f : Option (Finset (Rel V R))) (a b : Node V X) : Prop :=
  ∃ e ∈ E, Allowed f e.relation ∧ a ∈ e.endpoints ∧ b ∈ e.endpoints

/-- `b` is reached from `a` by a walk of `k` allowed edges. -/
def Walk (E : Finset (Edge V X R)) (f : Option (Finset (Rel V R))) : ℕ → Node V X → Node V X → Prop
  | 0, a, b => a = b
  | k + 1, a, b => ∃ c, Walk E f k a c ∧ Adj E f c b

/-- The distance of `n` from the set `C` is `k`: a walk of `k` edges from `C` leads to it, and no shorter one. -/
def DistIs (E : Finset (Edge V X R)) (f : Option (Finset (Rel V R))) (C : Finset (Node V X)) (n : Node V X) (k : ℕ) : Prop :=
  (∃ c ∈ C, Walk E f k c n) ∧ ∀ j < k, ¬ ∃ c ∈ C, Walk E f j c n

end
end Verif
