import Verif.Model.SampleGraph
import Verif.Spec.Graph

/-!
# Specification of joins

The joined samples of a family of sets of counted samples, independently of how they are computed.
-/

namespace Verif

variable {V X R : Type} [DecidableEq V] [DecidableEq X] [DecidableEq R]

/-- `p` is the join of one item `sel i` of each of the sets `D i`, `i ∈ I`: no variable has two values in them, the nodes and
edges of `p` are those of the chosen samples and its count is the product of their counts. -/
def IsJoin {ι : Type} (I : Finset ι) (D : ι → Finset (SampleGraph V X R × ℤ)) (p : SampleGraph V X R × ℤ) : Prop :=
  ∃ sel : ι → SampleGraph V X R × ℤ, (∀ i ∈ I, sel i ∈ D i) ∧ SingleValued p.1.nodes ∧
    p.1.nodes = I.biUnion (fun i => (sel i).1.nodes) ∧ p.1.edges = I.biUnion (fun i => (sel i).1.edges) ∧
    p.2 = ∏ i ∈ I, (sel i).2

end Verif
