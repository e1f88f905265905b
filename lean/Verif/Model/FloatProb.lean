import Verif.Model.PyFloat
import Verif.Model.Conditional

/-!
# The computations with floats of `relnet`, with rounding

The functions of `SampleSet.lean`, `SampleSpace.lean` and `Conditional.lean` that return floats, once more, now with the operations of `PyFloat.lean` instead of exact ones.
`int / int` is the exact quotient, rounded once; for `float / int`, `float * int` and `float + int` the `int` is first converted to `float`, which rounds it.
-/

namespace Verif

section
variable {V X R : Type} [DecidableEq V] [DecidableEq X] [DecidableEq R]

/-- `probabilities` (sample_set.py 212-222). -/
def Samples.probabilitiesFl (b : Samples V X R) (ver : PyVer) (o : Order (SampleGraph V X R × ℚ)) : Py (Finset (SampleGraph V X R × ℚ)) :=
  if b.samples.entries ≠ [] ∧ b.length = 0 then .error .zeroDiv
  else
    let props := (b.samples.entries.map fun p => (p.1, fl ((p.2 : ℚ) / (b.length : ℚ)))).toFinset
    if isclose (pySum ver ((o.run props).map Prod.snd)) 1 nano 0 then .ok props else .error .assertion

/-- `probability_of` (sample_set.py 247-254). -/
def Samples.probabilityOfFl (b : Samples V X R) (g : SampleGraph V X R) : Py ℚ :=
  match b.samples.get? g with
  | none => .error .assertion
  | some c => if b.length = 0 then .error .zeroDiv else .ok (fl ((c : ℚ) / (b.length : ℚ)))

namespace Space
variable (sp : Space V X R)

/-- `{v: p / n for v, p in values.items()}` (sample_space.py 133, 135). -/
def divideFl (d : Dict X ℤ) (n : ℤ) : Py (Dict X ℚ) :=
  if d.entries ≠ [] ∧ n = 0 then .error .zeroDiv else .ok (d.mapVals fun c => fl ((c : ℚ) / (n : ℚ)))

/-- Body of the normalisation loop (sample_space.py 126-135). -/
def normValuesFl (u : X) (unobserved : Bool) (len : ℤ) (values : Dict X ℤ) : Py (Dict X ℚ) :=
  let s := values.vals.sum
  if ¬ (0 ≤ s ∧ s ≤ len) then .error .assertion
  else if unobserved then divideFl (values.set u (len - s)) len
  else divideFl values s

/-- `marginal_variables_probability` (sample_space.py 102-143). -/
def marginalsFl (ver : PyVer) (u : X) (oI : Order (SampleGraph V X R × ℤ)) (oV : Order V) (oN : Order (Node V X))
    (req : Option (Finset V)) (unobserved : Bool) : Py (Dict V (Dict X ℚ)) :=
  match (sp.groupAcc oI oV oN (sp.toCheck req)).entries.mapM
      (fun p => do return (p.1, ← normValuesFl u unobserved sp.outcomes.length p.2)) with
  | .error e => .error e
  | .ok l =>
    let norm := Dict.ofList l
    if norm.entries.all (fun p => isclose (pySum ver p.2.vals) 1 nano 0) then .ok norm else .error .assertion

end Space

namespace FoldedNode

/-- Loop of `marginal_distribution` (folded_graph.py 69-73). -/
def distLoopFl : List (Node V X × ℤ) → Dict X ℚ × ℤ → Py (Dict X ℚ × ℤ)
  | [], st => .ok st
  | (n, c) :: t, (acc, total) =>
    match acc.get? n.val with
    | none => .error .assertion
    | some a => distLoopFl t (acc.set n.val (fl (a + fl c)), total + c)

/-- `marginal_distribution` (folded_graph.py 59-81): the entries of `acc` are floats, except the one for `'unobserved'`. -/
def marginalDistributionFl (unobs : X) (oX : Order X) (oN : Order (Node V X × ℤ)) (f : FoldedNode V X) : Py (Dict X ℚ) :=
  match distLoopFl (oN.run f.valueNodes) (Dict.ofList ((oX.run f.values).map fun x => (x, 0)), 0) with
  | .error e => .error e
  | .ok (acc, total) =>
    if f.n < total then .error .assertion
    else if f.n = 0 then .error .zeroDiv
    else .ok ((acc.mapVals fun c => fl (c / fl f.n)).set unobs (fl (((f.n - total : ℤ) : ℚ) / (f.n : ℚ))))

end FoldedNode

/-- `similarity` (sample_graph.py 426-434). -/
def SampleGraph.similarityFl (g other : SampleGraph V X R) : Py ℚ :=
  let inter := (g.hash ∩ other.hash).card
  let differ := (symmDiff g.hash other.hash).card
  if inter + differ = 0 then .error .zeroDiv else .ok (fl ((inter : ℚ) / ((inter + differ : ℕ) : ℚ)))

namespace Space
variable (sp : Space V X R)

/-- Loop over the nodes of one outcome (conditional_graph.py 88-93). -/
def activationNodeFl (acc : Dict V (Dict X ℚ × Bool)) (t : Node V X × ℚ × Bool) : Py (Dict V (Dict X ℚ × Bool)) :=
  match acc.get? t.1.var with
  | none => .error .keyError
  | some (values, inQuery) =>
    if t.2.2 ≠ inQuery then .error .assertion
    else match values.get? t.1.val with
      | none => .error .keyError
      | some w => .ok (acc.set t.1.var (values.set t.1.val (fl (w + t.2.1)), inQuery))

/-- Body of the loop over the outcomes (conditional_graph.py 75-104). -/
def activationStepFl (oN : Order (Node V X)) (oE : Order (Edge V X R)) (oQ : Order (Edge V X R × Bool))
    (f : Option (Finset (Rel V R))) (ev : SampleGraph V X R)
    (st : Dict V (Dict X ℚ × Bool) × Dict (Finset V) (Dict (Rel V R) ℤ × Bool)) (p : SampleGraph V X R × ℤ) :
    Py (Dict V (Dict X ℚ × Bool) × Dict (Finset V) (Dict (Rel V R) ℤ × Bool)) :=
  match p.1.similarityFl ev with
  | .error e => .error e
  | .ok sim =>
    match p.1.externalNodes oN oE ev.nodes f with
    | .error e => .error e
    | .ok ext =>
      let outNodes : List (Node V X × ℚ × Bool) := ext.keys.map fun n => (n, fl (sim * fl (p.2 : ℚ)), false)
      let inNodes : List (Node V X × ℚ × Bool) := (oN.run (ev.nodes ∩ p.1.nodes)).map fun n => (n, fl (1 * fl (p.2 : ℚ)), true)
      let outEdges : Finset (Edge V X R × Bool) := (ext.vals.toFinset.biUnion id).image fun e => (e, false)
      let inEdges : Finset (Edge V X R × Bool) := ev.edges.image fun e => (e, true)
      if ¬ Disjoint ext.keys.toFinset (ev.nodes ∩ p.1.nodes) then .error .assertion
      else if ¬ Disjoint outEdges inEdges then .error .assertion
      else match (outNodes ++ inNodes).foldlM activationNodeFl st.1 with
        | .error e => .error e
        | .ok gv =>
          match ((oQ.run (outEdges ∪ inEdges)).map fun q => (q, p.2)).foldlM activationEdge st.2 with
          | .error e => .error e
          | .ok gr => .ok (gv, gr)

/-- The construction of the result (conditional_graph.py 106-113). -/
def activationResultFl (st : Dict V (Dict X ℚ × Bool) × Dict (Finset V) (Dict (Rel V R) ℤ × Bool)) :
    Py (ActivationGraph V X R) :=
  let n := sp.outcomes.length
  if n = 0 ∧ ∃ p ∈ st.1.entries, p.2.1.entries ≠ [] then .error .zeroDiv
  else if ∃ p ∈ st.2.entries, p.1.card ≠ 2 then .error .assertion
  else .ok ⟨n, st.1.entries.map fun p => ⟨p.1, p.2.1.mapVals fun w => fl (w / fl (n : ℚ)), p.2.2⟩,
    st.2.entries.map fun p => ⟨p.1, p.2.1, p.2.2⟩⟩

/-- `ConditionalGraph.activation_graph` (conditional_graph.py 59-113). -/
def activationGraphFl (oI : Order (SampleGraph V X R × ℤ)) (oN : Order (Node V X)) (oE : Order (Edge V X R))
    (oQ : Order (Edge V X R × Bool)) (oX : Order X) (f : Option (Finset (Rel V R))) (ev : SampleGraph V X R) :
    Py (ActivationGraph V X R) :=
  match (oI.run sp.outcomes.items).foldlM (activationStepFl oN oE oQ f ev) (sp.activationInit oX ev, Dict.empty) with
  | .error e => .error e
  | .ok st => sp.activationResultFl st

end Space
end

end Verif
