import Verif.Model.Joined

/-!
# `make_joined` with a limit on nested calls

Python raises `RecursionError` when the calls nest too deeply. `join_sample_set` (sample_set.py 262-274) calls itself once for each sample set, and `join_factors` (relation_graph.py 310-321) once
for each factor; here `d` is the number of nested calls of these two functions that are still possible, and the error `fuel` stands for `RecursionError`. The frames of
list comprehensions (before Python 3.12) and of other functions are not counted, `join_edges` is not limited (see `Depth.lean` for it). The rest is as in `Joined.lean`.
-/

namespace Verif

variable {V X R : Type} [DecidableEq V] [DecidableEq X] [DecidableEq R]

namespace Samples

/-- `SampleSetBuilder.join_sample_set` (sample_set.py 262-274). -/
def joinSampleSetD (o : Order (SampleGraph V X R × ℤ)) : ℕ → List (Samples V X R) → Py (Samples V X R)
  | 0, _ => .error .fuel
  | _ + 1, [] => .error .assertion
  | _ + 1, [s] => .ok s
  | d + 1, s :: t =>
    match joinSampleSetD o d t with
    | .error e => .error e
    | .ok r => s.union o r

/-- `join_factors` (relation_graph.py 310-321). -/
def joinFactorsD (oI : Order (SampleGraph V X R × ℤ)) (oN : Order (Node V X)) (oE : Order (Edge V X R)) :
    ℕ → List (List (SampleGraph V X R × ℤ)) → Samples V X R → Py (Samples V X R)
  | 0, _, _ => .error .fuel
  | _ + 1, [], acc => factorLeaf oN oE acc
  | d + 1, os :: rest, acc =>
    os.mapM (fun p => toPy (acc.add ⟨acc.prov, p.1⟩ p.2) >>= joinFactorsD oI oN oE d rest) >>= joinSampleSetD oI d

end Samples

namespace Space

/-- Body of the loop over the values (relation_graph.py 329-332). -/
def joinValueD (d : ℕ) (o : Orders V X R) (prov : ℕ) (v : V) (ffv : List (Finset (SampleGraph V X R × ℤ)))
    (jf : Samples V X R) (x : X) : Py (Samples V X R) :=
  match Samples.joinFactorsD o.items o.nodes o.edges d ((ffv.map (outcomesForVal o v x)).filter (· ≠ [])) (Samples.empty prov) with
  | .error e => .error e
  | .ok r => toPy (jf.addAll o.items r)

/-- Body of the loop over the variables (relation_graph.py 325-334). -/
def eliminateD (d : ℕ) (o : Orders V X R) (prov : ℕ) (factors : Finset (Finset (SampleGraph V X R × ℤ))) (q : V × Finset X) :
    Py (Finset (Finset (SampleGraph V X R × ℤ))) :=
  let ffv := factorsForVar o q.1 factors
  match (o.vals.run q.2).foldlM (joinValueD d o prov q.1 ffv) (Samples.empty prov) with
  | .error e => .error e
  | .ok jf => .ok ((factors \ ffv.toFinset) ∪ {jf.items})

/-- `make_joined` (relation_graph.py 304-341). -/
def makeJoinedD (sp : Space V X R) (d : ℕ) (o : Orders V X R) : Py (Space V X R) :=
  match sp.factorized o.items o.nodes with
  | .error e => .error e
  | .ok factors =>
    match (o.incl.run (sp.includedVariables o.graphs o.nodes)).foldlM (eliminateD d o sp.outcomes.prov) factors with
    | .error e => .error e
    | .ok fs =>
      if fs.card ≤ 1 then
        .ok ⟨sp.schema, match o.factors.run fs with
          | f :: _ => ⟨sp.outcomes.prov, Dict.ofList (o.items.run f)⟩
          | [] => Samples.empty sp.outcomes.prov, none⟩
      else .error .assertion

end Space

end Verif
