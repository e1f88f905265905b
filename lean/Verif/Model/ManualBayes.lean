import Verif.Model.SampleSpace
import Verif.Model.Text

/-!
# Model of `manual_bayes_net_test` of `playaround/pgmpy_bayes_net_test.py`

All line numbers are those of `/repo/Python/research/scripts/playaround/pgmpy_bayes_net_test.py`. A table of probabilities is a
dictionary from frozen sets of texts such as `'d_0'` to floats; floats are rationals here. Dictionaries keep the order of insertion,
so the products do not depend on the hash; the element `vs[0]` of a set does. The first function of the file
(`pgmpy_bayes_net_test`) only calls `pgmpy` and is not modelled, nor are the lines that print.
-/

namespace Verif.Manual

/-- `Dict[frozenset, float]` (80-96). -/
abbrev Table := Dict (Finset Str) ℚ

/-- `cpd_product` (98-104): all pairs of entries whose keys have an element in common; a later pair replaces an earlier one with the same
union. -/
def cpdProduct (x₁ x₂ : Table) : Table :=
  x₁.entries.foldl (fun res p => x₂.entries.foldl (fun res q =>
    if ¬ Disjoint p.1 q.1 then res.set (p.1 ∪ q.1) (p.2 * q.2) else res) res) Dict.empty

/-- `norm` (106-108); without entries nothing is divided. -/
def norm (x : Table) : Py Table :=
  let t := x.vals.sum
  if t = 0 ∧ x.entries ≠ [] then .error .zeroDiv else .ok (x.mapVals fun v => v / t)

/-- `vs[0]` of `vs = [e for e in k if var in e]`, if there is one (113-115); `o` is the iteration order of the sets. -/
def pick (o : Order Str) (v : Str) (k : Finset Str) : Option Str := ((o.run k).filter fun e => decide (v <:+: e)).head?

/-- One round of the loop of `margin` (113-115). -/
def marginStep (o : Order Str) (v : Str) (res : Dict Str ℚ) (p : Finset Str × ℚ) : Dict Str ℚ :=
  match pick o v p.1 with
  | none => res
  | some e => res.set e ((res.get? e).getD 0 + p.2)

/-- `margin` (110-116). -/
def margin (o : Order Str) (x : Table) (v : Str) : Dict Str ℚ := x.entries.foldl (marginStep o v) Dict.empty

/-- `select_value` (118-119). -/
def selectValue (x : Table) (e : Str) : Table := x.filterKeys fun k => e ∈ k

/-- The tables computed by the script (121, 132, 143, 152) from the three tables of the network and the two observed values. -/
structure Results where
  joint : Table
  jointD : Table
  jointG : Table
  jointGD : Table

/-- `manual_bayes_net_test` (74-155) for any three tables and any two values. -/
def script (d i g : Table) (d₁ g₁ : Str) : Py Results := do
  let joint := cpdProduct d (cpdProduct i g)
  let cpdD1 := selectValue d d₁
  let jointD ← norm (cpdProduct cpdD1 (cpdProduct i g))
  let cpdG1 := selectValue g g₁
  let jointG ← norm (cpdProduct d (cpdProduct i cpdG1))
  let jointGD ← norm (cpdProduct cpdD1 jointG)
  return ⟨joint, jointD, jointG, jointGD⟩

end Verif.Manual
