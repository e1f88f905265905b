import Verif.Model.ManualBayes
import Verif.Model.PyFloat

/-!
# Model of `manual_bayes_net_test` of `playaround/pgmpy_bayes_net_test.py` in floating point

All line numbers are those of `/repo/Python/research/scripts/playaround/pgmpy_bayes_net_test.py`. Same as `Verif.Model.ManualBayes`, with a rounding `fl` after each operation.
Infinities do not occur for the tables considered.
-/

namespace Verif.Manual

/-- `cpd_product` (98-104). -/
def cpdProductFl (x₁ x₂ : Table) : Table :=
  x₁.entries.foldl (fun res p => x₂.entries.foldl (fun res q =>
    if ¬ Disjoint p.1 q.1 then res.set (p.1 ∪ q.1) (fl (p.2 * q.2)) else res) res) Dict.empty

/-- `norm` (106-108). -/
def normFl (ver : PyVer) (x : Table) : Py Table :=
  let t := pySum ver x.vals
  if t = 0 ∧ x.entries ≠ [] then .error .zeroDiv else .ok (x.mapVals fun v => fl (v / t))

/-- One round of the loop of `margin` (113-115). -/
def marginStepFl (o : Order Str) (v : Str) (res : Dict Str ℚ) (p : Finset Str × ℚ) : Dict Str ℚ :=
  match pick o v p.1 with
  | none => res
  | some e => res.set e (fl ((res.get? e).getD 0 + p.2))

/-- `margin` (110-116). -/
def marginFl (o : Order Str) (x : Table) (v : Str) : Dict Str ℚ := x.entries.foldl (marginStepFl o v) Dict.empty

/-- `manual_bayes_net_test` (74-155) for any three tables and any two values. -/
def scriptFl (ver : PyVer) (d i g : Table) (d₁ g₁ : Str) : Py Results := do
  let joint := cpdProductFl d (cpdProductFl i g)
  let cpdD1 := selectValue d d₁
  let jointD ← normFl ver (cpdProductFl cpdD1 (cpdProductFl i g))
  let cpdG1 := selectValue g g₁
  let jointG ← normFl ver (cpdProductFl d (cpdProductFl i cpdG1))
  let jointGD ← normFl ver (cpdProductFl cpdD1 jointG)
  return ⟨joint, jointD, jointG, jointGD⟩

end Verif.Manual
