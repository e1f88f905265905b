import Verif.Model.PacUtil
import Verif.Model.PyFloat

/-!
# The sampling functions of `demo/util.py` and the ghosts of `demo/ghostAgents.py` with floats

As in `Model/PacUtil`, but every operation on floats rounds its result (`fl`) and `sum` is that of the Python version (`PyVer`). Weights are floats that
are not negative. The positions of ghosts are multiples of one half, so the distances in `DirectionalGhost` are exact.
-/

namespace Verif.Pac

/-- The numbers `random.random()` returns: multiples of `2 ^ -53`, `0 ≤ r < 1`. -/
def IsRandom (r : ℚ) : Prop := ∃ k : ℕ, k < 2 ^ 53 ∧ r = k / 2 ^ 53

/-- `normalize` of a list (util.py 469-473). -/
def normalizeListFl (ver : PyVer) (p : List ℚ) : List ℚ :=
  if pySum ver p = 0 then p else p.map fun x => fl (x / pySum ver p)

/-- The distribution used by `sample` and `nSample` (util.py 476-477, 496-497). -/
def distFl (ver : PyVer) (p : List ℚ) : List ℚ := if pySum ver p ≠ 1 then normalizeListFl ver p else p

/-- Loop of `sample` (util.py 500-502). -/
def sampleLoopFl (r : ℚ) : ℚ → ℕ → List ℚ → Except PErr ℕ
  | total, i, [] => if r > total then .error .index else .ok i
  | total, i, p :: t => if r > total then sampleLoopFl r (fl (total + p)) (i + 1) t else .ok i

/-- The index chosen by `sample` (util.py 496-503). -/
def sampleIdxFl (ver : PyVer) (p : List ℚ) (r : ℚ) : Except PErr ℕ :=
  match distFl ver p with
  | [] => .error .index
  | q :: t => sampleLoopFl r q 0 t

/-- `sample(distribution, values)` for lists (util.py 491-503). -/
def sampleListFl {K : Type} (ver : PyVer) (p : List ℚ) (vs : List K) (r : ℚ) : Except PErr K :=
  match sampleIdxFl ver p r with
  | .error e => .error e
  | .ok i => match vs[i]? with
    | none => .error .index
    | some v => .ok v

/-- `sample(counter)` (util.py 492-495). -/
def sampleCounterFl {K : Type} (ver : PyVer) (le : K → K → Bool) (c : Counter K) (r : ℚ) : Except PErr K :=
  let items := c.entries.mergeSort fun a b => le a.1 b.1
  sampleListFl ver (items.map Prod.snd) (items.map Prod.fst) r

/-- Loop of `nSample` (util.py 482-488). -/
def nSampleLoopFl {K : Type} : ℚ → List ℚ → List K → List ℚ → Except PErr (List K)
  | _, _, _, [] => .ok []
  | cdf, d, vs, r :: rs =>
    if r < cdf then match vs with
      | [] => .error .index
      | v :: _ => match nSampleLoopFl cdf d vs rs with
        | .error e => .error e
        | .ok l => .ok (v :: l)
    else match d with
      | [] => .error .index
      | p :: t => nSampleLoopFl (fl (cdf + p)) t vs.tail (r :: rs)
  termination_by _ d _ rs => d.length + rs.length

/-- `nSample` (util.py 475-489); `rs` are the random numbers after sorting. -/
def nSampleFl {K : Type} (ver : PyVer) (p : List ℚ) (vs : List K) (rs : List ℚ) : Except PErr (List K) :=
  match distFl ver p with
  | [] => .error .index
  | q :: t => nSampleLoopFl q t vs rs

/-- `chooseFromDistribution` for a list of pairs (util.py 528-532), with `base` summed so far; `None` if the list ends. -/
def choosePairsFl {K : Type} (r : ℚ) : ℚ → List (ℚ × K) → Option K
  | _, [] => none
  | base, (p, v) :: t => if r ≤ fl (base + p) then some v else choosePairsFl r (fl (base + p)) t

section counter
variable {K : Type} [DecidableEq K]

/-- `Counter.normalize` (util.py 326-336). -/
def Counter.normalizeFl (ver : PyVer) (c : Counter K) : Counter K :=
  if pySum ver c.vals = 0 then c else c.keys.foldl (fun d k => d.set k (fl (Counter.at d k / pySum ver c.vals))) c

/-- `c[k] += v` (util.py 291, 394). -/
def Counter.incFl (c : Counter K) (k : K) (v : ℚ) : Counter K := (c.touch k).set k (fl (c.at k + v))

end counter

/-- `GhostAgent.getAction` (ghostAgents.py 26-31). -/
def ghostActionFl (ver : PyVer) (dist : Except PErr (Counter Dir)) (r : ℚ) : Except PErr Dir :=
  match dist with
  | .error e => .error e
  | .ok c => if c.keys.length = 0 then .ok .stop else sampleCounterFl ver Dir.le c r

/-- `RandomGhost.getDistribution` (ghostAgents.py 39-43). -/
def randomDistFl (ver : PyVer) (s : GState) (i : ℕ) : Except PErr (Counter Dir) :=
  match legalActions s i with
  | .error e => .error e
  | .ok legal => .ok (Counter.normalizeFl ver (legal.foldl (fun c a => c.set a 1) Dict.empty))

/-- The distribution over actions (ghostAgents.py 74-80). -/
def mixDistFl (ver : PyVer) (legal best : List Dir) (bestProb : ℚ) : Counter Dir :=
  Counter.normalizeFl ver (legal.foldl (fun c a => Counter.incFl c a (fl (fl (1 - bestProb) / legal.length)))
    (best.foldl (fun c a => c.set a (fl (bestProb / best.length))) Dict.empty))

/-- `DirectionalGhost.getDistribution` (ghostAgents.py 52-81). -/
def directionalDistFl (ver : PyVer) (probAttack probFlee : ℚ) (s : GState) (i : ℕ) : Except PErr (Counter Dir) :=
  match ghostState s i with
  | .error e => .error e
  | .ok g => match legalActions s i, s.agents[0]? with
    | .error e, _ => .error e
    | .ok _, none => .error .index
    | .ok legal, some pac =>
      let scared : Bool := g.scared > 0
      let dist := fun a => manhattan (newPos g a) pac.conf.pos
      match bestScore scared (legal.map dist) with
      | .error e => .error e
      | .ok b => .ok (mixDistFl ver legal (legal.filter fun a => dist a = b) (if scared then probFlee else probAttack))

end Verif.Pac
