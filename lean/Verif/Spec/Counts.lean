import Verif.Model.SampleSet

/-!
# Specifications about counts
-/

namespace Verif

/-- Adding up counts, where `none` means "not present". -/
def addCounts : Option ℤ → Option ℤ → Option ℤ
  | none, y => y
  | x, none => x
  | some x, some y => some (x + y)

/-- The total of the counts given to `k` in a list of pairs; `none` if `k` does not occur. -/
def totalOf {K : Type} [DecidableEq K] (l : List (K × ℤ)) (k : K) : Option ℤ :=
  let cs := (l.filter fun p => p.1 = k).map Prod.snd
  if cs = [] then none else some cs.sum

/-- What happens to a counter: something is added, or removed completely. -/
inductive Event (K : Type) where
  | added (k : K) (c : ℤ)
  | removed (k : K)

/-- Does the event remove `k`? -/
def Event.removes {K : Type} [DecidableEq K] (k : K) : Event K → Bool
  | .added _ _ => false
  | .removed k' => k' = k

/-- The amounts added to `k` by the events. -/
def amounts {K : Type} [DecidableEq K] (k : K) (l : List (Event K)) : List ℤ :=
  l.filterMap fun e => match e with
    | .added k' c => if k' = k then some c else none
    | .removed _ => none

/-- The sum of the amounts added to `k` since it was last removed; `none` if nothing was added since. -/
def sinceLastRemoval {K : Type} [DecidableEq K] (log : List (Event K)) (k : K) : Option ℤ :=
  let cs := amounts k (log.reverse.takeWhile fun e => !e.removes k)
  if cs = [] then none else some cs.sum

end Verif

namespace Verif
section
variable {V X R : Type} [DecidableEq V] [DecidableEq X] [DecidableEq R]

/-- The number of outcomes (with multiplicity) having the property `P`. -/
def mass (a : Samples V X R) (P : SampleGraph V X R → Prop) [DecidablePred P] : ℤ := ∑ p ∈ a.items with P p.1, p.2

/-- `g` is one of the outcomes. -/
def Samples.Occurs (a : Samples V X R) (g : SampleGraph V X R) : Prop := ∃ c, a.samples.get? g = some c

/-- The sample contains the value `x` of the variable `v`. -/
abbrev HasValue (v : V) (x : X) (g : SampleGraph V X R) : Prop := (⟨v, x⟩ : Node V X) ∈ g.nodes

/-- The sample contains some value of the variable `v`. -/
abbrev HasVar (v : V) (g : SampleGraph V X R) : Prop := ∃ n ∈ g.nodes, n.var = v

end
end Verif
