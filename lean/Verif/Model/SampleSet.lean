import Verif.Model.SampleGraphBuilder

/-!
# Model of `relnet/sample_set.py`

`Samples`, `SampleSet` and `SampleSetBuilder` have the same two fields, so one structure is used for all three; that
copies are taken at the right places is the subject of `Verif.Model.Heap`. All samples kept in a collection were
checked to come from the provider of the collection (`SampleSetBuilder.add`), so only their graphs are stored.
Counts are Python `int`s, probabilities are rationals instead of floats.
-/

namespace Verif

/-- A mutating Python call that raised loses its local state for a caller that does not catch (e.g. sample_set.py 263-274). -/
def toPy {σ : Type} (p : σ × Option Err) : Py σ :=
  match p.2 with
  | none => .ok p.1
  | some e => .error e

/-- `a | b` on dictionaries (used in sample_set.py 158). -/
def Dict.merge {K A : Type} [DecidableEq K] (a b : Dict K A) : Dict K A := b.entries.foldl (fun d p => d.set p.1 p.2) a

/-- `Samples` (sample_set.py 28-40). -/
structure Samples (V X R : Type) where
  prov : Nat
  samples : Dict (SampleGraph V X R) ℤ

/-- Keys of `sample_acc` in `group_intersecting` (sample_set.py 141-148): a frozenset whose elements are frozensets of
variables (`inr`) or, for single node samples, variables (`inl`). -/
abbrev GKey (V : Type) := Finset (V ⊕ Finset V)

section
variable {V X R : Type} [DecidableEq V] [DecidableEq X] [DecidableEq R]

namespace Samples
variable (b : Samples V X R)

/-- A fresh `SampleSetBuilder(provider)` (sample_set.py 276-281) and `empty()` (348-353). -/
def empty (prov : Nat) : Samples V X R := ⟨prov, Dict.empty⟩

/-- `__bool__` (sample_set.py 41-42). -/
def bool : Bool := b.samples.entries ≠ []

/-- `items()` (sample_set.py 44-49): a set of pairs. -/
def items : Finset (SampleGraph V X R × ℤ) := b.samples.entries.toFinset

/-- `samples()` (sample_set.py 51-56): a set of samples. -/
def graphs : Finset (SampleGraph V X R) := b.samples.keys.toFinset

/-- `is_compatible` (sample_set.py 58-64). -/
def isCompatible (other : Samples V X R) : Bool := b.prov = other.prov

/-- `count_of` (sample_set.py 66-73). -/
def countOf (g : SampleGraph V X R) : Py ℤ :=
  match b.samples.get? g with
  | none => .error .assertion
  | some c => .ok c

/-- `SampleSet.length` (sample_set.py 87) and `SampleSetBuilder.length()` (341-346). -/
def length : ℤ := b.samples.vals.sum

/-- `SampleSet.__eq__` (sample_set.py 93-96): `dict` equality. The provider does not take part. -/
def pyEq (other : Samples V X R) : Bool :=
  b.samples.entries.length = other.samples.entries.length &&
    b.samples.entries.all fun p => other.samples.get? p.1 = some p.2

/-- `SampleSetBuilder.add` (sample_set.py 293-308). -/
def add (s : Sample V X R) (c : ℤ) : Samples V X R × Option Err :=
  if s.prov ≠ b.prov then (b, some .assertion)
  else match b.samples.get? s.graph with
    | some n => (⟨b.prov, b.samples.set s.graph (n + c)⟩, none)
    | none => (⟨b.prov, b.samples.set s.graph c⟩, none)

/-- The loop of `add_all` (sample_set.py 316-317) over the listed items of a collection with provider `prov`. -/
def addList (prov : Nat) : List (SampleGraph V X R × ℤ) → Samples V X R → Samples V X R × Option Err
  | [], b => (b, none)
  | (g, c) :: t, b =>
    match b.add ⟨prov, g⟩ c with
    | (b', some e) => (b', some e)
    | (b', none) => addList prov t b'

/-- `add_all` (sample_set.py 310-318). -/
def addAll (o : Order (SampleGraph V X R × ℤ)) (other : Samples V X R) : Samples V X R × Option Err :=
  addList other.prov (o.run other.items) b

/-- `remove` (sample_set.py 320-329); the removed pair is the returned value. -/
def remove (g : SampleGraph V X R) : Samples V X R × Py (SampleGraph V X R × ℤ) :=
  match b.samples.get? g with
  | none => (b, .error .assertion)
  | some c => (⟨b.prov, b.samples.erase g⟩, .ok (g, c))

/-- The loop of `remove_all` (sample_set.py 337-338). -/
def removeList : List (SampleGraph V X R) → Samples V X R → Samples V X R × Option Err
  | [], b => (b, none)
  | g :: t, b =>
    match b.remove g with
    | (b', .error e) => (b', some e)
    | (b', .ok _) => removeList t b'

/-- `remove_all` (sample_set.py 331-339). -/
def removeAll (o : Order (SampleGraph V X R)) (other : Samples V X R) : Samples V X R × Option Err :=
  removeList (o.run other.graphs) b

/-- `union` (sample_set.py 111-124). -/
def union (o : Order (SampleGraph V X R × ℤ)) (other : Samples V X R) : Py (Samples V X R) :=
  if b.isCompatible other then toPy (b.addAll o other) else .error .assertion

/-- `filter_samples` (sample_set.py 126-132). -/
def filterSamples (p : SampleGraph V X R → Bool) : Samples V X R := ⟨b.prov, b.samples.filterKeys p⟩

/-- `SampleSetBuilder.join_sample_set` (sample_set.py 262-274). -/
def joinSampleSet (o : Order (SampleGraph V X R × ℤ)) : List (Samples V X R) → Py (Samples V X R)
  | [] => .error .assertion
  | [s] => .ok s
  | s :: t =>
    match joinSampleSet o t with
    | .error e => .error e
    | .ok r => s.union o r

/-! ### `group_intersecting` (sample_set.py 134-169) -/

/-- The key of a sample (sample_set.py 144-147). -/
def groupKey (g : SampleGraph V X R) : GKey V :=
  if g.edges ≠ ∅ then g.edgesEndpointVariables.image Sum.inr else g.includedVariables.image Sum.inl

/-- First loop (sample_set.py 143-151). -/
def groupInit (d : Dict (SampleGraph V X R) ℤ) : Dict (GKey V) (Dict (SampleGraph V X R) ℤ) :=
  d.entries.foldl (init := Dict.empty) fun acc p =>
    match acc.get? (groupKey p.1) with
    | some m => acc.set (groupKey p.1) (m.set p.1 p.2)
    | none => acc.set (groupKey p.1) (Dict.empty.set p.1 p.2)

/-- The nested search of `group()` (sample_set.py 154-156): first pair of different keys that intersect. -/
def groupFind (keys : List (GKey V)) : Option (GKey V × GKey V) :=
  (keys.product keys).find? fun p => p.1 ≠ p.2 && ¬ Disjoint p.1 p.2

/-- `sample_acc[k_a | k_b] = sample_acc.pop(k_a) | sample_acc.pop(k_b)` (sample_set.py 158). -/
def groupMerge (acc : Dict (GKey V) (Dict (SampleGraph V X R) ℤ)) (ka kb : GKey V) :
    Dict (GKey V) (Dict (SampleGraph V X R) ℤ) :=
  ((acc.erase ka).erase kb).set (ka ∪ kb)
    (((acc.get? ka).getD Dict.empty).merge ((acc.get? kb).getD Dict.empty))

/-- `group()` (sample_set.py 153-161); each call removes at least one key, so the number of keys is enough fuel. -/
def groupLoop : Nat → Dict (GKey V) (Dict (SampleGraph V X R) ℤ) → Py (Dict (GKey V) (Dict (SampleGraph V X R) ℤ))
  | 0, _ => .error .fuel
  | fuel + 1, acc =>
    match groupFind acc.keys with
    | none => .ok acc
    | some (ka, kb) => groupLoop fuel (groupMerge acc ka kb)

/-- What iterating an element of a key yields (sample_set.py 163): a set of variables yields its members; for the key of
a single node sample the inner loop iterates the *variable itself*: `iter` gives the result of that, `none` if the variable
is not iterable. -/
def elemIter (iter : V → Option (Finset V)) : V ⊕ Finset V → Option (Finset V)
  | .inl v => iter v
  | .inr vs => some vs

/-- `frozenset({v for vs in key for v in vs})` (sample_set.py 163). -/
def flattenKey (iter : V → Option (Finset V)) (k : GKey V) : Py (Finset V) :=
  if ∃ x ∈ k, elemIter iter x = none then .error .typeError
  else .ok (k.biUnion fun x => (elemIter iter x).getD ∅)

/-- `group_intersecting` (sample_set.py 134-169). -/
def groupIntersecting (iter : V → Option (Finset V)) : Py (Dict (Finset V) (Samples V X R)) :=
  let init := groupInit b.samples
  match groupLoop (init.keys.length + 1) init with
  | .error e => .error e
  | .ok acc =>
    match acc.entries.mapM (fun p => do return (← flattenKey iter p.1, (⟨b.prov, p.2⟩ : Samples V X R))) with
    | .error e => .error e
    | .ok l =>
      let grouped := Dict.ofList l
      if grouped.entries.length = acc.entries.length then .ok grouped else .error .assertion

/-! ### Joining -/

/-- `can_join_samples` (sample_set.py 171-181); `frozenset.intersection(*[])` raises `TypeError`. -/
def canJoinSamples (oN : Order (Node V X)) : Py Bool :=
  match b.samples.keys with
  | [] => .error .typeError
  | g :: t =>
    let common := t.foldl (fun a h => a ∩ h.includedVariables) g.includedVariables
    .ok (decide (∀ v ∈ common, ¬ 1 < (b.graphs.image fun s => s.valueForVariable oN v).card))

/-- The loop of `make_joined_sample` (sample_set.py 190-192). -/
def joinList (oE : Order (Edge V X R)) (prov : Nat) : List (SampleGraph V X R) → Builder V X R →
    Builder V X R × Option Err
  | [], sgb => (sgb, none)
  | g :: t, sgb =>
    match sgb.joinSample oE ⟨prov, g⟩ with
    | (sgb', some e) => (sgb', some e)
    | (sgb', none) => joinList oE prov t sgb'

/-- `make_joined_sample` (sample_set.py 183-193). -/
def makeJoinedSample (oE : Order (Edge V X R)) : Py (Sample V X R × List ℤ) :=
  match joinList oE b.prov b.samples.keys (Builder.new b.prov) with
  | (_, some e) => .error e
  | (sgb, none) =>
    match sgb.build with
    | .error e => .error e
    | .ok s => .ok (s, b.samples.vals)

/-- Inner loop of `is_all_values_match` over the nodes of one sample; `none` is the early `return False`
(sample_set.py 203-209). -/
def matchNodes : List (Node V X) → Dict V X → Option (Dict V X)
  | [], acc => some acc
  | n :: t, acc =>
    match acc.get? n.var with
    | some x => if x ≠ n.val then none else matchNodes t acc
    | none => matchNodes t (acc.set n.var n.val)

/-- Outer loop of `is_all_values_match` (sample_set.py 202-210). -/
def matchGraphs (oN : Order (Node V X)) : List (SampleGraph V X R) → Dict V X → Bool
  | [], _ => true
  | g :: t, acc =>
    match matchNodes (oN.run g.nodes) acc with
    | none => false
    | some acc' => matchGraphs oN t acc'

/-- `is_all_values_match` (sample_set.py 195-210). -/
def isAllValuesMatch (oN : Order (Node V X)) : Bool := matchGraphs oN b.samples.keys Dict.empty

/-- `probabilities` (sample_set.py 212-222); `isclose(p_sum, 1.0)` is equality with 1. -/
def probabilities (o : Order (SampleGraph V X R × ℚ)) : Py (Finset (SampleGraph V X R × ℚ)) :=
  if b.samples.entries ≠ [] ∧ b.length = 0 then .error .zeroDiv
  else
    let props := (b.samples.entries.map fun p => (p.1, (p.2 : ℚ) / (b.length : ℚ))).toFinset
    if ((o.run props).map Prod.snd).sum = 1 then .ok props else .error .assertion

/-- `have_value` (sample_set.py 224-234). -/
def haveValue (oN : Order (Node V X)) (v : V) (x : X) : Bool := b.samples.keys.any fun g => g.haveValue oN v x

/-- `have_variable` (sample_set.py 236-245). -/
def haveVariable (oN : Order (Node V X)) (v : V) : Bool := b.samples.keys.any fun g => g.haveVariable oN v

/-- `probability_of` (sample_set.py 247-254). -/
def probabilityOf (g : SampleGraph V X R) : Py ℚ :=
  match b.samples.get? g with
  | none => .error .assertion
  | some c => if b.length = 0 then .error .zeroDiv else .ok ((c : ℚ) / (b.length : ℚ))

end Samples
end

end Verif
