import Verif.Model.SampleGraphBuilder
import Verif.Model.SampleSet
import Verif.Model.SampleGraph

/-!
# Recursive functions with a limit on nested calls

Python raises `RecursionError` when the calls nest too deeply. Here `d` is the number of nested calls of the recursive function that are still possible, and
the error `fuel` stands for `RecursionError`. The calls of the functions called in the body (such as `belt_nodes`) are not counted: they add the same number of frames at
each level only once. `external_nodes` is `SampleGraph.externalNodesFuel`, `group` is `Samples.groupLoop`, `join_edges` is `Builder.joinEdges`.
-/

namespace Verif

/-- `trace` (sample_graph.py 50-54) with a limit on nested calls; `none` is `RecursionError`. -/
def traceD {N : Type} [DecidableEq N] (adj : N → List N) : Nat → N → Finset N → Option (Finset N)
  | 0, _, _ => none
  | d + 1, n, t => if n ∈ t then some t else (adj n).foldlM (fun t m => traceD adj d m t) (insert n t)

section
variable {V X R : Type} [DecidableEq V] [DecidableEq X] [DecidableEq R]

/-- `is_edges_connected` (sample_graph.py 34-57) when at most `d` calls of `trace` can nest. -/
def isEdgesConnectedD (d : ℕ) (oE : Order (RawEdge V X R)) (oN : Order (V × X)) (edges : Finset (RawEdge V X R)) : Py Bool :=
  match tracingMap ((oE.run edges).map fun e => oN.run e.1) Dict.empty with
  | .error e => .error e
  | .ok m =>
    match m.keys with
    | [] => .error .stopIteration
    | start :: _ =>
      match traceD (fun n => oN.run ((m.get? n).getD ∅)) d start ∅ with
      | none => .error .fuel
      | some traced => .ok (m.keys.length = traced.card)

/-- `join_sample` (sample_graph.py 201-248) when at most `d` calls of `join_edges` can nest. -/
def Builder.joinSampleD (d : ℕ) (oE : Order (Edge V X R)) (b : Builder V X R) (s : Sample V X R) : Builder V X R × Option Err :=
  if s.prov ≠ b.prov then (b, some .assertion)
  else if s.graph.edges ≠ ∅ then Builder.joinEdges oE d s.graph.edges b
  else if s.graph.nodes.card = 1 ∧ (s.graph.nodes ⊆ b.nodes ∨ b.nodes = ∅) then
    (if b.nodes = ∅ then { b with nodes := b.nodes ∪ s.graph.nodes } else b, none)
  else (b, some .assertion)

/-- `group_intersecting` (sample_set.py 134-169) when at most `d` calls of `group` can nest. -/
def Samples.groupIntersectingD (d : ℕ) (b : Samples V X R) (iter : V → Option (Finset V)) : Py (Dict (Finset V) (Samples V X R)) :=
  match Samples.groupLoop d (Samples.groupInit b.samples) with
  | .error e => .error e
  | .ok acc =>
    match acc.entries.mapM (fun p => do return (← Samples.flattenKey iter p.1, (⟨b.prov, p.2⟩ : Samples V X R))) with
    | .error e => .error e
    | .ok l =>
      let grouped := Dict.ofList l
      if grouped.entries.length = acc.entries.length then .ok grouped else .error .assertion

end

end Verif
