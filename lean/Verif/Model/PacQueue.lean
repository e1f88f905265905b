import Verif.Model.PacGrid

/-!
# Model of the containers of `demo/util.py` 133-222 and of `sign`, `arrayInvert`, `matrixAsList` (544-573)

`heapq` is not part of the repository. It is a parameter: any implementation that keeps its documented contract (`Heapq`). Priorities are rationals.
Python compares entries `(priority, count, item)` as tuples; only the first two components are modelled, because the counts of the entries
are always different (shown in `Props/PacQueue.lean`), so that items are never compared.
-/

namespace Verif.Pac

/-! ### Stack and queue -/

/-- `Stack.push` (util.py 138-140). -/
def stackPush {I : Type} (l : List I) (x : I) : List I := l ++ [x]

/-- `list.pop()`, as used by `Stack.pop` (util.py 142-144) and `Queue.pop` (159-164). -/
def listPop {I : Type} (l : List I) : Except PErr (I × List I) :=
  match l.getLast? with
  | none => .error .index
  | some x => .ok (x, l.dropLast)

/-- `Queue.push` (util.py 155-157). -/
def queuePush {I : Type} (l : List I) (x : I) : List I := x :: l

/-- `isEmpty` of all containers (util.py 146-148, 166-168, 190-191). -/
def isEmptyList {I : Type} (l : List I) : Bool := l.length == 0

/-! ### Priority queue -/

/-- Entry of the heap (util.py 182). -/
structure Entry (I : Type) where
  pri : ℚ
  count : ℕ
  item : I
  deriving DecidableEq

/-- Order of entries: tuples are compared from the left (util.py 182). -/
def Entry.le {I : Type} (a b : Entry I) : Prop := a.pri < b.pri ∨ (a.pri = b.pri ∧ a.count ≤ b.count)

instance {I : Type} (a b : Entry I) : Decidable (a.le b) := by unfold Entry.le; infer_instance

/-- The contract of the module `heapq` of Python for a list of entries (util.py 183, 187, 203). -/
structure Heapq (I : Type) where
  IsHeap : List (Entry I) → Prop
  push : List (Entry I) → Entry I → List (Entry I)
  pop : List (Entry I) → Option (Entry I × List (Entry I))
  heapify : List (Entry I) → List (Entry I)
  heap_nil : IsHeap []
  heap_push : ∀ l e, IsHeap l → IsHeap (push l e) ∧ (push l e).Perm (e :: l)
  heap_heapify : ∀ l, IsHeap (heapify l) ∧ (heapify l).Perm l
  pop_nil : pop [] = none
  heap_pop : ∀ l, IsHeap l → l ≠ [] → ∃ m t, pop l = some (m, t) ∧ l.Perm (m :: t) ∧ (∀ x ∈ l, m.le x) ∧ IsHeap t

/-- `PriorityQueue` (util.py 170-179). -/
structure PQ (I : Type) where
  heap : List (Entry I)
  count : ℕ

/-- `PriorityQueue.__init__` (util.py 177-179). -/
def PQ.empty {I : Type} : PQ I := ⟨[], 0⟩

/-- `PriorityQueue.push` (util.py 181-184). -/
def PQ.push {I : Type} (H : Heapq I) (q : PQ I) (x : I) (p : ℚ) : PQ I := ⟨H.push q.heap ⟨p, q.count, x⟩, q.count + 1⟩

/-- `PriorityQueue.pop` (util.py 186-188). -/
def PQ.pop {I : Type} (H : Heapq I) (q : PQ I) : Except PErr (I × PQ I) :=
  match H.pop q.heap with
  | none => .error .index
  | some (e, t) => .ok (e.item, { q with heap := t })

/-- The body of `update` (util.py 197-204) for entries after `index`: `none` if the loop ends without `break`. -/
def updateScan {I : Type} [DecidableEq I] (H : Heapq I) (heap : List (Entry I)) (x : I) (p : ℚ) : ℕ → List (Entry I) → Option (List (Entry I))
  | _, [] => none
  | index, e :: t =>
    if e.item = x then
      if e.pri ≤ p then some heap else some (H.heapify (heap.eraseIdx index ++ [⟨p, e.count, x⟩]))
    else updateScan H heap x p (index + 1) t

/-- `PriorityQueue.update` (util.py 193-206). -/
def PQ.update {I : Type} [DecidableEq I] (H : Heapq I) (q : PQ I) (x : I) (p : ℚ) : PQ I :=
  match updateScan H q.heap x p 0 q.heap with
  | some h => { q with heap := h }
  | none => q.push H x p

/-- `PriorityQueueWithFunction.push` (util.py 220-222). -/
def PQ.pushF {I : Type} (H : Heapq I) (f : I → ℚ) (q : PQ I) (x : I) : PQ I := q.push H x (f x)

/-- `update` of a `PriorityQueueWithFunction`: the inherited method calls `self.push(item, priority)` (util.py 206), but `push` takes one argument (220). -/
def PQ.updateF {I : Type} [DecidableEq I] (H : Heapq I) (q : PQ I) (x : I) (p : ℚ) : Except PErr (PQ I) :=
  match updateScan H q.heap x p 0 q.heap with
  | some h => .ok { q with heap := h }
  | none => .error .value

/-- An operation of a client (util.py 181-206). -/
inductive QOp (I : Type)
  | push (x : I) (p : ℚ)
  | pop
  | update (x : I) (p : ℚ)

/-- Executing operations; an operation that raises ends the run. The second component are the items popped (util.py 181-206). -/
def PQ.run {I : Type} [DecidableEq I] (H : Heapq I) : PQ I → List (QOp I) → Except PErr (PQ I × List I)
  | q, [] => .ok (q, [])
  | q, .push x p :: t => PQ.run H (q.push H x p) t
  | q, .update x p :: t => PQ.run H (q.update H x p) t
  | q, .pop :: t => match q.pop H with
    | .error e => .error e
    | .ok (x, q) => match PQ.run H q t with
      | .error e => .error e
      | .ok (q, l) => .ok (q, x :: l)

/-! ### Small functions -/

/-- `sign` (util.py 544-551). -/
def signOf (x : ℚ) : ℤ := if x ≥ 0 then 1 else -1

/-- Inner loop of `arrayInvert` (util.py 559-560) for the elements of a row from index `i`. -/
def invertRow {A : Type} : List (List A) → ℕ → List A → Except PErr (List (List A))
  | res, _, [] => .ok res
  | res, i, a :: t => match res[i]? with
    | none => .error .index
    | some col => invertRow (res.set i (col ++ [a])) (i + 1) t

/-- Outer loop of `arrayInvert` (util.py 558-560). -/
def invertLoop {A : Type} : List (List A) → List (List A) → Except PErr (List (List A))
  | res, [] => .ok res
  | res, row :: t => match invertRow res 0 row with
    | .error e => .error e
    | .ok res => invertLoop res t

/-- `arrayInvert` (util.py 553-561). -/
def arrayInvert {A : Type} (m : List (List A)) : Except PErr (List (List A)) := invertLoop (m.map fun _ => []) m

/-- One cell of `matrixAsList` (util.py 571-572). -/
def matrixCell {A : Type} [DecidableEq A] (m : List (List A)) (v : A) (r c : ℕ) : Except PErr (List (ℕ × ℕ)) :=
  match m[r]? with
  | none => .error .index
  | some row => match row[c]? with
    | none => .error .index
    | some a => .ok (if a = v then [(r, c)] else [])

/-- The loops of `matrixAsList` (util.py 569-572) over the cells. -/
def matrixLoop {A : Type} [DecidableEq A] (m : List (List A)) (v : A) : List (ℕ × ℕ) → Except PErr (List (ℕ × ℕ))
  | [] => .ok []
  | p :: t => match matrixCell m v p.1 p.2 with
    | .error e => .error e
    | .ok l => match matrixLoop m v t with
      | .error e => .error e
      | .ok l' => .ok (l ++ l')

/-- `matrixAsList` (util.py 563-573). -/
def matrixAsList {A : Type} [DecidableEq A] (m : List (List A)) (v : A) : Except PErr (List (ℕ × ℕ)) :=
  match m with
  | [] => .error .index
  | row :: _ => matrixLoop m v ((List.range m.length).flatMap fun r => (List.range row.length).map fun c => (r, c))

end Verif.Pac
