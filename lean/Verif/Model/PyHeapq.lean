import Verif.Model.PacQueue

/-!
# The module `heapq` of Python

`demo/util.py` (183, 187, 203) calls `heappush`, `heappop` and `heapify`. These functions are not part of the repository; here they follow `Lib/heapq.py` of CPython loop by loop. The comparison
`<` is a parameter. An element read at an index is `getD` with the element in hand as default; all indices are in range. The accelerated version in C makes the
same comparisons and moves, except that its `heapify` takes another order from 2500 elements on, which is not modelled.
-/

namespace Verif.PyHeapq

variable {A : Type} (lt : A → A → Bool)

/-- The loop of `_siftdown`: `parentpos = (pos - 1) >> 1`. -/
def siftdownLoop (x : A) (startpos : ℕ) (h : List A) (pos : ℕ) : List A × ℕ :=
  if _hp : startpos < pos then
    let parent := h.getD ((pos - 1) / 2) x
    if lt x parent then siftdownLoop x startpos (h.set pos parent) ((pos - 1) / 2) else (h, pos)
  else (h, pos)
termination_by pos
decreasing_by omega

/-- `_siftdown(heap, startpos, pos)` with `newitem = heap[pos] = x` (called by `heappush`, util.py 183). -/
def siftdown (x : A) (h : List A) (startpos pos : ℕ) : List A :=
  let r := siftdownLoop lt x startpos h pos
  r.1.set r.2 x

/-- The loop of `_siftup`: the smaller child moves up (used by util.py 187, 203). -/
def siftupLoop (x : A) (h : List A) (pos : ℕ) : List A × ℕ :=
  if _hc : 2 * pos + 1 < h.length then
    let child := if 2 * pos + 2 < h.length ∧ ¬ lt (h.getD (2 * pos + 1) x) (h.getD (2 * pos + 2) x) then 2 * pos + 2 else 2 * pos + 1
    siftupLoop x (h.set pos (h.getD child x)) child
  else (h, pos)
termination_by h.length - pos
decreasing_by
  simp only [List.length_set]
  split <;> omega

/-- `_siftup(heap, pos)` with `newitem = heap[pos] = x` (used by util.py 187, 203). -/
def siftup (x : A) (h : List A) (pos : ℕ) : List A :=
  let r := siftupLoop lt x h pos
  siftdown lt x (r.1.set r.2 x) pos r.2

/-- `heappush(heap, item)` (util.py 183). -/
def heappush (h : List A) (x : A) : List A := siftdown lt x (h ++ [x]) 0 h.length

/-- `heappop(heap)`: `none` is the `IndexError` of `heap.pop()` (util.py 187). -/
def heappop (h : List A) : Option (A × List A) :=
  match h.getLast? with
  | none => none
  | some last => match h.dropLast with
    | [] => some (last, [])
    | r :: t => some (r, siftup lt last (last :: t) 0)

/-- The body of the loop of `heapify` (util.py 203). -/
def siftupAt (h : List A) (i : ℕ) : List A :=
  match h[i]? with
  | none => h
  | some x => siftup lt x h i

/-- `heapify(x)`: `for i in reversed(range(n//2)): _siftup(x, i)`. -/
def heapify (h : List A) : List A := (List.range (h.length / 2)).reverse.foldl (siftupAt lt) h

end Verif.PyHeapq

namespace Verif.Pac

/-- `<` of entries (util.py 182); counts are always different, so that items are not compared. -/
def Entry.ltB {I : Type} (a b : Entry I) : Bool := decide (a.pri < b.pri ∨ (a.pri = b.pri ∧ a.count < b.count))

end Verif.Pac
