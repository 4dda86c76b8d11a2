import Verif.Base.Py

/-!
# CPython `heapq`

Transcription of the pure Python functions of CPython's `Lib/heapq.py` (`_siftdown`,
`_siftup`, `heappush`, `heappop`), which `scaled/utility/queues/async_priority_queue.py`
calls.  `lt` is the `<` of the elements.  Positions out of range cannot occur at the call
sites; the model leaves the list unchanged there.  `_siftdown` is only used with
`startpos = 0`.
-/

namespace Verif.Queue

variable {α : Type}

/-- The loop of `_siftdown(heap, 0, pos)` with the hole at `pos`; `fuel` is at least the
number of turns when `pos ≤ fuel` (used by scaled/utility/queues/async_priority_queue.py 22, 37, 46, 50). -/
def siftdownLoop (lt : α → α → Bool) (newitem : α) : Nat → List α → Nat → List α
  | 0, heap, pos => heap.set pos newitem
  | fuel + 1, heap, pos =>
    if pos = 0 then heap.set pos newitem
    else
      match heap[(pos - 1) / 2]? with
      | none => heap.set pos newitem
      | some parent =>
        if lt newitem parent then siftdownLoop lt newitem fuel (heap.set pos parent) ((pos - 1) / 2)
        else heap.set pos newitem

/-- `heapq._siftdown(heap, 0, pos)` (used by scaled/utility/queues/async_priority_queue.py 37 and 46) -/
def siftdown (lt : α → α → Bool) (heap : List α) (pos : Nat) : List α :=
  match heap[pos]? with
  | none => heap
  | some newitem => siftdownLoop lt newitem pos heap pos

/-- The loop of `_siftup`: move the smaller child up until a leaf is reached; returns the heap
and the position of the hole (used by scaled/utility/queues/async_priority_queue.py 26, 38, 49). -/
def siftupLoop (lt : α → α → Bool) : Nat → List α → Nat → List α × Nat
  | 0, heap, pos => (heap, pos)
  | fuel + 1, heap, pos =>
    match heap[2 * pos + 1]? with
    | none => (heap, pos)
    | some child =>
      match heap[2 * pos + 2]? with
      | none => siftupLoop lt fuel (heap.set pos child) (2 * pos + 1)
      | some right =>
        if lt child right then siftupLoop lt fuel (heap.set pos child) (2 * pos + 1)
        else siftupLoop lt fuel (heap.set pos right) (2 * pos + 2)

/-- `heapq._siftup(heap, 0)` (used by scaled/utility/queues/async_priority_queue.py 26, 38, 49) -/
def siftup (lt : α → α → Bool) (heap : List α) : List α :=
  match heap[0]? with
  | none => heap
  | some newitem =>
    let (heap, pos) := siftupLoop lt heap.length heap 0
    siftdown lt (heap.set pos newitem) pos

/-- `heapq.heappush` (used by scaled/utility/queues/async_priority_queue.py 22 and 50) -/
def heappush (lt : α → α → Bool) (heap : List α) (item : α) : List α :=
  siftdown lt (heap ++ [item]) heap.length

/-- `heapq.heappop`; `IndexError` on an empty heap (used by scaled/utility/queues/async_priority_queue.py 26, 38, 49) -/
def heappop (lt : α → α → Bool) (heap : List α) : Py (α × List α) :=
  match heap.getLast? with
  | none => .error .indexError
  | some lastelt =>
    match heap.dropLast with
    | [] => .ok (lastelt, [])
    | returnitem :: rest => .ok (returnitem, siftup lt (lastelt :: rest))

end Verif.Queue
