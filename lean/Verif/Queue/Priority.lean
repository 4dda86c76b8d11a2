import Verif.Base.Dict
import Verif.Queue.Heap

/-!
# `scaled/utility/queues/async_priority_queue.py`

Heap entries are Python lists `[priority, data]`, i.e. mutable objects that are shared between
the heap and the locator.  An entry is a number (its identity) and `store` maps it to its
current `(priority, data)`; the heap and the locator hold identities.
-/

namespace Verif.Queue

/-- Python's `<` on `bytes` (CPython; used by scaled/utility/queues/async_priority_queue.py 22, 26, 37, 38, 46). -/
def bytesLt : Bytes → Bytes → Bool
  | _, [] => false
  | [], _ :: _ => true
  | a :: as, b :: bs => a < b || (a == b && bytesLt as bs)

/-- Python's `<` on `[priority, data]` lists (CPython; used by scaled/utility/queues/async_priority_queue.py 22, 26, 37, 38, 46). -/
def entryLt (a b : Int × Bytes) : Bool :=
  a.1 < b.1 || (a.1 == b.1 && bytesLt a.2 b.2)

/-- `PriorityQueue`, lines 8-19 (scaled/utility/queues/async_priority_queue.py). -/
structure PQueue where
  /-- all entry objects ever created -/
  store : Dict Nat (Int × Bytes)
  /-- next unused identity -/
  fresh : Nat
  /-- `_queue` -/
  heap : List Nat
  /-- `_locator` -/
  loc : Dict Bytes Nat
  deriving DecidableEq

namespace PQueue

/-- lines 17-19 (scaled/utility/queues/async_priority_queue.py) -/
def empty : PQueue := ⟨Dict.empty, 0, [], Dict.empty⟩

instance : Inhabited PQueue := ⟨empty⟩

/-- The current value of an entry object.  Identities that were never created have no meaning;
the queue holds none (scaled/utility/queues/async_priority_queue.py 18-19). -/
def key (q : PQueue) (r : Nat) : Int × Bytes := (q.store.get? r).getD (0, [])

/-- `<` between two entry objects, as `heapq` sees it (scaled/utility/queues/async_priority_queue.py 22, 26, 37, 38, 46). -/
def lt (q : PQueue) (a b : Nat) : Bool := entryLt (q.key a) (q.key b)

/-- `__len__`, 14-15 (scaled/utility/queues/async_priority_queue.py) -/
def len (q : PQueue) : Nat := q.heap.length

/-- A new list object `[p, d]` (scaled/utility/queues/async_priority_queue.py 21 and 50). -/
def alloc (q : PQueue) (e : Int × Bytes) : PQueue :=
  { q with store := q.store.set q.fresh e, fresh := q.fresh + 1 }

/-- `put([p, d])`: asyncio's `put` on an unbounded queue, then `_put`, 21-23 (scaled/utility/queues/async_priority_queue.py) -/
def put (q : PQueue) (e : Int × Bytes) : PQueue :=
  let r := q.fresh
  let q := q.alloc e
  { q with heap := heappush q.lt q.heap r, loc := q.loc.set e.2 r }

/-- `_get`, 25-28; the waiting of asyncio's `get` on an empty queue is the caller's business (scaled/utility/queues/async_priority_queue.py). -/
def get (q : PQueue) : Py ((Int × Bytes) × PQueue) := do
  let (r, heap) ← heappop q.lt q.heap
  let (_, loc) ← q.loc.pop (q.key r).2
  return (q.key r, { q with heap, loc })

/-- `self._queue.index(entry)`: first position whose list equals the entry, by value (scaled/utility/queues/async_priority_queue.py 35 and 44). -/
def index (q : PQueue) (r : Nat) : Py Nat :=
  orRaise (q.heap.findIdx? fun x => decide (q.key x = q.key r)) .valueError

/-- Assign element 0 of an entry object (scaled/utility/queues/async_priority_queue.py 36 and 45). -/
def setPriority (q : PQueue) (r : Nat) (p : Int) : PQueue :=
  { q with store := q.store.set r (p, (q.key r).2) }

/-- `remove`, 30-38 (scaled/utility/queues/async_priority_queue.py) -/
def remove (q : PQueue) (d : Bytes) : Py PQueue := do
  let (r, loc) ← q.loc.pop d
  let q := { q with loc }
  let i ← q.index r
  let q := q.setPriority r (-1)
  let q := { q with heap := siftdown q.lt q.heap i }
  let (top, heap) ← heappop q.lt q.heap
  pyAssert (decide (q.key top = q.key r))
  return { q with heap }

/-- `decrease_priority`, 40-46 (scaled/utility/queues/async_priority_queue.py) -/
def decrease (q : PQueue) (d : Bytes) : Py PQueue := do
  let r ← q.loc.getPy d
  let i ← q.index r
  let q := q.setPriority r ((q.key r).1 - 1)
  return { q with heap := siftdown q.lt q.heap i }

/-- `max_priority`, 48-51: pops the top entry and pushes a *new* list with the same values; the
locator is not updated (scaled/utility/queues/async_priority_queue.py). -/
def maxPriority (q : PQueue) : Py (Int × PQueue) := do
  let (r, heap) ← heappop q.lt q.heap
  let e := q.key r
  let r' := q.fresh
  let q := { q.alloc e with heap }
  return (e.1, { q with heap := heappush q.lt q.heap r' })

/-! Views used in statements only. -/

/-- The entries in the heap (no Python counterpart; `_queue`, scaled/utility/queues/async_priority_queue.py 18). -/
def entries (q : PQueue) : List (Int × Bytes) := q.heap.map q.key

/-- The priority the heap holds for `d` (no Python counterpart; `_queue`, scaled/utility/queues/async_priority_queue.py 18). -/
def prio (q : PQueue) (d : Bytes) : Option Int :=
  (q.entries.find? fun e => decide (e.2 = d)).map (·.1)

/-- `some p` if the locator refers to an object that is no longer in the heap; `p` is the
priority in that object (no Python counterpart; `_locator`, scaled/utility/queues/async_priority_queue.py 19 and 48-51). -/
def stale (q : PQueue) (d : Bytes) : Option Int :=
  match q.loc.get? d with
  | none => none
  | some r => if r ∈ q.heap then none else some (q.key r).1

end PQueue

end Verif.Queue
