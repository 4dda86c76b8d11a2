import Verif.Base.Object
import Verif.Queue.Priority

/-!
# The priority queue as an object

`scaled/utility/queues/async_priority_queue.py` 14-51 once more, one assignment after the other: what was assigned before an
exception stays (`Base/Object`).
-/

namespace Verif.Queue

namespace PQueue.Object

open Doing

/-- `heapq.heappop(self._queue)`, async_priority_queue.py 26, 38, 49 -/
def pop : Doing PQueue Nat := do
  let q ← self
  let (r, heap) ← eval (heappop q.lt q.heap)
  assign fun q => { q with heap }
  return r

/-- `_put`, async_priority_queue.py 21-23 -/
def put (e : Int × Bytes) : Doing PQueue Unit := do
  let q ← self
  assign fun q => q.alloc e
  assign fun q' => { q' with heap := heappush q'.lt q'.heap q.fresh }
  assign fun q' => { q' with loc := q'.loc.set e.2 q.fresh }

/-- `_get`, async_priority_queue.py 25-28 -/
def get : Doing PQueue (Int × Bytes) := do
  let r ← pop
  let q ← self
  let (_, loc) ← eval (q.loc.pop (q.key r).2)
  assign fun q => { q with loc }
  return q.key r

/-- `remove`, async_priority_queue.py 30-38 -/
def remove (d : Bytes) : Doing PQueue Unit := do
  let q ← self
  let (r, loc) ← eval (q.loc.pop d)
  assign fun q => { q with loc }
  let i ← eval (q.index r)
  assign fun q => q.setPriority r (-1)
  assign fun q => { q with heap := siftdown q.lt q.heap i }
  let top ← pop
  let q ← self
  check (decide (q.key top = q.key r))

/-- `decrease_priority`, async_priority_queue.py 40-46 -/
def decrease (d : Bytes) : Doing PQueue Unit := do
  let q ← self
  let r ← eval (q.loc.getPy d)
  let i ← eval (q.index r)
  assign fun q => q.setPriority r ((q.key r).1 - 1)
  assign fun q => { q with heap := siftdown q.lt q.heap i }

/-- `max_priority`, async_priority_queue.py 48-51 -/
def maxPriority : Doing PQueue Int := do
  let r ← pop
  let q ← self
  let e := q.key r
  assign fun q => q.alloc e
  assign fun q' => { q' with heap := heappush q'.lt q'.heap q.fresh }
  return e.1

end PQueue.Object

end Verif.Queue
