import Verif.Base.Order
import Verif.Queue.Priority
import Verif.Util.OneToMany

/-!
# `scaled/scheduler/allocators/queued.py`
-/

namespace Verif.Sched

open Verif.Queue Verif.Util

/-- `QueuedAllocator`, 11-17 (scaled/scheduler/allocators/queued.py) -/
structure Alloc where
  /-- `_max_tasks_per_worker` -/
  max : Int
  /-- `_workers_to_task_ids` -/
  w2t : Dict Bytes (PySet Bytes)
  /-- `_task_id_to_worker` -/
  t2w : Dict Bytes Bytes
  /-- `_worker_queue` -/
  queue : PQueue
  deriving DecidableEq

namespace Alloc

/-- 12-17 (scaled/scheduler/allocators/queued.py) -/
def init (max : Int) : Alloc := ⟨max, Dict.empty, Dict.empty, PQueue.empty⟩

/-- `add_worker`, 19-25 (scaled/scheduler/allocators/queued.py) -/
def addWorker (a : Alloc) (w : Bytes) : Bool × Alloc :=
  if a.w2t.has w then (false, a)
  else (true, { a with w2t := a.w2t.set w PySet.empty, queue := a.queue.put (0, w) })

/-- `remove_worker`, 27-36; `hint` is the iteration order of the task set (scaled/scheduler/allocators/queued.py). -/
def removeWorker (a : Alloc) (w : Bytes) (hint : List Bytes) : Py (List Bytes × Alloc) :=
  if !a.w2t.has w then .ok ([], a)
  else do
    let queue ← a.queue.remove w
    let (s, w2t) ← a.w2t.pop w
    let ts := orderBy hint s.items
    let t2w ← OneToMany.popAll a.t2w ts
    return (ts, { a with w2t, t2w, queue })

/-- `get_worker_ids`, 38-39 (scaled/scheduler/allocators/queued.py) -/
def workerIds (a : Alloc) : PySet Bytes := PySet.ofList a.w2t.keys

/-- `math.ceil(count - mean)` with `mean = sum / n` (53-55).  Exact fractions instead of floats; `Alloc.balanceFloat` has the floats, and gives the same (scaled/scheduler/allocators/queued.py). -/
def ceilDiff (count sum n : Int) : Int := -((sum - count * n) / n)

/-- `balance`, 41-55.  `count > mean` is `count * n > sum`; exact fractions instead of floats (see `Alloc.balanceFloat`) (scaled/scheduler/allocators/queued.py). -/
def balance (a : Alloc) : Dict Bytes Int :=
  let counts : List (Bytes × Int) := a.w2t.items.map fun (w, s) => (w, (s.size : Int))
  if !(counts.any fun p => p.2 ≠ 0) then Dict.empty
  else if !(!(counts.all fun p => p.2 ≠ 0)) then Dict.empty
  else
    let sum := (counts.map (·.2)).sum
    let n : Int := counts.length
    Dict.ofList ((counts.filter fun p => decide (p.2 * n > sum)).map fun p => (p.1, ceilDiff p.2 sum n))

/-- `assign_task`, 57-70, from the moment `_worker_queue.get()` (58) does not have to wait (scaled/scheduler/allocators/queued.py). -/
def assignTask (a : Alloc) (t : Bytes) : Py (Option Bytes × Alloc) := do
  let ((count, w), queue) ← a.queue.get
  if count = a.max then
    return (none, { a with queue := queue.put (count, w) })
  else
    match a.t2w.get? t with
    | some w' => return (some w', { a with queue := queue.put (count, w) })
    | none =>
      let queue := queue.put (count + 1, w)
      let s ← a.w2t.getPy w
      return (some w, { a with queue, w2t := a.w2t.set w (s.add t), t2w := a.t2w.set t w })

/-- `remove_task`, 72-80 (scaled/scheduler/allocators/queued.py) -/
def removeTask (a : Alloc) (t : Bytes) : Py (Option Bytes × Alloc) :=
  match a.t2w.get? t with
  | none => .ok (none, a)
  | some w => do
    let t2w := a.t2w.erase t
    let s ← a.w2t.getPy w
    let s ← s.remove t
    let queue ← a.queue.decrease w
    return (some w, { a with t2w, w2t := a.w2t.set w s, queue })

/-- `get_assigned_worker`, 82-86 (scaled/scheduler/allocators/queued.py) -/
def assignedWorker (a : Alloc) (t : Bytes) : Option Bytes := a.t2w.get? t

/-- `has_available_worker`, 88-96 (scaled/scheduler/allocators/queued.py) -/
def hasAvailableWorker (a : Alloc) : Py (Bool × Alloc) :=
  if a.queue.len = 0 then .ok (false, a)
  else do
    let (count, queue) ← a.queue.maxPriority
    return (if count = a.max then false else true, { a with queue })

/-- `statistics`, 98-102: (free, sent) per worker (scaled/scheduler/allocators/queued.py). -/
def statistics (a : Alloc) : List (Bytes × Int × Int) :=
  a.w2t.items.map fun (w, s) => (w, a.max - s.size, s.size)

end Alloc

end Verif.Sched
