import Verif.Queue.IndexedObject
import Verif.Queue.PriorityObject

/-!
# Waiting for a queue

`IndexedQueue` (scaled/utility/queues/async_indexed_queue.py 11-39) and `PriorityQueue`
(scaled/utility/queues/async_priority_queue.py 8-51) are subclasses of `asyncio.Queue`: `put` and `get` are those of
asyncio, which call the hooks `_put` and `_get` of the subclass.  Here is what asyncio does around the hooks: a `get` on an
empty queue makes a future, puts it into `_getters` and waits; `put` takes the oldest future out and sets it; the event loop
runs the getter some time later, when other calls may have come in between, and it looks at the queue again.

Simplified: the queues have no limit, so nobody waits in `put`; `task_done` and `join` are not used; a cancelled future
leaves `_getters` at once (asyncio skips it until the getter has run).  Getters are numbers; one that waits calls nothing.
-/

namespace Verif.Queue

/-- What a subclass of `asyncio.Queue` brings along: `_put`, `_get`, `__len__` and methods of its own
(async_indexed_queue.py 22-39, async_priority_queue.py 14-51). -/
structure Hooks (σ α β ε : Type) where
  put : α → Doing σ Unit
  take : Doing σ β
  len : σ → Int
  /-- methods that asyncio knows nothing of -/
  own : ε → Doing σ Unit

/-- An `asyncio.Queue` with its futures (scaled/utility/queues/async_indexed_queue.py 11-29,
scaled/utility/queues/async_priority_queue.py 8-19). -/
structure AQueue (σ : Type) where
  items : σ
  /-- `_getters`, oldest first: nobody has set their futures -/
  waiting : List Nat := []
  /-- their futures are set, the event loop has not run them since -/
  woken : List Nat := []
  deriving DecidableEq

/-- What happens to the queue (calls of scaled/scheduler/task_manager.py 64-109, scaled/worker/agent/task_manager.py 31-72,
scaled/scheduler/graph_manager.py 107 and 129, scaled/scheduler/allocators/queued.py 24-67). -/
inductive WOp (α ε : Type) where
  /-- `await queue.put(item)`, which does not suspend -/
  | put (a : α)
  /-- `queue.get_nowait()` -/
  | getNow
  /-- `await queue.get()` begins -/
  | call (g : Nat)
  /-- the event loop runs a getter whose future is set -/
  | resume (g : Nat)
  /-- the coroutine is cancelled in `get` -/
  | cancel (g : Nat)
  /-- a method of the subclass -/
  | own (e : ε)
  deriving DecidableEq, Repr

/-- What is seen of it (calls of scaled/scheduler/task_manager.py 64-109, scaled/worker/agent/task_manager.py 31-72). -/
inductive WObs (β : Type) where
  | done
  /-- `get` of a getter returned -/
  | gave (g : Nat) (b : β)
  /-- `get_nowait` returned -/
  | got (b : β)
  /-- the getter waits -/
  | sleeps (g : Nat)
  | raised (e : PyErr)
  deriving DecidableEq, Repr

namespace AQueue
variable {σ α β ε : Type}

/-- asyncio's `_wakeup_next(self._getters)` (used by `put` of scaled/utility/queues/async_indexed_queue.py 31-32 and of
scaled/utility/queues/async_priority_queue.py 21-23) -/
def wakeNext (s : AQueue σ) : AQueue σ :=
  match s.waiting with
  | [] => s
  | g :: gs => { s with waiting := gs, woken := s.woken ++ [g] }

/-- The loop of asyncio's `get`: wait while the queue is empty, then `_get` (async_indexed_queue.py 34-35,
async_priority_queue.py 25-28). -/
def look (h : Hooks σ α β ε) (s : AQueue σ) (g : Nat) : AQueue σ × WObs β :=
  if h.len s.items = 0 then ({ s with waiting := s.waiting ++ [g] }, .sleeps g)
  else
    match h.take s.items with
    | (.ok b, items) => ({ s with items }, .gave g b)
    | (.error e, items) => ({ s with items }, .raised e)

/-- One event; what a method assigned before it raised stays (asyncio around async_indexed_queue.py 22-39 and
async_priority_queue.py 14-51). -/
def step (h : Hooks σ α β ε) (s : AQueue σ) : WOp α ε → AQueue σ × WObs β
  | .put a =>
    match h.put a s.items with
    | (.ok _, items) => (wakeNext { s with items }, .done)
    | (.error e, items) => ({ s with items }, .raised e)
  | .getNow =>
    if h.len s.items = 0 then (s, .raised .queueEmpty)
    else
      match h.take s.items with
      | (.ok b, items) => ({ s with items }, .got b)
      | (.error e, items) => ({ s with items }, .raised e)
  | .call g => if g ∈ s.waiting ++ s.woken then (s, .done) else s.look h g
  | .resume g => if g ∈ s.woken then look h { s with woken := s.woken.erase g } g else (s, .done)
  | .cancel g =>
    if g ∈ s.waiting then ({ s with waiting := s.waiting.erase g }, .done)
    else if g ∈ s.woken then
      let s := { s with woken := s.woken.erase g }
      (if h.len s.items = 0 then s else s.wakeNext, .done)
    else (s, .done)
  | .own e =>
    match h.own e s.items with
    | (.ok _, items) => ({ s with items }, .done)
    | (.error e, items) => ({ s with items }, .raised e)

/-- The events one after the other (calls of scaled/scheduler/task_manager.py 64-109, scaled/worker/agent/task_manager.py
31-72). -/
def run (h : Hooks σ α β ε) (s : AQueue σ) (ops : List (WOp α ε)) : AQueue σ :=
  ops.foldl (fun s op => (s.step h op).1) s

/-- What is seen of them (calls of scaled/scheduler/task_manager.py 64-109, scaled/worker/agent/task_manager.py 31-72). -/
def trace (h : Hooks σ α β ε) (s : AQueue σ) : List (WOp α ε) → List (WObs β)
  | [] => []
  | op :: ops => (s.step h op).2 :: trace h (s.step h op).1 ops

end AQueue

/-- `IndexedQueue`, async_indexed_queue.py 22-39; its own method is `remove`. -/
def indexedHooks {α η : Type} [DecidableEq α] [DecidableEq η] (hash : α → η) : Hooks (IQueue α η) α α α where
  put := IQueue.Object.put hash
  take := IQueue.Object.get hash
  len := IQueue.len
  own := IQueue.Object.remove hash

/-- The methods of `PriorityQueue` beside `put` and `get` (async_priority_queue.py 30-51). -/
inductive PriorityOwn where
  | remove (d : Bytes)
  | decrease (d : Bytes)
  | maxPriority
  deriving DecidableEq, Repr

/-- `PriorityQueue`, async_priority_queue.py 14-51 -/
def priorityHooks : Hooks PQueue (Int × Bytes) (Int × Bytes) PriorityOwn where
  put := PQueue.Object.put
  take := PQueue.Object.get
  len q := q.len
  own
    | .remove d => PQueue.Object.remove d
    | .decrease d => PQueue.Object.decrease d
    | .maxPriority => do
      let _ ← PQueue.Object.maxPriority

/-- `asyncio.Queue` itself, which scaled/scheduler/graph_manager.py 87 uses: nothing of its own. -/
def plainHooks {α : Type} : Hooks (List α) α α Empty where
  put a := Doing.assign fun l => l ++ [a]
  take
    | [] => (.error .indexError, [])
    | a :: l => (.ok a, l)
  len l := l.length
  own e := nomatch e

end Verif.Queue
