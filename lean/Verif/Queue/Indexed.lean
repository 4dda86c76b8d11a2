import Verif.Base.Dict

/-!
# `scaled/utility/queues/async_indexed_queue.py`

The linked list is modelled with explicit objects: a node is a number (its identity) and
`store` maps it to its fields, so `prev`/`next` aliasing is what it is in Python.  Objects
are never deallocated in the model.  `hash` is Python's `hash()`, a parameter.
Reading a field of an identity that is not in the store cannot happen in Python; the model
raises `attributeError` there and the theorems show it does not happen.
-/

namespace Verif.Queue

/-- `_Node`, lines 42-46 (scaled/utility/queues/async_indexed_queue.py). -/
structure Node (α : Type) where
  value : α
  prev : Option Nat := none
  next : Option Nat := none
  deriving DecidableEq

/-- `_IndexedDoubleLinkedQueue` (111-114) with its `_DoubleLinkedList` (49-53) inlined (scaled/utility/queues/async_indexed_queue.py). -/
structure IQueue (α η : Type) where
  /-- all node objects ever created -/
  store : Dict Nat (Node α)
  /-- next unused identity -/
  fresh : Nat
  head : Option Nat
  tail : Option Nat
  size : Int
  /-- `_hash_map` -/
  map : Dict η Nat
  deriving DecidableEq

namespace IQueue
variable {α η : Type} [DecidableEq η]

/-- lines 50-53, 112-114 (scaled/utility/queues/async_indexed_queue.py) -/
def empty : IQueue α η := ⟨Dict.empty, 0, none, none, 0, Dict.empty⟩

instance : Inhabited (IQueue α η) := ⟨empty⟩

/-- Read a node object (scaled/utility/queues/async_indexed_queue.py 42-46). -/
def node (q : IQueue α η) (i : Nat) : Py (Node α) := orRaise (q.store.get? i) .attributeError

/-- Assign the `prev` field of a node object (scaled/utility/queues/async_indexed_queue.py 64, 89, 104). -/
def setPrev (q : IQueue α η) (i : Nat) (p : Option Nat) : Py (IQueue α η) := do
  let n ← q.node i
  return { q with store := q.store.set i { n with prev := p } }

/-- Assign the `next` field of a node object (scaled/utility/queues/async_indexed_queue.py 63, 79, 88, 99). -/
def setNext (q : IQueue α η) (i : Nat) (p : Option Nat) : Py (IQueue α η) := do
  let n ← q.node i
  return { q with store := q.store.set i { n with next := p } }

/-- `_DoubleLinkedList.add_to_head`, 58-67 (scaled/utility/queues/async_indexed_queue.py) -/
def addToHead (q : IQueue α η) (i : Nat) : Py (IQueue α η) := do
  let q ← match q.head with
    | none => pure { q with head := some i, tail := some i }
    | some h => do
      let q ← q.setNext i (some h)
      let q ← q.setPrev h (some i)
      pure { q with head := some i }
  return { q with size := q.size + 1 }

/-- `_DoubleLinkedList.remove_tail`, 69-82 (scaled/utility/queues/async_indexed_queue.py) -/
def removeTail (q : IQueue α η) : Py (Nat × IQueue α η) :=
  match q.tail with
  | none => .error .queueEmpty
  | some t => do
    let n ← q.node t
    let q ← match n.prev with
      | none => pure { q with head := none, tail := none }
      | some p => do
        let q ← q.setNext p none
        pure { q with tail := some p }
    return (t, { q with size := q.size - 1 })

/-- `_DoubleLinkedList.remove`, 84-108 (scaled/utility/queues/async_indexed_queue.py) -/
def unlink (q : IQueue α η) (i : Nat) : Py (IQueue α η) := do
  let n ← q.node i
  let q ← match n.prev, n.next with
    | some p, some x => do
      let q ← q.setNext p (some x)
      q.setPrev x (some p)
    | none, none => do
      pyAssert (q.head == some i)
      pyAssert (q.tail == some i)
      pure { q with head := none, tail := none }
    | some p, none => do
      pyAssert (q.tail == some i)
      let q ← q.setNext p none
      pure { q with tail := some p }
    | none, some x => do
      pyAssert (q.head == some i)
      let q ← q.setPrev x none
      pure { q with head := some x }
  return { q with size := q.size - 1 }

/-- `__contains__`, 116-118 (scaled/utility/queues/async_indexed_queue.py) -/
def contains (hash : α → η) (q : IQueue α η) (a : α) : Bool := q.map.has (hash a)

/-- `__len__`, 55-56 and 120-121 (scaled/utility/queues/async_indexed_queue.py) -/
def len (q : IQueue α η) : Int := q.size

/-- `put`, 123-130.  `IndexedQueue.put` (31-32, asyncio `Queue.put` on an unbounded queue)
does not suspend (scaled/utility/queues/async_indexed_queue.py). -/
def put (hash : α → η) (q : IQueue α η) (a : α) : Py (IQueue α η) := do
  raiseIf (q.map.has (hash a)) .keyError
  let i := q.fresh
  let q := { q with store := q.store.set i { value := a }, fresh := i + 1 }
  let q ← q.addToHead i
  return { q with map := q.map.set (hash a) i }

/-- `get`, 132-135; this is `get_nowait`, the waiting of asyncio's `Queue.get` on an empty
queue is the caller's business (scaled/utility/queues/async_indexed_queue.py). -/
def get (hash : α → η) (q : IQueue α η) : Py (α × IQueue α η) := do
  let (i, q) ← q.removeTail
  let n ← q.node i
  let (_, m) ← q.map.pop (hash n.value)
  return (n.value, { q with map := m })

/-- `remove`, 137-143 (scaled/utility/queues/async_indexed_queue.py) -/
def remove (hash : α → η) (q : IQueue α η) (a : α) : Py (IQueue α η) := do
  raiseIf (!q.map.has (hash a)) .keyError
  let (i, m) ← q.map.pop (hash a)
  { q with map := m }.unlink i

/-- Contents from oldest to newest: follow `prev` from the tail for at most `n` nodes.
Only used to state properties; no Python counterpart (scaled/utility/queues/async_indexed_queue.py 49-82). -/
def walk (q : IQueue α η) : Nat → Option Nat → List α
  | 0, _ => []
  | _, none => []
  | n + 1, some i =>
    match q.store.get? i with
    | none => []
    | some nd => nd.value :: q.walk n nd.prev

/-- Contents from oldest to newest (no Python counterpart; the queue of scaled/utility/queues/async_indexed_queue.py 111-143). -/
def contents (q : IQueue α η) : List α := q.walk q.size.toNat q.tail

end IQueue

end Verif.Queue
