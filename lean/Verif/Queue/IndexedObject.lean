import Verif.Base.Object
import Verif.Queue.Indexed

/-!
# The indexed queue as an object

`scaled/utility/queues/async_indexed_queue.py` 49-143 once more, one assignment after the other: what was assigned before
an exception stays (`Base/Object`).  In `Queue/Indexed` an operation that raises gives no queue.
-/

namespace Verif.Queue

variable {α η : Type} [DecidableEq α] [DecidableEq η]

namespace IQueue.Object

open Doing

/-- Read a node object (async_indexed_queue.py 42-46). -/
def node (i : Nat) : Doing (IQueue α η) (Node α) := do
  let q ← self
  match q.store.get? i with
  | some n => return n
  | none => fail .attributeError

/-- Assign the `prev` field of a node object (async_indexed_queue.py 64, 89, 104). -/
def setPrev (i : Nat) (p : Option Nat) : Doing (IQueue α η) Unit := do
  let n ← node i
  assign fun q => { q with store := q.store.set i { n with prev := p } }

/-- Assign the `next` field of a node object (async_indexed_queue.py 63, 79, 88, 99). -/
def setNext (i : Nat) (p : Option Nat) : Doing (IQueue α η) Unit := do
  let n ← node i
  assign fun q => { q with store := q.store.set i { n with next := p } }

/-- `_DoubleLinkedList.add_to_head`, async_indexed_queue.py 58-67 -/
def addToHead (i : Nat) : Doing (IQueue α η) Unit := do
  let q ← self
  match q.head with
  | none =>
    assign fun q => { q with head := some i }
    assign fun q => { q with tail := some i }
  | some h =>
    setNext i (some h)
    setPrev h (some i)
    assign fun q => { q with head := some i }
  assign fun q => { q with size := q.size + 1 }

/-- `_DoubleLinkedList.remove_tail`, async_indexed_queue.py 69-82 -/
def removeTail : Doing (IQueue α η) Nat := do
  let q ← self
  match q.tail with
  | none => fail .queueEmpty
  | some t =>
    let n ← node t
    match n.prev with
    | none =>
      assign fun q => { q with head := none }
      assign fun q => { q with tail := none }
    | some p =>
      assign fun q => { q with tail := some p }
      setNext p none
    assign fun q => { q with size := q.size - 1 }
    return t

/-- `_DoubleLinkedList.remove`, async_indexed_queue.py 84-108 -/
def unlink (i : Nat) : Doing (IQueue α η) Unit := do
  let n ← node i
  let q ← self
  match n.prev, n.next with
  | some p, some x =>
    setNext p (some x)
    setPrev x (some p)
  | none, none =>
    check (q.head == some i)
    check (q.tail == some i)
    assign fun q => { q with head := none }
    assign fun q => { q with tail := none }
  | some p, none =>
    check (q.tail == some i)
    setNext p none
    assign fun q => { q with tail := some p }
  | none, some x =>
    check (q.head == some i)
    setPrev x none
    assign fun q => { q with head := some x }
  assign fun q => { q with size := q.size - 1 }

/-- `put`, async_indexed_queue.py 123-130; a new node object is one that nobody knows yet. -/
def put (hash : α → η) (a : α) : Doing (IQueue α η) Unit := do
  let q ← self
  if q.map.has (hash a) then fail .keyError
  else
    let i := q.fresh
    assign fun q => { q with store := q.store.set i { value := a }, fresh := i + 1 }
    addToHead i
    assign fun q => { q with map := q.map.set (hash a) i }

/-- `get`, async_indexed_queue.py 132-135 -/
def get (hash : α → η) : Doing (IQueue α η) α := do
  let i ← removeTail
  let n ← node i
  let q ← self
  match q.map.pop (hash n.value) with
  | .ok (_, m) =>
    assign fun q => { q with map := m }
    return n.value
  | .error e => fail e

/-- `remove`, async_indexed_queue.py 137-143 -/
def remove (hash : α → η) (a : α) : Doing (IQueue α η) Unit := do
  let q ← self
  if q.map.has (hash a) then
    match q.map.pop (hash a) with
    | .ok (i, m) =>
      assign fun q => { q with map := m }
      unlink i
    | .error e => fail e
  else fail .keyError

end IQueue.Object

end Verif.Queue
