import Verif.Queue.Indexed
import Verif.Queue.Priority

/-!
# What an operation looks at and what it moves

The comments of the queues say what their operations cost
(`scaled/utility/queues/async_indexed_queue.py` 15-20: put, get and remove in O(1);
`scaled/utility/queues/async_priority_queue.py` 31-33, 41-42: remove and decrease_priority in O(log n)).
Cost is stated here without counting steps: an operation looks at no more than what decides its outcome,
and moves no more than what is different afterwards.
-/

namespace Verif.Spec

variable {α β η : Type}

/-- The two orders answer alike for the pairs of a list. -/
def AgreeOn (S : List (α × α)) (lt lt' : α → α → Bool) : Prop := ∀ p ∈ S, lt' p.1 p.2 = lt p.1 p.2

/-- At most `k` comparisons decide the outcome of `f`. -/
def Asks (k : Nat) (lt : α → α → Bool) (f : (α → α → Bool) → β) : Prop :=
  ∃ S : List (α × α), S.length ≤ k ∧ ∀ lt', AgreeOn S lt lt' → f lt' = f lt

/-- At most `k` places of a list are different afterwards. -/
def Moves (k : Nat) (before after : List α) : Prop :=
  ∃ ps : List Nat, ps.length ≤ k ∧ ∀ i, i ∉ ps → after[i]? = before[i]?

/-- At most `k` entries of a priority queue, and the entry `r` itself, decide where `r` is found. -/
def Looks (k : Nat) (q : Queue.PQueue) (r : Nat) : Prop :=
  ∃ ids : List Nat, ids.length ≤ k ∧ ∀ store : Dict Nat (Int × Bytes),
    (∀ i ∈ r :: ids, store.get? i = q.store.get? i) → Queue.PQueue.index { q with store } r = q.index r

variable [DecidableEq η]

/-- Two queues that look alike to somebody who sees the nodes `ids`, what the index has for `k`, and the fields of
the queue itself. -/
def Near (ids : List Nat) (k : η) (q p : Queue.IQueue α η) : Prop :=
  p.head = q.head ∧ p.tail = q.tail ∧ p.size = q.size ∧ p.fresh = q.fresh ∧ p.map.get? k = q.map.get? k ∧
    ∀ i ∈ ids, p.store.get? i = q.store.get? i

/-- Everything else is as it was. -/
def Far (ids : List Nat) (k : η) (q q' : Queue.IQueue α η) : Prop :=
  (∀ i, i ∉ ids → q'.store.get? i = q.store.get? i) ∧ ∀ k', k' ≠ k → q'.map.get? k' = q.map.get? k'

/-- The two outcomes look alike. -/
def Alike (ids : List Nat) (k : η) : Py (β × Queue.IQueue α η) → Py (β × Queue.IQueue α η) → Prop
  | .ok r, .ok s => s.1 = r.1 ∧ Near ids k r.2 s.2
  | .error e, .error e' => e = e'
  | _, _ => False

/-- `f` looks at, and changes, at most `n` nodes and one entry of the index. -/
def Constant (n : Nat) (q : Queue.IQueue α η) (f : Queue.IQueue α η → Py (β × Queue.IQueue α η)) : Prop :=
  ∃ (ids : List Nat) (k : η), ids.length ≤ n ∧ (∀ r, f q = .ok r → Far ids k q r.2) ∧
    ∀ p, Near ids k q p → Alike ids k (f q) (f p)

end Verif.Spec
