import Verif.Base.Py

/-!
# Specification of the indexed queue

A FIFO of unique items is a list, oldest first.
-/

namespace Verif.Spec

/-- Client-visible operations of `IndexedQueue`. -/
inductive QOp (α : Type) where
  | put (a : α)
  | get
  | remove (a : α)
  | contains (a : α)
  | len
  deriving Repr

/-- What the caller sees. -/
inductive QObs (α : Type) where
  | done
  | item (a : α)
  | bool (b : Bool)
  | num (n : Int)
  | raised (e : PyErr)
  deriving DecidableEq, Repr

/-- The item named by an operation. -/
def QOp.arg {α} : QOp α → List α
  | .put a | .remove a | .contains a => [a]
  | .get | .len => []

/-- One operation on a FIFO of unique items. -/
def fifoStep {α} [DecidableEq α] (l : List α) : QOp α → List α × QObs α
  | .put a => if a ∈ l then (l, .raised .keyError) else (l ++ [a], .done)
  | .get =>
    match l with
    | [] => ([], .raised .queueEmpty)
    | a :: l => (l, .item a)
  | .remove a => if a ∈ l then (l.erase a, .done) else (l, .raised .keyError)
  | .contains a => (l, .bool (decide (a ∈ l)))
  | .len => (l, .num l.length)

/-- Observations of a sequence of operations. -/
def fifoTrace {α} [DecidableEq α] (l : List α) : List (QOp α) → List (QObs α)
  | [] => []
  | op :: ops => (fifoStep l op).2 :: fifoTrace (fifoStep l op).1 ops

end Verif.Spec
