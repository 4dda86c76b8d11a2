import Verif.Base.Py

/-!
# Specification of the priority queue

A priority queue is a list of `(priority, data)` entries with different data, in no particular
order.
-/

namespace Verif.Spec

/-- An entry of the queue. -/
abbrev Entry := Int × Bytes

/-- Smaller priority first; equal priorities by data, in lexicographic order. -/
def before (a b : Entry) : Prop := a.1 < b.1 ∨ (a.1 = b.1 ∧ a.2 < b.2)

instance (a b : Entry) : Decidable (before a b) := by unfold before; infer_instance

/-- The first entry of a list of entries. -/
def least : List Entry → Option Entry
  | [] => none
  | e :: s =>
    match least s with
    | none => some e
    | some m => if before m e then some m else some e

/-- Client-visible operations of `PriorityQueue`. -/
inductive POp where
  | put (p : Int) (d : Bytes)
  | get
  | remove (d : Bytes)
  | decrease (d : Bytes)
  | maxPriority
  deriving DecidableEq, Repr

/-- What the caller sees. -/
inductive PObs where
  | done
  /-- `await get()` does not return yet -/
  | waits
  | item (e : Entry)
  | priority (p : Int)
  | raised (e : PyErr)
  deriving DecidableEq, Repr

/-- One operation on a list of entries. -/
def pqStep (s : List Entry) : POp → List Entry × PObs
  | .put p d => ((p, d) :: s, .done)
  | .get =>
    match least s with
    | none => (s, .waits)
    | some e => (s.erase e, .item e)
  | .remove d =>
    if d ∈ s.map (·.2) then (s.filter (·.2 ≠ d), .done) else (s, .raised .keyError)
  | .decrease d =>
    if d ∈ s.map (·.2) then (s.map fun e => if e.2 = d then (e.1 - 1, d) else e, .done)
    else (s, .raised .keyError)
  | .maxPriority =>
    match least s with
    | none => (s, .raised .indexError)
    | some e => (s, .priority e.1)

/-- Observations of a sequence of operations. -/
def pqTrace (s : List Entry) : List POp → List PObs
  | [] => []
  | op :: ops => (pqStep s op).2 :: pqTrace (pqStep s op).1 ops

/-- How the allocator uses the queue (`queued.py`): only new data are put, and priorities are
counts, never negative. -/
def usage (s : List Entry) : POp → Prop
  | .put p d => d ∉ s.map (·.2) ∧ 0 ≤ p
  | .decrease d => ∀ p, (p, d) ∈ s → 1 ≤ p
  | _ => True

instance (s : List Entry) (op : POp) : Decidable (usage s op) := by
  cases op <;> simp only [usage] <;> try infer_instance
  next d =>
  exact decidable_of_iff (∀ e ∈ s, e.2 = d → 1 ≤ e.1) (by
    constructor
    · intro h p hp; exact h _ hp rfl
    · rintro h ⟨p, d'⟩ he rfl; exact h p he)

/-- Every operation of a sequence follows the usage rules. -/
def pqUsage (s : List Entry) : List POp → Prop
  | [] => True
  | op :: ops => usage s op ∧ pqUsage (pqStep s op).1 ops

instance pqUsageDec : (ops : List POp) → (s : List Entry) → Decidable (pqUsage s ops)
  | [], _ => .isTrue trivial
  | op :: ops, s =>
    have := pqUsageDec ops (pqStep s op).1
    inferInstanceAs (Decidable (usage s op ∧ pqUsage (pqStep s op).1 ops))

/-- No `decrease_priority(d)`/`remove(d)` happens after a `max_priority()` that looked at the
entry of `d`, unless `d` was taken out by `get` in between.  `seen` are the data looked at. -/
def pqUnseen (s : List Entry) (seen : List Bytes) : List POp → Prop
  | [] => True
  | op :: ops =>
    match op with
    | .put _ _ => pqUnseen (pqStep s op).1 seen ops
    | .get =>
      pqUnseen (pqStep s op).1 (seen.filter fun d => decide ((least s).map (·.2) ≠ some d)) ops
    | .remove d | .decrease d => d ∉ seen ∧ pqUnseen (pqStep s op).1 seen ops
    | .maxPriority => pqUnseen (pqStep s op).1 (seen ++ ((least s).map (·.2)).toList) ops

end Verif.Spec
