import Verif.Base.Dict

/-!
# Python methods on an object, one assignment after the other

Elsewhere in the model a method that raises gives no object.  Here what was assigned before an exception stays.
-/

namespace Verif

/-- Python code that works on an object with the state `σ`: it returns or raises, and leaves the object in some state
either way (no counterpart; used for scaled/utility/queues/async_indexed_queue.py 49-143,
scaled/utility/one_to_many_dict.py 27-75 and scaled/utility/key_value_set.py 26-51). -/
def Doing (σ β : Type) := σ → Py β × σ

namespace Doing
variable {σ β : Type}

/-- Statements one after the other; an exception ends the method (no counterpart; used for the methods of
scaled/utility/queues/async_indexed_queue.py 49-143 and scaled/utility/one_to_many_dict.py 27-75). -/
instance : Monad (Doing σ) where
  pure b s := (.ok b, s)
  bind m k s :=
    match m s with
    | (.ok b, s') => k b s'
    | (.error e, s') => (.error e, s')

/-- Look at the object (for example scaled/utility/one_to_many_dict.py 28). -/
def self : Doing σ σ := fun s => (.ok s, s)

/-- An assignment to fields of the object (for example scaled/utility/one_to_many_dict.py 31). -/
def assign (f : σ → σ) : Doing σ Unit := fun s => (.ok (), f s)

/-- `raise` (for example scaled/utility/one_to_many_dict.py 29). -/
def fail (e : PyErr) : Doing σ β := fun s => (.error e, s)

/-- An expression that may raise and changes nothing (for example scaled/utility/one_to_many_dict.py 36). -/
def eval (x : Py β) : Doing σ β := fun s => (x, s)

/-- `assert` (for example scaled/utility/queues/async_indexed_queue.py 92). -/
def check (b : Bool) : Doing σ Unit := if b then pure () else fail .assertionError

end Doing

theorem doing_bind {σ β γ : Type} (m : Doing σ β) (k : β → Doing σ γ) (s : σ) :
    (m >>= k) s = (match m s with
      | (.ok b, s') => k b s'
      | (.error e, s') => (.error e, s')) := rfl

theorem doing_pure {σ β : Type} (b : β) (s : σ) : (pure b : Doing σ β) s = (.ok b, s) := rfl

end Verif
