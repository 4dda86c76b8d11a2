/-!
# Python values and exceptions

Basic vocabulary shared by all models.  A Python computation that may raise is a
value of `Py α`; an exception is data.
-/

namespace Verif

/-- Python `bytes`. -/
abbrev Bytes := List UInt8

/-- The Python exception classes that the modelled code can raise
(`scaled/scheduler/task_manager.py`, `scaled/protocol/python/message.py`, ...).
Messages of exceptions are not modelled. -/
inductive PyErr where
  | keyError
  | valueError
  | indexError
  | typeError
  | attributeError
  | assertionError
  | structError
  | notImplemented
  | queueEmpty
  | cycleError
  | unicodeError
  | timeoutError
  | invalidState
  | recursion
  | cursesError
  deriving DecidableEq, Repr

/-- A computation that returns a value or raises. -/
abbrev Py (α : Type _) := Except PyErr α

/-- Sequencing succeeds iff both parts do. -/
theorem Py.bind_ok {α β} {x : Py α} {f : α → Py β} {b : β} :
    (x >>= f) = .ok b ↔ ∃ a, x = .ok a ∧ f a = .ok b := by
  cases x with
  | error e => exact ⟨fun h => (by cases h), fun ⟨_, h, _⟩ => (by cases h)⟩
  | ok a => exact ⟨fun h => ⟨a, rfl, h⟩, fun ⟨_, h, h'⟩ => by cases h; exact h'⟩

@[simp] theorem Py.ok_bind {α β} (a : α) (f : α → Py β) :
    ((.ok a : Py α) >>= f) = f a := rfl

@[simp] theorem Py.error_bind {α β} (e : PyErr) (f : α → Py β) :
    ((.error e : Py α) >>= f) = .error e := rfl

theorem Py.map_ok {α β} {x : Py α} {f : α → β} {b : β} :
    (f <$> x) = .ok b ↔ ∃ a, x = .ok a ∧ f a = b := by
  cases x with
  | error e => exact ⟨fun h => (by cases h), fun ⟨_, h, _⟩ => (by cases h)⟩
  | ok a =>
    constructor
    · intro h; cases h; exact ⟨a, rfl, rfl⟩
    · rintro ⟨_, h, h'⟩; cases h; cases h'; rfl

@[simp] theorem Py.pure_eq {α} (a : α) : (pure a : Py α) = .ok a := rfl
@[simp] theorem Py.throw_eq {α} (e : PyErr) : (throw e : Py α) = .error e := rfl

instance {α} [DecidableEq α] : DecidableEq (Py α) := fun x y =>
  match x, y with
  | .ok a, .ok b => if h : a = b then .isTrue (h ▸ rfl) else .isFalse (fun e => h (by cases e; rfl))
  | .error a, .error b => if h : a = b then .isTrue (h ▸ rfl) else .isFalse (fun e => h (by cases e; rfl))
  | .ok _, .error _ => .isFalse (fun e => by cases e)
  | .error _, .ok _ => .isFalse (fun e => by cases e)

/-- `if b: raise e` -/
def raiseIf (b : Bool) (e : PyErr) : Py Unit := if b then .error e else .ok ()

@[simp] theorem raiseIf_ok {b : Bool} {e : PyErr} {u : Unit} : raiseIf b e = .ok u ↔ b = false := by
  cases b <;> simp [raiseIf]

/-- Python `assert`. -/
def pyAssert (b : Bool) : Py Unit := if b then .ok () else .error .assertionError

@[simp] theorem pyAssert_ok {b : Bool} {u : Unit} : pyAssert b = .ok u ↔ b = true := by
  cases b <;> simp [pyAssert]

/-- `l[i]` for a non-negative index. -/
def pyIndex {α} (l : List α) (i : Nat) : Py α :=
  match l[i]? with
  | some a => .ok a
  | none => .error .indexError

theorem pyIndex_ok {α} {l : List α} {i : Nat} {a : α} : pyIndex l i = .ok a ↔ l[i]? = some a := by
  unfold pyIndex; split <;> simp_all

/-- `l[i:j]` for non-negative `i`, `j`: slices never raise. -/
def pySlice {α} (l : List α) (i j : Nat) : List α := (l.drop i).take (j - i)

/-- `Option` to `Py` with a given exception. -/
def orRaise {α} (o : Option α) (e : PyErr) : Py α :=
  match o with
  | some a => .ok a
  | none => .error e

@[simp] theorem orRaise_ok {α} {o : Option α} {e : PyErr} {a : α} :
    orRaise o e = .ok a ↔ o = some a := by
  cases o <;> simp [orRaise]

end Verif
