import Verif.Base.Dict

/-!
# Iteration order of sets, and postconditions of computations that may raise
-/

namespace Verif

/-- Iterating over a Python `set`: the order is arbitrary, so it is an input of the step.  A hint
that is not an ordering of the set is ignored. -/
def orderBy {α : Type} [DecidableEq α] (hint s : List α) : List α := if hint.isPerm s then hint else s

theorem orderBy_perm {α : Type} [DecidableEq α] (hint s : List α) : (orderBy hint s).Perm s := by
  unfold orderBy
  split
  · next h => exact List.isPerm_iff.1 h
  · exact List.Perm.refl _

@[simp] theorem mem_orderBy {α : Type} [DecidableEq α] {hint s : List α} {a : α} : a ∈ orderBy hint s ↔ a ∈ s :=
  (orderBy_perm hint s).mem_iff

/-- The orders in which the sets met during one step are iterated, by an id that names the set. -/
abbrev Order := Bytes → List Bytes

/-- `Q` holds of the result, `E` of the exception. -/
def Py.Post {α : Type} (x : Py α) (Q : α → Prop) (E : PyErr → Prop) : Prop :=
  match x with
  | .ok a => Q a
  | .error e => E e

namespace Py

variable {α β : Type}

@[simp] theorem post_ok {a : α} {Q : α → Prop} {E : PyErr → Prop} : Post (.ok a) Q E ↔ Q a := Iff.rfl
@[simp] theorem post_pure {a : α} {Q : α → Prop} {E : PyErr → Prop} : Post (pure a) Q E ↔ Q a := Iff.rfl
@[simp] theorem post_error {e : PyErr} {Q : α → Prop} {E : PyErr → Prop} : Post (.error e) Q E ↔ E e := Iff.rfl

theorem post_bind {x : Py α} {f : α → Py β} {Q : β → Prop} {E : PyErr → Prop} :
    Post (x >>= f) Q E ↔ Post x (fun a => Post (f a) Q E) E := by
  cases x <;> rfl

theorem Post.imp {x : Py α} {Q Q' : α → Prop} {E E' : PyErr → Prop} (h : Post x Q E)
    (hq : ∀ a, Q a → Q' a) (he : ∀ e, E e → E' e) : Post x Q' E' := by
  cases x with
  | ok a => exact hq a h
  | error e => exact he e h

theorem post_iff {x : Py α} {Q : α → Prop} {E : PyErr → Prop} :
    Post x Q E ↔ (∀ a, x = .ok a → Q a) ∧ (∀ e, x = .error e → E e) := by
  cases x <;> simp [Post]

theorem Post.ok {x : Py α} {a : α} {Q : α → Prop} {E : PyErr → Prop} (h : Post x Q E) (hx : x = .ok a) : Q a := by
  subst hx; exact h

theorem Post.err {x : Py α} {e : PyErr} {Q : α → Prop} {E : PyErr → Prop} (h : Post x Q E) (hx : x = .error e) : E e := by
  rw [hx] at h; exact h

theorem Post.noError {x : Py α} {Q : α → Prop} (h : Post x Q (fun _ => False)) : ∃ a, x = .ok a ∧ Q a := by
  cases x with
  | ok a => exact ⟨a, rfl, h⟩
  | error e => exact h.elim

end Py

end Verif
