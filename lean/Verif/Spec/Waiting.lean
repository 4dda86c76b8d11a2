import Verif.Queue.Waiting
import Verif.Spec.Queue

/-!
# Specification of waiting for a queue
-/

namespace Verif.Spec

open Verif.Queue

/-- Nobody sleeps over the items: while a getter waits, for every item there is a getter that was woken and will look. -/
def NoSleeper (n : Int) (waiting woken : List Nat) : Prop := waiting ≠ [] → n ≤ woken.length

/-- What a subclass has to do for that: `put` adds one item or raises and adds none, `get` takes one, even if it raises
then, and the other methods add none. -/
structure CountsItems {σ α β ε : Type} (h : Hooks σ α β ε) (Good : σ → Prop) : Prop where
  len : ∀ s, Good s → 0 ≤ h.len s
  put : ∀ s a, Good s → Good (h.put a s).2 ∧
    (∀ u, (h.put a s).1 = .ok u → h.len (h.put a s).2 = h.len s + 1) ∧
    (∀ e, (h.put a s).1 = .error e → h.len (h.put a s).2 ≤ h.len s)
  take : ∀ s, Good s → 0 < h.len s → Good (h.take s).2 ∧ h.len (h.take s).2 = h.len s - 1
  own : ∀ s e, Good s → Good (h.own e s).2 ∧ h.len (h.own e s).2 ≤ h.len s

/-- The event is not a call of another getter than `g`. -/
def OnlyGetter {α ε : Type} (g : Nat) : WOp α ε → Prop
  | .call g' => g' = g
  | _ => True

/-- The calls that somebody who does not care about waiting sees: an item that was given out was taken by a `get`. -/
def callsOf {α : Type} : List (WOp α α) → List (WObs α) → List (QOp α)
  | .put a :: ops, _ :: os => .put a :: callsOf ops os
  | .own a :: ops, _ :: os => .remove a :: callsOf ops os
  | _ :: ops, .gave _ _ :: os => .get :: callsOf ops os
  | _ :: ops, .got _ :: os => .get :: callsOf ops os
  | _ :: ops, _ :: os => callsOf ops os
  | _, _ => []

/-- What these calls show. -/
def shownOf {α : Type} : List (WOp α α) → List (WObs α) → List (QObs α)
  | .put _ :: ops, .raised e :: os => .raised e :: shownOf ops os
  | .put _ :: ops, _ :: os => .done :: shownOf ops os
  | .own _ :: ops, .raised e :: os => .raised e :: shownOf ops os
  | .own _ :: ops, _ :: os => .done :: shownOf ops os
  | _ :: ops, .gave _ a :: os => .item a :: shownOf ops os
  | _ :: ops, .got a :: os => .item a :: shownOf ops os
  | _ :: ops, _ :: os => shownOf ops os
  | _, _ => []

end Verif.Spec
