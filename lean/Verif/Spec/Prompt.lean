import Verif.Sched.Step

/-!
# Executions in which the task routine gets its turn

The task routine waits for a task in the waiting queue (task_manager.py 63-64); asyncio wakes it when one is
put there.  In the executions described here it has a turn after tasks were submitted, before anything else
happens that concerns workers or ends tasks.  Only the events are looked at.
-/

namespace Verif.Spec

open Verif.Wire Verif.Sched

/-- Is a turn of the task routine due after the event, if it was (`due`) or was not before?  `none`: the event
has to wait for the turn. -/
def nextDue (due : Bool) (e : Event) : Option Bool :=
  match e.op with
  | .taskRoutine => some false
  -- tasks may be submitted
  | .recv _ (.task _) => some true
  | .graphRoutine => some true
  | .recv _ (.taskResult _ _ _ _) => if due then none else some true
  -- neither tasks nor workers
  | .recv _ (.graphTask _) => some due
  | .recv _ (.functionRequest _ _ _ _) => some due
  | .functionRoutine => some due
  | .report => some due
  -- the rest
  | _ => if due then none else some false

/-- Is a turn of the task routine due after these events?  `none`: some event did not wait for the turn. -/
def turnDue (es : List Event) : Option Bool := es.foldl (fun d e => d.bind fun d => nextDue d e) (some false)

/-- The task routine had its turns. -/
def Prompt (es : List Event) : Prop := turnDue es ≠ none

instance (es : List Event) : Decidable (Prompt es) := inferInstanceAs (Decidable (_ ≠ _))

theorem turnDue_snoc (es : List Event) (e : Event) : turnDue (es ++ [e]) = (turnDue es).bind fun d => nextDue d e := by
  simp [turnDue, List.foldl_append]

theorem Prompt.init {es : List Event} {e : Event} (h : Prompt (es ++ [e])) : Prompt es := by
  intro hn
  apply h
  rw [turnDue_snoc, hn]; rfl

end Verif.Spec
