import Verif.System.System

/-!
# C84: where a task is that was given to a worker
-/

namespace Verif.Spec

open Verif.Wire Verif.System

variable {F : Type}

/-- The worker `w` has the task `t`: it waits in the queue, in the hands of the loop that feeds the processor, or it
was given to the processor. -/
def Holds (a : Worker.Agent) (t : Bytes) : Prop :=
  t ∈ a.queue.contents ∨ (∃ k, k.taskId = t ∧ (a.pos = .lock k ∨ ∃ b, a.pos = .init k b)) ∨ ∃ k, k.taskId = t ∧ a.task = some k

/-- Where the task `t` is that the scheduler counts as given to `w`. -/
inductive Located (s : Sys F) (t w : Bytes) : Prop where
  /-- on the way to the worker -/
  | coming (k : Task) (hk : k.taskId = t) (h : (s.peers w).got (.task k) < s.sched.out.count (w, .task k))
  /-- at the worker -/
  | there (a : Worker.Agent) (ret : Int) (qs : List (Proc.Proc F)) (left : Option Bytes) (hw : s.peers w = .worker a ret qs left) (h : Holds a t)
  /-- its result is on the way to the scheduler -/
  | done (st : TaskStatus) (d : UInt32) (r : Bytes) (hst : st ≠ .notFound)
      (h : s.received.count (w, .taskResult t st d r) < (s.peers w).sent (.taskResult t st d r))
  /-- it is on the way back to the scheduler -/
  | back (ids : List Bytes) (ht : t ∈ ids) (h : s.received.count (w, .balanceResponse ids) < (s.peers w).sent (.balanceResponse ids))

end Verif.Spec
