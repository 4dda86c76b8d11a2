import Verif.System.System
import Verif.Spec.Running
import Verif.Spec.Processor
import Verif.Props.SchedView

/-!
# C89: runs in which the scheduler does not give up a worker that has a task
-/

namespace Verif.Spec

open Verif.Wire Verif.System

variable {F V X : Type}

/-- Runs in which no step takes away the worker of a task in `P`: after the step the worker that had the task
before it is still known to the scheduler.  The scheduler forgets a worker when it says goodbye or when its
heartbeats are late (/repo/scaled/scheduler/worker_manager.py lines 98-106 and 137-149). -/
inductive Steady (p : Client.Pickle) (rt : Proc.Runtime F V X) (cfg : Sched.Config) (P : Bytes → Prop) : Sys F → Prop where
  | init : Steady p rt cfg P (Sys.init cfg)
  | step {s s' : Sys F} (o : Op) (h : Steady p rt cfg P s) (hs : s.step p rt o = some s')
      (hk : ∀ t w, P t → Props.workerOf s.sched t = some w → Props.Connected s'.sched w) : Steady p rt cfg P s'

/-- How often the agent gave the task `t` to its processors. -/
def givenOut (t : Bytes) (l : Worker.Hist) : Nat := Worker.times (Worker.isTold t) l

/-- How often the processor received the task `t`. -/
def began (t : Bytes) (q : Proc.Proc F) : Nat := Processor.times (Processor.isTask t) q.log

/-- How often the processor answered the task `t`. -/
def ended (t : Bytes) (q : Proc.Proc F) : Nat := Processor.times (Processor.isAnswer t) q.log

end Verif.Spec
