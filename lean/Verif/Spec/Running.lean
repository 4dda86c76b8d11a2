import Verif.System.System
import Verif.Spec.Worker

/-!
# C88: where the task is that a worker's agent gave to its processor
-/

namespace Verif.Spec

open Verif.Wire Verif.System
open Verif.Spec.Worker (Hist)

variable {F : Type}

/-- How often the agent told processor `n` the message `m`. -/
def toldTo (n : Nat) (m : Message) (l : Hist) : Nat := l.countP fun y => decide (y.2 = .told n m)

/-- How often the agent heard `m` from its processors. -/
def heardOf (m : Message) (l : Hist) : Nat := l.countP fun y => decide (y.2 = .heard m)

/-- How often the processor received `m`. -/
def taken (m : Message) (q : Proc.Proc F) : Nat := q.log.countP fun y => decide (y.2 = .recv m)

/-- No task was given to the processors twice. -/
def ToldOnce (l : Hist) : Prop := ∀ t, Worker.times (Worker.isTold t) l ≤ 1

/-- Where the question of processor `n` of worker `w` about the function `f`, or the answer, is. -/
inductive Inquired (s : Sys F) (w : Bytes) (a : Worker.Agent) (qs : List (Proc.Proc F)) (n : Nat) (q : Proc.Proc F) (f : Bytes) : Prop where
  /-- on the way from the processor to the agent -/
  | asking (h : heardOf (.functionRequest .request f [] []) a.log < procsSent (.functionRequest .request f [] []) qs)
  /-- on the way from the agent to the scheduler -/
  | sent (h : s.received.count (w, .functionRequest .request f [] []) < (s.peers w).sent (.functionRequest .request f [] []))
  /-- the answer is on the way to the agent -/
  | answered (st : FunctionResponseType) (nm c : Bytes)
      (h : (s.peers w).got (.functionResponse st f nm c) < s.sched.out.count (w, .functionResponse st f nm c))
  /-- the answer is on the way from the agent to the processor -/
  | told (st : FunctionResponseType) (nm c : Bytes) (h : taken (.functionResponse st f nm c) q < toldTo n (.functionResponse st f nm c) a.log)
  /-- the scheduler did not know the function; the agent drops this answer (processor_manager.py 108-110) -/
  | refused (nm c : Bytes) (h : 0 < (s.peers w).got (.functionResponse .notExists f nm c))

/-- Where the task `k` is that the agent `a` of worker `w` gave to its current processor `q`, number `n`. -/
inductive Runs (s : Sys F) (w : Bytes) (a : Worker.Agent) (qs : List (Proc.Proc F)) (n : Nat) (q : Proc.Proc F) (k : Task) : Prop where
  /-- on the way to the processor -/
  | coming (h : taken (.task k) q < toldTo n (.task k) a.log)
  /-- the processor lacks the function and asked for it -/
  | waiting (hq : q.task = some k) (h : Inquired s w a qs n q k.functionId)
  /-- the processor has just got a function -/
  | loading (f : Bytes) (hq : q.task = some k) (h : q.main = .added f)
  /-- the processor is about to call the function, or calls it -/
  | working (h : q.main = .stamp k ∨ q.main = .fetch k ∨ (∃ f, q.main = .stamp2 k f) ∨ ∃ f, q.main = .call k f)
  /-- the result is on the way to the agent -/
  | done (st : TaskStatus) (d : UInt32) (r : Bytes)
      (h : heardOf (.taskResult k.taskId st d r) a.log < procsSent (.taskResult k.taskId st d r) qs)

end Verif.Spec
