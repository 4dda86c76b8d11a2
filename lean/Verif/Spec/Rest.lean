import Verif.Spec.Trace
import Verif.Spec.Running
import Verif.Spec.Steady
import Verif.Spec.Client

/-!
# C90: a system in which nothing is left to do
-/

namespace Verif.Spec

open Verif.Wire Verif.System

variable {F : Type}

/-- The worker's agent and its processor have nothing left to do: everything the scheduler sent has arrived, a turn of the
agent's loop changes nothing, everything the processors sent has arrived at the agent, and the processor waits for a
message and took all of them. -/
structure WorkerRests (s : Sys F) (w : Bytes) (a : Worker.Agent) (qs : List (Proc.Proc F)) : Prop where
  got : ∀ m, s.sched.out.count (w, m) ≤ (s.peers w).got m
  turn : ∀ now, a.turn now = .ok a
  heard : ∀ m, procsSent m qs ≤ heardOf m a.log
  proc : ∀ (n : Nat) q, a.processor = some n → qs[n]? = some q → q.main = .idle ∧ ∀ m, toldTo n m a.log ≤ taken m q

/-- The client has nothing left to do: no call of the user is unfinished, the connector sent everything, and everything
the scheduler sent has arrived. -/
structure ClientRests (s : Sys F) (x : Bytes) (c : Client.Client) : Prop where
  open' : c.closed = false
  user : c.user = .idle
  outbox : c.outbox = []
  got : ∀ m, s.sched.out.count (x, m) ≤ (s.peers x).got m

/-- The system is at rest: the scheduler received everything that was sent to it, no graph waits to be unpacked, a
turn of the task routine sends nothing, every worker the scheduler counts on is there, and workers and clients have
nothing left to do.  What may still happen are heartbeats, periodic checks and new calls of users. -/
structure Rest (s : Sys F) : Prop where
  heard : ∀ x m, (s.peers x).sent m ≤ s.received.count (x, m)
  graphs : s.sched.gm.queue = []
  routine : ∀ e s', e.op = .taskRoutine → s.sched.step e = .ok s' → s'.out = s.sched.out
  there : ∀ w, Props.Connected s.sched w → ∃ a ret qs, s.peers w = .worker a ret qs none
  worker : ∀ w a ret qs, s.peers w = .worker a ret qs none → WorkerRests s w a qs
  client : ∀ x c, s.peers x = .client c → c.closed = false → ClientRests s x c

/-- The load the scheduler recorded for each worker is the number of tasks it has. -/
def LoadsRight (s : Sched.Sched) : Prop :=
  ∀ w p ts, s.wm.alloc.queue.prio w = some p → s.wm.alloc.w2t.get? w = some ts → p = ts.size

/-- The worker's processor waits for a function that the scheduler said it does not have: nothing wakes it. -/
def Stuck (s : Sys F) (w : Bytes) : Prop :=
  ∃ a ret qs n q k nm c, s.peers w = .worker a ret qs none ∧ a.task = some k ∧ a.processor = some n ∧ qs[n]? = some q ∧
    q.task = some k ∧ q.main = .idle ∧ (w, Message.functionResponse .notExists k.functionId nm c) ∈ s.sched.out

/-- What may keep an unanswered task in a system at rest. -/
inductive HeldUp (cfg : Sched.Config) (s : Sys F) (c : Client.Client) (k : Task) : Prop where
  /-- the client keeps it until it hears about its function, though it does not expect an answer -/
  | stranded (ks : List Task) (hf : c.notReady.get? k.functionId = some ks) (h : k ∈ ks) (ha : Spec.Client.asked k.functionId c.log = false)
  /-- the scheduler has no worker -/
  | nobody (h : k.taskId ∈ Props.waitingQueue s.sched ∨ Props.beingPlaced s.sched = some k.taskId) (hw : ∀ w, ¬ Props.Connected s.sched w)
  /-- the scheduler believes that all its workers are full -/
  | full (h : k.taskId ∈ Props.waitingQueue s.sched ∨ Props.beingPlaced s.sched = some k.taskId)
      (hw : ∀ w, Props.Connected s.sched w → ∃ n, s.sched.wm.alloc.queue.prio w = some n ∧ cfg.queueSize ≤ n)
  /-- it is with a worker whose processor is stuck -/
  | stuck (w : Bytes) (hw : Props.workerOf s.sched k.taskId = some w) (h : Stuck s w)

/-- The scheduler was not asked to cancel anything that is with a worker. -/
def NoCancel (s : Sys F) : Prop := ∀ x t, (x, Message.taskCancel t) ∉ s.sched.out

end Verif.Spec
