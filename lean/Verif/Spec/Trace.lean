import Verif.Spec.Transit
import Verif.Props.SchedView

/-!
# C85: where a submitted task is
-/

namespace Verif.Spec

open Verif.Wire Verif.System

variable {F : Type}

/-- The user's thread is inside `submit` with the task `k` and has not put it anywhere yet. -/
def InSubmit (c : Client.Client) (k : Task) : Prop :=
  (∃ nm b, c.user = .stored k nm b) ∨ c.user = .check k ∨ c.user = .request k ∨ c.user = .append k

/-- Where the task `k` is that the client `x` submitted. -/
inductive Traced (s : Sys F) (x : Bytes) (c : Client.Client) (k : Task) : Prop where
  /-- in the hands of the user's thread -/
  | inCall (h : InSubmit c k)
  /-- with the client, waiting for the answer about its function -/
  | buffered (ks : List Task) (hf : c.notReady.get? k.functionId = some ks) (h : k ∈ ks)
  /-- in the queue of the client's connector -/
  | queued (h : Message.task k ∈ c.outbox)
  /-- on the way to the scheduler -/
  | sent (h : s.received.count (x, .task k) < (s.peers x).sent (.task k))
  /-- refused; the refusal is on the way to the client -/
  | refused (st : TaskEchoStatus) (hst : st = .functionNotExists ∨ st = .noWorker)
      (h : (s.peers x).got (.taskEcho k.taskId st) < s.sched.out.count (x, .taskEcho k.taskId st))
  /-- with the scheduler -/
  | waiting (h : k.taskId ∈ Props.waitingQueue s.sched ∨ Props.beingPlaced s.sched = some k.taskId)
  /-- given to a worker -/
  | given (w : Bytes) (hw : Props.workerOf s.sched k.taskId = some w) (h : Located s k.taskId w)
  /-- its result is on the way to the client -/
  | done (st : TaskStatus) (d : UInt32) (r : Bytes)
      (h : (s.peers x).got (.taskResult k.taskId st d r) < s.sched.out.count (x, .taskResult k.taskId st d r))
  /-- its result has arrived -/
  | answered (st : TaskStatus) (d : UInt32) (r : Bytes) (h : Client.Act.recv (.taskResult k.taskId st d r) ∈ c.log)

/-- The user's thread has the task `t` in its hands. -/
def inHand (t : Bytes) : Client.User → Bool
  | .stored k _ _ => decide (k.taskId = t)
  | .check k => decide (k.taskId = t)
  | .request k => decide (k.taskId = t)
  | .append k => decide (k.taskId = t)
  | _ => false

/-- A message that submits the task `t`. -/
def carries (t : Bytes) : Message → Bool
  | .task k => decide (k.taskId = t)
  | _ => false

/-- How many messages `m` are on the way from the scheduler to `x`. -/
def toPeer (s : Sys F) (x : Bytes) (m : Message) : Nat := s.sched.out.count (x, m) - (s.peers x).got m

/-- The copies of the task `k` of the client `x`: in `submit`, waiting for the function, in the queue of the connector, on
the way, refused, with the scheduler or beyond, answered. -/
def copies (s : Sys F) (x : Bytes) (c : Client.Client) (k : Task) : Nat :=
  (if inHand k.taskId c.user then 1 else 0) + (c.notReady.values.flatten.countP fun k' => decide (k'.taskId = k.taskId)) +
  c.outbox.countP (carries k.taskId) + ((s.peers x).sent (.task k) - s.received.count (x, .task k)) +
  (toPeer s x (.taskEcho k.taskId .functionNotExists) + toPeer s x (.taskEcho k.taskId .noWorker)) +
  (if Props.Holding s.sched k.taskId then 1 else 0) + results anyone k.taskId s.sched.out

/-- Where the graph `g` is that the client `x` asked for. -/
inductive GraphTraced (cfg : Sched.Config) (s : Sys F) (x : Bytes) (c : Client.Client) (g : GraphTask) : Prop where
  /-- in the queue of the client's connector -/
  | queued (h : Message.graphTask g ∈ c.outbox)
  /-- on the way to the scheduler -/
  | sent (h : s.received.count (x, .graphTask g) < (s.peers x).sent (.graphTask g))
  /-- waiting to be unpacked -/
  | waiting (h : (x, g) ∈ s.sched.gm.queue)
  /-- one of its nodes is with the scheduler -/
  | pending (t : Bytes) (ht : t ∈ g.graph.map (·.taskId)) (h : t ∈ Props.waitingQueue s.sched ∨ Props.beingPlaced s.sched = some t)
  /-- one of its nodes was given to a worker -/
  | given (t : Bytes) (ht : t ∈ g.graph.map (·.taskId)) (w : Bytes) (hw : Props.workerOf s.sched t = some w) (h : Located s t w)
  /-- one of its nodes was refused for want of workers -/
  | refused (t : Bytes) (ht : t ∈ g.graph.map (·.taskId)) (hl : 0 ≤ cfg.maxWaiting) (y : Bytes) (h : (y, .taskEcho t .noWorker) ∈ s.sched.out)
  /-- its result is on the way to the client -/
  | done (st : TaskStatus) (rs : List Bytes)
      (h : (s.peers x).got (.graphTaskResult g.taskId st rs) < s.sched.out.count (x, .graphTaskResult g.taskId st rs))
  /-- its result has arrived -/
  | answered (st : TaskStatus) (rs : List Bytes) (h : Client.Act.recv (.graphTaskResult g.taskId st rs) ∈ c.log)
  /-- the client has ended and cancelled it -/
  | cancelled (h : Client.Act.sent (.graphTaskCancel g.taskId) ∈ c.log)

end Verif.Spec
