import Verif.Spec.Sched

/-!
# Who a message is for

Only the two logs are used: `Prompted l c m` says that peer `c` did something, in the received messages `l`,
that message `m` is the answer or the follow-up to.
-/

namespace Verif.Spec

open Verif.Wire

/-- The peer sent heartbeats: it is a worker. -/
def Beats (l : Log) (c : Bytes) : Prop := ∃ b, (c, .heartbeat b) ∈ l

/-- The peer submitted this task, alone or in a graph. -/
def Gave (l : Log) (c t : Bytes) : Prop :=
  (∃ k, (c, .task k) ∈ l ∧ k.taskId = t) ∨ ∃ g, (c, .graphTask g) ∈ l ∧ t ∈ g.graph.map (·.taskId)

/-- Why this peer gets this message. -/
def Prompted (l : Log) (c : Bytes) : Message → Prop
  | .heartbeatEcho => Beats l c
  | .task _ => Beats l c
  | .taskCancel _ => Beats l c
  | .balanceRequest _ => Beats l c
  | .functionRequest ty _ _ _ => ty = .delete ∧ Beats l c
  | .taskEcho t _ => Gave l c t
  | .taskResult t _ _ _ => Gave l c t
  | .graphTaskResult gid _ _ => ∃ g, (c, .graphTask g) ∈ l ∧ g.taskId = gid
  | .functionResponse _ f _ _ =>
    (∃ ty n ct, (c, .functionRequest ty f n ct) ∈ l) ∨ ∃ g, (c, .graphTask g) ∈ l ∧ f ∈ g.functions.keys
  | .disconnectResponse w => (c, .disconnectRequest w) ∈ l
  | _ => False

/-- The kinds that a client takes (client.py 148-165). -/
def ForClient : Message → Prop
  | .taskEcho .. | .functionResponse .. | .taskResult .. | .graphTaskResult .. => True
  | _ => False

/-- The kinds that a worker takes (worker.py 108-134). -/
def ForWorker : Message → Prop
  | .heartbeatEcho | .task _ | .taskCancel _ | .balanceRequest _ | .functionRequest .. | .functionResponse .. => True
  | _ => False

end Verif.Spec
