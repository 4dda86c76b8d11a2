import Verif.Wire.Message

/-!
# Vocabulary for what the scheduler receives and sends

Everything here is about the two message logs: messages received with their sender, and messages sent
with their destination.  Nothing refers to the scheduler's own tables.
-/

namespace Verif.Spec

open Verif.Wire

/-- Messages with the peer they came from or go to, oldest first. -/
abbrev Log := List (Bytes × Message)

/-- The submission of task `t` was accepted, said to a peer in `p`. -/
def isAck (p : Bytes → Bool) (t : Bytes) : Bytes × Message → Bool
  | (c, .taskEcho t' .submitOK) => p c && decide (t' = t)
  | _ => false

/-- The submission of task `t` was refused. -/
def isRefusal (t : Bytes) : Bytes × Message → Bool
  | (_, .taskEcho t' st) => decide (t' = t ∧ st ≠ .submitOK)
  | _ => false

/-- The result of task `t`, sent to a peer in `p`. -/
def isResult (p : Bytes → Bool) (t : Bytes) : Bytes × Message → Bool
  | (c, .taskResult t' _ _ _) => p c && decide (t' = t)
  | _ => false

/-- A submission of task `t`. -/
def isSubmit (t : Bytes) : Bytes × Message → Bool
  | (_, .task k) => decide (k.taskId = t)
  | _ => false

/-- An answer for graph `gid`. -/
def isAnswer (gid : Bytes) : Bytes × Message → Bool
  | (_, .graphTaskResult g _ _) => decide (g = gid)
  | _ => false

/-- An accepted submission of whatever task. -/
def isAnyAck : Bytes × Message → Bool
  | (_, .taskEcho _ .submitOK) => true
  | _ => false

def acks (p : Bytes → Bool) (t : Bytes) (l : Log) : Nat := l.countP (isAck p t)
def refusals (t : Bytes) (l : Log) : Nat := l.countP (isRefusal t)
def results (p : Bytes → Bool) (t : Bytes) (l : Log) : Nat := l.countP (isResult p t)
def submits (t : Bytes) (l : Log) : Nat := l.countP (isSubmit t)
def answers (gid : Bytes) (l : Log) : Nat := l.countP (isAnswer gid)
def allAcks (l : Log) : Nat := l.countP isAnyAck

/-- Any peer. -/
def anyone : Bytes → Bool := fun _ => true

/-- Only this peer. -/
def only (c : Bytes) : Bytes → Bool := fun x => decide (x = c)

/-- The id of a graph and of its nodes. -/
def graphIds (g : GraphTask) : List Bytes := g.taskId :: g.graph.map (·.taskId)

/-- `t` is the id of a received graph or of one of its nodes. -/
def InGraph (l : Log) (t : Bytes) : Prop := ∃ c g, (c, .graphTask g) ∈ l ∧ t ∈ graphIds g

/-- `t` was used in a submission. -/
def Mentioned (l : Log) (t : Bytes) : Prop := InGraph l t ∨ ∃ c k, (c, .task k) ∈ l ∧ k.taskId = t

/-- Clients choose ids properly.  A single task may use an id again when every earlier submission under
this id was refused or finished; a graph and its nodes use new ids.  (In the code ids are
`uuid1`, client.py 79, 336 and 362.) -/
def Allowed (received sent : Log) : Bytes × Message → Prop
  | (_, .task k) => ¬ InGraph received k.taskId ∧
      submits k.taskId received = refusals k.taskId sent + results anyone k.taskId sent
  | (_, .graphTask g) => (graphIds g).Nodup ∧ ∀ t ∈ graphIds g, ¬ Mentioned received t
  | _ => True

end Verif.Spec
