import Verif.Spec.Sched

/-!
# What the monitor is shown

Reading only the messages published on the monitor socket, the messages sent, and the log of messages received.
-/

namespace Verif.Spec

open Verif.Wire

/-- The status that a message shows for a task. -/
def shows (t : Bytes) : Message → Option TaskStatus
  | .taskState t' _ st => if t' = t then some st else none
  | _ => none

/-- The statuses shown for a task, in order. -/
def shown (t : Bytes) (ms : List Message) : List TaskStatus := ms.filterMap (shows t)

/-- Which status may be shown next, given the last one: a task starts waiting; a waiting task goes to a worker or is
cancelled; a task with a worker is asked to stop, goes back to the queue, or ends; after its end the id may be used
again. -/
def mayFollow : Option TaskStatus → TaskStatus → Prop
  | none, st | some .success, st | some .failed, st | some .canceled, st | some .notFound, st => st = .inactive
  | some .inactive, st => st = .running ∨ st = .canceled
  | some .running, st | some .canceling, st => st ≠ .running

/-- Every status may follow the one before it. -/
inductive Legal : List TaskStatus → Prop
  | nil : Legal []
  | snoc {l : List TaskStatus} {st : TaskStatus} : Legal l → mayFollow l.getLast? st → Legal (l ++ [st])

/-- A dispatch or a request to stop, as shown. -/
def markShown : Message → Option (Bytes × TaskStatus)
  | .taskState t _ .running => some (t, .running)
  | .taskState t _ .canceling => some (t, .canceling)
  | _ => none

/-- A dispatch or a request to stop, as sent. -/
def markSent : Bytes × Message → Option (Bytes × TaskStatus)
  | (_, .task k) => some (k.taskId, .running)
  | (_, .taskCancel t) => some (t, .canceling)
  | _ => none

/-- A task or a node of a graph was submitted with this id and this function. -/
def Submitted (l : Log) (t f : Bytes) : Prop :=
  (∃ c k, (c, .task k) ∈ l ∧ k.taskId = t ∧ k.functionId = f) ∨
  ∃ c g T, (c, .graphTask g) ∈ l ∧ T ∈ g.graph ∧ T.taskId = t ∧ T.functionId = f

/-- Some client gave this name to the function, directly or with a graph. -/
def Named (l : Log) (f n : Bytes) : Prop :=
  (∃ c ct, (c, .functionRequest .add f n ct) ∈ l) ∨ ∃ c g ct, (c, .graphTask g) ∈ l ∧ g.functions.get? f = some (n, ct)

/-- The message shows the node `T` of the graph `g`: whether it is a target, and the nodes it takes its arguments from. -/
def ShowsNode (g : GraphTask) (T : Task) : Message → Prop
  | .graphTaskState gid t ty ps => gid = g.taskId ∧ t = T.taskId ∧ (ty = .target ↔ T.taskId ∈ g.targets) ∧
      ∀ x, x ∈ ps ↔ ∃ a ∈ T.args, a.type = .task ∧ a.data = x
  | _ => False

end Verif.Spec
