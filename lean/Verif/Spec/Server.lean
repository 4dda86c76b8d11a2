import Verif.Sched.Server
import Verif.Spec.Readable
import Verif.Spec.WireLayout

/-!
# What the scheduler's socket hears and counts
-/

namespace Verif.Spec

open Verif.Sched Verif.Wire

/-- Frames that are no message: no payload, or not one of the 21 tags. -/
def Noise (fs : List Bytes) : Prop := fs.length < 3 ∨ ∀ ty, fs[1]? ≠ some (ascii (tagWord ty))

/-- What the scheduler hears of what happens: noise is left out, the rest reads as messages. -/
inductive Heard : List (Server.Input × Int × Order) → List Event → Prop
  | nil : Heard [] []
  | noise {is es} (fs now o) : Noise fs → Heard is es → Heard ((.frames fs, now, o) :: is) es
  | message {is es} (source tag p ps m now o) : decode (tag :: p :: ps) = .ok (some m) → Heard is es →
      Heard ((.frames (source :: tag :: p :: ps), now, o) :: is) (⟨.recv source m, now, o⟩ :: es)
  | task {is es} (now o) : Heard is es → Heard ((.task, now, o) :: is) (⟨.taskRoutine, now, o⟩ :: es)
  | graph {is es} (now o) : Heard is es → Heard ((.graph, now, o) :: is) (⟨.graphRoutine, now, o⟩ :: es)
  | function {is es} (now o) : Heard is es → Heard ((.function, now, o) :: is) (⟨.functionRoutine, now, o⟩ :: es)
  | worker {is es} (now o) : Heard is es → Heard ((.worker, now, o) :: is) (⟨.workerRoutine, now, o⟩ :: es)
  | report {is es} (now o) : Heard is es → Heard ((.report, now, o) :: is) (⟨.report, now, o⟩ :: es)

/-- Frames with a payload under this tag. -/
def tagged (ty : MessageType) : Server.Input → Bool
  | .frames (_ :: tag :: _ :: _) => tag == ascii (tagWord ty)
  | _ => false

/-- How many messages of a type have come in. -/
def arrivals (ty : MessageType) (is : List (Server.Input × Int × Order)) : Nat := is.countP fun i => tagged ty i.1

/-- How many messages of a type have gone out. -/
def departures (ty : MessageType) (out : List (Bytes × Message)) : Nat := out.countP fun p => tagText p.2 == tagWord ty

/-- How a number is shown: a type that never occurred is not listed. -/
def listed (n : Nat) : Option Nat := if n = 0 then none else some n

/-- The types of the messages that have come in, in their order. -/
def typesIn (is : List (Server.Input × Int × Order)) : List MessageType :=
  is.filterMap fun i => MessageType.members.find? fun ty => tagged ty i.1

/-- What is on the wire. -/
def onWire (out : List (Bytes × Message)) : List (List Bytes) := out.map fun p => p.1 :: wireFrames p.2

end Verif.Spec
