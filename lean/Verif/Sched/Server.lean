import Verif.Sched.Step

/-!
# The scheduler behind its socket: `scaled/io/async_binder.py`

The binder turns frames into messages for the scheduler, turns the scheduler's messages into frames and counts both.

Simplifications.
* `send` (67-70) is called in the middle of a handler; here the messages of a handler are turned into frames when it has
  ended.  An exception ends the process in both cases.
* The counters are indexed by the message type instead of its name (89); names of different types are different.
-/

namespace Verif.Sched

open Verif.Queue Verif.Util Verif.Wire

/-- The scheduler with its binder, async_binder.py 24-39; `wire` are the multipart messages given to the socket. -/
structure Server where
  sched : Sched
  received : Dict MessageType Nat
  sent : Dict MessageType Nat
  wire : List (List Bytes)

namespace Server

/-- async_binder.py 24-39 -/
def init (cfg : Config) : Server := ⟨Sched.init cfg, Dict.empty, Dict.empty, []⟩

/-- `__count_one` on one of the two `defaultdict`s, async_binder.py 88-89 -/
def countOne (d : Dict MessageType Nat) (ty : MessageType) : Dict MessageType Nat := d.set ty ((d.get? ty).getD 0 + 1)

/-- `send`, async_binder.py 67-70, for several messages -/
def sendAll (v : Server) : List (Bytes × Message) → Py Server
  | [] => .ok v
  | (to, m) :: l => do
    let fs ← binderEncode to m
    sendAll { v with sent := countOne v.sent m.type, wire := v.wire ++ [fs] } l

/-- Let the scheduler handle an event, and send what it has to say (scaled/scheduler/main.py 92-145). -/
def handle (v : Server) (e : Event) : Py Server := do
  let s ← v.sched.step e
  sendAll { v with sched := s } (s.out.drop v.sched.out.length)

/-- `routine`, async_binder.py 47-57, with `__is_valid_message` (77-86) -/
def arrive (v : Server) (now : Int) (o : Order) (frames : List Bytes) : Py Server :=
  match frames with
  | source :: tag :: p :: ps =>
    match MessageType.members.find? fun m => m.value == tag with
    | none => .ok v
    | some ty => do
      let v : Server := { v with received := countOne v.received ty }
      let m ← deserialize ty (p :: ps)
      v.handle ⟨.recv source m, now, o⟩
  | _ => .ok v

/-- What happens to the process: frames arrive, or one of its routines runs (main.py 131-140). -/
inductive Input where
  | frames (fs : List Bytes)
  | task | graph | function | worker | report
  deriving DecidableEq

/-- One thing happens (scaled/scheduler/main.py 92-145, scaled/io/async_binder.py 47-70). -/
def step (v : Server) (now : Int) (o : Order) : Input → Py Server
  | .frames fs => v.arrive now o fs
  | .task => v.handle ⟨.taskRoutine, now, o⟩
  | .graph => v.handle ⟨.graphRoutine, now, o⟩
  | .function => v.handle ⟨.functionRoutine, now, o⟩
  | .worker => v.handle ⟨.workerRoutine, now, o⟩
  | .report => v.handle ⟨.report, now, o⟩

/-- Several things happen; an exception ends the process (scaled/scheduler/main.py 131-145). -/
def run (v : Server) : List (Input × Int × Order) → Py Server
  | [] => .ok v
  | (i, now, o) :: is => do
    let v ← v.step now o i
    run v is

/-- `statistics`, async_binder.py 59-65 -/
def statistics (v : Server) : List (MessageType × Nat) × List (MessageType × Nat) := (v.received.items, v.sent.items)

end Server

end Verif.Sched
