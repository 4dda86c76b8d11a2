import Verif.Wire.Message

/-!
# The connectors: `scaled/io/async_connector.py` and `scaled/io/sync_connector.py`

Simplifications.
* The socket is a list of multipart messages written and a list of those that wait to be read.
* The statistics are indexed by the message type instead of its name; names of different types are different.
* `poll` (sync_connector.py 106) returns the event mask, which is 0 or `POLLIN` = 1, so the loop in 111-113 reads at
  most one multipart message per turn.
* A callback that calls `send` or `send_immediately` is modelled as the callback followed by these calls.
* `ZMQError` (115-116) and the use of a closed socket are not modelled.
-/

namespace Verif.Wire

open Verif

/-- `__count_one`, async_connector.py 92-93 and sync_connector.py 134-136 -/
def countType (d : Dict MessageType Nat) (ty : MessageType) : Dict MessageType Nat := d.set ty ((d.get? ty).getD 0 + 1)

/-- `__is_valid_message`, async_connector.py 95-104; the same tests are in sync_connector.py 119-125 -/
def validFrames (frames : List Bytes) : Bool :=
  if frames.length < 2 then false
  else match frames with
    | tag :: _ => MessageType.members.any fun m => m.value == tag
    | [] => false

/-- `MessageType(message_type_bytes)` and `PROTOCOL[...].deserialize(payload)`, async_connector.py 73-75 and
sync_connector.py 127-129 -/
def readFrames (frames : List Bytes) : Py (MessageType × Message) :=
  match frames with
  | tag :: payload =>
    match MessageType.members.find? fun m => m.value == tag with
    | none => .error .valueError
    | some ty => do
      let m ← deserialize ty payload
      return (ty, m)
  | [] => .error .valueError

/-- `AsyncConnector`, async_connector.py 22-57; `wire` is what was given to the socket. -/
structure AsyncConn where
  received : Dict MessageType Nat
  sent : Dict MessageType Nat
  wire : List (List Bytes)

namespace AsyncConn

/-- async_connector.py 53-56 -/
def init : AsyncConn := ⟨Dict.empty, Dict.empty, []⟩

/-- `routine`, async_connector.py 68-82, for the frames received; the callback works on the state `σ`. -/
def routine {σ : Type} (callback : Option (σ → Message → Py σ)) (c : AsyncConn) (s : σ) (frames : List Bytes) : Py (AsyncConn × σ) :=
  if validFrames frames then do
    let (ty, m) ← readFrames frames
    let c : AsyncConn := { c with received := countType c.received ty }
    match callback with
    | none => return (c, s)
    | some f => do
      let s ← f s m
      return (c, s)
  else .ok (c, s)

/-- Several multipart messages come in (scaled/io/async_connector.py 68-82). -/
def routines {σ : Type} (callback : Option (σ → Message → Py σ)) (c : AsyncConn) (s : σ) : List (List Bytes) → Py (AsyncConn × σ)
  | [] => .ok (c, s)
  | fs :: rest => do
    let (c, s) ← routine callback c s fs
    routines callback c s rest

/-- `send`, async_connector.py 84-87 -/
def send (c : AsyncConn) (m : Message) : Py AsyncConn := do
  let c : AsyncConn := { c with sent := countType c.sent m.type }
  let fs ← encode m
  return { c with wire := c.wire ++ [fs] }

/-- Several messages are sent (scaled/io/async_connector.py 84-87). -/
def sends (c : AsyncConn) : List Message → Py AsyncConn
  | [] => .ok c
  | m :: rest => do
    let c ← c.send m
    sends c rest

end AsyncConn

/-- Where the thread of the connector is: at the test in line 78, at the test in line 99, at `poll` in line 106, or
behind line 85 (scaled/io/sync_connector.py). -/
inductive Place where
  | check | sending | polling | over
  deriving DecidableEq

/-- `SyncConnector`, sync_connector.py 25-68; `inbox` and `wire` are the two sides of the socket, `state` is what the
callbacks work on. -/
structure SyncConn (σ : Type) where
  place : Place
  stop : Bool
  queue : List Message
  inbox : List (List Bytes)
  wire : List (List Bytes)
  received : Dict MessageType Nat
  sent : Dict MessageType Nat
  closed : Bool
  state : σ

namespace SyncConn

variable {σ : Type}

/-- sync_connector.py 58-68 -/
def init (s : σ) : SyncConn σ := ⟨.check, false, [], [], [], Dict.empty, Dict.empty, false, s⟩

/-- `send`, sync_connector.py 87-88 -/
def send (c : SyncConn σ) (m : Message) : SyncConn σ := { c with queue := c.queue ++ [m] }

/-- `send_immediately`, sync_connector.py 90-92 -/
def sendImmediately (c : SyncConn σ) (m : Message) : Py (SyncConn σ) := do
  let fs ← encode m
  return { c with wire := c.wire ++ [fs] }

/-- `__routine_receive`, sync_connector.py 118-132 -/
def receive (callback : σ → Message → Py σ) (c : SyncConn σ) (frames : List Bytes) : Py (SyncConn σ) :=
  if validFrames frames then do
    let (ty, m) ← readFrames frames
    let c : SyncConn σ := { c with received := countType c.received ty }
    let s ← callback c.state m
    return { c with state := s }
  else .ok c

/-- One step of the thread: `run` (77-85), `__routine_send` (98-102), `__routine_polling` (104-116) (scaled/io/sync_connector.py) -/
def step (callback : σ → Message → Py σ) (exitCallback : Option (σ → Py σ)) (c : SyncConn σ) : Py (SyncConn σ) :=
  match c.place with
  | .check =>
    if c.stop then do
      let s ← match exitCallback with
        | none => .ok c.state
        | some f => f c.state
      return { c with state := s, closed := true, place := .over }
    else .ok { c with place := .sending }
  | .sending =>
    match c.queue with
    | [] => .ok { c with place := .polling }
    | m :: q => do
      let fs ← encode m
      return { c with queue := q, wire := c.wire ++ [fs] }
  | .polling =>
    match c.inbox with
    | [] => .ok { c with place := .check }
    | fs :: rest => do
      let c ← receive callback { c with inbox := rest } fs
      return { c with place := .check }
  | .over => .ok c

/-- What happens to a connector: the two ways to send, the stop event, a multipart message arrives, its thread
takes a step (scaled/io/sync_connector.py 77-132). -/
inductive Op where
  | send (m : Message)
  | now (m : Message)
  | stop
  | arrive (frames : List Bytes)
  | step

/-- One event (scaled/io/sync_connector.py 77-132) -/
def apply (callback : σ → Message → Py σ) (exitCallback : Option (σ → Py σ)) (c : SyncConn σ) : Op → Py (SyncConn σ)
  | .send m => .ok (c.send m)
  | .now m => c.sendImmediately m
  | .stop => .ok { c with stop := true }
  | .arrive frames => .ok { c with inbox := c.inbox ++ [frames] }
  | .step => c.step callback exitCallback

/-- Events one after the other (scaled/io/sync_connector.py 77-132) -/
def run (callback : σ → Message → Py σ) (exitCallback : Option (σ → Py σ)) (c : SyncConn σ) : List Op → Py (SyncConn σ)
  | [] => .ok c
  | op :: ops => do
    let c ← c.apply callback exitCallback op
    run callback exitCallback c ops

end SyncConn

end Verif.Wire
