import Verif.Sched.Step
import Verif.Spec.Sched
import Verif.Client.Graph
import Verif.Worker.Agent
import Verif.Worker.Processor

/-!
# Clients, one scheduler and workers together

The scheduler (`scaled/scheduler/main.py`), any number of clients (`scaled/client.py`) and workers
(`scaled/worker/worker.py` with their processors) and the messages between them.  Each part is the model of its own
file; here is only who gets what from whom.

Messages cross a link as frames (`async_binder.py`, `async_connector.py`, `sync_connector.py`).  Links may delay,
reorder and lose messages, but neither double nor invent them: a message can be delivered if it was sent more often
than it was received.  (ZMQ keeps the order on one link; nothing here depends on it.)

Simplifications.
* If a part raises, the event cannot happen (`none`).  In the code the part ends then; that is an execution in which
  this part does nothing any more.
* A worker or client that dies does nothing any more; no event is needed for that.  A worker that ends by `SIGINT` or
  because its processor timed out says so first (`leave`, `Worker/Process`).
* Ids of peers are never used twice (`ZMQ` identities hold host, process and a random part), and neither are the
  results of `uuid1`, by any client; they are not empty.
* A message of a processor that was killed may still arrive at the agent.
-/

namespace Verif.System

open Verif.Wire Verif.Sched Verif.Spec

/-- Who is behind an identity (scaled/client.py 43-70, scaled/worker/worker.py 31-106). -/
inductive Peer (F : Type) where
  | absent
  | client (c : Client.Client)
  /-- an agent, the retention time of its processors' caches (worker.py 84), all processors it ever started, and,
  if it has left, the identity it gave then (worker.py 150) -/
  | worker (a : Worker.Agent) (retention : Int) (procs : List (Proc.Proc F)) (left : Option Bytes)

/-- A call of `get` (client.py 102-137): the futures are those of `return_futures` (client.py 131).  Not in the code: it
is there to state properties. -/
structure GetCall where
  client : Bytes
  graph : Dict Bytes Client.UserNode
  keys : List Bytes
  message : GraphTask
  futures : Dict Bytes Nat

/-- Everything (scaled/scheduler/main.py 32-90 with its clients and workers). -/
structure Sys (F : Type) where
  sched : Sched
  /-- what the scheduler received -/
  received : Log
  peers : Bytes → Peer F
  /-- results of `uuid1` -/
  used : List Bytes
  /-- calls of `get` -/
  gets : List GetCall

/-- What can happen (scaled/scheduler/main.py 92-145, scaled/client.py 76-246, scaled/worker/worker.py 108-154, scaled/worker/agent/processor/processor.py 75-138). -/
inductive Op where
  | joinClient (x : Bytes)
  | joinWorker (x : Bytes) (deathTimeout retention now : Int)
  /-- the scheduler receives a message or runs a routine -/
  | sched (e : Sched.Event)
  /-- a client's user or connector does something; calls of `get` are `get` -/
  | client (x : Bytes) (o : Client.Op)
  /-- the user calls `get` -/
  | get (x : Bytes) (ids : List Bytes) (gid : Bytes) (g : Dict Bytes Client.UserNode) (keys : List Bytes)
  | agent (x : Bytes) (e : Worker.Agent.Event)
  /-- the processor with this number -/
  | proc (x : Bytes) (n : Nat) (e : Proc.Event)
  /-- a worker comes to its end in the ordered way, worker.py 150-154 -/
  | leave (x : Bytes)

variable {F V X : Type}

/-- How often the peer has sent `m` to the scheduler (no Python counterpart; scaled/io/sync_connector.py 98-102, async_connector.py 84-87). -/
def Peer.sent (m : Message) : Peer F → Nat
  | .absent => 0
  | .client c => c.log.countP fun x => decide (x = .sent m)
  | .worker a _ _ left => (a.log.countP fun x => decide (x.2 = .sent m)) +
      if left.map Message.disconnectRequest = some m then 1 else 0

/-- How often the peer has received `m` from the scheduler (no Python counterpart; scaled/io/sync_connector.py 118-132, async_connector.py 68-82). -/
def Peer.got (m : Message) : Peer F → Nat
  | .absent => 0
  | .client c => c.log.countP fun x => decide (x = .recv m)
  | .worker a _ _ _ => a.log.countP fun x => decide (x.2 = .recv m)

/-- How often processors have sent `m` to their agent (no Python counterpart; scaled/io/sync_connector.py 90-92). -/
def procsSent (m : Message) (qs : List (Proc.Proc F)) : Nat :=
  (qs.map fun q => q.log.countP fun x => decide (x.2 = .sent m)).sum

/-- A message sent and received (async_connector.py 63-83, sync_connector.py 87-108). -/
def carry (m : Message) : Option Message :=
  match encode m with
  | .ok fs =>
    match decode fs with
    | .ok r => r
    | .error _ => none
  | .error _ => none

/-- A message sent by peer `x` and received by the scheduler (async_binder.py 39-54). -/
def carryIn (x : Bytes) (m : Message) : Option (Bytes × Message) :=
  match encode m with
  | .ok fs =>
    match binderDecode (x :: fs) with
    | .ok r => r
    | .error _ => none
  | .error _ => none

/-- A message sent by the scheduler to peer `x` and received there (async_binder.py 56-57); the socket takes the first
frame as the address. -/
def carryOut (x : Bytes) (m : Message) : Option (Bytes × Message) :=
  match binderEncode x m with
  | .ok (y :: fs) =>
    match decode fs with
    | .ok (some r) => some (y, r)
    | _ => none
  | _ => none

/-- Processors the agent has started since (scaled/worker/agent/processor_manager.py 155-168). -/
def extend (retention now : Int) (qs : List (Proc.Proc F)) (n : Nat) : List (Proc.Proc F) :=
  qs ++ List.replicate (n - qs.length) (Proc.Proc.init retention now)

namespace Sys

/-- The beginning: a scheduler and nobody else (scaled/scheduler/main.py 33-90). -/
def init (cfg : Config) : Sys F where
  sched := Sched.init cfg
  received := []
  peers := fun _ => .absent
  used := []
  gets := []

/-- Another state of a peer (no Python counterpart). -/
def setPeer (s : Sys F) (x : Bytes) (p : Peer F) : Sys F :=
  { s with peers := fun y => if y = x then p else s.peers y }

/-- The scheduler's part of an event (scaled/scheduler/main.py 92-145, scaled/io/async_binder.py 47-70). -/
def schedStep (s : Sys F) (e : Sched.Event) : Option (Sys F) :=
  match e.op with
  | .recv x m =>
    if s.received.count (x, m) < (s.peers x).sent m then
      match carryIn x m with
      | none => none
      | some (x, m) =>
        match s.sched.step { e with op := .recv x m } with
        | .ok t => some { s with sched := t, received := s.received ++ [(x, m)] }
        | .error _ => none
    else none
  | _ =>
    match s.sched.step e with
    | .ok t => some { s with sched := t }
    | .error _ => none

/-- A client's step (scaled/client.py 76-246). -/
def clientStep (p : Client.Pickle) (s : Sys F) (x : Bytes) (c : Client.Client) (o : Client.Op) : Option (Sys F) :=
  match c.step p o with
  | .ok c => some (s.setPeer x (.client c))
  | .error _ => none

/-- The client's part of an event (scaled/client.py 76-246, scaled/io/sync_connector.py 77-132). -/
def clientOp (p : Client.Pickle) (s : Sys F) (x : Bytes) (c : Client.Client) (o : Client.Op) : Option (Sys F) :=
  match o with
  | .submit t _ _ _ =>
    if t ∈ s.used ∨ t = [] then none
    else ({ s with used := t :: s.used } : Sys F).clientStep p x c o
  | .get _ => none
  | .recv m =>
    if (s.peers x).got m < s.sched.out.count (x, m) then
      match carryOut x m with
      | none => none
      | some (y, m) => if y = x then s.clientStep p x c (.recv m) else none
    else none
  | o => s.clientStep p x c o

/-- The user calls `get`; the ids are as many as the calls of the graph (client.py 336). -/
def getOp (p : Client.Pickle) (s : Sys F) (x : Bytes) (c : Client.Client) (ids : List Bytes) (gid : Bytes)
    (g : Dict Bytes Client.UserNode) (keys : List Bytes) : Option (Sys F) :=
  if c.user = .idle ∧ (gid :: ids).Nodup ∧ (∀ t ∈ gid :: ids, t ∉ s.used ∧ t ≠ []) ∧
      (g.items.filter fun e => e.2.isCall).length = ids.length then
    match Client.buildGraph p ids gid g keys, c.callGet p ids gid g keys with
    | .ok m, .ok (c, ret) =>
      some { (s.setPeer x (.client c)) with used := gid :: ids ++ s.used, gets := s.gets ++ [⟨x, g, keys, m, ret⟩] }
    | _, _ => none
  else none

/-- The agent's step (scaled/worker/worker.py 108-154). -/
def agentStep (s : Sys F) (x : Bytes) (a : Worker.Agent) (ret : Int) (qs : List (Proc.Proc F)) (e : Worker.Agent.Event) : Option (Sys F) :=
  match a.step e with
  | .ok a => some (s.setPeer x (.worker a ret (extend ret e.now qs a.procs) none))
  | .error _ => none

/-- The agent's part of an event (scaled/worker/worker.py 108-154, scaled/io/async_connector.py 68-87). -/
def agentOp (s : Sys F) (x : Bytes) (a : Worker.Agent) (ret : Int) (qs : List (Proc.Proc F)) (e : Worker.Agent.Event) : Option (Sys F) :=
  match e.op with
  | .recv m =>
    if (s.peers x).got m < s.sched.out.count (x, m) then
      match carryOut x m with
      | none => none
      | some (y, m) => if y = x then s.agentStep x a ret qs { e with op := .recv m } else none
    else none
  | .heard m =>
    if (a.log.countP fun y => decide (y.2 = .heard m)) < procsSent m qs then
      match carry m with
      | none => none
      | some m => s.agentStep x a ret qs { e with op := .heard m }
    else none
  | _ => s.agentStep x a ret qs e

/-- The processor's step (scaled/worker/agent/processor/processor.py 75-138). -/
def procStep (rt : Proc.Runtime F V X) (s : Sys F) (x : Bytes) (a : Worker.Agent) (ret : Int) (qs : List (Proc.Proc F)) (n : Nat)
    (q : Proc.Proc F) (e : Proc.Event) : Option (Sys F) :=
  match q.step rt e with
  | .ok q => some (s.setPeer x (.worker a ret (qs.set n q) none))
  | .error _ => none

/-- The processor's part of an event; a killed processor does nothing (scaled/worker/agent/processor/processor.py 75-138). -/
def procOp (rt : Proc.Runtime F V X) (s : Sys F) (x : Bytes) (a : Worker.Agent) (ret : Int) (qs : List (Proc.Proc F)) (n : Nat)
    (e : Proc.Event) : Option (Sys F) :=
  if a.processor = some n then
    match qs[n]? with
    | none => none
    | some q =>
      match e.op with
      | .recv m =>
        if (q.log.countP fun y => decide (y.2 = .recv m)) < (a.log.countP fun y => decide (y.2 = .told n m)) then
          match carry m with
          | none => none
          | some m => s.procStep rt x a ret qs n q { e with op := .recv m }
        else none
      | _ => s.procStep rt x a ret qs n q e
  else none

/-- One event; `none` if it cannot happen (scaled/scheduler/main.py 92-145, scaled/client.py 76-246, scaled/worker/worker.py 108-154, scaled/worker/agent/processor/processor.py 75-138). -/
def step (p : Client.Pickle) (rt : Proc.Runtime F V X) (s : Sys F) : Op → Option (Sys F)
  | .joinClient x =>
    match s.peers x with
    | .absent => some (s.setPeer x (.client .init))
    | _ => none
  | .joinWorker x d ret now =>
    match s.peers x with
    | .absent => some (s.setPeer x (.worker (.init d now) ret [Proc.Proc.init ret now] none))
    | _ => none
  | .sched e => s.schedStep e
  | .client x o =>
    match s.peers x with
    | .client c => s.clientOp p x c o
    | _ => none
  | .get x ids gid g keys =>
    match s.peers x with
    | .client c => s.getOp p x c ids gid g keys
    | _ => none
  | .agent x e =>
    match s.peers x with
    | .worker a ret qs none => s.agentOp x a ret qs e
    | _ => none
  | .proc x n e =>
    match s.peers x with
    | .worker a ret qs none => s.procOp rt x a ret qs n e
    | _ => none
  | .leave x =>
    match s.peers x with
    | .worker a ret qs none => some (s.setPeer x (.worker a ret qs (some x)))
    | _ => none

end Sys

/-- The states of all executions (scaled/scheduler/main.py 32-145 with its clients and workers). -/
inductive Reach (p : Client.Pickle) (rt : Proc.Runtime F V X) (cfg : Config) : Sys F → Prop where
  | init : Reach p rt cfg (Sys.init cfg)
  | step {s s' : Sys F} (o : Op) : Reach p rt cfg s → s.step p rt o = some s' → Reach p rt cfg s'

end Verif.System
