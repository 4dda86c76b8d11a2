import Verif.Wire.Message

/-!
# `scaled/client.py`: submitting tasks and receiving results

The client has two threads: the user's thread calls `submit`, `get` and `disconnect`, the connector's thread
(`sync_connector.py`) sends what is queued and handles messages.  The user's thread goes through `submit` and `get`
in small steps, because messages are handled in between.

Simplifications.
* There is one user thread; a handler of the connector's thread is one step.
* `dict` access, `list.append` on a `dict` entry and `Queue.put` are atomic.
* Values of results stay pickled: a future holds the bytes of its result.  `Pickle.loads` says whether they can be
  unpickled; if not, `valueError` stands for whatever pickle raises.
* The memo of `__get_function_id` (client.py 248-254) is not here but in `Client/Memo`; `content` is what it gives.
* Waiting for a future does not change the client.
-/

namespace Verif.Client

open Verif.Wire

/-- State of a `concurrent.futures.Future` (CPython; used by scaled/client.py 90, 186, 205-246). -/
inductive FState where
  | pending
  | running
  /-- cancelled by the user -/
  | cancelled
  /-- `CANCELLED_AND_NOTIFIED` -/
  | notified
  /-- finished with this (pickled) result -/
  | result (r : Bytes)
  /-- finished with this (pickled) exception -/
  | exception (r : Bytes)
  /-- finished with `ScaledDisconnect` -/
  | disconnected
  deriving DecidableEq

/-- `Future.cancel` (CPython 3.11, `concurrent/futures/_base.py` 355-372) -/
def FState.cancel : FState → FState
  | .pending => .cancelled
  | s => s

/-- `Future.set_running_or_notify_cancel` (`_base.py` 496-525) -/
def FState.setRunning : FState → Py FState
  | .pending => .ok .running
  | .cancelled => .ok .notified
  | _ => .error .invalidState

/-- `Future.set_result` and `set_exception` (`_base.py` 527-557) with the final state `s` -/
def FState.finish (s : FState) : FState → Py FState
  | .pending => .ok s
  | .running => .ok s
  | _ => .error .invalidState

/-- What pickle and md5 do (scaled/client.py 212, 216, 227, 231, 258; `Serializer`, scaled/protocol/python/serializer/default.py 11-33). -/
structure Pickle where
  /-- the bytes can be unpickled -/
  loads : Bytes → Bool
  /-- `hashlib.md5` -/
  hash : Bytes → Bytes

/-- Where the user's thread stands (scaled/client.py 76-131). -/
inductive User where
  | idle
  /-- before client.py 88 -/
  | stored (k : Task) (name content : Bytes)
  /-- before client.py 189 -/
  | check (k : Task)
  /-- before client.py 190 -/
  | request (k : Task)
  /-- before client.py 195 -/
  | append (k : Task)
  /-- before client.py 92 -/
  | register (k : Task)
  /-- before client.py 129 -/
  | registerGraph (gid : Bytes) (futures : List Nat)
  deriving DecidableEq

/-- What happened (no Python counterpart; what scaled/client.py 76-246 does). -/
inductive Act where
  /-- `submit` created this task (client.py 87) -/
  | submitted (k : Task) (name content : Bytes)
  /-- `get` built this message (client.py 127) -/
  | graph (g : GraphTask)
  /-- `submit` returns this future (client.py 94) -/
  | returned (t : Bytes) (n : Nat)
  /-- `get` has these futures for this graph (client.py 129) -/
  | started (g : Bytes) (ns : List Nat)
  /-- put on the wire -/
  | sent (m : Message)
  /-- taken from the wire -/
  | recv (m : Message)
  /-- the user cancelled a future -/
  | cancelled (n : Nat)
  /-- the connector's thread ended properly -/
  | exited
  deriving DecidableEq

/-- The client (client.py 62-70, sync_connector.py 58). -/
structure Client where
  /-- `_task_id_to_task` -/
  toTask : Dict Bytes Task
  /-- `_task_id_to_function` -/
  toFunction : Dict Bytes (Bytes × Bytes)
  /-- `_task_id_to_future` -/
  toFuture : Dict Bytes Nat
  /-- `_function_id_to_not_ready_tasks` -/
  notReady : Dict Bytes (List Task)
  /-- `_graph_task_id_to_futures` -/
  graphs : Dict Bytes (List Nat)
  /-- all futures ever created; a future is its index -/
  futures : List FState
  /-- `SyncConnector._send_queue` -/
  outbox : List Message
  /-- `_stop_event` -/
  stop : Bool
  /-- the connector's thread has ended (sync_connector.py 82-85) -/
  closed : Bool
  user : User
  /-- history, oldest first -/
  log : List Act
  deriving DecidableEq

namespace Client

/-- A fresh client (client.py 44-70). -/
def init : Client :=
  { toTask := .empty, toFunction := .empty, toFuture := .empty, notReady := .empty, graphs := .empty, futures := [],
    outbox := [], stop := false, closed := false, user := .idle, log := [] }

/-- records an action (no Python counterpart) -/
def note (c : Client) (x : Act) : Client := { c with log := c.log ++ [x] }

/-- `SyncConnector.send` (sync_connector.py 87-88) -/
def send (c : Client) (m : Message) : Client := { c with outbox := c.outbox ++ [m] }

/-- changes one future (scaled/client.py 186, 205-246) -/
def setFuture (c : Client) (n : Nat) (f : FState → Py FState) : Py Client := do
  let s ← pyIndex c.futures n
  let s ← f s
  return { c with futures := c.futures.set n s }

/-- client.py 77-87: `content` is the pickled function, `args` are the pickled arguments, `t` is the new id. -/
def submit (p : Pickle) (c : Client) (t name content : Bytes) (args : List Bytes) : Client :=
  let k : Task := ⟨t, p.hash content, args.map fun a => ⟨.data, a⟩⟩
  { (c.note (.submitted k name content)) with toTask := c.toTask.set t k, user := .stored k name content }

/-- client.py 190-193 -/
def requestFunction (c : Client) (k : Task) : Py Client := do
  let (name, content) ← c.toFunction.getPy k.taskId
  return c.send (.functionRequest .add k.functionId name content)

/-- client.py 195; the table is a `defaultdict(list)`. -/
def appendTask (c : Client) (k : Task) : Client :=
  { c with notReady := c.notReady.set k.functionId (((c.notReady.get? k.functionId).getD []) ++ [k]) }

/-- `__on_buffer_task_send` (client.py 188-195) in the connector's thread. -/
def bufferSend (c : Client) (k : Task) : Py Client := do
  if c.notReady.has k.functionId then
    return c.appendTask k
  else
    return (← c.requestFunction k).appendTask k

/-- client.py 127-128: the futures of a graph are new; the graph message is put in the queue. -/
def get (c : Client) (g : GraphTask) : Client :=
  let ns := List.range' c.futures.length g.targets.length
  { ((c.note (.graph g)).send (.graphTask g)) with futures := c.futures ++ g.targets.map (fun _ => .pending), user := .registerGraph g.taskId ns }

/-- One step of the user's thread inside `submit` or `get` (scaled/client.py 85-94 and 126-131). -/
def advance (c : Client) : Py Client :=
  match c.user with
  | .idle => .ok c
  -- client.py 88
  | .stored k name content => .ok { c with toFunction := c.toFunction.set k.taskId (name, content), user := .check k }
  -- client.py 189
  | .check k => .ok { c with user := if c.notReady.has k.functionId then .append k else .request k }
  -- client.py 190-193
  | .request k => do return { (← c.requestFunction k) with user := .append k }
  -- client.py 195
  | .append k => .ok { (c.appendTask k) with user := .register k }
  -- client.py 92-94
  | .register k => .ok { (c.note (.returned k.taskId c.futures.length)) with
      futures := c.futures ++ [.pending], toFuture := c.toFuture.set k.taskId c.futures.length, user := .idle }
  -- client.py 129
  | .registerGraph g ns => .ok { (c.note (.started g ns)) with graphs := c.graphs.set g ns, user := .idle }

/-- `__on_task_echo` (client.py 167-186) -/
def onTaskEcho (c : Client) (t : Bytes) (st : TaskEchoStatus) : Py Client :=
  match c.toTask.get? t with
  | none => .ok c
  | some k =>
    match st with
    | .duplicated => .ok c
    | .functionNotExists => c.bufferSend k
    | .noWorker => .error .notImplemented
    | .submitOK => do
      let (_, ts) ← c.toTask.pop t
      let (_, fs) ← c.toFunction.pop t
      let n ← c.toFuture.getPy t
      setFuture { c with toTask := ts, toFunction := fs } n FState.setRunning
    | .cancelOK => .error .assertionError
    | .cancelFailed => .error .assertionError

/-- `__on_function_response` (client.py 197-203) -/
def onFunctionResponse (c : Client) (st : FunctionResponseType) (fid : Bytes) : Py Client := do
  pyAssert (decide (st = .ok ∨ st = .duplicated))
  match c.notReady.get? fid with
  | none => return c
  | some ks => return { c with notReady := c.notReady.erase fid, outbox := c.outbox ++ ks.map .task }

/-- `__on_task_result` (client.py 205-216); other statuses than these two only remove the future from the table. -/
def onTaskResult (p : Pickle) (c : Client) (t : Bytes) (st : TaskStatus) (r : Bytes) : Py Client :=
  match c.toFuture.get? t with
  | none => .ok c
  | some n =>
    let c := { c with toFuture := c.toFuture.erase t }
    match st with
    | .success => do
      raiseIf (!p.loads r) .valueError
      c.setFuture n (FState.finish (.result r))
    | .failed => do
      raiseIf (!p.loads r) .valueError
      c.setFuture n (FState.finish (.exception r))
    | _ => .ok c

/-- The loops client.py 224-225 and 230-231: the `i`-th result resolves the `i`-th future. -/
def resolveAll (c : Client) (f : Bytes → Py FState) : List Bytes → List Nat → Py Client
  | [], _ => .ok c
  | _ :: _, [] => .error .indexError
  | r :: rs, n :: ns => do
    let s ← f r
    (← c.setFuture n (FState.finish s)).resolveAll f rs ns

/-- `__on_graph_task_result` (client.py 218-232) -/
def onGraphTaskResult (p : Pickle) (c : Client) (g : Bytes) (st : TaskStatus) (rs : List Bytes) : Py Client :=
  match c.graphs.get? g with
  | none => .ok c
  | some ns =>
    let c := { c with graphs := c.graphs.erase g }
    match st with
    | .success => c.resolveAll (fun r => if p.loads r then .ok (.result r) else .error .valueError) rs ns
    | .failed => do
      let x ← pyIndex rs 0
      raiseIf (!p.loads x) .valueError
      c.resolveAll (fun _ => .ok (.exception x)) rs ns
    | _ => .ok c

/-- `__on_receive` (client.py 148-165) -/
def receive (p : Pickle) (c : Client) (m : Message) : Py Client :=
  let c := c.note (.recv m)
  match m with
  | .taskEcho t st => c.onTaskEcho t st
  | .functionResponse st fid _ _ => c.onFunctionResponse st fid
  | .taskResult t st _ r => c.onTaskResult p t st r
  | .graphTaskResult g st rs => c.onGraphTaskResult p g st rs
  | _ => .error .typeError

/-- One round of `__routine_send` (sync_connector.py 98-102). -/
def flush (c : Client) : Py Client :=
  match c.outbox with
  | [] => .ok c
  | m :: ms => do
    let _ ← encode m
    return { (c.note (.sent m)) with outbox := ms }

/-- client.py 237-239 -/
def exitTasks (c : Client) : List (Bytes × Nat) → Py Client
  | [] => .ok c
  | (t, n) :: l => do
    ((← (c.note (.sent (.taskCancel t))).setFuture n (FState.finish .disconnected))).exitTasks l

/-- client.py 245-246 -/
def exitFutures (c : Client) : List Nat → Py Client
  | [] => .ok c
  | n :: ns => do (← c.setFuture n (FState.finish .disconnected)).exitFutures ns

/-- client.py 243-246 -/
def exitGraphs (c : Client) : List (Bytes × List Nat) → Py Client
  | [] => .ok c
  | (g, ns) :: l => do ((← (c.note (.sent (.graphTaskCancel g))).exitFutures ns)).exitGraphs l

/-- `__on_exit` (client.py 234-246) and the end of the thread (sync_connector.py 82-85). -/
def exit (c : Client) : Py Client := do
  let c ← c.exitTasks c.toFuture.items
  let c ← c.exitGraphs c.graphs.items
  return { (c.note .exited) with closed := true }

end Client

/-- What can happen (scaled/client.py 76-246, scaled/io/sync_connector.py 77-132). -/
inductive Op where
  /-- the user calls `submit`; `t` is what `uuid1` returns -/
  | submit (t name content : Bytes) (args : List Bytes)
  /-- the user calls `get` with a graph that was built as this message -/
  | get (g : GraphTask)
  /-- the user's thread goes on -/
  | advance
  /-- the user cancels a future -/
  | cancel (n : Nat)
  /-- the user calls `disconnect` (client.py 145-146) -/
  | disconnect
  /-- a message arrives -/
  | recv (m : Message)
  /-- the connector sends the next message of its queue -/
  | flush
  /-- the connector notices `disconnect` (sync_connector.py 78) -/
  | exit
  deriving DecidableEq

namespace Client

/-- One event.  Nothing happens if it cannot: calls of the user while the thread is inside another call, and the
connector after its end (scaled/client.py 76-246, scaled/io/sync_connector.py 77-132). -/
def step (p : Pickle) (c : Client) (o : Op) : Py Client :=
  match o with
  | .submit t name content args => if c.user = .idle then .ok (c.submit p t name content args) else .ok c
  | .get g => if c.user = .idle then .ok (c.get g) else .ok c
  | .advance => c.advance
  | .cancel n => .ok { (c.note (.cancelled n)) with futures := c.futures.modify n FState.cancel }
  | .disconnect => .ok { c with stop := true }
  | .recv m => if c.closed then .ok c else c.receive p m
  | .flush => if c.closed then .ok c else c.flush
  | .exit => if c.stop && !c.closed then c.exit else .ok c

/-- Events one after the other (scaled/client.py 76-246). -/
def run (p : Pickle) : Client → List Op → Py Client
  | c, [] => .ok c
  | c, o :: os => do run p (← step p c o) os

end Client

/-- The ids used in a message of `get` (scaled/client.py 333-363). -/
def graphIds (g : GraphTask) : List Bytes := g.taskId :: g.graph.map (·.taskId)

/-- The ids used so far (scaled/client.py 79, 333-363). -/
def usedIds : List Act → List Bytes
  | [] => []
  | .submitted k _ _ :: l => k.taskId :: usedIds l
  | .graph g :: l => graphIds g ++ usedIds l
  | _ :: l => usedIds l

/-- `uuid1` returns new ids (client.py 79, 336, 362). -/
def FreshOp (c : Client) : Op → Prop
  | .submit t _ _ _ => t ∉ usedIds c.log
  | .get g => (graphIds g).Nodup ∧ ∀ t ∈ graphIds g, t ∉ usedIds c.log
  | _ => True

/-- The states a client can be in (scaled/client.py 43-246). -/
inductive Reach (p : Pickle) : Client → Prop where
  | init : Reach p Client.init
  | step {c c' : Client} (o : Op) : Reach p c → FreshOp c o → c.step p o = .ok c' → Reach p c'

end Verif.Client
