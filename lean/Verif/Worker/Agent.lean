import Verif.Wire.Message
import Verif.Queue.Indexed

/-!
# The worker agent

`scaled/worker/worker.py` with `scaled/worker/agent/{task,processor,heartbeat,timeout}_manager.py`.

The agent is one asyncio process.  Its five loops (worker.py 136-144) run interleaved, but a handler only
gives up control where it really waits.  That happens in the task manager's loop alone: for a task
(task_manager.py 67), for the lock and for the processor (processor_manager.py 93, 95).  `Pos` says where
the loop waits; one event runs one handler, or that loop up to its next wait.

Simplifications:
* Sending never waits.  In the code, a message for a processor that is not connected yet waits for it.
* The processor's process is a number: how many were started before it.  Messages to a killed processor
  are lost; that is the processor's business, not the agent's.
* `psutil` figures are inputs of the heartbeat event and reading them does not fail (`C108_safe`).
* Times are integers in nanoseconds.
-/

namespace Verif.Worker

open Verif.Wire Verif.Queue

/-- What the agent does and sees, in order.  The code keeps no such record: it is there to state
properties (scaled/worker/worker.py 108-154). -/
inductive Act where
  /-- a message from the scheduler arrives -/
  | recv (m : Message)
  /-- a message from the processor arrives -/
  | heard (m : Message)
  /-- `_connector_external.send` -/
  | sent (m : Message)
  /-- `_connector_internal.send`, to processor number `n` -/
  | told (n : Nat) (m : Message)
  /-- processor number `n` is started -/
  | started (n : Nat)
  /-- processor number `n` is killed -/
  | killed (n : Nat)
  deriving DecidableEq

/-- Where the task manager's loop waits (task_manager.py 66-69 with processor_manager.py 92-95). -/
inductive Pos where
  /-- for a queued task -/
  | idle
  /-- for the lock, with a task in hand -/
  | lock (t : Task)
  /-- for the processor, with a task in hand and holding the lock; `woken`: the event was set since
  (asyncio's `Event.wait` returns then, even if the event is cleared in between) -/
  | init (t : Task) (woken : Bool)
  deriving DecidableEq, Repr

/-- State of the agent: `_ProcessorHolder` (processor_manager.py 31-36), the task manager's tables
(task_manager.py 19-20), heartbeat and timeout (heartbeat_manager.py 26-27, timeout_manager.py 9-10). -/
structure Agent where
  /-- `_queued_task_id_to_task` -/
  tasks : Dict Bytes Task
  /-- `_queued_task_ids`; ids are their own hash -/
  queue : IQueue Bytes Bytes
  /-- the task manager's loop -/
  pos : Pos
  /-- `holder.task` -/
  task : Option Task
  /-- `holder.initialized` -/
  initialized : Bool
  /-- `holder.task_wait_lock.locked()` -/
  locked : Bool
  /-- number of the current processor; `none` before the first is started -/
  processor : Option Nat
  /-- how many processors were started -/
  procs : Nat
  /-- `_start_timestamp_ns` -/
  beatAt : Int
  /-- `_latency_us` -/
  latency : Int
  /-- `_death_timeout_seconds` in nanoseconds -/
  deathTimeout : Int
  /-- `_last_seen_time` -/
  lastSeen : Int
  /-- history with clock readings, oldest first -/
  log : List (Int × Act)

namespace Agent

/-- Note an action (no Python counterpart). -/
def note (a : Agent) (now : Int) (x : Act) : Agent := { a with log := a.log ++ [(now, x)] }

/-- `_connector_external.send`; for a heartbeat see `heartbeat` (scaled/worker/worker.py 72-78, scaled/io/async_connector.py 84-87). -/
def send (a : Agent) (now : Int) (m : Message) : Agent := a.note now (.sent m)

/-- `_connector_internal.send` (scaled/worker/agent/processor_manager.py 85, 98, 112) -/
def tell (a : Agent) (now : Int) (m : Message) : Agent := a.note now (.told (a.processor.getD 0) m)

/-- `__kill`, processor_manager.py 144-153 -/
def kill (a : Agent) (now : Int) : Agent :=
  match a.processor with
  | none => { a with initialized := false }
  | some n => { a.note now (.killed n) with processor := none, initialized := false }

/-- `__start_new_processor`, processor_manager.py 155-168 -/
def startProcessor (a : Agent) (now : Int) : Agent :=
  { a.note now (.started a.procs) with processor := some a.procs, procs := a.procs + 1 }

/-- `restart_processor`, processor_manager.py 135-137 -/
def restart (a : Agent) (now : Int) : Agent := (a.kill now).startProcessor now

/-- The agent before its first processor, worker.py 68-100. -/
def blank (deathTimeout now : Int) : Agent where
  tasks := Dict.empty
  queue := IQueue.empty
  pos := .idle
  task := none
  initialized := false
  locked := false
  processor := none
  procs := 0
  beatAt := 0
  latency := 0
  deathTimeout := deathTimeout
  lastSeen := now
  log := []

/-- worker.py 68-106 with processor_manager.py 76-78 -/
def init (deathTimeout now : Int) : Agent := (blank deathTimeout now).startProcessor now

/-! ### processor_manager.py -/

/-- `on_function_request`, 83-90 (scaled/worker/agent/processor_manager.py) -/
def onFunctionRequest (a : Agent) (now : Int) (type : FunctionRequestType) (fid : Bytes) : Py Agent :=
  if type = .delete then .ok (a.tell now (.functionRequest .delete fid [] []))
  else .error .typeError

/-- `on_task` from the wait for the processor on, 96-99; the lock is held (scaled/worker/agent/processor_manager.py). -/
def handOver (a : Agent) (now : Int) (t : Task) : Py Agent := do
  pyAssert a.task.isNone
  let a := { a with task := some t, pos := .idle }
  return a.tell now (.task t)

/-- `on_task`, 95: wait for the processor; the lock is held (scaled/worker/agent/processor_manager.py). -/
def awaitProcessor (a : Agent) (now : Int) (t : Task) : Py Agent :=
  if a.initialized then a.handOver now t
  else .ok { a with pos := .init t false }

/-- `on_task`, 93: take the lock or wait for it (scaled/worker/agent/processor_manager.py). -/
def awaitLock (a : Agent) (now : Int) (t : Task) : Py Agent :=
  if a.locked then .ok { a with pos := .lock t }
  else { a with locked := true }.awaitProcessor now t

/-- `on_function_response`, 101-112; `None.function_id` raises `AttributeError` (scaled/worker/agent/processor_manager.py). -/
def onFunctionResponse (a : Agent) (now : Int) (status : FunctionResponseType) (fid name content : Bytes) : Py Agent :=
  if !a.initialized then .ok a
  else do
    let t ← orRaise a.task .attributeError
    if t.functionId ≠ fid then return a
    else if status = .notExists then return a
    else return a.tell now (.functionResponse status fid name content)

/-- `on_cancel_task`, 114-124; `None.task_id` raises `AttributeError`.  Releasing a lock that is not held
would raise `RuntimeError`; the invariant `Inv.lock` shows that it is held (scaled/worker/agent/processor_manager.py). -/
def cancelRunning (a : Agent) (now : Int) (tid : Bytes) : Py (Bool × Agent) :=
  if !a.initialized then .ok (false, a)
  else do
    let t ← orRaise a.task .attributeError
    if t.taskId ≠ tid then return (false, a)
    else return (true, { a.restart now with task := none, locked := false })

/-- `__on_internal_processor_initialized`, 187-193; setting the event wakes the loop that waits for it (scaled/worker/agent/processor_manager.py). -/
def onInitialized (a : Agent) (now : Int) (r : Bytes) : Agent :=
  if r ≠ [] then a
  else
    let a := { a with
      initialized := true
      pos := match a.pos with
        | .init t _ => .init t true
        | p => p }
    match a.task with
    | some t => a.tell now (.task t)
    | none => a

/-- `__on_internal_task_result`, 170-185, with the task manager's `on_task_result`, task_manager.py 36-37 -/
def onResult (a : Agent) (now : Int) (tid : Bytes) (status : TaskStatus) (duration : UInt32) (result : Bytes) : Agent :=
  if !a.initialized then a.onInitialized now tid
  else
    match a.task with
    | none => a
    | some t =>
      if t.taskId ≠ tid then a
      else { a.send now (.taskResult tid status duration result) with task := none, locked := false }

/-- `__on_internal_function_request`, 206-217 (scaled/worker/agent/processor_manager.py) -/
def onInternalFunctionRequest (a : Agent) (now : Int) (type : FunctionRequestType) (fid name content : Bytes) : Py Agent :=
  if !a.initialized then .ok a
  else
    match a.task with
    | none => .ok a
    | some t =>
      if t.functionId ≠ fid then .ok a
      else do
        pyAssert (type = .request)
        return a.send now (.functionRequest type fid name content)

/-- `__on_receive_internal`, 195-204 (scaled/worker/agent/processor_manager.py) -/
def receiveInternal (a : Agent) (now : Int) : Message → Py Agent
  | .functionRequest type fid name content => a.onInternalFunctionRequest now type fid name content
  | .taskResult tid st d r => .ok (a.onResult now tid st d r)
  | _ => .error .typeError

/-! ### task_manager.py -/

/-- `on_task_new`, 29-31: the dictionary is written before the queue raises for a queued id; the exception
ends the process, so the written state is not kept (scaled/worker/agent/task_manager.py). -/
def onTaskNew (a : Agent) (t : Task) : Py Agent := do
  let a := { a with tasks := a.tasks.set t.taskId t }
  let queue ← a.queue.put id t.taskId
  return { a with queue }

/-- `on_cancel_task`, 39-50 (scaled/worker/agent/task_manager.py) -/
def onCancel (a : Agent) (now : Int) (tid : Bytes) : Py Agent :=
  if a.tasks.has tid then do
    let (_, tasks) ← a.tasks.pop tid
    let queue ← a.queue.remove id tid
    return { a with tasks, queue }.send now (.taskResult tid .canceled 0 [])
  else do
    let (b, a) ← a.cancelRunning now tid
    if b then return a.send now (.taskResult tid .canceled 0 [])
    else return a.send now (.taskResult tid .notFound 0 [])

/-- The loop of `on_balance_request`, 55-59, for a number that is not negative (scaled/worker/agent/task_manager.py). -/
def takeOldest (a : Agent) : Nat → Py (List Bytes × Agent)
  | 0 => .ok ([], a)
  | n + 1 => do
    let (tid, queue) ← a.queue.get id
    let (_, tasks) ← a.tasks.pop tid
    let (l, a) ← { a with queue, tasks }.takeOldest n
    return (tid :: l, a)

/-- `on_balance_request`, 52-61.  A negative number is true in `while number_of_tasks`, so the loop would
empty the queue and raise; a message cannot hold one (message.py, format `I`) (scaled/worker/agent/task_manager.py). -/
def onBalance (a : Agent) (n : Int) : Py (List Bytes × Agent) :=
  let k := min n a.queue.len
  if k < 0 then .error .queueEmpty else a.takeOldest k.toNat

/-- `routine`, 33-34 and 66-73: run the loop from where it waits to its next wait.  `on_task` always
returns true, so lines 72-73 do not run (scaled/worker/agent/task_manager.py). -/
def turn (a : Agent) (now : Int) : Py Agent :=
  match a.pos with
  | .idle =>
    if a.queue.len = 0 then .ok a
    else do
      let (tid, queue) ← a.queue.get id
      let (t, tasks) ← a.tasks.pop tid
      { a with queue, tasks }.awaitLock now t
  | .lock t => if a.locked then .ok a else { a with locked := true }.awaitProcessor now t
  | .init t woken => if woken then a.handOver now t else .ok a

/-! ### heartbeat_manager.py and timeout_manager.py -/

/-- Figures of the two processes, read by `psutil` (heartbeat_manager.py 63-66); cpu in permille. -/
structure Figures where
  agentCpu : Int
  agentRss : Int
  workerCpu : Int
  workerRss : Int
  deriving DecidableEq, Repr

/-- `on_heartbeat_echo`, 44-51, with `update_last_seen_time`, timeout_manager.py 12-13.  The latency goes
through a float in the code; `Util/Latency` computes it so, and `C69_latency` shows that it is this number
below 2^53 nanoseconds. -/
def onEcho (a : Agent) (now : Int) : Agent :=
  if a.beatAt = 0 then a
  else { a with latency := (now - a.beatAt) / 2000, beatAt := 0, lastSeen := now }

/-- The message of heartbeat_manager.py 62-72; `current_task` (processor_manager.py 129-130) is true for a
running task whose id is not empty. -/
def heartbeatMsg (a : Agent) (f : Figures) : Heartbeat where
  agentCpu := f.agentCpu
  agentRss := f.agentRss
  workerCpu := f.workerCpu
  workerRss := f.workerRss
  queuedTasks := a.queue.len
  latencyUs := a.latency
  initialized := a.initialized
  hasTask := match a.task with
    | some t => decide (t.taskId ≠ [])
    | none => false
  taskLock := a.locked

/-- `routine`, heartbeat_manager.py 53-74.  Packing the figures may fail. -/
def heartbeat (a : Agent) (now : Int) (f : Figures) : Py Agent :=
  if a.procs = 0 then .ok a
  else if a.beatAt ≠ 0 then .ok a
  else do
    let _ ← (a.heartbeatMsg f).serialize
    return { a.send now (.heartbeat (a.heartbeatMsg f)) with beatAt := now }

/-- `routine`, timeout_manager.py 15-19 -/
def checkTimeout (a : Agent) (now : Int) : Py Agent :=
  if now - a.lastSeen < a.deathTimeout then .ok a else .error .timeoutError

/-! ### worker.py -/

/-- `__on_receive_external`, 108-134 (scaled/worker/worker.py) -/
def receive (a : Agent) (now : Int) : Message → Py Agent
  | .heartbeatEcho => .ok (a.onEcho now)
  | .task t => a.onTaskNew t
  | .taskCancel tid => a.onCancel now tid
  | .balanceRequest n => do
    let (l, a) ← a.onBalance n
    return a.send now (.balanceResponse l)
  | .functionRequest type fid _ _ => a.onFunctionRequest now type fid
  | .functionResponse status fid name content => a.onFunctionResponse now status fid name content
  | _ => .error .typeError

/-- What can happen in the agent, worker.py 136-144. -/
inductive Op where
  | recv (m : Message)
  | heard (m : Message)
  | turn
  | heartbeat (f : Figures)
  | check

/-- One event with the clock (scaled/worker/worker.py 108-154). -/
structure Event where
  op : Op
  now : Int

/-- One event.  An exception ends the worker (worker.py 138-154). -/
def step (a : Agent) (e : Event) : Py Agent :=
  match e.op with
  | .recv m => (a.note e.now (.recv m)).receive e.now m
  | .heard m => (a.note e.now (.heard m)).receiveInternal e.now m
  | .turn => a.turn e.now
  | .heartbeat f => a.heartbeat e.now f
  | .check => a.checkTimeout e.now

/-- A sequence of events (scaled/worker/worker.py 136-144). -/
def run (a : Agent) : List Event → Py Agent
  | [] => .ok a
  | e :: es => do
    let a ← a.step e
    run a es

end Agent

end Verif.Worker
