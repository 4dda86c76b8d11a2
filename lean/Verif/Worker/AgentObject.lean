import Verif.Base.Object
import Verif.Worker.Agent

/-!
# The agent, one assignment after the other

`scaled/worker/worker.py` 108-134 with `scaled/worker/agent/{task,processor,heartbeat,timeout}_manager.py`: the handlers of
`Worker/Agent` once more, now keeping what they changed before they raised.

Simplifications: those of `Worker/Agent`.  A call of the queue changes it or raises (`C06_unchanged`).
-/

namespace Verif.Worker.Agent.Object

open Verif.Wire Verif.Queue Doing

/-- `_connector_external.send` (scaled/worker/worker.py 72-78, scaled/io/async_connector.py 84-87). -/
def send (now : Int) (m : Message) : Doing Agent Unit := assign (·.send now m)

/-- `_connector_internal.send` (scaled/worker/agent/processor_manager.py 85, 98, 112) -/
def tell (now : Int) (m : Message) : Doing Agent Unit := assign (·.tell now m)

/-! ### processor_manager.py -/

/-- `__kill`, processor_manager.py 144-153 -/
def kill (now : Int) : Doing Agent Unit := do
  let a ← self
  match a.processor with
  | none => assign fun a => { a with initialized := false }
  | some n => do
    assign (·.note now (.killed n))
    assign fun a => { a with processor := none }
    assign fun a => { a with initialized := false }

/-- `__start_new_processor`, processor_manager.py 155-168 -/
def startProcessor (now : Int) : Doing Agent Unit := do
  let a ← self
  assign fun a => { a with processor := some a.procs }
  assign (·.note now (.started a.procs))
  assign fun a => { a with procs := a.procs + 1 }

/-- `restart_processor`, processor_manager.py 135-137 -/
def restart (now : Int) : Doing Agent Unit := do
  kill now
  startProcessor now

/-- `on_function_request`, processor_manager.py 83-90 -/
def onFunctionRequest (now : Int) (type : FunctionRequestType) (fid : Bytes) : Doing Agent Unit :=
  if type = .delete then tell now (.functionRequest .delete fid [] []) else fail .typeError

/-- `on_task` from the wait for the processor on, processor_manager.py 96-99 -/
def handOver (now : Int) (t : Task) : Doing Agent Unit := do
  let a ← self
  check a.task.isNone
  assign fun a => { a with task := some t, pos := .idle }
  tell now (.task t)

/-- `on_task`, processor_manager.py 95 -/
def awaitProcessor (now : Int) (t : Task) : Doing Agent Unit := do
  let a ← self
  if a.initialized then handOver now t else assign fun a => { a with pos := .init t false }

/-- `on_task`, processor_manager.py 93 -/
def awaitLock (now : Int) (t : Task) : Doing Agent Unit := do
  let a ← self
  if a.locked then assign fun a => { a with pos := .lock t }
  else do
    assign fun a => { a with locked := true }
    awaitProcessor now t

/-- `on_function_response`, processor_manager.py 101-112 -/
def onFunctionResponse (now : Int) (status : FunctionResponseType) (fid name content : Bytes) : Doing Agent Unit := do
  let a ← self
  if !a.initialized then pure ()
  else do
    let t ← eval (orRaise a.task .attributeError)
    if t.functionId ≠ fid then pure ()
    else if status = .notExists then pure ()
    else tell now (.functionResponse status fid name content)

/-- `on_cancel_task`, processor_manager.py 114-124 -/
def cancelRunning (now : Int) (tid : Bytes) : Doing Agent Bool := do
  let a ← self
  if !a.initialized then pure false
  else do
    let t ← eval (orRaise a.task .attributeError)
    if t.taskId ≠ tid then pure false
    else do
      restart now
      assign fun a => { a with task := none }
      assign fun a => { a with locked := false }
      pure true

/-- `__on_internal_processor_initialized`, processor_manager.py 187-193 -/
def onInitialized (now : Int) (r : Bytes) : Doing Agent Unit :=
  if r ≠ [] then pure ()
  else do
    assign fun a => { a with initialized := true, pos := match a.pos with
      | .init t _ => .init t true
      | p => p }
    let a ← self
    match a.task with
    | some t => tell now (.task t)
    | none => pure ()

/-- `__on_internal_task_result`, processor_manager.py 170-185, with `on_task_result`, task_manager.py 36-37 -/
def onResult (now : Int) (tid : Bytes) (status : TaskStatus) (duration : UInt32) (result : Bytes) : Doing Agent Unit := do
  let a ← self
  if !a.initialized then onInitialized now tid
  else
    match a.task with
    | none => pure ()
    | some t =>
      if t.taskId ≠ tid then pure ()
      else do
        send now (.taskResult tid status duration result)
        let a ← self
        check a.task.isSome
        assign fun a => { a with task := none }
        assign fun a => { a with locked := false }

/-- `__on_internal_function_request`, processor_manager.py 206-217 -/
def onInternalFunctionRequest (now : Int) (type : FunctionRequestType) (fid name content : Bytes) : Doing Agent Unit := do
  let a ← self
  if !a.initialized then pure ()
  else
    match a.task with
    | none => pure ()
    | some t =>
      if t.functionId ≠ fid then pure ()
      else do
        check (type = .request)
        send now (.functionRequest type fid name content)

/-- `__on_receive_internal`, processor_manager.py 195-204 -/
def receiveInternal (now : Int) : Message → Doing Agent Unit
  | .functionRequest type fid name content => onInternalFunctionRequest now type fid name content
  | .taskResult tid st d r => onResult now tid st d r
  | _ => fail .typeError

/-! ### task_manager.py -/

/-- `on_task_new`, task_manager.py 29-31 -/
def onTaskNew (t : Task) : Doing Agent Unit := do
  assign fun a => { a with tasks := a.tasks.set t.taskId t }
  let a ← self
  let queue ← eval (a.queue.put id t.taskId)
  assign fun a => { a with queue }

/-- `_queued_task_id_to_task.pop`, task_manager.py 41, 58, 68 -/
def popTask (tid : Bytes) : Doing Agent Task := do
  let a ← self
  let (t, tasks) ← eval (a.tasks.pop tid)
  assign fun a => { a with tasks }
  pure t

/-- `_queued_task_ids.get_nowait`, task_manager.py 56, 67 -/
def popQueue : Doing Agent Bytes := do
  let a ← self
  let (tid, queue) ← eval (a.queue.get id)
  assign fun a => { a with queue }
  pure tid

/-- `on_cancel_task`, task_manager.py 39-50 -/
def onCancel (now : Int) (tid : Bytes) : Doing Agent Unit := do
  let a ← self
  if a.tasks.has tid then do
    let _ ← popTask tid
    let a ← self
    let queue ← eval (a.queue.remove id tid)
    assign fun a => { a with queue }
    send now (.taskResult tid .canceled 0 [])
  else do
    let b ← cancelRunning now tid
    if b then send now (.taskResult tid .canceled 0 []) else send now (.taskResult tid .notFound 0 [])

/-- The loop of `on_balance_request`, task_manager.py 55-59 -/
def takeOldest : Nat → Doing Agent (List Bytes)
  | 0 => pure []
  | n + 1 => do
    let tid ← popQueue
    let _ ← popTask tid
    let l ← takeOldest n
    pure (tid :: l)

/-- `on_balance_request`, task_manager.py 52-61; for a negative number see `Worker/Agent` -/
def onBalance (n : Int) : Doing Agent (List Bytes) := do
  let a ← self
  let k := min n a.queue.len
  if k < 0 then fail .queueEmpty else takeOldest k.toNat

/-- `routine`, task_manager.py 33-34 and 66-73 -/
def turn (now : Int) : Doing Agent Unit := do
  let a ← self
  match a.pos with
  | .idle =>
    if a.queue.len = 0 then pure ()
    else do
      let tid ← popQueue
      let t ← popTask tid
      awaitLock now t
  | .lock t =>
    if a.locked then pure ()
    else do
      assign fun a => { a with locked := true }
      awaitProcessor now t
  | .init t woken => if woken then handOver now t else pure ()

/-! ### heartbeat_manager.py, timeout_manager.py and worker.py -/

/-- `on_heartbeat_echo`, heartbeat_manager.py 44-51, with `update_last_seen_time`, timeout_manager.py 12-13 -/
def onEcho (now : Int) : Doing Agent Unit := do
  let a ← self
  if a.beatAt = 0 then pure ()
  else do
    assign fun a => { a with latency := (now - a.beatAt) / 2000 }
    assign fun a => { a with beatAt := 0 }
    assign fun a => { a with lastSeen := now }

/-- `routine`, heartbeat_manager.py 53-74 -/
def heartbeat (now : Int) (f : Figures) : Doing Agent Unit := do
  let a ← self
  if a.procs = 0 then pure ()
  else if a.beatAt ≠ 0 then pure ()
  else do
    let _ ← eval (a.heartbeatMsg f).serialize
    send now (.heartbeat (a.heartbeatMsg f))
    assign fun a => { a with beatAt := now }

/-- `routine`, timeout_manager.py 15-19 -/
def checkTimeout (now : Int) : Doing Agent Unit := do
  let a ← self
  if now - a.lastSeen < a.deathTimeout then pure () else fail .timeoutError

/-- `__on_receive_external`, worker.py 108-134 -/
def receive (now : Int) : Message → Doing Agent Unit
  | .heartbeatEcho => onEcho now
  | .task t => onTaskNew t
  | .taskCancel tid => onCancel now tid
  | .balanceRequest n => do
    let l ← onBalance n
    send now (.balanceResponse l)
  | .functionRequest type fid _ _ => onFunctionRequest now type fid
  | .functionResponse status fid name content => onFunctionResponse now status fid name content
  | _ => fail .typeError

/-- One event (worker.py 108-154). -/
def step (e : Event) : Doing Agent Unit :=
  match e.op with
  | .recv m => do
    assign (·.note e.now (.recv m))
    receive e.now m
  | .heard m => do
    assign (·.note e.now (.heard m))
    receiveInternal e.now m
  | .turn => turn e.now
  | .heartbeat f => heartbeat e.now f
  | .check => checkTimeout e.now

end Verif.Worker.Agent.Object
