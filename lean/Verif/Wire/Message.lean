import Verif.Base.Dict
import Verif.Wire.Struct

/-!
# `scaled/protocol/python/message.py`

All message classes with their `serialize`/`deserialize` methods.

Simplifications, all of them about floating point:
* `TaskResult.duration` is the 32-bit pattern that `struct.pack("f", _)` writes; the
  rounding of a Python float to 32 bits is not modelled.
* `Heartbeat.agent_cpu`/`worker_cpu` are the integers `int(cpu * 1000)` that are
  packed; the multiplication, and the division by 1000 on the receiving side, are in Util/Float.
-/

namespace Verif.Wire

/-- `enum` lookup by value, e.g. `TaskStatus(data[1])`: `ValueError` if unknown (CPython `enum`; used by scaled/protocol/python/message.py 171 and the other `deserialize`). -/
def enumOf {α} (members : List α) (value : α → Bytes) (b : Bytes) : Py α :=
  orRaise (members.find? fun m => value m == b) .valueError

/-- message.py 15-47 -/
inductive MessageType where
  | task | taskEcho | taskCancel | taskResult
  | graphTask | graphTaskEcho | graphTaskCancel | graphTaskCancelEcho | graphTaskResult
  | balanceRequest | balanceResponse
  | heartbeat | heartbeatEcho
  | functionRequest | functionResponse
  | disconnectRequest | disconnectResponse
  | workerTaskRequest
  | schedulerState | taskState | graphTaskState
  deriving DecidableEq, Repr

/-- The two-letter tags of message.py 16-43, in ASCII. -/
def MessageType.value : MessageType → Bytes
  | .task => [0x54, 0x4B]                -- TK
  | .taskEcho => [0x54, 0x45]            -- TE
  | .taskCancel => [0x54, 0x43]          -- TC
  | .taskResult => [0x54, 0x52]          -- TR
  | .graphTask => [0x47, 0x54]           -- GT
  | .graphTaskEcho => [0x47, 0x45]       -- GE
  | .graphTaskCancel => [0x47, 0x43]     -- GC
  | .graphTaskCancelEcho => [0x47, 0x58] -- GX
  | .graphTaskResult => [0x47, 0x52]     -- GR
  | .balanceRequest => [0x42, 0x51]      -- BQ
  | .balanceResponse => [0x42, 0x52]     -- BR
  | .heartbeat => [0x48, 0x42]           -- HB
  | .heartbeatEcho => [0x48, 0x45]       -- HE
  | .functionRequest => [0x46, 0x52]     -- FR
  | .functionResponse => [0x46, 0x41]    -- FA
  | .disconnectRequest => [0x44, 0x52]   -- DR
  | .disconnectResponse => [0x44, 0x50]  -- DP
  | .workerTaskRequest => [0x50, 0x49]   -- PI
  | .schedulerState => [0x53, 0x53]      -- SS
  | .taskState => [0x54, 0x53]           -- TS
  | .graphTaskState => [0x47, 0x53]      -- GS

/-- Members of the enum in declaration order (message.py 16-43). -/
def MessageType.members : List MessageType :=
  [.task, .taskEcho, .taskCancel, .taskResult, .graphTask, .graphTaskEcho, .graphTaskCancel,
   .graphTaskCancelEcho, .graphTaskResult, .balanceRequest, .balanceResponse, .heartbeat,
   .heartbeatEcho, .functionRequest, .functionResponse, .disconnectRequest, .disconnectResponse,
   .workerTaskRequest, .schedulerState, .taskState, .graphTaskState]

/-- message.py 50-57 -/
inductive TaskStatus where
  | inactive | running | canceling | success | failed | canceled | notFound
  deriving DecidableEq, Repr

/-- message.py 51-57 -/
def TaskStatus.value : TaskStatus → Bytes
  | .inactive => [0x49] | .running => [0x52] | .canceling => [0x58] | .success => [0x53]
  | .failed => [0x46] | .canceled => [0x43] | .notFound => [0x4E]

/-- message.py 51-57 -/
def TaskStatus.members : List TaskStatus :=
  [.inactive, .running, .canceling, .success, .failed, .canceled, .notFound]

/-- message.py 60-66 -/
inductive TaskEchoStatus where
  | submitOK | cancelOK | cancelFailed | duplicated | noWorker | functionNotExists
  deriving DecidableEq, Repr

/-- message.py 61-66 -/
def TaskEchoStatus.value : TaskEchoStatus → Bytes
  | .submitOK => [0x53, 0x4B] | .cancelOK => [0x43, 0x4B] | .cancelFailed => [0x43, 0x46]
  | .duplicated => [0x44, 0x43] | .noWorker => [0x4E, 0x57] | .functionNotExists => [0x46, 0x4E]

/-- message.py 61-66 -/
def TaskEchoStatus.members : List TaskEchoStatus :=
  [.submitOK, .cancelOK, .cancelFailed, .duplicated, .noWorker, .functionNotExists]

/-- message.py 69-71 -/
inductive NodeTaskType where
  | normal | target
  deriving DecidableEq, Repr

/-- message.py 70-71 -/
def NodeTaskType.value : NodeTaskType → Bytes
  | .normal => [0x4E] | .target => [0x54]

/-- message.py 70-71 -/
def NodeTaskType.members : List NodeTaskType := [.normal, .target]

/-- message.py 74-78 -/
inductive FunctionRequestType where
  | check | add | request | delete
  deriving DecidableEq, Repr

/-- message.py 75-78 -/
def FunctionRequestType.value : FunctionRequestType → Bytes
  | .check => [0x43] | .add => [0x41] | .request => [0x52] | .delete => [0x44]

/-- message.py 75-78 -/
def FunctionRequestType.members : List FunctionRequestType := [.check, .add, .request, .delete]

/-- message.py 81-85 -/
inductive FunctionResponseType where
  | ok | notExists | stillHaveTask | duplicated
  deriving DecidableEq, Repr

/-- message.py 82-85 -/
def FunctionResponseType.value : FunctionResponseType → Bytes
  | .ok => [0x4F, 0x4B] | .notExists => [0x4E, 0x45] | .stillHaveTask => [0x48, 0x54]
  | .duplicated => [0x44, 0x43]

/-- message.py 82-85 -/
def FunctionResponseType.members : List FunctionResponseType :=
  [.ok, .notExists, .stillHaveTask, .duplicated]

/-- message.py 88-90 -/
inductive ArgumentType where
  | data | task
  deriving DecidableEq, Repr

/-- message.py 89-90 -/
def ArgumentType.value : ArgumentType → Bytes
  | .data => [0x44] | .task => [0x54]

/-- message.py 89-90 -/
def ArgumentType.members : List ArgumentType := [.data, .task]

/-- message.py 104-107 -/
structure Argument where
  type : ArgumentType
  data : Bytes
  deriving DecidableEq, Repr

/-- message.py 109-110 -/
def Argument.serialize (a : Argument) : List Bytes := [a.type.value, a.data]

/-- message.py 112-114 -/
def Argument.deserialize (data : List Bytes) : Py Argument := do
  let t ← enumOf ArgumentType.members ArgumentType.value (← pyIndex data 0)
  return ⟨t, ← pyIndex data 1⟩

/-- message.py 120-124 -/
structure Task where
  taskId : Bytes
  functionId : Bytes
  args : List Argument
  deriving DecidableEq, Repr

/-- message.py 126-127 -/
def Task.serialize (t : Task) : List Bytes :=
  t.taskId :: t.functionId :: t.args.flatMap Argument.serialize

/-- The comprehension of message.py 131 over `data[2:]`: chunks of two frames, the
last one possibly short. -/
def deserializeArgs : List Bytes → Py (List Argument)
  | [] => .ok []
  | [a] => do
    let x ← Argument.deserialize [a]
    return [x]
  | a :: b :: rest => do
    let x ← Argument.deserialize [a, b]
    let xs ← deserializeArgs rest
    return x :: xs

/-- message.py 129-131 -/
def Task.deserialize (data : List Bytes) : Py Task := do
  let i ← pyIndex data 0
  let f ← pyIndex data 1
  return ⟨i, f, ← deserializeArgs (data.drop 2)⟩

/-- message.py 174-179; `functions` maps an id to (name, content). -/
structure GraphTask where
  taskId : Bytes
  functions : Dict Bytes (Bytes × Bytes)
  targets : List Bytes
  graph : List Task
  deriving DecidableEq

/-- message.py 189-193 -/
def serializeGraph : List Task → Py (List Bytes)
  | [] => .ok []
  | t :: ts => do
    let n ← packI t.serialize.length
    let rest ← serializeGraph ts
    return n :: t.serialize ++ rest

/-- message.py 181-195; `names, content = zip(*{}.values())` raises `ValueError` when
there is no function (line 185). -/
def GraphTask.serialize (g : GraphTask) : Py (List Bytes) := do
  let nf ← packI g.functions.size
  raiseIf g.functions.items.isEmpty .valueError
  let names := g.functions.values.map (·.1)
  let content := g.functions.values.map (·.2)
  let gb ← serializeGraph g.graph
  let nt ← packI g.targets.length
  return g.taskId :: nf :: g.functions.keys ++ names ++ content ++ nt :: g.targets ++ gb

/-- The loop of message.py 224-228.  The suffix `data[index:]` stands for the index;
`fuel` bounds the number of turns and never runs out (`Verif.Wire.graphLoop_fuel`). -/
def graphLoop : Nat → List Bytes → Py (List Task)
  | _, [] => .ok []
  | 0, _ :: _ => .error .recursion
  | fuel + 1, n :: rest => do
    let k ← unpackI n
    let t ← Task.deserialize (rest.take k)
    let ts ← graphLoop fuel (rest.drop k)
    return t :: ts

/-- message.py 197-230 -/
def GraphTask.deserialize (data : List Bytes) : Py GraphTask := do
  let taskId ← pyIndex data 0
  let n ← unpackI (← pyIndex data 1)
  let index := 2
  let keys := pySlice data index (index + n)
  let index := index + n
  let names := pySlice data index (index + n)
  let index := index + n
  let content := pySlice data index (index + n)
  let functions := Dict.ofList (keys.zip (names.zip content))
  let index := index + n
  let m ← unpackI (← pyIndex data index)
  let index := index + 1
  let targets := pySlice data index (index + m)
  let index := index + m
  let graph ← graphLoop data.length (data.drop index)
  return ⟨taskId, functions, targets, graph⟩

/-- message.py 299-309; cpu fields in permille (see the header). -/
structure Heartbeat where
  agentCpu : Int
  agentRss : Int
  workerCpu : Int
  workerRss : Int
  queuedTasks : Int
  latencyUs : Int
  initialized : Bool
  hasTask : Bool
  taskLock : Bool
  deriving DecidableEq, Repr

/-- message.py 311 `FORMAT = "HQHQHI???"` -/
def Heartbeat.format : List Code := [.H, .Q, .H, .Q, .H, .I, .bool, .bool, .bool]

/-- `int(b)` for a `bool` (scaled/protocol/python/message.py 315-331). -/
def boolInt (b : Bool) : Int := if b then 1 else 0

/-- message.py 313-327 -/
def Heartbeat.fields (h : Heartbeat) : List (Code × Int) :=
  [(.H, h.agentCpu), (.Q, h.agentRss), (.H, h.workerCpu), (.Q, h.workerRss), (.H, h.queuedTasks),
   (.I, h.latencyUs), (.bool, boolInt h.initialized), (.bool, boolInt h.hasTask),
   (.bool, boolInt h.taskLock)]

/-- message.py 313-327 -/
def Heartbeat.serialize (h : Heartbeat) : Py (List Bytes) := do
  return [← pack h.fields]

/-- message.py 329-352 -/
def Heartbeat.deserialize (data : List Bytes) : Py Heartbeat := do
  let l ← unpack Heartbeat.format (← pyIndex data 0)
  match l with
  | [a, b, c, d, e, f, i, t, k] => return ⟨a, b, c, d, e, f, i ≠ 0, t ≠ 0, k ≠ 0⟩
  | _ => throw .valueError

/-- A message of any class in message.py (lines 120-467). -/
inductive Message where
  | task (t : Task)
  | taskEcho (taskId : Bytes) (status : TaskEchoStatus)
  | taskCancel (taskId : Bytes)
  | taskResult (taskId : Bytes) (status : TaskStatus) (duration : UInt32) (result : Bytes)
  | graphTask (g : GraphTask)
  | graphTaskEcho (taskId : Bytes) (status : TaskEchoStatus)
  | graphTaskCancel (taskId : Bytes)
  | graphTaskResult (taskId : Bytes) (status : TaskStatus) (results : List Bytes)
  | balanceRequest (numberOfTasks : Int)
  | balanceResponse (taskIds : List Bytes)
  | heartbeat (h : Heartbeat)
  | heartbeatEcho
  | functionRequest (type : FunctionRequestType) (functionId functionName content : Bytes)
  | functionResponse (status : FunctionResponseType) (functionId functionName content : Bytes)
  | disconnectRequest (worker : Bytes)
  | disconnectResponse (worker : Bytes)
  | workerTaskRequest
  | schedulerState (data : Bytes)
  | taskState (taskId functionName : Bytes) (status : TaskStatus)
  | graphTaskState (graphTaskId taskId : Bytes) (nodeType : NodeTaskType) (parents : PySet Bytes)
  deriving DecidableEq

/-- `PROTOCOL.inverse[type(message)]`, message.py 470-493. -/
def Message.type : Message → MessageType
  | .task _ => .task
  | .taskEcho .. => .taskEcho
  | .taskCancel _ => .taskCancel
  | .taskResult .. => .taskResult
  | .graphTask _ => .graphTask
  | .graphTaskEcho .. => .graphTaskEcho
  | .graphTaskCancel _ => .graphTaskCancel
  | .graphTaskResult .. => .graphTaskResult
  | .balanceRequest _ => .balanceRequest
  | .balanceResponse _ => .balanceResponse
  | .heartbeat _ => .heartbeat
  | .heartbeatEcho => .heartbeatEcho
  | .functionRequest .. => .functionRequest
  | .functionResponse .. => .functionResponse
  | .disconnectRequest _ => .disconnectRequest
  | .disconnectResponse _ => .disconnectResponse
  | .workerTaskRequest => .workerTaskRequest
  | .schedulerState _ => .schedulerState
  | .taskState .. => .taskState
  | .graphTaskState .. => .graphTaskState

/-- `struct.pack("f", d)` on the bit pattern (scaled/protocol/python/message.py 167). -/
def packF (d : UInt32) : Bytes := packLE 4 d.toNat

/-- `struct.unpack("f", b)[0]` as a bit pattern (scaled/protocol/python/message.py 171). -/
def unpackF (b : Bytes) : Py UInt32 :=
  if b.length = 4 then .ok (UInt32.ofNat (unpackLE b)) else .error .structError

/-- The `serialize` methods: message.py 126, 139, 151, 166, 181, 238, 250, 264, 276, 288,
313, 357, 372, 387, 399, 411, 421, 433, 447, 462. -/
def Message.serialize : Message → Py (List Bytes)
  | .task t => .ok t.serialize
  | .taskEcho i s => .ok [i, s.value]
  | .taskCancel i => .ok [i]
  | .taskResult i s d r => .ok [i, s.value, packF d, r]
  | .graphTask g => g.serialize
  | .graphTaskEcho i s => .ok [i, s.value]
  | .graphTaskCancel i => .ok [i]
  | .graphTaskResult i s rs => .ok (i :: s.value :: rs)
  | .balanceRequest n => do return [← packI n]
  | .balanceResponse ids => do return (← packI ids.length) :: ids
  | .heartbeat h => h.serialize
  | .heartbeatEcho => .ok [[]]
  | .functionRequest t i n c => .ok [t.value, i, n, c]
  | .functionResponse s i n c => .ok [s.value, i, n, c]
  | .disconnectRequest w => .ok [w]
  | .disconnectResponse w => .ok [w]
  | .workerTaskRequest => .ok [[]]
  | .schedulerState d => .ok [d]
  | .taskState i n s => .ok [i, n, s.value]
  | .graphTaskState g i t ps => .ok (g :: i :: t.value :: ps.items)

/-- `PROTOCOL[message_type].deserialize(payload)`: message.py 129, 142, 154, 169, 197, 241,
253, 267, 279, 291, 329, 360, 375, 390, 402, 414, 424, 436, 450, 465; the tag
`GraphTaskCancelEcho` is not in `PROTOCOL` (470-493), so the lookup raises `KeyError`. -/
def deserialize : MessageType → List Bytes → Py Message
  | .task, d => do return .task (← Task.deserialize d)
  | .taskEcho, d => do
    return .taskEcho (← pyIndex d 0) (← enumOf TaskEchoStatus.members TaskEchoStatus.value (← pyIndex d 1))
  | .taskCancel, d => do return .taskCancel (← pyIndex d 0)
  | .taskResult, d => do
    let i ← pyIndex d 0
    let s ← enumOf TaskStatus.members TaskStatus.value (← pyIndex d 1)
    let t ← unpackF (← pyIndex d 2)
    return .taskResult i s t (← pyIndex d 3)
  | .graphTask, d => do return .graphTask (← GraphTask.deserialize d)
  | .graphTaskEcho, d => do
    return .graphTaskEcho (← pyIndex d 0)
      (← enumOf TaskEchoStatus.members TaskEchoStatus.value (← pyIndex d 1))
  | .graphTaskCancel, d => do return .graphTaskCancel (← pyIndex d 0)
  | .graphTaskResult, d => do
    return .graphTaskResult (← pyIndex d 0)
      (← enumOf TaskStatus.members TaskStatus.value (← pyIndex d 1)) (d.drop 2)
  | .balanceRequest, d => do return .balanceRequest (← unpackI (← pyIndex d 0))
  | .balanceResponse, d => do
    let n ← unpackI (← pyIndex d 0)
    let ids := d.drop 1
    pyAssert (n == ids.length)
    return .balanceResponse ids
  | .heartbeat, d => do return .heartbeat (← Heartbeat.deserialize d)
  | .heartbeatEcho, _ => .ok .heartbeatEcho
  | .functionRequest, d => do
    let t ← enumOf FunctionRequestType.members FunctionRequestType.value (← pyIndex d 0)
    return .functionRequest t (← pyIndex d 1) (← pyIndex d 2) (← pyIndex d 3)
  | .functionResponse, d => do
    let t ← enumOf FunctionResponseType.members FunctionResponseType.value (← pyIndex d 0)
    return .functionResponse t (← pyIndex d 1) (← pyIndex d 2) (← pyIndex d 3)
  | .disconnectRequest, d => do return .disconnectRequest (← pyIndex d 0)
  | .disconnectResponse, d => do return .disconnectResponse (← pyIndex d 0)
  | .workerTaskRequest, _ => .ok .workerTaskRequest
  | .schedulerState, d => do return .schedulerState (← pyIndex d 0)
  | .taskState, d => do
    let i ← pyIndex d 0
    let n ← pyIndex d 1
    return .taskState i n (← enumOf TaskStatus.members TaskStatus.value (← pyIndex d 2))
  | .graphTaskState, d => do
    let g ← pyIndex d 0
    let i ← pyIndex d 1
    let t ← enumOf NodeTaskType.members NodeTaskType.value (← pyIndex d 2)
    return .graphTaskState g i t (PySet.ofList (d.drop 3))
  | .graphTaskCancelEcho, _ => .error .keyError

/-- What a connector does with the frames it sends: `io/async_connector.py` 84-87,
`io/sync_connector.py` 90-92 and 98-102. -/
def encode (m : Message) : Py (List Bytes) := do
  return m.type.value :: (← m.serialize)

/-- `io/async_connector.py` 68-82 with 95-104 (same in `io/sync_connector.py` 118-132):
frames that are too few or carry an unknown tag are logged and dropped (`none`). -/
def decode (frames : List Bytes) : Py (Option Message) :=
  match frames with
  | tag :: p :: ps =>
    match MessageType.members.find? fun m => m.value == tag with
    | none => .ok none
    | some ty => do return some (← deserialize ty (p :: ps))
  | _ => .ok none

/-- `io/async_binder.py` 67-70: a ROUTER socket prefixes the destination identity. -/
def binderEncode (to : Bytes) (m : Message) : Py (List Bytes) := do
  return to :: m.type.value :: (← m.serialize)

/-- `io/async_binder.py` 47-57 with 77-86: the first frame is the sender identity. -/
def binderDecode (frames : List Bytes) : Py (Option (Bytes × Message)) :=
  match frames with
  | src :: tag :: p :: ps =>
    match MessageType.members.find? fun m => m.value == tag with
    | none => .ok none
    | some ty => do return some (src, ← deserialize ty (p :: ps))
  | _ => .ok none

end Verif.Wire
