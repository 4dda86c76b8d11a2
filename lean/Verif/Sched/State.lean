import Verif.Wire.Message
import Verif.Queue.Indexed
import Verif.Sched.Alloc
import Verif.Sched.Sorter

/-!
# State of the scheduler

One record per manager.  Managers refer to each other through the whole state, as the objects do
in the code (`scaled/scheduler/main.py` 59-90).
-/

namespace Verif.Sched

open Verif.Queue Verif.Util Verif.Wire

/-- Settings, main.py 33-43. -/
structure Config where
  maxWaiting : Int
  queueSize : Int
  workerTimeout : Int
  functionRetention : Int
  balanceSeconds : Int
  balanceTriggers : Int
  deriving DecidableEq, Repr

/-- `_FuncInfo`, function_manager.py 20-24; time in ticks -/
structure FuncInfo where
  name : Bytes
  content : Bytes
  aliveSince : Int
  deriving DecidableEq, Repr

/-- `VanillaFunctionManager`, function_manager.py 28-35 -/
structure FunctionManager where
  /-- `_function_id_to_func_info` -/
  funcs : Dict Bytes FuncInfo
  /-- `_function_id_to_task_ids` -/
  uses : OneToMany Bytes Bytes
  deriving DecidableEq

/-- `TaskResult`, message.py (scaled/protocol/python/message.py 159-171) -/
structure TaskRes where
  taskId : Bytes
  status : TaskStatus
  duration : UInt32
  result : Bytes
  deriving DecidableEq, Repr

/-- The message (scaled/protocol/python/message.py 159-171) -/
def TaskRes.msg (r : TaskRes) : Message := .taskResult r.taskId r.status r.duration r.result

/-- `VanillaTaskManager`, task_manager.py 26-44 -/
structure TaskManager where
  /-- `_task_id_to_task` -/
  tasks : Dict Bytes Task
  /-- `_unassigned`; ids are their own hash -/
  unassigned : IQueue Bytes Bytes
  /-- `_running` -/
  running : PySet Bytes
  /-- the task that `routine` (63-71) has taken from `_unassigned` while it waits for a worker inside
  `assign_task` (queued.py 58) -/
  pending : Option Task
  success : Nat
  failed : Nat
  canceled : Nat
  notFound : Nat
  deriving DecidableEq

/-- `VanillaWorkerManager`, worker_manager.py 28-46 -/
structure WorkerManager where
  alloc : Alloc
  /-- `_worker_alive_since` -/
  alive : Dict Bytes (Int × Heartbeat)
  /-- `_last_balance_advice` -/
  lastAdvice : Option (Dict Bytes Int)
  /-- `_load_balance_advice_same_count` -/
  sameCount : Int
  deriving DecidableEq

/-- `_TaskState`, graph_manager.py 34-39 -/
inductive NodeState where
  | inactive | running | canceled | failed | success
  deriving DecidableEq, Repr

/-- `_TaskInfo`, graph_manager.py 42-46 -/
structure NodeInfo where
  state : NodeState
  task : Task
  result : Option Bytes
  deriving DecidableEq, Repr

/-- `_Graph`, graph_manager.py 49-56 -/
structure Graph where
  targets : List Bytes
  taskIds : PySet Bytes
  sorter : Sorter
  tasks : Dict Bytes NodeInfo
  deps : KeyValueSet Bytes Bytes
  client : Bytes
  deriving DecidableEq

/-- `GraphManager`, graph_manager.py 80-90 -/
structure GraphManager where
  /-- `_unassigned` -/
  queue : List (Bytes × GraphTask)
  /-- `_graph_task_id_to_graph` -/
  graphs : Dict Bytes Graph
  /-- `_task_id_to_graph_task_id` -/
  nodeGraph : Dict Bytes Bytes
  deriving DecidableEq

/-- The scheduler, main.py 50-69.  `out` is everything sent through the binder, oldest first, with the
destination; `mon` everything sent to the monitor socket. -/
structure Sched where
  cfg : Config
  /-- client manager: `_client_to_task_ids`, client_manager.py 12-13 -/
  clients : OneToMany Bytes Bytes
  fm : FunctionManager
  tm : TaskManager
  wm : WorkerManager
  gm : GraphManager
  out : List (Bytes × Message)
  mon : List Message
  deriving DecidableEq

namespace Sched

/-- main.py 33-90 -/
def init (cfg : Config) : Sched where
  cfg := cfg
  clients := OneToMany.empty
  fm := ⟨Dict.empty, OneToMany.empty⟩
  tm := ⟨Dict.empty, IQueue.empty, PySet.empty, none, 0, 0, 0, 0⟩
  wm := ⟨Alloc.init cfg.queueSize, Dict.empty, none, 0⟩
  gm := ⟨[], Dict.empty, Dict.empty⟩
  out := []
  mon := []

/-- `AsyncBinder.send`, io/async_binder.py 67-70.  Serialisation is in the wire model; it succeeds for
every message sent here (C03). -/
def send (s : Sched) (to : Bytes) (m : Message) : Sched := { s with out := s.out ++ [(to, m)] }

/-- `AsyncConnector.send` of the monitor socket (scaled/scheduler/task_manager.py 150-152, scaled/scheduler/status_reporter.py 23-26) -/
def monitor (s : Sched) (m : Message) : Sched := { s with mon := s.mon ++ [m] }

end Sched

end Verif.Sched
