import Verif.Sched.State

/-!
# The scheduler's message handlers and routines

Every handler runs without interleaving (`zmq` sends and `put` on unbounded queues do not suspend),
except that the task routine can wait for a worker; see `TaskManager.pending`.  One reading of the
clock per step (`now`).  `o` gives the iteration order of the sets met in the step.
-/

namespace Verif.Sched

open Verif.Queue Verif.Util Verif.Wire

namespace Sched

/-! ### function_manager.py -/

/-- `__send_function_response`, 147-148 (scaled/scheduler/function_manager.py) -/
def functionResponse (s : Sched) (client fid : Bytes) (st : FunctionResponseType) : Sched :=
  s.send client (.functionResponse st fid [] [])

/-- `has_function`, 60-61 (scaled/scheduler/function_manager.py) -/
def hasFunction (s : Sched) (fid : Bytes) : Bool := s.fm.funcs.has fid

/-- `get_function_name`, 63-64 (scaled/scheduler/function_manager.py) -/
def functionName (s : Sched) (fid : Bytes) : Py Bytes := do
  let i ← s.fm.funcs.getPy fid
  return i.name

/-- `on_task_use_function`, 66-68 (scaled/scheduler/function_manager.py) -/
def useFunction (s : Sched) (tid fid : Bytes) (now : Int) : Py Sched := do
  let i ← s.fm.funcs.getPy fid
  let uses ← s.fm.uses.add fid tid
  return { s with fm := ⟨s.fm.funcs.set fid { i with aliveSince := now }, uses⟩ }

/-- `on_task_done_function`, 70-71 (scaled/scheduler/function_manager.py) -/
def doneFunction (s : Sched) (tid : Bytes) : Py Sched := do
  let (_, uses) ← s.fm.uses.removeValue tid
  return { s with fm := { s.fm with uses } }

/-- `__on_function_request`, 99-110 (scaled/scheduler/function_manager.py) -/
def functionRequest (s : Sched) (source fid : Bytes) : Sched :=
  match s.fm.funcs.get? fid with
  | none => s.send source (.functionResponse .notExists fid [] [])
  | some i => s.send source (.functionResponse .ok fid i.name i.content)

/-- `__on_function_check`, 112-117 (scaled/scheduler/function_manager.py) -/
def functionCheck (s : Sched) (client fid : Bytes) : Sched :=
  if s.fm.funcs.has fid then s.functionResponse client fid .ok
  else s.functionResponse client fid .notExists

/-- `__on_function_add`, 119-131 (scaled/scheduler/function_manager.py) -/
def functionAdd (s : Sched) (client fid name content : Bytes) (now : Int) : Sched :=
  match s.fm.funcs.get? fid with
  | some i =>
    ({ s with fm := { s.fm with funcs := s.fm.funcs.set fid { i with aliveSince := now } } } : Sched).functionResponse
      client fid .duplicated
  | none =>
    ({ s with fm := { s.fm with funcs := s.fm.funcs.set fid ⟨name, content, now⟩ } } : Sched).functionResponse
      client fid .ok

/-- `__on_function_scheduler_delete`, 133-145 (scaled/scheduler/function_manager.py) -/
def functionDelete (s : Sched) (client fid : Bytes) : Py Sched :=
  if !s.fm.funcs.has fid then .ok (s.functionResponse client fid .notExists)
  else do
    let vs ← s.fm.uses.getValues fid
    if vs.size > 0 then return s.functionResponse client fid .stillHaveTask
    else
      let (_, funcs) ← s.fm.funcs.pop fid
      let (_, uses) ← s.fm.uses.removeKey fid
      let s : Sched := { s with fm := ⟨funcs, uses⟩ }
      return s.functionResponse client fid .stillHaveTask

/-- `on_function`, 41-58 (scaled/scheduler/function_manager.py) -/
def onFunction (s : Sched) (source : Bytes) (type : FunctionRequestType) (fid name content : Bytes) (now : Int) :
    Py Sched :=
  match type with
  | .check => .ok (s.functionCheck source fid)
  | .add => .ok (s.functionAdd source fid name content now)
  | .request => .ok (s.functionRequest source fid)
  | .delete => s.functionDelete source fid

/-- `VanillaWorkerManager.on_delete_function`, worker_manager.py 98-100 -/
def onDeleteFunction (s : Sched) (o : Order) (fid : Bytes) : Sched :=
  (orderBy (o fid) s.wm.alloc.workerIds.items).foldl
    (fun s w => s.send w (.functionRequest .delete fid [] [])) s

/-- The loop of `routine`, 82-89 (scaled/scheduler/function_manager.py). -/
def dropFunctions (s : Sched) (o : Order) : List Bytes → Py Sched
  | [] => .ok s
  | fid :: fids => do
    let (_, funcs) ← s.fm.funcs.pop fid
    let s : Sched := { s with fm := { s.fm with funcs } }
    dropFunctions (s.onDeleteFunction o fid) o fids

/-- `routine`, 73-89 (scaled/scheduler/function_manager.py) -/
def functionRoutine (s : Sched) (o : Order) (now : Int) : Py Sched :=
  let dead := (s.fm.funcs.items.filter fun p =>
    decide (now - p.2.aliveSince > s.cfg.functionRetention) && !s.fm.uses.hasKey p.1).map (·.1)
  s.dropFunctions o dead

/-! ### client_manager.py -/

/-- `on_task_new`, 21-22 (scaled/scheduler/client_manager.py) -/
def clientNew (s : Sched) (client tid : Bytes) : Py Sched := do
  let clients ← s.clients.add client tid
  return { s with clients }

/-- `on_task_done`, 24-25 (scaled/scheduler/client_manager.py) -/
def clientDone (s : Sched) (tid : Bytes) : Py (Bytes × Sched) := do
  let (c, clients) ← s.clients.removeValue tid
  return (c, { s with clients })

/-! ### task_manager.py -/

/-- `__send_monitor`, 150-152 (scaled/scheduler/task_manager.py) -/
def sendMonitor (s : Sched) (tid : Bytes) (st : TaskStatus) : Py Sched := do
  let t ← s.tm.tasks.getPy tid
  let name ← s.functionName t.functionId
  return s.monitor (.taskState tid name st)

/-- `VanillaWorkerManager.has_available_worker`, worker_manager.py 132-133 -/
def hasAvailableWorker (s : Sched) : Py (Bool × Sched) := do
  let (b, alloc) ← s.wm.alloc.hasAvailableWorker
  return (b, { s with wm := { s.wm with alloc } })

/-- `on_task_new`, 85-103 (scaled/scheduler/task_manager.py) -/
def onTaskNew (s : Sched) (client : Bytes) (task : Task) (now : Int) : Py Sched :=
  if !s.hasFunction task.functionId then .ok (s.send client (.taskEcho task.taskId .functionNotExists))
  else do
    let (available, s) ← s.hasAvailableWorker
    if !available && (decide (0 ≤ s.cfg.maxWaiting) && decide (s.cfg.maxWaiting ≤ s.tm.unassigned.len)) then
      return s.send client (.taskEcho task.taskId .noWorker)
    else
      let s := s.send client (.taskEcho task.taskId .submitOK)
      let s ← s.useFunction task.taskId task.functionId now
      let s ← s.clientNew client task.taskId
      let unassigned ← s.tm.unassigned.put id task.taskId
      let s : Sched := { s with tm := { s.tm with tasks := s.tm.tasks.set task.taskId task, unassigned } }
      s.sendMonitor task.taskId .inactive

/-- `on_task_reroute`, 105-110 (scaled/scheduler/task_manager.py) -/
def onTaskReroute (s : Sched) (tid : Bytes) : Py Sched := do
  let _ ← s.clients.getKey tid
  let running ← s.tm.running.remove tid
  let unassigned ← s.tm.unassigned.put id tid
  let s : Sched := { s with tm := { s.tm with running, unassigned } }
  s.sendMonitor tid .inactive

/-- `VanillaWorkerManager.on_task_cancel`, worker_manager.py 61-67 -/
def workerCancel (s : Sched) (tid : Bytes) : Sched :=
  match s.wm.alloc.assignedWorker tid with
  | none => s
  | some w => s.send w (.taskCancel tid)

/-- `on_task_cancel`, 112-122; `done` is `on_task_done` (scaled/scheduler/task_manager.py). -/
def onTaskCancelWith (done : Sched → TaskRes → Py Sched) (s : Sched) (tid : Bytes) : Py Sched :=
  if s.tm.unassigned.contains id tid then done s ⟨tid, .canceled, 0, []⟩
  else if tid ∉ s.tm.running.items then .ok s
  else (s.workerCancel tid).sendMonitor tid .canceling

/-- The counters, 125-132 (scaled/scheduler/task_manager.py) -/
def count (s : Sched) (st : TaskStatus) : Sched :=
  match st with
  | .success => { s with tm := { s.tm with success := s.tm.success + 1 } }
  | .failed => { s with tm := { s.tm with failed := s.tm.failed + 1 } }
  | .canceled => { s with tm := { s.tm with canceled := s.tm.canceled + 1 } }
  | .notFound => { s with tm := { s.tm with notFound := s.tm.notFound + 1 } }
  | _ => s

/-- 134-137 (scaled/scheduler/task_manager.py) -/
def unqueue (s : Sched) (tid : Bytes) : Py Sched :=
  if s.tm.unassigned.contains id tid then do
    let unassigned ← s.tm.unassigned.remove id tid
    return { s with tm := { s.tm with unassigned } }
  else if tid ∈ s.tm.running.items then do
    let running ← s.tm.running.remove tid
    return { s with tm := { s.tm with running } }
  else .ok s

/-- `on_task_done`, 124-148; `graphDone` is `GraphManager.on_task_done` (scaled/scheduler/task_manager.py). -/
def onTaskDoneWith (graphDone : Sched → TaskRes → Py (Bool × Sched)) (s : Sched) (r : TaskRes) : Py Sched := do
  let s := s.count r.status
  let s ← s.unqueue r.taskId
  let s ← s.sendMonitor r.taskId r.status
  let (_, tasks) ← s.tm.tasks.pop r.taskId
  let s : Sched := { s with tm := { s.tm with tasks } }
  let s ← s.doneFunction r.taskId
  let (client, s) ← s.clientDone r.taskId
  let (isNode, s) ← graphDone s r
  if isNode then return s
  else return s.send client r.msg

/-! ### graph_manager.py -/

/-- Change one graph (scaled/scheduler/graph_manager.py 87-90). -/
def setGraph (s : Sched) (gid : Bytes) (g : Graph) : Sched :=
  { s with gm := { s.gm with graphs := s.gm.graphs.set gid g } }

/-- `__mark_node_done`, 221-236.  The node is changed before an unexpected status raises (234); the
exception ends the process, so the change is not modelled (scaled/scheduler/graph_manager.py). -/
def markNodeDone (s : Sched) (gid : Bytes) (r : TaskRes) : Py Sched := do
  let g ← s.gm.graphs.getPy gid
  let i ← g.tasks.getPy r.taskId
  let state ← match r.status with
    | .success => Except.ok NodeState.success
    | .canceled => .ok .canceled
    | .failed => .ok .failed
    | _ => .error PyErr.valueError
  let sorter ← g.sorter.done r.taskId
  return s.setGraph gid { g with tasks := g.tasks.set r.taskId { i with state, result := some r.result }, sorter }

/-- `__get_task_result`, 252-264.  A missing result is `None` in the code and would fail later when the
message is serialised; here it raises at once (shown unreachable) (scaled/scheduler/graph_manager.py). -/
def getTaskResult (s : Sched) (gid tid arg : Bytes) : Py (Bytes × Sched) := do
  let g ← s.gm.graphs.getPy gid
  let deps ← g.deps.removeValue arg tid
  let s := s.setGraph gid { g with deps }
  let i ← g.tasks.getPy arg
  let res ← orRaise i.result .typeError
  if deps.hasKey arg then return (res, s)
  else if arg ∉ g.targets then
    let (_, nodeGraph) ← s.gm.nodeGraph.pop arg
    let (_, tasks) ← g.tasks.pop arg
    let s := s.setGraph gid { g with deps, tasks }
    return (res, { s with gm := { s.gm with nodeGraph } })
  else return (res, s)

/-- `__get_argument` over the list of arguments, 190-192 and 242-250 (scaled/scheduler/graph_manager.py) -/
def getArguments (s : Sched) (gid tid : Bytes) : List Argument → Py (List Argument × Sched)
  | [] => .ok ([], s)
  | a :: as =>
    match a.type with
    | .data => do
      let (as, s) ← getArguments s gid tid as
      return (a :: as, s)
    | .task => do
      let (res, s) ← s.getTaskResult gid tid a.data
      let (as, s) ← getArguments s gid tid as
      return (⟨.data, res⟩ :: as, s)

/-- One turn of the loop of `__check_one_graph`, 189-194 (scaled/scheduler/graph_manager.py) -/
def startNode (s : Sched) (gid : Bytes) (now : Int) (tid : Bytes) : Py Sched := do
  let g ← s.gm.graphs.getPy gid
  let i ← g.tasks.getPy tid
  let (args, s) ← s.getArguments gid tid i.task.args
  let task := { i.task with args }
  let g ← s.gm.graphs.getPy gid
  let s := s.setGraph gid { g with tasks := g.tasks.set tid { i with task, state := .running } }
  s.onTaskNew g.client task now

/-- The loop of `__check_one_graph`, 188-194 (scaled/scheduler/graph_manager.py) -/
def startNodes (s : Sched) (gid : Bytes) (now : Int) : List Bytes → Py Sched
  | [] => .ok s
  | tid :: tids => do
    let s ← s.startNode gid now tid
    startNodes s gid now tids

/-- One turn of the loop of `__clean_graph`, 205-217, on the graph's remaining nodes (scaled/scheduler/graph_manager.py). -/
def cleanNode (done : Sched → TaskRes → Py Sched) (s : Sched) (tasks : Dict Bytes NodeInfo) (tid : Bytes) :
    Py (Dict Bytes NodeInfo × Sched) :=
  match tasks.get? tid with
  | none => .ok (tasks, s)
  | some i => do
    let tasks := tasks.erase tid
    let s ← match i.state with
      | .inactive => s.doneFunction tid
      | .running => onTaskCancelWith done s tid
      | _ => .ok s
    return (tasks, { s with gm := { s.gm with nodeGraph := s.gm.nodeGraph.erase tid } })

/-- The loop of `__clean_graph`, 205-217 (scaled/scheduler/graph_manager.py) -/
def cleanNodes (done : Sched → TaskRes → Py Sched) (s : Sched) (tasks : Dict Bytes NodeInfo) :
    List Bytes → Py Sched
  | [] => .ok s
  | tid :: tids => do
    let (tasks, s) ← cleanNode done s tasks tid
    cleanNodes done s tasks tids

/-- `__clean_graph`, 201-219 (scaled/scheduler/graph_manager.py) -/
def cleanGraph (done : Sched → TaskRes → Py Sched) (s : Sched) (o : Order) (gid : Bytes) : Py (Graph × Sched) := do
  let (_, s) ← s.clientDone gid
  let (g, graphs) ← s.gm.graphs.pop gid
  let s : Sched := { s with gm := { s.gm with graphs } }
  let s ← cleanNodes done s g.tasks (orderBy (o gid) g.taskIds.items)
  return (g, s)

/-- `__get_target_results`, 238-240; see `getTaskResult` about missing results (scaled/scheduler/graph_manager.py). -/
def targetResults (g : Graph) : List Bytes → Py (List Bytes)
  | [] => .ok []
  | t :: ts => do
    let i ← g.tasks.getPy t
    let r ← orRaise i.result .typeError
    let rs ← targetResults g ts
    return r :: rs

/-- `__finish_one_graph`, 196-199 (scaled/scheduler/graph_manager.py) -/
def finishGraph (done : Sched → TaskRes → Py Sched) (s : Sched) (o : Order) (gid : Bytes) : Py Sched := do
  let g ← s.gm.graphs.getPy gid
  let results ← targetResults g g.targets
  let (g, s) ← cleanGraph done s o gid
  return s.send g.client (.graphTaskResult gid .success results)

/-- `__check_one_graph`, 178-194 (scaled/scheduler/graph_manager.py) -/
def checkGraph (done : Sched → TaskRes → Py Sched) (s : Sched) (o : Order) (now : Int) (gid : Bytes) : Py Sched := do
  let g ← s.gm.graphs.getPy gid
  if !g.sorter.isActive then finishGraph done s o gid
  else
    let (ready, sorter) := g.sorter.getReady
    let s := s.setGraph gid { g with sorter }
    startNodes s gid now ready

/-- `on_task_done`, 112-126; `done` is the task manager's `on_task_done` (scaled/scheduler/graph_manager.py). -/
def graphTaskDone (done : Sched → TaskRes → Py Sched) (o : Order) (now : Int) (s : Sched) (r : TaskRes) :
    Py (Bool × Sched) :=
  match s.gm.nodeGraph.get? r.taskId with
  | none => .ok (false, s)
  | some gid => do
    let s ← s.markNodeDone gid r
    if r.status = .success then
      let s ← checkGraph done s o now gid
      return (true, s)
    else
      pyAssert (decide (r.status = .canceled ∨ r.status = .failed ∨ r.status = .notFound))
      let (g, s) ← cleanGraph done s o gid
      return (true, s.send g.client (.graphTaskResult gid r.status [r.result]))

/-- `VanillaTaskManager.on_task_done`.  It calls `GraphManager.on_task_done`, which may cancel nodes and
so call it again.  Each nested call removes a graph first, so the depth is bounded by the number of
graphs (Python's own recursion limit is not modelled) (scaled/scheduler/task_manager.py 124-148 and graph_manager.py 112-126). -/
def taskDone (o : Order) (now : Int) : Nat → Sched → TaskRes → Py Sched
  | 0, _, _ => .error .recursion
  | n + 1, s, r => onTaskDoneWith (graphTaskDone (taskDone o now n) o now) s r

/-- Depth that is enough (scaled/scheduler/graph_manager.py 112-126). -/
def depth (s : Sched) : Nat := s.gm.graphs.size + 2

/-- `on_task_done` (scaled/scheduler/task_manager.py 124-148) -/
def onTaskDone (s : Sched) (o : Order) (now : Int) (r : TaskRes) : Py Sched := taskDone o now s.depth s r

/-- `on_task_cancel` (scaled/scheduler/task_manager.py 112-122) -/
def onTaskCancel (s : Sched) (o : Order) (now : Int) (tid : Bytes) : Py Sched :=
  onTaskCancelWith (taskDone o now s.depth) s tid

/-- `on_graph_task_cancel`, 109-110 (scaled/scheduler/graph_manager.py) -/
def onGraphTaskCancel (s : Sched) (o : Order) (now : Int) (gid : Bytes) : Py Sched := do
  let (_, s) ← cleanGraph (taskDone o now s.depth) s o gid
  return s

/-- `on_graph_task`, 106-107 (scaled/scheduler/graph_manager.py) -/
def onGraphTask (s : Sched) (client : Bytes) (g : GraphTask) : Sched :=
  { s with gm := { s.gm with queue := s.gm.queue ++ [(client, g)] } }

/-- `required_task_ids`, 154 (scaled/scheduler/graph_manager.py) -/
def requiredIds (t : Task) : PySet Bytes :=
  PySet.ofList ((t.args.filter fun a => a.type = .task).map (·.data))

/-- Accumulators of the loop 145-168 (scaled/scheduler/graph_manager.py). -/
structure Unpack where
  taskIds : PySet Bytes
  tasks : Dict Bytes NodeInfo
  deps : KeyValueSet Bytes Bytes
  graph : Dict Bytes (List Bytes)

/-- One turn of the loop 148-168.  `graph[task_id]` keeps the iteration order of the set (scaled/scheduler/graph_manager.py). -/
def unpackNode (s : Sched) (o : Order) (now : Int) (gt : GraphTask) (u : Unpack) (t : Task) : Py (Unpack × Sched) := do
  let s ← s.useFunction t.taskId t.functionId now
  let s : Sched := { s with gm := { s.gm with nodeGraph := s.gm.nodeGraph.set t.taskId gt.taskId } }
  let req := requiredIds t
  let ids := orderBy (o t.taskId) req.items
  let u : Unpack := {
    taskIds := u.taskIds.add t.taskId
    tasks := u.tasks.set t.taskId ⟨.inactive, t, none⟩
    deps := ids.foldl (fun d r => d.add r t.taskId) u.deps
    graph := u.graph.set t.taskId ids }
  return (u, s.monitor (.graphTaskState gt.taskId t.taskId (if t.taskId ∈ gt.targets then .target else .normal) req))

/-- The loop 148-168 (scaled/scheduler/graph_manager.py). -/
def unpackNodes (s : Sched) (o : Order) (now : Int) (gt : GraphTask) : Unpack → List Task → Py (Unpack × Sched)
  | u, [] => .ok (u, s)
  | u, t :: ts => do
    let (u, s) ← unpackNode s o now gt u t
    unpackNodes s o now gt u ts

/-- `__add_new_graph`, 135-176 (scaled/scheduler/graph_manager.py) -/
def addGraph (s : Sched) (o : Order) (now : Int) (client : Bytes) (gt : GraphTask) : Py Sched := do
  let s := gt.functions.items.foldl (fun s p => s.functionAdd client p.1 p.2.1 p.2.2 now) s
  let s ← s.clientNew client gt.taskId
  let (u, s) ← unpackNodes s o now gt ⟨PySet.empty, Dict.empty, KeyValueSet.empty, Dict.empty⟩ gt.graph
  let sorter ← (Sorter.build u.graph.items).prepare
  let s := s.setGraph gt.taskId ⟨gt.targets, u.taskIds, sorter, u.tasks, u.deps, client⟩
  checkGraph (taskDone o now s.depth) s o now gt.taskId

/-- `routine`, 128-130; nothing happens while the queue is empty (scaled/scheduler/graph_manager.py). -/
def graphRoutine (s : Sched) (o : Order) (now : Int) : Py Sched :=
  match s.gm.queue with
  | [] => .ok s
  | (client, gt) :: rest => ({ s with gm := { s.gm with queue := rest } } : Sched).addGraph o now client gt

/-! ### worker_manager.py -/

/-- `on_task_done`, 69-78 (scaled/scheduler/worker_manager.py) -/
def onTaskResult (s : Sched) (o : Order) (now : Int) (r : TaskRes) : Py Sched := do
  let (w, alloc) ← s.wm.alloc.removeTask r.taskId
  let s : Sched := { s with wm := { s.wm with alloc } }
  match w with
  | none => return s
  | some _ => s.onTaskDone o now r

/-- The loop of `on_balance_response`, 81-87 (scaled/scheduler/worker_manager.py). -/
def takeBack (a : Alloc) : List Bytes → Py (List Bytes × Alloc)
  | [] => .ok ([], a)
  | t :: ts => do
    let (w, a) ← a.removeTask t
    let (rest, a) ← takeBack a ts
    return (if w.isSome then t :: rest else rest, a)

/-- `__reroute_tasks`, 167-169 (scaled/scheduler/worker_manager.py) -/
def rerouteTasks (s : Sched) : List Bytes → Py Sched
  | [] => .ok s
  | t :: ts => do
    let s ← s.onTaskReroute t
    rerouteTasks s ts

/-- `on_balance_response`, 80-89 (scaled/scheduler/worker_manager.py) -/
def onBalanceResponse (s : Sched) (ids : List Bytes) : Py Sched := do
  let (ts, alloc) ← takeBack s.wm.alloc ids
  let s : Sched := { s with wm := { s.wm with alloc } }
  s.rerouteTasks ts

/-- `on_heartbeat`, 91-96 (scaled/scheduler/worker_manager.py) -/
def onHeartbeat (s : Sched) (w : Bytes) (h : Heartbeat) (now : Int) : Sched :=
  let (_, alloc) := s.wm.alloc.addWorker w
  let s : Sched := { s with wm := { s.wm with alloc, alive := s.wm.alive.set w (now, h) } }
  s.send w .heartbeatEcho

/-- `__disconnect_worker`, 171-185 (scaled/scheduler/worker_manager.py) -/
def disconnectWorker (s : Sched) (o : Order) (w : Bytes) : Py (Bool × Sched) :=
  if !s.wm.alive.has w then .ok (false, s)
  else do
    let (_, alive) ← s.wm.alive.pop w
    let (ts, alloc) ← s.wm.alloc.removeWorker w (o w)
    let s : Sched := { s with wm := { s.wm with alive, alloc } }
    if ts.isEmpty then return (true, s)
    else
      let s ← s.rerouteTasks ts
      return (true, s)

/-- `on_disconnect`, 102-106 (scaled/scheduler/worker_manager.py) -/
def onDisconnect (s : Sched) (o : Order) (source w : Bytes) : Py Sched := do
  let (b, s) ← s.disconnectWorker o w
  if b then return s.send source (.disconnectResponse w)
  else return s

/-- equality of dictionaries, which does not look at the order (scaled/scheduler/worker_manager.py 140) -/
def sameDict (a b : Dict Bytes Int) : Bool :=
  decide (a.size = b.size) && a.items.all fun p => decide (b.get? p.1 = some p.2)

/-- `__balance_request`, 135-155 (scaled/scheduler/worker_manager.py) -/
def balanceRequest (s : Sched) : Sched :=
  if s.cfg.balanceSeconds ≤ 0 then s
  else
    let advice := s.wm.alloc.balance
    if !((s.wm.lastAdvice.map fun l => sameDict l advice).getD false) then
      { s with wm := { s.wm with lastAdvice := some advice, sameCount := 1 } }
    else
      let n := s.wm.sameCount + 1
      let s : Sched := { s with wm := { s.wm with sameCount := n } }
      if n ≠ s.cfg.balanceTriggers then s
      else if advice.items.isEmpty then s
      else
        let s : Sched := { s with wm := { s.wm with lastAdvice := some advice } }
        advice.items.foldl (fun s p => s.send p.1 (.balanceRequest p.2)) s

/-- The loop of `__clean_workers`, 164-165 (scaled/scheduler/worker_manager.py). -/
def disconnectAll (s : Sched) (o : Order) : List Bytes → Py Sched
  | [] => .ok s
  | w :: ws => do
    let (_, s) ← s.disconnectWorker o w
    disconnectAll s o ws

/-- `__clean_workers`, 157-165 (scaled/scheduler/worker_manager.py) -/
def cleanWorkers (s : Sched) (o : Order) (now : Int) : Py Sched :=
  s.disconnectAll o ((s.wm.alive.items.filter fun p => decide (now - p.2.1 > s.cfg.workerTimeout)).map (·.1))

/-- `routine`, 108-110 (scaled/scheduler/worker_manager.py) -/
def workerRoutine (s : Sched) (o : Order) (now : Int) : Py Sched := (s.balanceRequest).cleanWorkers o now

/-- `assign_task_to_worker`, 52-59, and the rest of the task routine, task_manager.py 66-71 -/
def assignTask (s : Sched) (task : Task) : Py Sched := do
  let (w, alloc) ← s.wm.alloc.assignTask task.taskId
  let s : Sched := { s with wm := { s.wm with alloc } }
  match w with
  | none => do
    let unassigned ← s.tm.unassigned.put id task.taskId
    return { s with tm := { s.tm with unassigned } }
  | some w =>
    let s := s.send w (.task task)
    let s : Sched := { s with tm := { s.tm with running := s.tm.running.add task.taskId } }
    s.sendMonitor task.taskId .running

/-- Task manager's `routine`, task_manager.py 63-71.  It waits while no task is queued; when it has a task
but no worker is connected it keeps the task in `pending` and waits (queued.py 58). -/
def taskRoutine (s : Sched) : Py Sched :=
  match s.tm.pending with
  | some task =>
    if s.wm.alloc.queue.len = 0 then .ok s
    else ({ s with tm := { s.tm with pending := none } } : Sched).assignTask task
  | none =>
    if s.tm.unassigned.len = 0 then .ok s
    else do
      let (tid, unassigned) ← s.tm.unassigned.get id
      let s : Sched := { s with tm := { s.tm with unassigned } }
      let task ← s.tm.tasks.getPy tid
      if s.wm.alloc.queue.len = 0 then return { s with tm := { s.tm with pending := some task } }
      else s.assignTask task

/-! ### status_reporter.py -/

/-- Automaton for UTF-8: `n` continuation bytes are still expected, the next one between `lo` and `hi` (CPython; used by scaled/scheduler/worker_manager.py 117). -/
def utf8From : Nat → UInt8 → UInt8 → Bytes → Bool
  | 0, _, _, [] => true
  | _ + 1, _, _, [] => false
  | 0, _, _, a :: r =>
    if a < 0x80 then utf8From 0 0x80 0xBF r
    else if a < 0xC2 then false
    else if a < 0xE0 then utf8From 1 0x80 0xBF r
    else if a = 0xE0 then utf8From 2 0xA0 0xBF r
    else if a = 0xED then utf8From 2 0x80 0x9F r
    else if a < 0xF0 then utf8From 2 0x80 0xBF r
    else if a = 0xF0 then utf8From 3 0x90 0xBF r
    else if a < 0xF4 then utf8From 3 0x80 0xBF r
    else if a = 0xF4 then utf8From 3 0x80 0x8F r
    else false
  | n + 1, lo, hi, a :: r => decide (lo ≤ a) && decide (a ≤ hi) && utf8From n 0x80 0xBF r

/-- `bytes.decode()`: the text is kept as its UTF-8 bytes; other bytes raise (scaled/scheduler/worker_manager.py 117, function_manager.py 94, client_manager.py 32). -/
def decodeText (b : Bytes) : Py Bytes := if utf8From 0 0x80 0xBF b then .ok b else .error .unicodeError

/-- The reported dictionaries; `worker` rows hold free, sent, heartbeat and age.  The counters of the
binder (async_binder.py 59-65) are in `Sched/Server.lean`; the process figures and the JSON text are not modelled. -/
structure Report where
  clients : Dict Bytes Nat
  functions : Dict Bytes Nat
  unassigned : Int
  running : Nat
  success : Nat
  failed : Nat
  canceled : Nat
  notFound : Nat
  workers : List (Bytes × (Int × Int) × Heartbeat × Int)
  deriving DecidableEq

/-- client_manager.py 30-33 -/
def clientRows : List (Bytes × PySet Bytes) → Py (List (Bytes × Nat))
  | [] => .ok []
  | (c, ts) :: l => do
    let name ← decodeText c
    let rest ← clientRows l
    return (name, ts.size) :: rest

/-- function_manager.py 91-97; the key is the function's name. -/
def functionRows (funcs : Dict Bytes FuncInfo) : List (Bytes × PySet Bytes) → Py (List (Bytes × Nat))
  | [] => .ok []
  | (f, ts) :: l => do
    let i ← funcs.getPy f
    let name ← decodeText i.name
    let rest ← functionRows funcs l
    return (name, ts.size) :: rest

/-- worker_manager.py 112-130 -/
def workerRows (stats : Dict Bytes (Int × Int)) (now : Int) : List (Bytes × Int × Heartbeat) →
    Py (List (Bytes × (Int × Int) × Heartbeat × Int))
  | [] => .ok []
  | (w, last, h) :: l => do
    let name ← decodeText w
    let n ← stats.getPy w
    let rest ← workerRows stats now l
    return (name, n, h, now - last) :: rest

/-- `StatusReporter.routine`, status_reporter.py 23-26, with the managers' `statistics`
(task_manager.py 73-83) -/
def report (s : Sched) (now : Int) : Py Report := do
  let clients ← clientRows s.clients.k2v.items
  let functions ← functionRows s.fm.funcs s.fm.uses.k2v.items
  let workers ← workerRows (Dict.ofList s.wm.alloc.statistics) now s.wm.alive.items
  return {
    clients := Dict.ofList clients
    functions := Dict.ofList functions
    unassigned := s.tm.unassigned.len
    running := s.tm.running.size
    success := s.tm.success
    failed := s.tm.failed
    canceled := s.tm.canceled
    notFound := s.tm.notFound
    workers }

/-! ### main.py -/

/-- `on_receive_message`, 92-129 (scaled/scheduler/main.py) -/
def receive (s : Sched) (o : Order) (now : Int) (source : Bytes) : Message → Py Sched
  | .heartbeat h => .ok (s.onHeartbeat source h now)
  | .balanceResponse ids => s.onBalanceResponse ids
  | .graphTask g => .ok (s.onGraphTask source g)
  | .graphTaskCancel gid => s.onGraphTaskCancel o now gid
  | .task t => s.onTaskNew source t now
  | .taskCancel tid => s.onTaskCancel o now tid
  | .taskResult tid st d r => s.onTaskResult o now ⟨tid, st, d, r⟩
  | .functionRequest type fid name content => s.onFunction source type fid name content now
  | .disconnectRequest w => s.onDisconnect o source w
  | _ => .ok s

end Sched

/-- What can happen in the scheduler, main.py 131-140. -/
inductive Op where
  | recv (source : Bytes) (m : Message)
  | taskRoutine
  | graphRoutine
  | functionRoutine
  | workerRoutine
  | report
  deriving DecidableEq

/-- One event with the clock and the iteration orders (scaled/scheduler/main.py 92-145). -/
structure Event where
  op : Op
  now : Int
  order : Order

namespace Sched

/-- One event; the text of a report is not kept (scaled/scheduler/main.py 92-145). -/
def step (s : Sched) (e : Event) : Py Sched :=
  match e.op with
  | .recv source m => s.receive e.order e.now source m
  | .taskRoutine => s.taskRoutine
  | .graphRoutine => s.graphRoutine e.order e.now
  | .functionRoutine => s.functionRoutine e.order e.now
  | .workerRoutine => s.workerRoutine e.order e.now
  | .report => do
    let _ ← s.report e.now
    return s

/-- A sequence of events; an exception ends the process (scaled/scheduler/main.py 131-145). -/
def run (s : Sched) : List Event → Py Sched
  | [] => .ok s
  | e :: es => do
    let s ← s.step e
    run s es

end Sched

end Verif.Sched
