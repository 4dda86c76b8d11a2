import Verif.Sched.Step
import Verif.Sched.AllocLemmas
import Verif.Sched.SorterInv
import Verif.Queue.IndexedLemmas
import Verif.Util.OneToManyLemmas

/-!
# The scheduler state seen as plain maps and lists, and its invariant

Nothing here models code; these are the notions in which the proofs are done.
-/

namespace Verif

/-- Function update. -/
def upd {α : Type} (f : Bytes → α) (k : Bytes) (v : α) : Bytes → α := fun x => if k = x then v else f x

@[simp, grind =] theorem upd_apply {α : Type} (f : Bytes → α) (k : Bytes) (v : α) (x : Bytes) :
    upd f k v x = if k = x then v else f x := rfl

theorem Dict.get?_set_upd {ν : Type} (d : Dict Bytes ν) (k : Bytes) (v : ν) :
    (d.set k v).get? = upd d.get? k (some v) := funext fun x => by simp

theorem Dict.get?_erase_upd {ν : Type} (d : Dict Bytes ν) (k : Bytes) :
    (d.erase k).get? = upd d.get? k none := funext fun x => by simp

theorem Dict.size_erase {ν : Type} {d : Dict Bytes ν} {k : Bytes} {v : ν} (h : d.get? k = some v) :
    (d.erase k).size + 1 = d.size := by
  have h1 : (d.erase k).keys.length + 1 = d.keys.length := by
    rw [Dict.keys_erase]
    exact PySet.filter_ne_length d.nodup_keys (Dict.mem_keys.2 ⟨v, h⟩)
  simpa [Dict.size_keys] using h1

end Verif

namespace Verif.Sched

open Verif.Queue Verif.Util Verif.Wire

/-- The messages received so far, with their senders, and the submission being handled, if any. -/
structure History where
  log : List (Bytes × Message)
  sub : Option (Bytes × Message)

instance : Membership (Bytes × Message) History := ⟨fun h m => m ∈ h.log⟩

/-- The part of the scheduler state that matters for tasks, functions and graphs. -/
structure Abs where
  funcs : Bytes → Option FuncInfo
  uses : Bytes → Option Bytes
  owner : Bytes → Option Bytes
  tasks : Bytes → Option Task
  held : Int
  waiting : List Bytes
  pending : Option Task
  worker : Bytes → Option Bytes
  up : Bytes → Bool
  queue : List (Bytes × GraphTask)
  graphs : Bytes → Option Graph
  node : Bytes → Option Bytes
  success : Nat
  failed : Nat
  canceled : Nat
  notFound : Nat
  out : List (Bytes × Message)
  mon : List Message
  limited : Bool
  cap : Int

/-- There is a limit on waiting tasks. -/
def Config.limited (c : Config) : Bool := decide (0 ≤ c.maxWaiting)

/-- Abstraction of a state. -/
def Sched.abs (s : Sched) : Abs where
  funcs := s.fm.funcs.get?
  uses := s.fm.uses.v2k.get?
  owner := s.clients.v2k.get?
  tasks := s.tm.tasks.get?
  held := s.tm.tasks.size
  waiting := s.tm.unassigned.contents
  pending := s.tm.pending
  worker := s.wm.alloc.t2w.get?
  up := s.wm.alive.has
  queue := s.gm.queue
  graphs := s.gm.graphs.get?
  node := s.gm.nodeGraph.get?
  success := s.tm.success
  failed := s.tm.failed
  canceled := s.tm.canceled
  notFound := s.tm.notFound
  out := s.out
  mon := s.mon
  limited := s.cfg.limited
  cap := s.cfg.queueSize

/-- The data structures are well formed and agree with each other. -/
structure Conc (s : Sched) : Prop where
  alloc : s.wm.alloc.Inv
  max : s.wm.alloc.max = s.cfg.queueSize
  queue : s.tm.unassigned.WF id
  uses : s.fm.uses.WF
  clients : s.clients.WF
  running : ∀ t, t ∈ s.tm.running ↔ (s.wm.alloc.t2w.get? t).isSome
  alive : ∀ w, s.wm.alive.has w = true ↔ (s.wm.alloc.w2t.get? w).isSome

/-! ### Graphs -/

/-- The nodes a task names as inputs. -/
def inputs (t : Task) : List Bytes := (Sched.requiredIds t).items

/-- ids of the nodes -/
def nodeIds (gt : GraphTask) : List Bytes := gt.graph.map (·.taskId)

/-- The inputs of the node `t`. -/
def req (gt : GraphTask) (t : Bytes) : List Bytes :=
  match gt.graph.find? fun T => T.taskId = t with
  | some T => inputs T
  | none => []

/-- A successful result for `t` was received. -/
def HasResult (h : History) (t r : Bytes) : Prop := ∃ w d, (w, .taskResult t .success d r) ∈ h

/-- How the task `t` came to an end: a worker reported it, or a client cancelled it while it waited. -/
def Stopped (h : History) (t : Bytes) (st : TaskStatus) (r : Bytes) : Prop :=
  (∃ w d, (w, .taskResult t st d r) ∈ h) ∨ st = .canceled ∧ r = [] ∧ ∃ c, (c, .taskCancel t) ∈ h

/-- The arguments given to a worker: data as declared, node references replaced by results. -/
def ArgOK (h : History) (a a' : Argument) : Prop :=
  match a.type with
  | .data => a' = a
  | .task => a'.type = .data ∧ HasResult h a.data a'.data

inductive ArgsOK (h : History) : List Argument → List Argument → Prop
  | nil : ArgsOK h [] []
  | cons {a a' as as'} : ArgOK h a a' → ArgsOK h as as' → ArgsOK h (a :: as) (a' :: as')

/-- State of one node of a graph. -/
def NodeOK (h : History) (g : Graph) (T : Task) (i : NodeInfo) : Prop :=
  i.task.taskId = T.taskId ∧ i.task.functionId = T.functionId ∧
  match i.state with
  | .inactive => i.task = T ∧ i.result = none ∧ g.sorter.isDone T.taskId = false
  | .running => i.result = none ∧ g.sorter.isOut T.taskId = true ∧ ArgsOK h T.args i.task.args
  | .success => g.sorter.isDone T.taskId = true ∧ ArgsOK h T.args i.task.args ∧
      ∃ r, i.result = some r ∧ HasResult h T.taskId r
  | .failed => g.sorter.isDone T.taskId = true ∧ ∃ r, i.result = some r ∧ Stopped h T.taskId .failed r
  | .canceled => g.sorter.isDone T.taskId = true ∧ ∃ r, i.result = some r ∧ Stopped h T.taskId .canceled r

/-- The graph is in a state that belongs to the graph task `gt`. -/
structure GraphOK (h : History) (gid : Bytes) (gt : GraphTask) (g : Graph) : Prop where
  src : (g.client, .graphTask gt) ∈ h
  id : gt.taskId = gid
  targets : g.targets = gt.targets
  ids : ∀ t, t ∈ g.taskIds ↔ t ∈ nodeIds gt
  nodup : (nodeIds gt).Nodup
  sorter : g.sorter.OK (· ∈ nodeIds gt) (req gt)
  depsWF : g.deps.WF
  deps : ∀ d t, g.deps.rel d t ↔ d ∈ req gt t ∧ ∃ i, g.tasks.get? t = some i ∧ i.state = .inactive
  node : ∀ t i, g.tasks.get? t = some i → ∃ T ∈ gt.graph, T.taskId = t ∧ NodeOK h g T i
  gone : ∀ t ∈ nodeIds gt, g.tasks.get? t = none → g.sorter.isDone t = true ∧ t ∉ g.targets ∧ ∀ x, ¬ g.deps.rel t x
  out : ∀ t, g.sorter.isOut t = true → ∃ i, g.tasks.get? t = some i ∧ (i.state = .inactive ∨ i.state = .running)

/-- Between two events: nothing is ready but not started, nothing failed, something is running. -/
structure Settled (g : Graph) : Prop where
  ready : g.sorter.ready = []
  started : ∀ t i, g.tasks.get? t = some i → i.state = .inactive → g.sorter.isOut t = false
  alive : ∀ t i, g.tasks.get? t = some i → i.state = .inactive ∨ i.state = .running ∨ i.state = .success
  active : ∃ t, g.sorter.isOut t = true

/-! ### Invariant -/

/-- Where a task that a worker gets comes from. -/
def Origin (h : History) (k : Task) : Prop :=
  (∃ c, (c, .task k) ∈ h) ∨
  ∃ c gt T, (c, .graphTask gt) ∈ h ∧ T ∈ gt.graph ∧ k.taskId = T.taskId ∧ k.functionId = T.functionId ∧
    ArgsOK h T.args k.args

/-- id of the task being placed -/
def Abs.pendId (a : Abs) : Option Bytes := a.pending.map (·.taskId)

/-- The id is not in use. -/
def Unused (a : Abs) (t : Bytes) : Prop := a.uses t = none ∧ a.owner t = none ∧ a.node t = none

/-- ids of a graph and its nodes -/
def allIds (gt : GraphTask) : List Bytes := gt.taskId :: nodeIds gt

/-- How a node of a graph shows in the other tables. -/
def Link (a : Abs) (g : Graph) (t : Bytes) (i : NodeInfo) : Prop :=
  match i.state with
  | .inactive => a.tasks t = none ∧ a.owner t = none ∧ a.uses t = some i.task.functionId
  | .running => a.uses t = some i.task.functionId ∧
      ((a.tasks t = some i.task ∧ a.owner t = some g.client) ∨ (a.tasks t = none ∧ a.owner t = none))
  | _ => a.tasks t = none ∧ a.owner t = none ∧ a.uses t = none

structure Inv (h : History) (a : Abs) : Prop where
  key : ∀ t k, a.tasks t = some k → k.taskId = t
  place : ∀ t, (a.tasks t).isSome ↔ t ∈ a.waiting ∨ a.pendId = some t ∨ (a.worker t).isSome
  pend : ∀ k, a.pending = some k → a.tasks k.taskId = some k
  nodup : a.waiting.Nodup
  apart : ∀ t ∈ a.waiting, a.pendId ≠ some t ∧ a.worker t = none
  apart' : ∀ t, a.pendId = some t → a.worker t = none
  up : ∀ t w, a.worker t = some w → a.up w = true
  pinned : ∀ t k, a.tasks t = some k → a.uses t = some k.functionId
  known : ∀ t f, a.uses t = some f → (a.funcs f).isSome
  owned : ∀ t, (a.tasks t).isSome → (a.owner t).isSome
  owner : ∀ t, (a.owner t).isSome → (a.tasks t).isSome ∨ (a.graphs t).isSome
  gid : ∀ gid g, a.graphs gid = some g → a.owner gid = some g.client ∧ a.uses gid = none ∧ a.node gid = none
  nodes : ∀ t gid, a.node t = some gid ↔ ∃ g, a.graphs gid = some g ∧ (g.tasks.get? t).isSome
  link : ∀ gid g t i, a.graphs gid = some g → g.tasks.get? t = some i → Link a g t i
  graphs : ∀ gid g, a.graphs gid = some g → ∃ gt, GraphOK h gid gt g
  queueNodup : (a.queue.flatMap fun p => allIds p.2).Nodup
  queue : ∀ c gt, (c, gt) ∈ a.queue → (c, .graphTask gt) ∈ h ∧ ∀ t ∈ allIds gt, Unused a t
  origin : ∀ t k, a.tasks t = some k → Origin h k
  sent : ∀ w k, (w, .task k) ∈ a.out → Origin h k

/-! ### Steps -/

/-- Messages that say nothing about tasks being accepted, dispatched or answered. -/
def Neutral : Message → Prop
  | .task _ => False
  | .taskEcho .. => False
  | .taskResult .. => False
  | .graphTaskResult .. => False
  | _ => True

/-- The peer sent a function request, or a graph with this function. -/
def Asked (h : History) (c f : Bytes) : Prop :=
  (∃ ty n ct, (c, .functionRequest ty f n ct) ∈ h) ∨ ∃ gt, (c, .graphTask gt) ∈ h ∧ f ∈ gt.functions.keys

/-- Messages outside the task traffic and who gets them. -/
def Talk (h : History) (a : Abs) (c : Bytes) : Message → Prop
  | .heartbeatEcho => ∃ b, (c, .heartbeat b) ∈ h
  | .balanceRequest n => a.up c = true ∧ 0 < n ∧ ∃ ts : List Bytes, ts.Nodup ∧ (∀ t ∈ ts, a.worker t = some c) ∧
      n ≤ ts.length ∧ (0 ≤ a.cap → (ts.length : Int) ≤ a.cap)
  | .functionRequest ty _ _ _ => ty = .delete ∧ a.up c = true
  | .functionResponse _ f _ _ => Asked h c f
  | .disconnectResponse w => (c, .disconnectRequest w) ∈ h
  | _ => False

theorem Talk.neutral {h : History} {a : Abs} {c : Bytes} {m : Message} (ht : Talk h a c m) : Neutral m := by
  cases m <;> first | trivial | exact ht.elim

/-- An id that a client may use for a new task. -/
def Fresh (a : Abs) (t : Bytes) : Prop := Unused a t ∧ t ∉ a.queue.flatMap fun p => allIds p.2

/-- The name shown for a task. -/
def Abs.nameOf (a : Abs) (t : Bytes) : Bytes :=
  (((a.tasks t).bind fun k => a.funcs k.functionId).map (·.name)).getD []

/-- What is shown for tasks that go back to the queue. -/
def Abs.backs (a : Abs) (ts : List Bytes) : List Message := ts.map fun t => .taskState t (a.nameOf t) .inactive

/-- The function was given by a client, directly or with a graph. -/
def Supplied (h : History) (f n ct : Bytes) : Prop :=
  (∃ c, (c, .functionRequest .add f n ct) ∈ h) ∨ ∃ c gt, (c, .graphTask gt) ∈ h ∧ gt.functions.get? f = some (n, ct)

/-- The result counters. -/
def Abs.count (a : Abs) (st : TaskStatus) : Abs :=
  match st with
  | .success => { a with success := a.success + 1 }
  | .failed => { a with failed := a.failed + 1 }
  | .canceled => { a with canceled := a.canceled + 1 }
  | .notFound => { a with notFound := a.notFound + 1 }
  | _ => a

/-- A task is forgotten. -/
def Abs.retire (a : Abs) (t : Bytes) (st : TaskStatus) : Abs :=
  { a.count st with
    tasks := upd a.tasks t none
    held := a.held - 1
    uses := upd a.uses t none
    owner := upd a.owner t none
    waiting := a.waiting.filter (· ≠ t)
    worker := upd a.worker t none
    mon := a.mon ++ [.taskState t (a.nameOf t) st] }

/-- A task is accepted. -/
def Abs.accept (a : Abs) (c : Bytes) (k : Task) : Abs :=
  { a with
    tasks := upd a.tasks k.taskId (some k)
    held := a.held + 1
    uses := upd a.uses k.taskId (some k.functionId)
    owner := upd a.owner k.taskId (some c)
    waiting := a.waiting ++ [k.taskId]
    out := a.out ++ [(c, .taskEcho k.taskId .submitOK)]
    mon := a.mon ++ [.taskState k.taskId (((a.funcs k.functionId).map (·.name)).getD []) .inactive] }

/-- A result that ends a task: from a worker, or because a waiting task was cancelled. -/
def Ends (h : History) (a : Abs) (r : TaskRes) : Prop :=
  (a.tasks r.taskId).isSome ∧
  ((∃ w, (w, r.msg) ∈ h) ∧ (a.worker r.taskId).isSome ∨
    r = ⟨r.taskId, .canceled, 0, []⟩ ∧ r.taskId ∈ a.waiting ∧ ∃ c, (c, .taskCancel r.taskId) ∈ h)

/-- A node takes its inputs: `gone` are the inputs nobody else needs. -/
structure Consume (g : Graph) (t : Bytes) (i : NodeInfo) (k : Task) (g' : Graph) (gone : Bytes → Bool) : Prop where
  same : g'.targets = g.targets ∧ g'.client = g.client ∧ g'.taskIds = g.taskIds ∧ g'.sorter = g.sorter
  depsWF : g'.deps.WF
  deps : ∀ d x, g'.deps.rel d x ↔ g.deps.rel d x ∧ x ≠ t
  ghost : ∀ x, gone x = true ↔ x ∈ inputs i.task ∧ x ∉ g.targets ∧ ∀ y, ¬ g'.deps.rel x y
  tasks : ∀ x, g'.tasks.get? x =
    if x = t then some ⟨.running, k, i.result⟩ else if gone x then none else g.tasks.get? x

/-- Node state after a result. -/
def NodeEnd : TaskStatus → NodeState → Prop
  | .success, st => st = .success
  | .canceled, st => st = .canceled
  | .failed, st => st = .failed
  | _, _ => False

/-- Cancel messages to the workers that run nodes of the graph. -/
def cancels (a : Abs) (g : Graph) (ids : List Bytes) : List (Bytes × Message) :=
  ids.filterMap fun t =>
    match g.tasks.get? t with
    | some i => if i.state = .running then (a.worker t).map fun w => (w, .taskCancel t) else none
    | none => none

/-- What is shown for them. -/
def halts (a : Abs) (g : Graph) (ids : List Bytes) : List Message :=
  ids.filterMap fun t =>
    match g.tasks.get? t with
    | some i => if i.state = .running then (a.worker t).map fun _ => .taskState t (a.nameOf t) .canceling else none
    | none => none

/-- Answer for a graph when it is removed: none (cancelled), all targets' results, or the error. -/
inductive GraphAnswer (gid : Bytes) (g : Graph) : List (Bytes × Message) → Prop
  | none : GraphAnswer gid g []
  | success {rs : List Bytes} (hd : ∀ t i, g.tasks.get? t = some i → i.state = .success)
      (hr : g.targets.map (fun t => (g.tasks.get? t).bind (·.result)) = rs.map some) :
      GraphAnswer gid g [(g.client, .graphTaskResult gid .success rs)]
  | failed {t : Bytes} {i : NodeInfo} {st : TaskStatus} {r : Bytes} (ht : g.tasks.get? t = some i)
      (hs : st ≠ .success) (hi : NodeEnd st i.state) (hr : i.result = some r) :
      GraphAnswer gid g [(g.client, .graphTaskResult gid st [r])]

/-- A graph is forgotten. -/
def Abs.clean (a : Abs) (gid : Bytes) (g : Graph) (msgs : List (Bytes × Message)) (mons : List Message) : Abs :=
  { a with
    graphs := upd a.graphs gid none
    owner := upd a.owner gid none
    node := fun t => if (g.tasks.get? t).isSome then none else a.node t
    uses := fun t => if (g.tasks.get? t).map (·.state) = some .inactive then none else a.uses t
    out := a.out ++ msgs
    mon := a.mon ++ mons }

/-- Function of the node `t` of the graph task. -/
def funcOf (gt : GraphTask) (t : Bytes) : Option Bytes :=
  (gt.graph.find? fun T => T.taskId = t).map (·.functionId)

/-- What is shown of a graph that is taken into the tables. -/
def views (gt : GraphTask) (ts : List Task) : List Message :=
  ts.map fun T => .graphTaskState gt.taskId T.taskId (if T.taskId ∈ gt.targets then .target else .normal) (Sched.requiredIds T)

/-- A graph is taken into the tables. -/
def Abs.unpack (a : Abs) (c : Bytes) (gt : GraphTask) (g : Graph) : Abs :=
  { a with
    owner := upd a.owner gt.taskId (some c)
    uses := fun t => (funcOf gt t).or (a.uses t)
    node := fun t => if t ∈ nodeIds gt then some gt.taskId else a.node t
    graphs := upd a.graphs gt.taskId (some g)
    mon := a.mon ++ views gt gt.graph }

inductive AStep (h : History) : Abs → Abs → Prop
  | say {a} (c m) (hm : Talk h a c m) : AStep h a { a with out := a.out ++ [(c, m)] }
  | halt {a} (t w) (hw : a.worker t = some w) (hc : ∃ c, (c, .taskCancel t) ∈ h) :
      AStep h a { a with out := a.out ++ [(w, .taskCancel t)], mon := a.mon ++ [.taskState t (a.nameOf t) .canceling] }
  | func {a} (fid i) (hi : ∀ j, a.funcs fid = some j → i.name = j.name ∧ i.content = j.content)
      (hn : a.funcs fid = none → Supplied h fid i.name i.content) :
      AStep h a { a with funcs := upd a.funcs fid (some i) }
  | drop {a} (fid) (hu : ∀ t, a.uses t ≠ some fid) : AStep h a { a with funcs := upd a.funcs fid none }
  | refuse {a} (c k st) (hs : h.sub = some (c, .task k)) (hst : st ≠ .submitOK) (hf : Fresh a k.taskId)
      (hl : st = .noWorker → a.limited = true) :
      AStep h a { a with out := a.out ++ [(c, .taskEcho k.taskId st)] }
  | accept {a} (c k) (hs : h.sub = some (c, .task k)) (hm : (c, .task k) ∈ h) (hf : Fresh a k.taskId) (hk : (a.funcs k.functionId).isSome) :
      AStep h a (a.accept c k)
  | up {a} (w) (hb : ∃ b, (w, .heartbeat b) ∈ h) (hs : ∃ b, h.sub = some (w, .heartbeat b)) : AStep h a { a with up := upd a.up w true }
  | requeue {a} (ts : List Bytes) (up' : Bytes → Bool) (hn : ts.Nodup) (ht : ∀ t ∈ ts, (a.worker t).isSome)
      (hu : ∀ t w, t ∉ ts → a.worker t = some w → up' w = true) (hd : ∀ w, up' w = true → a.up w = true)
      (hy : ∀ t ∈ ts, (∃ x ids, h.sub = some (x, .balanceResponse ids) ∧ t ∈ ids) ∨
        (∀ x b, h.sub ≠ some (x, .heartbeat b)) ∧ ∃ w, a.worker t = some w ∧ up' w = false) :
      AStep h a { a with
        up := up'
        worker := fun t => if t ∈ ts then none else a.worker t
        waiting := a.waiting ++ ts
        mon := a.mon ++ a.backs ts }
  | queueGraph {a} (c gt) (hs : h.sub = some (c, .graphTask gt)) (hm : (c, .graphTask gt) ∈ h) (hn : (allIds gt).Nodup) (hf : ∀ t ∈ allIds gt, Fresh a t) :
      AStep h a { a with queue := a.queue ++ [(c, gt)] }
  | take {a} (t ts k) (hw : a.waiting = t :: ts) (hk : a.tasks t = some k) (hp : a.pending = none) :
      AStep h a { a with waiting := ts, pending := some k }
  | putBack {a} (k) (hp : a.pending = some k) :
      AStep h a { a with waiting := a.waiting ++ [k.taskId], pending := none }
  | place {a} (k w) (hp : a.pending = some k) (hw : a.up w = true) :
      AStep h a { a with
        pending := none, worker := upd a.worker k.taskId (some w), out := a.out ++ [(w, .task k)]
        mon := a.mon ++ [.taskState k.taskId (a.nameOf k.taskId) .running] }
  | answer {a} (r c) (he : Ends h a r) (hc : a.owner r.taskId = some c) (hn : a.node r.taskId = none) :
      AStep h a { a.retire r.taskId r.status with out := a.out ++ [(c, r.msg)] }
  | nodeDone {a} (r gid g i st so) (he : Ends h a r) (hn : a.node r.taskId = some gid)
      (hg : a.graphs gid = some g) (hi : g.tasks.get? r.taskId = some i) (hst : NodeEnd r.status st)
      (hso : g.sorter.done r.taskId = .ok so) :
      AStep h a { a.retire r.taskId r.status with
        graphs := upd a.graphs gid
          (some { g with tasks := g.tasks.set r.taskId { i with state := st, result := some r.result }, sorter := so }) }
  | unpack {a} (c gt rest g) (hq : a.queue = (c, gt) :: rest)
      (hk : ∀ T ∈ gt.graph, (a.funcs T.functionId).isSome) (hc : g.client = c)
      (hg : GraphOK h gt.taskId gt g)
      (hi : ∀ t i, g.tasks.get? t = some i → i.state = .inactive)
      (ht : ∀ t, (g.tasks.get? t).isSome ↔ t ∈ nodeIds gt) :
      AStep h a (({ a with queue := rest } : Abs).unpack c gt g)
  | getReady {a} (gid g) (hg : a.graphs gid = some g) :
      AStep h a { a with graphs := upd a.graphs gid (some { g with sorter := g.sorter.getReady.2 }) }
  | launch {a} (gid g t i k g' gone) (hg : a.graphs gid = some g) (ht : g.tasks.get? t = some i)
      (hi : i.state = .inactive) (ho : g.sorter.isOut t = true)
      (hk : k.taskId = t ∧ k.functionId = i.task.functionId) (ha : ArgsOK h i.task.args k.args)
      (hd : ∀ d ∈ inputs i.task, ∃ j, g.tasks.get? d = some j ∧ j.state = .success)
      (hc : Consume g t i k g' gone) :
      AStep h a ({ a with
        graphs := upd a.graphs gid (some g')
        node := fun x => if gone x then none else a.node x } |>.accept g.client k)
  | reject {a} (gid g t i k g' gone) (hg : a.graphs gid = some g) (ht : g.tasks.get? t = some i)
      (hi : i.state = .inactive) (ho : g.sorter.isOut t = true)
      (hk : k.taskId = t ∧ k.functionId = i.task.functionId) (ha : ArgsOK h i.task.args k.args)
      (hd : ∀ d ∈ inputs i.task, ∃ j, g.tasks.get? d = some j ∧ j.state = .success)
      (hc : Consume g t i k g' gone) (hl : a.limited = true) :
      AStep h a { a with
        graphs := upd a.graphs gid (some g')
        node := fun x => if gone x then none else a.node x
        out := a.out ++ [(g.client, .taskEcho k.taskId .noWorker)] }
  | clean {a} (gid g ids ans) (hg : a.graphs gid = some g) (hids : ∀ t, t ∈ ids ↔ t ∈ g.taskIds)
      (hnodup : ids.Nodup)
      (hw : ∀ t i, g.tasks.get? t = some i → i.state = .running → t ∉ a.waiting)
      (ha : GraphAnswer gid g ans) (he : ans = [] → ∃ c, (c, .graphTaskCancel gid) ∈ h) :
      AStep h a (a.clean gid g (cancels a g ids ++ ans) (halts a g ids))

/-- Several steps. -/
inductive ASteps (h : History) : Abs → Abs → Prop
  | refl (a) : ASteps h a a
  | tail {a b c} : ASteps h a b → AStep h b c → ASteps h a c

theorem AStep.steps {h : History} {a b : Abs} (s : AStep h a b) : ASteps h a b := .tail (.refl a) s

theorem ASteps.trans {h : History} {a b c : Abs} (s : ASteps h a b) (t : ASteps h b c) : ASteps h a c := by
  induction t with
  | refl => exact s
  | tail _ t ih => exact .tail ih t

theorem ASteps.head {h : History} {a b c : Abs} (s : AStep h a b) (t : ASteps h b c) : ASteps h a c :=
  s.steps.trans t

end Verif.Sched
