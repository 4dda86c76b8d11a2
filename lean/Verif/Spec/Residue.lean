import Verif.Sched.State
import Verif.Spec.Client
import Verif.Spec.Worker

/-!
# C101: how much the scheduler keeps
-/

namespace Verif.Spec

open Verif.Wire Verif.Sched

/-- Nothing is open: no task is held, no graph waits or is under way. -/
structure NothingOpen (s : Sched) : Prop where
  tasks : ∀ t, s.tm.tasks.get? t = none
  waiting : s.gm.queue = []
  graphs : ∀ g, s.gm.graphs.get? g = none

/-- Nothing is kept for tasks and graphs: all tables but those of workers and functions are empty. -/
structure NothingKept (s : Sched) : Prop where
  tasks : s.tm.tasks.items = []
  queue : s.tm.unassigned.map.items = []
  running : s.tm.running.items = []
  pending : s.tm.pending = none
  owners : s.clients.v2k.items = []
  clients : s.clients.k2v.items = []
  placed : s.wm.alloc.t2w.items = []
  loads : ∀ w ts, s.wm.alloc.w2t.get? w = some ts → ts.items = []
  graphs : s.gm.graphs.items = []
  nodes : s.gm.nodeGraph.items = []

/-- Nothing is kept of functions either, apart from the functions themselves. -/
structure NoClaims (s : Sched) : Prop where
  tasks : s.fm.uses.v2k.items = []
  functions : s.fm.uses.k2v.items = []

/-- The number of nodes of the graphs that are under way. -/
def openNodes (s : Sched) : Nat := (s.gm.graphs.items.map fun p => p.2.tasks.size).sum

/-- How often a task was refused for lack of workers. -/
def refusedTimes (s : Sched) : Nat := s.out.countP fun p => match p.2 with | .taskEcho _ .noWorker => true | _ => false

/-- The tables are no larger than what is open: `tasks` tasks, `graphs` graphs with `nodes` nodes, `workers` workers, `refused` refusals. -/
structure Bounded (s : Sched) (tasks graphs nodes workers refused : Nat) : Prop where
  held : s.tm.tasks.size = tasks
  queue : s.tm.unassigned.map.size + s.tm.pending.toList.length + s.tm.running.size = tasks
  owners : s.clients.v2k.size ≤ tasks + graphs
  clients : s.clients.k2v.size ≤ tasks + graphs
  placed : s.wm.alloc.t2w.size ≤ tasks
  loads : s.wm.alloc.w2t.size = workers
  heap : s.wm.alloc.queue.heap.length = workers
  locator : s.wm.alloc.queue.loc.size = workers
  members : s.gm.nodeGraph.size ≤ nodes
  claims : s.fm.uses.v2k.size ≤ tasks + nodes + refused
  functions : s.fm.uses.k2v.size ≤ tasks + nodes + refused

end Verif.Spec

namespace Verif.Spec.Client

open Verif.Wire Verif.Client

/-- Effect of an action on whether task `t` waits to be accepted. -/
def unacceptedStep (t : Bytes) : Act → Option Task → Option Task
  | .submitted k _ _, s => if k.taskId = t then some k else s
  | .recv (.taskEcho i .submitOK), s => if i = t then none else s
  | _, s => s

/-- The task `t` that `submit` created, until the scheduler accepts it. -/
def unaccepted (t : Bytes) (l : Hist) : Option Task := l.foldl (fun s x => unacceptedStep t x s) none

/-- receives the acceptance of a task named `t` -/
def isAccepted (t : Bytes) : Act → Bool
  | .recv (.taskEcho i .submitOK) => decide (i = t)
  | _ => false

/-- The scheduler answers each copy of a submitted task at most once. -/
def OneAnswer (l : Hist) : Prop :=
  ∀ k nm b, Act.submitted k nm b ∈ l → l.countP (isAccepted k.taskId) + l.countP (isRefused k.taskId) ≤ l.countP (isSent k.taskId)

/-- Every call of the client was answered. -/
structure Answered (c : Client.Client) : Prop where
  idle : c.user = .idle
  accepted : ∀ t, unaccepted t c.log = none
  tasks : ∀ t, openFuture t c.log = none
  graphs : ∀ g, openGraph g c.log = none

/-- The tables of a client are empty, but for the functions it remembers. -/
structure KeepsNothing (c : Client.Client) : Prop where
  task : c.toTask.items = []
  function : c.toFunction.items = []
  future : c.toFuture.items = []
  waiting : c.notReady.items = []
  graph : c.graphs.items = []

end Verif.Spec.Client

namespace Verif.Spec.Worker

open Verif.Wire Verif.Worker

/-- A worker's agent holds no task. -/
structure Empty (a : Agent) : Prop where
  tasks : a.tasks.items = []
  queue : a.queue.contents = []
  order : a.queue.map.items = []
  hand : a.pos = .idle
  processor : a.task = none

end Verif.Spec.Worker
