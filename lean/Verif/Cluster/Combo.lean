import Verif.Cluster.Cluster
import Verif.Sched.Process

/-!
# Scheduler and workers together: `scaled/cluster/combo.py`

`SchedulerClusterCombo` makes a process for the workers (`Cluster/Cluster`) and one for the scheduler (`Sched/Process`),
starts both, and sends `SIGTERM` to both when it is shut down or destroyed.  Which settings the two get is in
`Cluster/Options`.

Simplifications.
* A process that has been started and has not come to its `run` yet (or, for the cluster, to its signal handlers,
  cluster.py 42) is ended by `SIGTERM`.
* `Process.terminate` has no effect on a process that has ended.
-/

namespace Verif.Cluster

open Verif.Sched

/-- A `multiprocessing.Process` as its parent sees it; `up` when its `run` is under way (scaled/cluster/combo.py 40-63). -/
inductive Handle (α : Type) where
  /-- the attribute does not exist -/
  | missing
  | created
  | booting
  | up (a : α)
  | killed

/-- `SchedulerClusterCombo`, combo.py 21-62: the attributes `_cluster` and `_scheduler` -/
structure Combo where
  cluster : Handle Master
  scheduler : Handle Life

/-- How far `__init__` got, combo.py 40-63: 1 after line 50, 2 after line 60, 3 after line 62, 4 after line 63 -/
def Combo.built : Nat → Combo
  | 0 => ⟨.missing, .missing⟩
  | 1 => ⟨.created, .missing⟩
  | 2 => ⟨.created, .created⟩
  | 3 => ⟨.booting, .created⟩
  | _ => ⟨.booting, .booting⟩

/-- `Process.terminate`: of a process that was not started it is an attribute of `None` (scaled/cluster/combo.py 71-72) -/
def Handle.terminate {α : Type} (sigterm : α → α) : Handle α → Py (Handle α)
  | .missing => .error .attributeError
  | .created => .error .attributeError
  | .booting => .ok .killed
  | .up a => .ok (.up (sigterm a))
  | .killed => .ok .killed

/-- `shutdown`, combo.py 68-71, and whether it raises -/
def Combo.shutdown (c : Combo) : Combo × Option PyErr :=
  match c.cluster.terminate (fun m => m.signal .term) with
  | .error e => (c, some e)
  | .ok m =>
    match c.scheduler.terminate (fun p => p.signal .process .term) with
    | .error e => ({ c with cluster := m }, some e)
    | .ok p => (⟨m, p⟩, none)

/-- What happens (scaled/cluster/combo.py 22-72). -/
inductive ComboOp where
  /-- the cluster's process comes to its `run`, with `n` workers -/
  | clusterUp (n : Int)
  | schedulerUp (cfg : Config)
  | cluster (op : Op)
  | scheduler (op : LifeOp)
  /-- `shutdown`, or `__del__` (combo.py 65-66) -/
  | shutdown

/-- One event (scaled/cluster/combo.py 22-72) -/
def Combo.step (c : Combo) : ComboOp → Combo
  | .clusterUp n => match c.cluster with | .booting => { c with cluster := .up (Master.init n) } | _ => c
  | .schedulerUp cfg => match c.scheduler with | .booting => { c with scheduler := .up (Life.init cfg) } | _ => c
  | .cluster op => match c.cluster with | .up m => { c with cluster := .up (m.apply op) } | _ => c
  | .scheduler op => match c.scheduler with | .up p => { c with scheduler := .up (p.step .process op) } | _ => c
  | .shutdown => c.shutdown.1

/-- Events one after the other (scaled/cluster/combo.py 22-72) -/
def Combo.run (c : Combo) (ops : List ComboOp) : Combo := ops.foldl Combo.step c

end Verif.Cluster
