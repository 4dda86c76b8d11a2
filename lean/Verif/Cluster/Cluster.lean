import Verif.Base.Py

/-!
# The process that starts the workers: `scaled/cluster/cluster.py`

The master process creates its workers, starts them and waits for their end.  A signal handler runs in the middle of
this.

Simplifications.
* A worker is seen as the operating system shows it: not started, running, ended, or ended and waited for.
* A handler runs between two of the steps below, not in the middle of one of them.
* The process identifier of a worker that was waited for is not used again, so `os.kill` raises `ProcessLookupError`.
* `Process.start` also waits for children that have ended already; here a child that ended is waited for only by 86-87.
* With one worker (76-78) the worker runs in the master process: what it does is `Worker/Agent`; here only its
  signal handler matters (worker.py 159-163).
-/

namespace Verif.Cluster

/-- A worker process; `Process.pid` is `None` only for `created` (scaled/cluster/cluster.py 62-87). -/
inductive Child where
  | created | running | ended | joined
  deriving DecidableEq, Repr

/-- Why a handler or the master raises (scaled/cluster/cluster.py 45-50). -/
inductive Fault where
  | typeError | processLookupError
  deriving DecidableEq, Repr

/-- Where the master is, cluster.py 40-89. -/
inductive Phase where
  /-- before 62: the handlers are registered, `_workers` is still empty -/
  | begun
  /-- 80-81: worker `i` is started next -/
  | starting (i : Nat)
  /-- 86-87: waits for worker `i` -/
  | joining (i : Nat)
  /-- 77: the only worker runs in this process and has not yet replaced the handler of `SIGINT` -/
  | alone
  /-- 77: the only worker runs in this process and handles `SIGINT` itself -/
  | aloneReady
  /-- 78 or 89 -/
  | ended
  /-- an exception ended the process -/
  | raised (f : Fault)
  deriving DecidableEq, Repr

/-- What is seen of it (scaled/cluster/cluster.py 45-89) -/
inductive Act where
  /-- 81 -/
  | start (i : Nat)
  /-- 50: `os.kill(worker.pid, SIGINT)` -/
  | interrupt (i : Nat)
  /-- worker.py 163: the worker that runs in this process is asked to end -/
  | cancel
  deriving DecidableEq, Repr

/-- The signals that are handled (scaled/cluster/cluster.py 52-54) -/
inductive Signal where
  | int | term
  deriving DecidableEq, Repr

/-- The process (scaled/cluster/cluster.py 13-89) -/
structure Master where
  n : Int
  phase : Phase
  workers : List Child
  log : List Act

/-- cluster.py 26-38 and 42: handlers registered, no worker yet -/
def Master.init (n : Int) : Master := ⟨n, .begun, [], []⟩

/-- The loop of `__destroy`, cluster.py 48-50, from worker `i` on: whom it interrupts, and whether it raises. -/
def destroy : Nat → List Child → List Act × Option Fault
  | _, [] => ([], none)
  | i, w :: ws =>
    match w with
    | .created => ([], some .typeError)
    | .joined => ([], some .processLookupError)
    | _ =>
      let (acts, fault) := destroy (i + 1) ws
      (.interrupt i :: acts, fault)

/-- A signal arrives: `__destroy` (cluster.py 45-50), or `SIGINT` in the worker that runs here (worker.py 159-163) -/
def Master.signal (m : Master) (sig : Signal) : Master :=
  match m.phase, sig with
  | .ended, _ => m
  | .raised _, _ => m
  | .aloneReady, .int => { m with log := m.log ++ [.cancel] }
  | _, _ =>
    let (acts, fault) := destroy 0 m.workers
    match fault with
    | none => { m with log := m.log ++ acts }
    | some f => { m with log := m.log ++ acts, phase := .raised f }

/-- The master takes a step if it can: `__start_workers_and_run_forever`, cluster.py 56-89 -/
def Master.step (m : Master) : Master :=
  match m.phase with
  | .begun =>
    let ws := List.replicate m.n.toNat Child.created
    if m.n = 1 then { m with workers := ws, phase := .alone } else { m with workers := ws, phase := .starting 0 }
  | .starting i =>
    if i < m.workers.length then { m with workers := m.workers.set i .running, log := m.log ++ [.start i], phase := .starting (i + 1) }
    else { m with phase := .joining 0 }
  | .joining i =>
    match m.workers[i]? with
    | none => { m with phase := .ended }
    | some .ended => { m with workers := m.workers.set i .joined, phase := .joining (i + 1) }
    | some _ => m
  | .alone => { m with phase := .aloneReady }
  | _ => m

/-- A worker ends: a process of its own, or the one in this process (scaled/cluster/cluster.py 76-78 and 86-87). -/
def Master.workerEnds (m : Master) (i : Nat) : Master :=
  match m.phase with
  | .aloneReady => { m with phase := .ended }
  | _ =>
    match m.workers[i]? with
    | some .running => { m with workers := m.workers.set i .ended }
    | _ => m

/-- What can happen (scaled/cluster/cluster.py 40-89) -/
inductive Op where
  | step
  | signal (s : Signal)
  | workerEnds (i : Nat)
  deriving DecidableEq, Repr

/-- One event (scaled/cluster/cluster.py 40-89) -/
def Master.apply (m : Master) : Op → Master
  | .step => m.step
  | .signal s => m.signal s
  | .workerEnds i => m.workerEnds i

/-- Events one after the other (scaled/cluster/cluster.py 40-89) -/
def Master.run (m : Master) (ops : List Op) : Master := ops.foldl Master.apply m

end Verif.Cluster
