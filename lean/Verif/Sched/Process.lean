import Verif.Sched.Server

/-!
# The scheduler as a process

`scaled/scheduler/main.py` 128-151, `scaled/utility/event_loop.py` 33-44, `scaled/entry_points/scheduler.py` 71-102 and
`scaled/cluster/scheduler.py` 42-62: the six loops of the scheduler, the signals, and how the process ends.

The loops are awaited together (`asyncio.gather`, main.py 130).  When one of them raises, the others go on until the
exception has gone to `gather` and from there to `get_loops`: two passes of the event loop.  A signal handler cancels
all tasks (entry_points/scheduler.py 100-102), the one of `get_loops` among them:
* while `gather` has no result, all loops are cancelled, and `get_loops` gets `CancelledError`; if the exception of a
  loop is on its way to `gather` it comes first,
* when `gather` has the exception and `get_loops` has not yet been woken, `get_loops` gets `CancelledError` instead.

Simplifications.
* Signals come when the loops have been started.
* A turn of a loop is not interrupted (`Sched/Step`); a loop that is cancelled ends where it waits.
* If a turn raises, what it changed before that is not kept.
* Process exit (destructors, `atexit`) is not modelled: only `destroy` (main.py 142-143) closes sockets here.
-/

namespace Verif.Sched

open Verif.Queue Verif.Util Verif.Wire

/-- The six loops, main.py 131-136. -/
inductive Loop where
  | binder | graph | task | function | worker | report
  deriving DecidableEq, Repr

/-- How many seconds a loop sleeps after each turn, main.py 131-136 and io/config.py 8, 25. -/
def Loop.sleep : Loop → Int
  | .binder => 0
  | .graph => 0
  | .task => 0
  | .function => 1
  | .worker => 1
  | .report => 1

/-- Which loop does it (scaled/scheduler/main.py 131-145). -/
def Server.Input.loop : Server.Input → Loop
  | .frames _ => .binder
  | .task => .task
  | .graph => .graph
  | .function => .function
  | .worker => .worker
  | .report => .report

/-- Which program started the scheduler (scaled/entry_points/scheduler.py 73-102, scaled/cluster/scheduler.py 43-62). -/
inductive Starter where
  /-- `scaled_scheduler`: `SIGINT` and `SIGTERM` have a handler, entry_points/scheduler.py 95-97 -/
  | command
  /-- `SchedulerProcess`: they have none, cluster/scheduler.py 42-62 -/
  | process
  deriving DecidableEq, Repr

/-- The signals (scaled/entry_points/scheduler.py 95-97) -/
inductive Sig where
  | int | term
  deriving DecidableEq, Repr

/-- How the process has ended (scaled/scheduler/main.py 131-151). -/
inductive End where
  /-- `get_loops` came to its end -/
  | returned
  /-- an exception left `get_loops` -/
  | raised (e : PyErr)
  /-- `KeyboardInterrupt` in the middle of the event loop -/
  | interrupted
  /-- killed by `SIGTERM` -/
  | terminated
  deriving DecidableEq

/-- Where `get_loops` is, main.py 128-143. -/
inductive LifeStage where
  /-- 130: awaits `gather` -/
  | waiting
  /-- a loop has raised, `gather` does not know it yet -/
  | failed (e : PyErr)
  /-- `gather` has the exception, `get_loops` has not been woken yet -/
  | told (e : PyErr)
  /-- `get_loops` gets `CancelledError` when it is woken -/
  | cancelled
  | ended (x : End)
  deriving DecidableEq

/-- The process; `due` is when the sleep of a loop is over, `dead` are the loops that have raised, `stopped` says that
the loops have been cancelled (scaled/scheduler/main.py 131-151, scaled/utility/event_loop.py 34-45). -/
structure Life where
  server : Server
  stage : LifeStage
  due : Loop → Option Int
  dead : List Loop
  stopped : Bool
  binderOpen : Bool
  monitorOpen : Bool

/-- What happens to the process (scaled/scheduler/main.py 131-151, scaled/entry_points/scheduler.py 95-102). -/
inductive LifeOp where
  /-- a loop takes a turn -/
  | turn (i : Server.Input) (now : Int) (o : Order)
  /-- the event loop runs the callbacks that wait -/
  | wake
  | signal (s : Sig)

namespace Life

/-- `Scheduler.__init__`, main.py 31-89, and the start of the loops -/
def init (cfg : Config) : Life := ⟨Server.init cfg, .waiting, fun _ => none, [], false, true, true⟩

/-- Whether `get_loops` is still to be woken and a loop can take a turn: event_loop.py 36-40 -/
def canTurn (p : Life) (x : Loop) (now : Int) : Bool :=
  (match p.stage with | .cancelled => false | .ended _ => false | _ => true) && !p.stopped && !p.dead.contains x &&
    (match p.due x with | none => true | some d => decide (d ≤ now))

/-- One turn of a loop and the sleep after it, event_loop.py 38-40 -/
def turn (p : Life) (i : Server.Input) (now : Int) (o : Order) : Life :=
  if p.canTurn i.loop now then
    match p.server.step now o i with
    | .ok v => { p with server := v, due := fun x => if x = i.loop then some (now + i.loop.sleep) else p.due x }
    | .error e => { p with dead := i.loop :: p.dead, stage := if p.stage = .waiting then .failed e else p.stage }
  else p

/-- main.py 139-143: `CancelledError` is caught, and both sockets are destroyed -/
def close (p : Life) : Life := { p with stage := .ended .returned, binderOpen := false, monitorOpen := false }

/-- The callbacks that wait are run (scaled/scheduler/main.py 131-145). -/
def wake (p : Life) : Life :=
  match p.stage with
  | .waiting => p
  | .failed e => { p with stage := .told e }
  | .told e => { p with stage := .ended (.raised e) }
  | .cancelled => p.close
  | .ended _ => p

/-- `__handle_signal`, entry_points/scheduler.py 100-102 -/
def cancelAll (p : Life) : Life :=
  match p.stage with
  | .waiting => { p with stage := .cancelled, stopped := true }
  | .failed _ => { p with stopped := true }
  | .told _ => { p with stage := .cancelled, stopped := true }
  | .cancelled => p
  | .ended _ => p

/-- A signal: entry_points/scheduler.py 95-102, or what Python and the system do without a handler -/
def signal (p : Life) (b : Starter) (s : Sig) : Life :=
  match p.stage with
  | .ended _ => p
  | _ =>
    match b, s with
    | .command, _ => p.cancelAll
    | .process, .int => { p with stage := .ended .interrupted }
    | .process, .term => { p with stage := .ended .terminated }

/-- One event (scaled/scheduler/main.py 131-151) -/
def step (b : Starter) (p : Life) : LifeOp → Life
  | .turn i now o => p.turn i now o
  | .wake => p.wake
  | .signal s => p.signal b s

/-- Events one after the other (scaled/scheduler/main.py 131-151) -/
def run (b : Starter) (p : Life) (ops : List LifeOp) : Life := ops.foldl (step b) p

end Life

end Verif.Sched
