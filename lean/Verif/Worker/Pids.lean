import Verif.Worker.Process

/-!
# The processor's number

`scaled/worker/agent/processor_manager.py` 76-78 and 135-168, `scaled/worker/agent/heartbeat_manager.py` 41-42 and 53-66: the
worker knows its processor by the number that the operating system gave it.  It sends `SIGTERM` to that number and
reads the figures of the process with that number.  A number can be given to another process as soon as the process
that had it was waited for, which `multiprocessing` does for the children that have ended whenever a process is
started (`_cleanup` in `BaseProcess.start` of the standard library), and nothing else in the worker does.

Simplifications:
* A signal to the number of no child is an error here.  In fact `os.kill` raises, or a stranger is hit.
* The same for the figures: `psutil` raises, or shows those of a stranger.  It reads the figures of a child that has
  ended and was not waited for (it does on Linux).
* When a child ends after it got `SIGTERM` is up to the operating system (`ends`).
-/

namespace Verif.Worker

open Verif.Wire

/-- A process that the worker started and did not wait for: which of its processors it is, its number in the operating
system, and whether it has ended (processor_manager.py 155-166). -/
structure Child where
  index : Nat
  pid : Nat
  ended : Bool
  deriving DecidableEq, Repr

/-- What there is no number for any more (processor_manager.py 150, heartbeat_manager.py 42 and 65). -/
inductive OsErr where
  | noSuchProcess
  deriving DecidableEq, Repr

/-- The worker and its children. -/
structure Kin where
  /-- worker.py 31-163 -/
  proc : Proc
  /-- `_children` of `multiprocessing.process` (processor_manager.py 165) -/
  children : List Child
  /-- the number of `_processor_holder.processor`, processor_manager.py 33, 152, 156 -/
  holder : Option Nat
  /-- the number of `_worker_process`, heartbeat_manager.py 20, 42 -/
  watched : Option Nat
  /-- which processors got a signal; the code keeps no such record (processor_manager.py 150) -/
  signalled : List Nat
  /-- of which processor figures were read, and how many had been started; the code keeps no such record
  (heartbeat_manager.py 65-66) -/
  looked : List (Nat × Nat)

/-- What happens: a turn of the worker, in which a new process would get the number `pid`, or the end of a child
(worker.py 64-66, processor_manager.py 165). -/
inductive KOp where
  | worker (op : POp) (pid : Nat)
  | ends (pid : Nat)

namespace Kin

/-- The child that has this number now (processor_manager.py 150, heartbeat_manager.py 65). -/
def child? (k : Kin) (pid : Nat) : Option Child := k.children.find? fun c => c.pid == pid

/-- `__kill`, processor_manager.py 144-153 -/
def kill (k : Kin) : Except OsErr Kin :=
  match k.holder with
  | none => .ok k
  | some pid =>
    match k.child? pid with
    | none => .error .noSuchProcess
    | some c => .ok { k with holder := none, signalled := k.signalled ++ [c.index] }

/-- `_cleanup` of `multiprocessing.process`, called by `start` (processor_manager.py 165). -/
def cleanup (k : Kin) : Kin := { k with children := k.children.filter fun c => !c.ended }

/-- `set_processor_pid`, heartbeat_manager.py 41-42 -/
def setProcessorPid (k : Kin) (pid : Nat) : Except OsErr Kin :=
  match k.child? pid with
  | none => .error .noSuchProcess
  | some _ => .ok { k with watched := some pid }

/-- `__start_new_processor`, processor_manager.py 155-168, for the processor number `n`. -/
def start (k : Kin) (n pid : Nat) : Except OsErr Kin :=
  let k := k.cleanup
  let k := { k with children := k.children ++ [Child.mk n pid false], holder := some pid }
  k.setProcessorPid pid

/-- The figures of the processor, heartbeat_manager.py 53-66 -/
def look (k : Kin) : Except OsErr Kin :=
  match k.watched with
  | none => .ok k
  | some pid =>
    match k.child? pid with
    | none => .error .noSuchProcess
    | some c => .ok { k with looked := k.looked ++ [(c.index, k.proc.agent.procs)] }

/-- Does this turn read figures?  (heartbeat_manager.py 53-66: not while an answer is awaited, 57-59; after its end the worker
does nothing) -/
def looks (p : Proc) : POp → Bool
  | .loop ⟨.heartbeat _, _⟩ => p.exit.isNone && decide (p.agent.beatAt = 0)
  | _ => false

/-- What a turn does to the processes if the processor of the agent was `old` and is `new` (processor_manager.py 135-153). -/
def follow (k : Kin) (old new : Option Nat) (pid : Nat) : Except OsErr Kin :=
  if old = new then .ok k
  else do
    let k ← k.kill
    match new with
    | none => .ok k
    | some n => k.start n pid

/-- One event (worker.py 64-66 and 136-163). -/
def step (id : Bytes) (k : Kin) : KOp → Except OsErr Kin
  | .ends pid => .ok { k with children := k.children.map fun c => if c.pid = pid then { c with ended := true } else c }
  | .worker op pid => do
    let k ← if looks k.proc op then k.look else .ok k
    let w := k.proc.step id op
    let k ← k.follow k.proc.agent.processor w.agent.processor pid
    return { k with proc := w }

/-- `__initialize`, worker.py 68-106, before the first processor -/
def blank (deathTimeout now : Int) : Kin := ⟨Proc.init deathTimeout now, [], none, none, [], []⟩

/-- `__initialize`, worker.py 68-106 with processor_manager.py 76-78 -/
def init (deathTimeout now : Int) (pid : Nat) : Except OsErr Kin := (blank deathTimeout now).start 0 pid

end Kin

end Verif.Worker
