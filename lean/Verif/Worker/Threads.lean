import Verif.Worker.Processor

/-!
# The process of a processor and its two threads

`scaled/worker/agent/processor/processor.py` 50-80 and `cache_cleaner.py` 16-36.  `Worker/Processor` has what the two
threads do; here is when they are over, and when the process is.  `CacheCleaner` is a thread that is no daemon
(cache_cleaner.py 20), and Python ends a process whose main thread is over only when no such thread is left.

Simplifications:
* Signals come after `__initialize` (processor.py 54-73).
* A `SIGINT` that comes when the main thread is over disturbs Python while it waits for the cleaner.  What becomes of
  that is left out: here it changes nothing.
* Of the look for idle functions (Worker/Scan.lean) only what can end the thread is taken apart: the number of entries
  when the look began.  The list is made by the last step of the look.
-/

namespace Verif.Proc

variable {F V X : Type}

/-- The process (processor.py 24-48). -/
structure Threads (F : Type) where
  proc : Proc F
  /-- the main thread has left `run` (processor.py 50-52) -/
  mainOver : Bool
  /-- how many entries there were when the look that is under way began (cache_cleaner.py 56-60) -/
  look : Option Nat
  /-- an exception has left `CacheCleaner.run` (cache_cleaner.py 32-36) -/
  cleanerOver : Bool
  /-- the process was killed by `SIGTERM`, for which there is no handler (processor_manager.py 150) -/
  killed : Bool

/-- What happens to the process (processor.py 50-80, cache_cleaner.py 32-36, processor_manager.py 150). -/
inductive TOp where
  /-- a message comes, or the main thread goes on -/
  | main (e : Event)
  /-- the cleaner goes on; `done` says whether this step is the last one of a look -/
  | clean (now : Int) (done : Bool)
  /-- `SIGINT` -/
  | interrupt
  /-- `SIGTERM` -/
  | terminate
  deriving DecidableEq

namespace Threads

/-- After `__initialize`, processor.py 54-73. -/
def init (retention start : Int) : Threads F := ⟨.init retention start, false, none, false, false⟩

/-- The process is over: Python waits at the end for all threads that are no daemons (processor.py 50-52,
cache_cleaner.py 20). -/
def over (t : Threads F) : Bool := t.killed || (t.mainOver && t.cleanerOver)

/-- One step of `CacheCleaner.run` (cache_cleaner.py 32-36, 54-62): an iterator over a dictionary raises when the number
of entries is not the one it remembers, and nothing catches that. -/
def clean (t : Threads F) (now : Int) (done : Bool) : Threads F :=
  match t.proc.cleaner with
  | .asleep =>
    match t.look with
    | none => { t with look := some t.proc.alive.size }
    | some n =>
      if n = t.proc.alive.size then
        if done then { t with proc := t.proc.clean now, look := none } else t
      else { t with cleanerOver := true, look := none }
  | _ => { t with proc := t.proc.clean now }

/-- What a step of the main thread that raises leaves behind.  When there is no task for a function that came, `add_function` has written
down the time before `__process_task` raises (processor.py 105-108, cache_cleaner.py 40); every other step raises before it changes
anything (`deserialize_function`, processor.py 105; `pickle.dumps`, processor.py 137). -/
def left (p : Proc F) (e : Event) : Proc F :=
  match e.op, p.main with
  | .work _ _, .added fid => p.stamp e.now fid
  | _, _ => p

/-- One event.  The main thread is over when an exception leaves a handler or `KeyboardInterrupt` comes
(processor.py 75-80). -/
def step (rt : Runtime F V X) (t : Threads F) (op : TOp) : Threads F :=
  if t.over then t
  else
    match op with
    | .main e =>
      if t.mainOver || e.op = .clean then t
      else
        match t.proc.step rt e with
        | .ok p => { t with proc := p }
        | .error _ => { t with proc := left t.proc e, mainOver := true }
    | .clean now done => if t.cleanerOver then t else t.clean now done
    | .interrupt => { t with mainOver := true }
    | .terminate => { t with killed := true }

/-- Events one after the other (processor.py 50-80, cache_cleaner.py 32-36). -/
def run (rt : Runtime F V X) (t : Threads F) (ops : List TOp) : Threads F := ops.foldl (step rt) t

end Threads

end Verif.Proc
