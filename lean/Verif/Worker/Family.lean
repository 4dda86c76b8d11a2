import Verif.Worker.Process
import Verif.Worker.Threads

/-!
# The process of a worker and those of its processors

`scaled/worker/worker.py` 31, 64-66 and `scaled/worker/agent/processor/processor.py` 24: both are processes of
`multiprocessing`, and none is a daemon.  A process of `multiprocessing` that has come to the end of `run`, also by an
exception, waits for all processes that it started (`_bootstrap` and `_exit_function` of the standard library).

Simplifications:
* What the agent and its processors say to each other is not tied together here: each does whatever it can do.
* A `SIGINT` that comes while a worker waits for its processors changes nothing: the handler of worker.py 159-163 only
  speaks to a loop that no longer runs.
* Signals come after the handlers are registered, as in `Worker/Process` and `Worker/Threads`.
-/

namespace Verif.Worker

open Verif.Wire

variable {F V X : Type}

/-- A worker and the processors that it started, by their numbers (worker.py 31, processor_manager.py 155-168). -/
structure Family (F : Type) where
  worker : Proc
  processors : Dict Nat (Verif.Proc.Threads F)
  /-- the worker was killed by `SIGTERM`, for which there is no handler (worker.py 156-163) -/
  killed : Bool

/-- What happens to one of the processes (worker.py 64-66, processor.py 50-80). -/
inductive FOp where
  | worker (op : POp)
  | processor (n : Nat) (op : Verif.Proc.TOp)

/-- The time of an event (worker.py 136-163). -/
def POp.now : POp → Int
  | .loop e => e.now
  | .interrupt now => now
  | .terminate => 0

namespace Family

/-- One of the processors goes on (processor.py 50-80). -/
def touch (rt : Verif.Proc.Runtime F V X) (ps : Dict Nat (Verif.Proc.Threads F)) (n : Nat) (op : Verif.Proc.TOp) :
    Dict Nat (Verif.Proc.Threads F) :=
  match ps.get? n with
  | none => ps
  | some t => ps.set n (t.step rt op)

/-- What the operating system sees of `__kill` and `__start_new_processor`, processor_manager.py 144-168, when the
processor of the agent was `old` and is `new`. -/
def follow (rt : Verif.Proc.Runtime F V X) (retention now : Int) (ps : Dict Nat (Verif.Proc.Threads F)) (old new : Option Nat) :
    Dict Nat (Verif.Proc.Threads F) :=
  if old = new then ps
  else
    let ps := match old with
      | none => ps
      | some n => touch rt ps n .terminate
    match new with
    | none => ps
    | some m => ps.set m (.init retention now)

/-- After `__initialize`, worker.py 68-106. -/
def init (rt : Verif.Proc.Runtime F V X) (deathTimeout retention now : Int) : Family F :=
  let w := Proc.init deathTimeout now
  ⟨w, follow rt retention now .empty none w.agent.processor, false⟩

/-- The process of the worker is over: it was killed, or it has come to its end and all processors that it waits for
are over (worker.py 64-66, 136-154). -/
def gone (f : Family F) : Bool := f.killed || (f.worker.exit.isSome && f.processors.items.all fun x => x.2.over)

/-- One event (worker.py 64-66 and 136-163, processor.py 50-80). -/
def step (rt : Verif.Proc.Runtime F V X) (id : Bytes) (retention : Int) (f : Family F) : FOp → Family F
  | .processor n op => { f with processors := touch rt f.processors n op }
  | .worker op =>
    let w := f.worker.step id op
    let ps := follow rt retention op.now f.processors f.worker.agent.processor w.agent.processor
    match op with
    | .terminate => ⟨w, ps, true⟩
    | _ => ⟨w, ps, f.killed⟩

/-- Events one after the other (worker.py 64-66 and 136-163, processor.py 50-80). -/
def run (rt : Verif.Proc.Runtime F V X) (id : Bytes) (retention : Int) (f : Family F) (ops : List FOp) : Family F :=
  ops.foldl (step rt id retention) f

end Family

end Verif.Worker
