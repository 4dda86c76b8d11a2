import Verif.Worker.Agent

/-!
# The worker as a process

`scaled/worker/worker.py` 64-66 and 136-163 and `scaled/worker/agent/processor_manager.py` 139-153: how the
agent of `Worker/Agent` comes to its end.

The five loops are awaited together (`asyncio.gather`, worker.py 138).  The first exception in one of them
is the exception of the whole.  The others get no turn once it has reached `__get_loops`, since nothing in lines
150-154 waits: the connector has no limit for queued messages (async_connector.py 39), so `send` is done at once.
Turns that they take while the exception is on its way (`Sched/Process`) are seen as taken before it.  `SIGINT`
cancels all loops (156-163); each ends where it waits.

Simplifications:
* Signals come after `__register_signal` (worker.py 105).
* `os.kill` and `os.remove` succeed (processor_manager.py 142, 150); for `os.kill` see `C108_safe`.
* If a handler raises, what it changed before that is not kept; nobody outside can see a difference (`C109_silent`).
* The message of line 150 is handed to the socket; whether it leaves within the millisecond that
  `destroy` waits for (async_connector.py 61) is not modelled.
-/

namespace Verif.Worker

open Verif.Wire

/-- How the process has ended (scaled/worker/worker.py 136-163). -/
inductive Exit where
  /-- `__get_loops` came to its end, worker.py 150-154 -/
  | quit
  /-- an exception left `__get_loops` -/
  | raised (e : PyErr)
  /-- by a signal for which there is no handler -/
  | terminated
  deriving DecidableEq

/-- The process: its agent, and how it has ended, if it has (scaled/worker/worker.py 31-163). -/
structure Proc where
  agent : Agent
  exit : Option Exit

/-- What happens to the process (scaled/worker/worker.py 64-66 and 136-163). -/
inductive POp where
  /-- an event of one of the loops -/
  | loop (e : Agent.Event)
  /-- `SIGINT` -/
  | interrupt (now : Int)
  /-- `SIGTERM` -/
  | terminate

namespace Proc

/-- `__initialize`, worker.py 68-106 -/
def init (deathTimeout now : Int) : Proc := ⟨Agent.init deathTimeout now, none⟩

/-- worker.py 150-154 with `destroy`, processor_manager.py 139-142; `id` is the identity of the connector. -/
def quit (p : Proc) (id : Bytes) (now : Int) : Proc := ⟨(p.agent.send now (.disconnectRequest id)).kill now, some .quit⟩

/-- `__get_loops`, worker.py 136-154, with the signals, 159-163; `SIGTERM` has no handler. -/
def step (id : Bytes) (p : Proc) (op : POp) : Proc :=
  match p.exit with
  | some _ => p
  | none =>
    match op with
    | .loop e =>
      match p.agent.step e with
      | .ok a => { p with agent := a }
      | .error .timeoutError => p.quit id e.now
      | .error x => { p with exit := some (.raised x) }
    | .interrupt now => p.quit id now
    | .terminate => { p with exit := some .terminated }

end Proc

end Verif.Worker
