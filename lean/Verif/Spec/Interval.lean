import Verif.Sched.Run

/-!
# C111: when workers are asked to give tasks back
-/

namespace Verif.Spec

open Verif Verif.Sched Verif.Wire

/-- a question for tasks -/
def isQuestion : Bytes × Message → Bool
  | (_, .balanceRequest _) => true
  | _ => false

/-- What was sent since `before`. -/
def since (before after : List (Bytes × Message)) : List (Bytes × Message) := after.drop before.length

/-- Executions in seconds.  Between two turns of the worker manager there is at least a second (`asyncio.sleep(CLEANUP_INTERVAL_SECONDS)`,
scaled/scheduler/main.py 138, scaled/io/config.py 8).  `qs` are the times at which workers were asked for tasks, newest first; `last` is
when the worker manager had its last turn. -/
inductive Clocked (cfg : Config) : (qs : List Int) → (last : Option Int) → Log → Sched → Prop
  | init : Clocked cfg [] none [] (Sched.init cfg)
  | step {qs : List Int} {last : Option Int} {l : Log} {s s' : Sched} (e : Event) (hr : Clocked cfg qs last l s)
      (ha : ∀ m ∈ e.input, Allowed l s.out m) (ht : e.op = .workerRoutine → ∀ t, last = some t → t + 1 ≤ e.now) (hs : s.step e = .ok s') :
      Clocked cfg (if (since s.out s'.out).any isQuestion then e.now :: qs else qs) (if e.op = .workerRoutine then some e.now else last)
        (l ++ e.input) s'

/-- The times, newest first, are at least so many seconds apart. -/
def Apart (d : Int) (qs : List Int) : Prop := qs.Pairwise fun new old => old + d ≤ new

end Verif.Spec
