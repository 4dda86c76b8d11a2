import Verif.Spec.Rest
import Verif.Spec.Blocking

/-!
# C95: calls that come to their end
-/

namespace Verif.Spec

open Verif.Wire Verif.Client Verif.System

variable {F V X : Type}

/-- Everything went well until the system came to rest: no worker that had a task was given up, no worker was asked to cancel
anything, there is a worker, and the loads that the scheduler recorded are right. -/
structure WentWell (p : Pickle) (rt : Proc.Runtime F V X) (cfg : Sched.Config) (s : Sys F) : Prop where
  steady : Steady p rt cfg (fun _ => True) s
  noCancel : NoCancel s
  rest : Rest s
  loads : LoadsRight s.sched
  room : 1 ≤ cfg.queueSize
  worker : ∃ w, Props.Connected s.sched w

/-- The call is over: results were returned, or an exception was raised. -/
def CallOver : Call → Prop
  | .returned _ => True
  | .raised _ => True
  | _ => False

/-- The user's thread goes on `n` times, the connector's thread looks once at `_stop_event`, and the user's thread goes on. -/
def finishing (n : Nat) : List COp := List.replicate n .go ++ [.exit, .go]

/-- Waiting for these futures one after the other comes to an end: all have results, or before the first that is not
done there is one that raises. -/
def Decided (fs : List FState) : List (Bytes × Nat) → Prop
  | [] => True
  | (_, n) :: l =>
    match fs[n]? with
    | some (.result _) => Decided fs l
    | some (.exception _) => True
    | some .disconnected => True
    | some .cancelled => True
    | _ => False

end Verif.Spec
