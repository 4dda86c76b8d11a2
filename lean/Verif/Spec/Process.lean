import Verif.Spec.Worker
import Verif.Worker.Process

/-!
# What should hold when a worker ends
-/

namespace Verif.Spec.Worker

open Verif.Wire Verif.Worker

/-- Effect of an action on which processors run. -/
def aliveStep : Act → List Nat → List Nat
  | .started n, l => l ++ [n]
  | .killed n, l => l.erase n
  | _, l => l

/-- The processors that were started and not killed. -/
def alive (l : Hist) : List Nat := l.foldl (fun p x => aliveStep x.2 p) []

/-- The worker says goodbye. -/
def isGoodbye : Act → Bool
  | .sent (.disconnectRequest _) => true
  | _ => false

/-- Everything that can happen to a worker process with identity `id`. -/
inductive Lives (id : Bytes) (deathTimeout start : Int) : Proc → Prop
  | init : Lives id deathTimeout start (Proc.init deathTimeout start)
  | step {p : Proc} (op : POp) (h : Lives id deathTimeout start p) : Lives id deathTimeout start (p.step id op)

end Verif.Spec.Worker
