import Verif.Worker.Family
import Verif.Spec.Lingers

/-!
# A worker and its processors, left alone
-/

namespace Verif.Spec

open Verif.Worker Verif.Wire

/-- Everything that can happen to a worker and its processors. -/
inductive Raises {F V X : Type} (rt : Proc.Runtime F V X) (id : Bytes) (d ret start : Int) : Family F → Prop
  | init : Raises rt id d ret start (Family.init rt d ret start)
  | step {f : Family F} (op : FOp) (h : Raises rt id d ret start f) : Raises rt id d ret start (f.step rt id ret op)

/-- Nobody from outside kills a process. -/
def LeftAlone : FOp → Prop
  | .worker .terminate => False
  | .worker _ => True
  | .processor _ op => NoSignal op

/-- And processor `n` hears nothing. -/
def Silence (n : Nat) : FOp → Prop
  | .processor m (.main ⟨.recv _, _⟩) => m ≠ n
  | _ => True

end Verif.Spec
