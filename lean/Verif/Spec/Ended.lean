import Verif.Spec.Running
import Verif.Spec.Processor

/-!
# C96: processors that come to their end
-/

namespace Verif.Spec

open Verif.Wire Verif.System

variable {F V X : Type}

/-- The main thread of the processor has nowhere to go: whatever it does next raises, and nothing catches that. -/
def ProcEnded (rt : Proc.Runtime F V X) (q : Proc.Proc F) : Prop :=
  q.main ≠ .idle ∧ ∀ now c d, ∃ x, q.step rt ⟨.work c d, now⟩ = .error x

/-- The function raises, on the arguments of the task, something that is not an `Exception` (such as `SystemExit`) or cannot be
pickled. -/
def EndsProcessor (rt : Proc.Runtime F V X) (k : Task) (f : F) : Prop :=
  ∃ vs, Processor.Loads rt k.args vs ∧ ∀ c, ∃ e, rt.call f vs c = .error e ∧ rt.dumpExc e = none

/-- Worker `x` gets no cancel. -/
def NoCancelFor (x : Bytes) (o : System.Op) : Prop := ∀ t now, o ≠ .agent x ⟨.recv (.taskCancel t), now⟩

/-- Events in which worker `x` gets no cancel. -/
inductive Uncancelled (p : Client.Pickle) (rt : Proc.Runtime F V X) (x : Bytes) : Sys F → Sys F → Prop where
  | refl (s : Sys F) : Uncancelled p rt x s s
  | step {s s' s'' : Sys F} (o : System.Op) : Uncancelled p rt x s s' → NoCancelFor x o → s'.step p rt o = some s'' → Uncancelled p rt x s s''

/-- The agent gave its processors a task. -/
def gaveTask : Worker.Act → Bool
  | .told _ (.task _) => true
  | _ => false

/-- The agent sent the scheduler a result. -/
def sentResult : Worker.Act → Bool
  | .sent (.taskResult ..) => true
  | _ => false

/-- How often something happened. -/
def howOften (f : Worker.Act → Bool) (l : List (Int × Worker.Act)) : Nat := l.countP fun y => f y.2

end Verif.Spec
