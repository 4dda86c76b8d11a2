import Verif.Worker.Threads

/-!
# When a processor is of use

A processor is of use as long as its main thread takes messages.
-/

namespace Verif.Spec

open Verif.Proc

/-- An event that is no signal. -/
def NoSignal : TOp → Prop
  | .interrupt => False
  | .terminate => False
  | _ => True

/-- The main thread takes no message any more: `SIGINT` came, or a handler was left by an exception. -/
def Ends {F V X : Type} (rt : Runtime F V X) (p : Proc.Proc F) : TOp → Prop
  | .interrupt => True
  | .main e => e.op ≠ .clean ∧ ∃ x, p.step rt e = .error x
  | _ => False

/-- No look is under way that began with another number of entries. -/
def Calm {F : Type} (t : Threads F) : Prop := t.proc.cleaner = .asleep → ∀ n, t.look = some n → n = t.proc.alive.size

end Verif.Spec
