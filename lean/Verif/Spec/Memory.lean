import Verif.Worker.Memory

/-!
# C87: collecting garbage and trimming memory
-/

namespace Verif.Spec

open Verif.Memory

/-- When garbage was collected last, `start` if never. -/
def lastCollection (start : Int) (l : List (Wake × Did)) : Int :=
  ((l.reverse.find? fun x => decide (x.2 ≠ .nothing)).map (·.1.stored)).getD start

/-- The clock does not go back. -/
def Forward : List Wake → Prop
  | [] => True
  | w :: ws => w.looked ≤ w.stored ∧ (∀ v ∈ ws, w.stored ≤ v.looked) ∧ Forward ws

end Verif.Spec
