import Verif.Spec.Worker

/-!
# C112: a clock that is set back while an answer is awaited
-/

namespace Verif.Spec.Worker

open Verif.Wire Verif.Worker

/-- Neither a heartbeat nor an answer to one. -/
def NoBeat (l : Hist) : Prop := ∀ x ∈ l, x.2 ≠ .recv .heartbeatEcho ∧ ∀ b, x.2 ≠ .sent (.heartbeat b)

/-- At `t` a heartbeat was sent, and nothing has answered it since. -/
def Awaited (t : Int) (l : Hist) : Prop := ∃ before b between, l = before ++ (t, .sent (.heartbeat b)) :: between ∧ NoBeat between

/-- No answer seems to have come before its heartbeat, and none took as long as `2 ^ 33` milliseconds. -/
def Steady (l : Hist) : Prop :=
  ∀ before t t' after, l = before ++ (t', .recv .heartbeatEcho) :: after → Awaited t before → t ≤ t' ∧ t' - t < 2000 * 2 ^ 32

/-- The answer to the last heartbeat seems to have come before it. -/
def SetBack (l : Hist) : Prop :=
  ∃ before t t' between, l = before ++ (t', .recv .heartbeatEcho) :: between ∧ Awaited t before ∧ t' < t ∧ NoBeat between

end Verif.Spec.Worker
