import Verif.Spec.Alloc

/-!
# Specification of following the balance advice
-/

namespace Verif.Spec

/-- How many tasks were taken from `w`. -/
def takenFrom (w : Bytes) : List (AOp × AObs) → Nat
  | [] => 0
  | (.removeTask _, .worker (some v)) :: tr => (if v = w then 1 else 0) + takenFrom w tr
  | _ :: tr => takenFrom w tr

/-- Tasks are only taken away and given again to a worker; `old` says which tasks there are. -/
def OnlyMoves (old : Bytes → Prop) (ops : List AOp) : Prop :=
  ∀ op ∈ ops, op = .available ∨ (∃ t, op = .removeTask t) ∨ ∃ t, op = .assign t ∧ old t

/-- Whoever asks for a free worker places a task at once. -/
def PlacesAtOnce : List AOp → Prop
  | [] => True
  | .available :: ops => (∃ t rest, ops = .assign t :: rest) ∧ PlacesAtOnce ops
  | _ :: ops => PlacesAtOnce ops

/-- No worker has two tasks more than another. -/
def EvenLoads (counts : List (Bytes × Nat)) : Prop := ∀ p ∈ counts, ∀ q ∈ counts, p.2 ≤ q.2 + 1

end Verif.Spec
