import Verif.Cluster.Cluster

/-!
# What a cluster owes to its operator
-/

namespace Verif.Spec

open Verif.Cluster

/-- A signal is obeyed: the master does not fail, and each worker that runs is interrupted once more. -/
def Obeyed (m m' : Master) : Prop :=
  (∀ f, m'.phase ≠ .raised f) ∧ ∀ i, m.workers[i]? = some .running → m'.log.count (.interrupt i) = m.log.count (.interrupt i) + 1

/-- All workers were started, and nobody was waited for yet. -/
def Up (m : Master) : Prop := m.phase = .starting m.workers.length ∨ m.phase = .joining 0

/-- Interrupts for the first `n` workers. -/
def interrupts (n : Nat) : List Act := (List.range n).map Act.interrupt

end Verif.Spec
