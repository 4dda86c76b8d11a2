import Verif.Spec.Orderly

/-!
# Runs without end in which what can happen happens
-/

namespace Verif.Spec

open Verif.System

variable {F V X : Type}

/-- A run of a system in which everything goes as it should, left alone: `run i` is the state before event `ops i`, and `evs i` are
the events of the scheduler so far.  Again and again an event does something, or the task routine had its turns and there is nothing
to do. -/
structure FairRun (p : Client.Pickle) (rt : Proc.Runtime F V X) (evs : Nat → List Sched.Event) (run : Nat → Sys F) (ops : Nat → System.Op) : Prop where
  inner : ∀ i, inner (ops i) = true
  step : ∀ i, (run i).step p rt (ops i) = some (run (i + 1))
  mild : ∀ i, Mild rt (run i) (ops i)
  prompt : ∀ i, Prompt (evs i ++ schedPart (ops i))
  next : ∀ i, evs (i + 1) = evs i ++ schedPart (ops i)
  progress : ∀ i, ∃ j, i ≤ j ∧ (¬ Idle (run j) (ops j) (run (j + 1)) ∨
    turnDue (evs j) = some false ∧ ∀ o s', Spec.inner o = true → Mild rt (run j) o → (run j).step p rt o = some s' → Idle (run j) o s')

/-- Everything that was asked for is answered. -/
def AllAnswered (s : Sys F) : Prop :=
  (∀ x c, s.peers x = .client c → ∀ k nm b, Client.Act.submitted k nm b ∈ c.log →
    ∃ n r, Client.Act.returned k.taskId n ∈ c.log ∧ (c.futures[n]? = some (.result r) ∨ c.futures[n]? = some (.exception r))) ∧
  ∀ call ∈ s.gets, (call.keys.take call.message.targets.length).Nodup → ∃ c, s.peers call.client = .client c ∧
    ∀ key ∈ call.keys, ∃ n r, call.futures.get? key = some n ∧ c.futures[n]? = some (.result r)

end Verif.Spec
