import Verif.System.System
import Verif.Spec.Running
import Verif.Props.SchedView

/-!
# C91: left alone, a system comes to rest
-/

namespace Verif.Spec

open Verif.Wire Verif.System

variable {F V X : Type}

/-- Events that no user, no clock and no operator causes: messages arrive, threads and loops go on with what they have. -/
def inner : Op → Bool
  | .sched e =>
    match e.op with
    | .recv _ _ => true
    | .taskRoutine => true
    | .graphRoutine => true
    | _ => false
  | .client _ o =>
    match o with
    | .advance => true
    | .recv _ => true
    | .flush => true
    | _ => false
  | .agent _ e =>
    match e.op with
    | .recv _ => true
    | .heard _ => true
    | .turn => true
    | _ => false
  | .proc _ _ e =>
    match e.op with
    | .recv _ => true
    | .work _ _ => true
    | _ => false
  | _ => false

/-- The event did nothing: the state is as before, or the task routine looked for a worker and sent nothing. -/
def Idle (s : Sys F) (o : Op) (s' : Sys F) : Prop :=
  s' = s ∨ ∃ e, o = .sched e ∧ e.op = .taskRoutine ∧ s'.sched.out = s.sched.out ∧ s'.peers = s.peers ∧ s'.received = s.received

/-- Inner events lead from one state to the other. -/
inductive Inner (p : Client.Pickle) (rt : Proc.Runtime F V X) : Sys F → Sys F → Prop where
  | refl (s : Sys F) : Inner p rt s s
  | step {s s' s'' : Sys F} (o : Op) (hi : inner o = true) (hs : s.step p rt o = some s') (h : Inner p rt s' s'') : Inner p rt s s''

/-- No inner event does anything. -/
def Still (p : Client.Pickle) (rt : Proc.Runtime F V X) (s : Sys F) : Prop :=
  ∀ o s', inner o = true → s.step p rt o = some s' → Idle s o s'

/-- The event is due: a message waits, the loop or the thread has something to go on with. -/
def Due (s : Sys F) : Op → Prop
  | .sched ⟨.recv x m, _, _⟩ => s.received.count (x, m) < (s.peers x).sent m
  | .sched ⟨.graphRoutine, _, _⟩ => s.sched.gm.queue ≠ []
  | .client x .advance => ∃ c, s.peers x = .client c ∧ c.closed = false ∧ c.user ≠ .idle
  | .client x .flush => ∃ c, s.peers x = .client c ∧ c.closed = false ∧ c.outbox ≠ []
  | .client x (.recv m) => ∃ c, s.peers x = .client c ∧ c.closed = false ∧ (s.peers x).got m < s.sched.out.count (x, m)
  | .agent x ⟨.turn, _⟩ => ∃ a ret qs, s.peers x = .worker a ret qs none
  | .agent x ⟨.recv m, _⟩ => ∃ a ret qs, s.peers x = .worker a ret qs none ∧ (s.peers x).got m < s.sched.out.count (x, m)
  | .agent x ⟨.heard m, _⟩ => ∃ a ret qs, s.peers x = .worker a ret qs none ∧ heardOf m a.log < procsSent m qs
  | .proc x n ⟨.recv m, _⟩ => ∃ a ret qs q, s.peers x = .worker a ret qs none ∧ a.processor = some n ∧ qs[n]? = some q ∧ q.main = .idle ∧
      taken m q < toldTo n m a.log
  | .proc x n ⟨.work _ _, _⟩ => ∃ a ret qs q, s.peers x = .worker a ret qs none ∧ a.processor = some n ∧ qs[n]? = some q ∧ q.main ≠ .idle
  | _ => False

/-- Something that is due ends with an exception. -/
def Fails (p : Client.Pickle) (rt : Proc.Runtime F V X) (s : Sys F) : Prop := ∃ o, Due s o ∧ s.step p rt o = none

/-- The workers that the scheduler counts on are there. -/
def Present (s : Sys F) : Prop := ∀ w, Props.Connected s.sched w → ∃ a ret qs, s.peers w = .worker a ret qs none

end Verif.Spec
