import Verif.System.System

/-!
# Runs in which a worker and the scheduler answer each other in time
-/

namespace Verif.Spec

open Verif.Wire Verif.System

variable {F V X : Type}

/-- Worker `x` comes. -/
def Joins (x : Bytes) (ops : Nat → System.Op) (i : Nat) : Prop := ∃ d ret now, ops i = .joinWorker x d ret now

/-- The loop of worker `x` gets to its heartbeat (heartbeat_manager.py 54). -/
def TriesBeat (x : Bytes) (ops : Nat → System.Op) (i : Nat) : Prop := ∃ f now, ops i = .agent x ⟨.heartbeat f, now⟩

/-- The scheduler receives a heartbeat of `x`. -/
def HearsBeat (x : Bytes) (ops : Nat → System.Op) (i : Nat) : Prop := ∃ hb now o, ops i = .sched ⟨.recv x (.heartbeat hb), now, o⟩

/-- Worker `x` receives the answer to a heartbeat. -/
def GetsEcho (x : Bytes) (ops : Nat → System.Op) (i : Nat) : Prop := ∃ now, ops i = .agent x ⟨.recv .heartbeatEcho, now⟩

/-- How many heartbeats a peer has sent. -/
def beatsSent : Peer F → Nat
  | .worker a _ _ _ => a.log.countP fun y => match y.2 with
    | .sent (.heartbeat _) => true
    | _ => false
  | _ => 0

/-- Event `i` sends a heartbeat of `x`. -/
def SendsBeat (x : Bytes) (run : Nat → Sys F) (i : Nat) : Prop := beatsSent ((run i).peers x) < beatsSent ((run (i + 1)).peers x)

/-- At most `d` after event `i` comes an event with `P`, unless event `N`, which is now, is not later than that. -/
def Within (time : Nat → Int) (N : Nat) (d : Int) (i : Nat) (P : Nat → Prop) : Prop :=
  time N ≤ time i + d ∨ ∃ j, i < j ∧ j < N ∧ time j ≤ time i + d ∧ P j

/-- A run up to event `N`, where `run i` is the state before event `ops i` and `time i` the time of that event.  The loop of worker `x`
gets to its heartbeat at most `h` after its start and after every answer to a heartbeat, and heartbeats and answers are under way no longer than
`δ`.  The clocks of the scheduler and of the worker go equally fast; they need not show the same time. -/
structure InTime (p : Client.Pickle) (rt : Proc.Runtime F V X) (cfg : Sched.Config) (x : Bytes) (h δ : Int) (N : Nat) (run : Nat → Sys F)
    (ops : Nat → System.Op) (time : Nat → Int) (clockS clockW : Int) : Prop where
  start : run 0 = Sys.init cfg
  step : ∀ i, i ≤ N → (run i).step p rt (ops i) = some (run (i + 1))
  mono : ∀ i, i < N → time i ≤ time (i + 1)
  sched : ∀ i e, i ≤ N → ops i = .sched e → e.now = time i + clockS
  agent : ∀ i e, i ≤ N → ops i = .agent x e → e.now = time i + clockW ∧ e.now ≠ 0
  join : ∀ i d ret now, i ≤ N → ops i = .joinWorker x d ret now → now = time i + clockW
  tries : ∀ i, i < N → (Joins x ops i ∨ GetsEcho x ops i) → Within time N h i (TriesBeat x ops)
  up : ∀ i, i < N → SendsBeat x run i → Within time N δ i (HearsBeat x ops)
  down : ∀ i, i < N → HearsBeat x ops i → Within time N δ i (GetsEcho x ops)

end Verif.Spec
