import Verif.System.Steady
import Verif.Props.Running

/-!
# C89: a task whose worker is not given up is run at most once
-/

namespace Verif.Props

open Verif.Wire Verif.Sched Verif.Spec Verif.System
open Verif.Client (Pickle)

variable {F V X : Type} {p : Pickle} {rt : Proc.Runtime F V X} {cfg : Config} {s : Sys F} {P : Bytes → Prop} {t w w' : Bytes}
  {a a' : Worker.Agent} {ret ret' : Int} {qs qs' : List (Proc.Proc F)} {left left' : Option Bytes}

/-- Full claim: a task is given to at most one processor of one worker, at most once.  It holds while the scheduler does not give up the
worker that has the task; otherwise see `C89_twice`. -/
theorem C89_given_partial (hs : Steady p rt cfg P s) (ht : P t) (hx : s.peers w = .worker a ret qs left) :
    givenOut t a.log ≤ 1 ∧ (s.peers w' = .worker a' ret' qs' left' → 0 < givenOut t a.log → 0 < givenOut t a'.log → w = w') := by
  have hS := hs.single ht
  have hi := hs.reach.inv
  have h1 := given_le hi hx t
  have h2 := hS.once w
  refine ⟨by omega, fun hx' h3 h4 => hS.one w w' (by omega) ?_⟩
  have := given_le hi hx' t
  omega

/-- The same for what the processors received and answered: it is one processor, it received the task once and answered it at most once. -/
theorem C89_run_partial (hs : Steady p rt cfg P s) (ht : P t) (hx : s.peers w = .worker a ret qs left) {n : Nat} {q : Proc.Proc F}
    (hq : qs[n]? = some q) (hb : 0 < began t q) :
    began t q = 1 ∧ (t ≠ [] → ended t q ≤ 1) ∧
    ∀ w' a' ret' qs' left' n' q', s.peers w' = .worker a' ret' qs' left' → qs'[n']? = some q' → 0 < began t q' → w' = w ∧ n' = n := by
  have hi := hs.reach.inv
  have h1 := C89_given_partial (w' := w) (a' := a) (ret' := ret) (qs' := qs) (left' := left) hs ht hx
  have h2 := began_le hi hx hq t
  have h3 := told_le t n a.log
  unfold givenOut at h1
  have h4 : began t q = 1 := by omega
  refine ⟨h4, fun hne => ?_, ?_⟩
  · have hP := hi.peer w
    rw [hx] at hP
    obtain ⟨start, hr⟩ := (hP.2.2.1 n q hq).1
    have := C55_once hr hne
    unfold ended
    unfold began at h4
    omega
  · intro w' a' ret' qs' left' n' q' hx' hq' hb'
    have h5 := began_le hi hx' hq' t
    have h6 := told_le t n' a'.log
    have hw : w = w' := (C89_given_partial hs ht hx).2 hx' (by unfold givenOut; omega) (by unfold givenOut; omega)
    subst hw
    rw [hx] at hx'
    cases hx'
    refine ⟨rfl, Classical.byContradiction fun hne => ?_⟩
    have := weigh_told t n n' hne a.log
    omega

/-- If the scheduler gives up no worker that has a task, every processor of every worker gets a task at most once, so C88 holds as it stands
there. -/
theorem C89_toldOnce (hs : Steady p rt cfg (fun _ => True) s) (hx : s.peers w = .worker a ret qs left) : ToldOnce a.log := fun t =>
  (C89_given_partial (w' := w) (a' := a) (ret' := ret) (qs' := qs) (left' := left) (t := t) hs trivial hx).1

theorem C89_running (hs : Steady p rt cfg (fun _ => True) s) (hx : s.peers w = .worker a ret qs left) {k : Task} (hk : a.task = some k) :
    ∃ n q, a.processor = some n ∧ qs[n]? = some q ∧ Runs s w a qs n q k :=
  C88_running_partial hs.reach hx (C89_toldOnce hs hx) hk

/-- What makes the scheduler give up a worker: its goodbye, or the routine that finds its last heartbeat too old. -/
theorem C89_given_up (hr : System.Reach p rt cfg s) {s' : Sys F} {o : System.Op} (hs : s.step p rt o = some s') (hw : Connected s.sched w)
    (hn : ¬ Connected s'.sched w) :
    ∃ e, s.sched.step e = .ok s'.sched ∧ ((∃ c, e.op = .recv c (.disconnectRequest w) ∧ s.received.count (c, .disconnectRequest w) < (s.peers c).sent (.disconnectRequest w)) ∨
      e.op = .workerRoutine ∧ ∃ x, s.sched.wm.alive.get? w = some x ∧ cfg.workerTimeout < e.now - x.1) := by
  unfold Connected at hw hn
  obtain ⟨x, hx⟩ := Option.isSome_iff_exists.1 hw
  have hn : s'.sched.wm.alive.get? w = none := Option.not_isSome_iff_eq_none.1 hn
  rcases sched_moves hs with ⟨e1, e2⟩ | ⟨e, h1, h2, h3, h4⟩
  · rw [e1, hx] at hn; cases hn
  · refine ⟨e, h1, ?_⟩
    rcases step_forgets hr.inv.sched h1 hx hn with ⟨c, hc⟩ | ⟨hc, ht⟩
    · exact .inl ⟨c, hc, h4 c _ hc⟩
    · exact .inr ⟨hc, x, hx, ht⟩

/-! ### Runs -/

/-- No worker with a task is given up. -/
def keepsAll (s s' : Sys Nat) : Bool := s.sched.wm.alloc.t2w.items.all fun x => s'.sched.wm.alive.has x.2

/-- An event, if it can happen and gives up no worker with a task. -/
def steadyTry (s : Sys Nat) (o : System.Op) : Sys Nat :=
  match s.step plainPickle toy o with
  | some s' => if keepsAll s s' then s' else s
  | none => s

theorem steadyTry_steady {cfg : Config} {s : Sys Nat} (h : Steady plainPickle toy cfg (fun _ => True) s) (o : System.Op) :
    Steady plainPickle toy cfg (fun _ => True) (steadyTry s o) := by
  unfold steadyTry
  cases he : s.step plainPickle toy o with
  | none => exact h
  | some s' =>
    simp only
    split
    · next hk =>
      refine .step o h he fun t w _ hw => ?_
      exact List.all_eq_true.1 hk (t, w) (Dict.mem_items.2 hw)
    · exact h

theorem steadyFold {cfg : Config} {s : Sys Nat} (h : Steady plainPickle toy cfg (fun _ => True) s) (os : List System.Op) :
    Steady plainPickle toy cfg (fun _ => True) (os.foldl steadyTry s) := by
  induction os generalizing s with
  | nil => exact h
  | cons o os ih => exact ih (steadyTry_steady h o)

/-- As `unheardRound`. -/
def steadyRound (xs : List Bytes) (s : Sys Nat) : Sys Nat :=
  ((xs.flatMap (peerOps s)).filter fun o => match o with
    | .sched ⟨.recv _ (.taskResult ..), _, _⟩ | .sched ⟨.recv _ (.balanceResponse _), _, _⟩ |
      .sched ⟨.recv _ (.graphTaskCancel _), _, _⟩ => false
    | _ => true).foldl steadyTry s

def steadyRounds (xs : List Bytes) : Nat → Sys Nat → Sys Nat
  | 0, s => s
  | n + 1, s => steadyRounds xs n (steadyRound xs s)

theorem steadyRounds_steady {cfg : Config} {xs : List Bytes} {n : Nat} {s : Sys Nat} (h : Steady plainPickle toy cfg (fun _ => True) s) :
    Steady plainPickle toy cfg (fun _ => True) (steadyRounds xs n s) := by
  induction n generalizing s with
  | zero => exact h
  | succ n ih => exact ih (steadyFold h _)

/-- As `playScript`. -/
def playSteady (cfg : Config) (l : Script) : Sys Nat :=
  l.foldl (fun s x => steadyRounds [[1], [2], [3], [255]] x.2 (x.1.foldl steadyTry s)) (Sys.init cfg)

theorem playSteady_steady (cfg : Config) (l : Script) : Steady plainPickle toy cfg (fun _ => True) (playSteady cfg l) := by
  unfold playSteady
  suffices h : ∀ s, Steady plainPickle toy cfg (fun _ => True) s →
      Steady plainPickle toy cfg (fun _ => True) (l.foldl (fun s x => steadyRounds [[1], [2], [3], [255]] x.2 (x.1.foldl steadyTry s)) s) from h _ .init
  induction l with
  | nil => exact fun _ h => h
  | cons x l ih => exact fun s h => ih _ (steadyRounds_steady (steadyFold h _))

/-- Four tasks for the worker 2; the worker 3 comes and the task 10 is given back and sent to it. -/
def moved : Script :=
  [(meet, 0), sysSubmit [11], sysSubmit [12], sysSubmit [10], sysSubmit [13],
      ([schedOp .taskRoutine, schedOp .taskRoutine, schedOp .taskRoutine, schedOp .taskRoutine], 7),
      ([.joinWorker [3] 100 100 0, .agent [3] ⟨.heartbeat ⟨0, 0, 0, 0⟩, 5⟩,
        schedOp (.recv [3] (.heartbeat ⟨0, 0, 0, 0, 0, 0, false, false, false⟩)), schedOp .workerRoutine, schedOp .workerRoutine, schedOp .workerRoutine], 2),
      ([schedOp (.recv [2] (.balanceResponse [[10], [13]])), schedOp .taskRoutine], 15)]

/-- The worker 3 got the task 10 after the worker 2 had given it back, and answered it.  The worker 2 never ran it. -/
example : ∃ s : Sys Nat, Steady plainPickle toy wide (fun _ => True) s ∧
    (∃ a ret qs, s.peers [2] = .worker a ret qs none ∧ sentTo s [10] [2] = 1 ∧ backFrom s [10] [2] = 1 ∧ givenOut [10] a.log = 0) ∧
    ∃ a ret qs, s.peers [3] = .worker a ret qs none ∧ sentTo s [10] [3] = 1 ∧ givenOut [10] a.log = 1 ∧
      ∃ q, qs[0]? = some q ∧ began [10] q = 1 ∧ ended [10] q = 1 := by
  have h : ((agentAt (playSteady wide moved) [2]).map fun a => decide (sentTo (playSteady wide moved) [10] [2] = 1 ∧
      backFrom (playSteady wide moved) [10] [2] = 1 ∧ givenOut [10] a.log = 0)) = some true := by decide +kernel
  have h' : ((agentAt (playSteady wide moved) [3]).map fun a => decide (sentTo (playSteady wide moved) [10] [3] = 1 ∧ givenOut [10] a.log = 1 ∧
      (procAt (playSteady wide moved) [3] 0).map (fun q => (began [10] q, ended [10] q)) = some (1, 1))) = some true := by decide +kernel
  obtain ⟨a, ha, h1⟩ := Option.map_eq_some_iff.1 h
  obtain ⟨ret, qs, hx⟩ := agentAt_eq ha
  obtain ⟨b, hb, h2⟩ := Option.map_eq_some_iff.1 h'
  obtain ⟨ret', qs', hy⟩ := agentAt_eq hb
  obtain ⟨h3, h4, h5⟩ := of_decide_eq_true h2
  refine ⟨_, playSteady_steady wide moved, ⟨a, ret, qs, hx, of_decide_eq_true h1⟩, b, ret', qs', hy, h3, h4, ?_⟩
  unfold procAt at h5
  rw [hy] at h5
  obtain ⟨q, hq, h6⟩ := Option.map_eq_some_iff.1 h5
  simp only at hq
  split at hq
  · exact ⟨q, hq, (Prod.mk.inj h6).1, (Prod.mk.inj h6).2⟩
  · cases hq

/-- The worker 2 is given up while its processor has the task 10; the worker 3 runs the task again. -/
theorem C89_twice : ∃ s : Sys Nat, System.Reach plainPickle toy wide s ∧
    (∃ a ret qs, s.peers [2] = .worker a ret qs none ∧ givenOut [10] a.log = 1) ∧
    ∃ a ret qs, s.peers [3] = .worker a ret qs none ∧ givenOut [10] a.log = 1 := by
  have h : (agentAt (playScript wide tooLate) [2]).map (fun a => givenOut [10] a.log) = some 1 := by decide +kernel
  have h' : (agentAt (playScript wide tooLate) [3]).map (fun a => givenOut [10] a.log) = some 1 := by decide +kernel
  obtain ⟨a, ha, h1⟩ := Option.map_eq_some_iff.1 h
  obtain ⟨ret, qs, hx⟩ := agentAt_eq ha
  obtain ⟨b, hb, h2⟩ := Option.map_eq_some_iff.1 h'
  obtain ⟨ret', qs', hy⟩ := agentAt_eq hb
  exact ⟨_, playScript_reach wide tooLate, ⟨a, ret, qs, hx, h1⟩, b, ret', qs', hy, h2⟩

end Verif.Props
