import Verif.Props.SchedSystem
import Verif.Sched.Fit
import Verif.Props.Agent

/-!
# C53 in a system: what ends a worker
-/

namespace Verif.Props

open Verif.Queue Verif.Util Verif.Wire Verif.Sched Verif.Spec Verif.System
open Verif.Client (Pickle UserNode)

variable {F V X : Type} {p : Pickle} {rt : Proc.Runtime F V X} {cfg : Config} {s : Sys F}

/-- What a processor sends. -/
def ProcSays : Message → Prop
  | .taskResult .. => True
  | .functionRequest ty .. => ty = .request
  | _ => False

theorem proc_says {r start : Int} {q : Proc.Proc F} (hr : Proc.Reach rt r start q) : ∀ x ∈ q.log, ∀ m, x.2 = .sent m → ProcSays m := by
  induction hr with
  | init =>
    rintro x hx m hm
    rw [List.mem_singleton.1 hx] at hm
    cases hm
    trivial
  | @step q q' e _ hs ih =>
    have hnote : ∀ {q : Proc.Proc F} (now : Int) (y : Proc.Act), (∀ x ∈ q.log, ∀ m, x.2 = .sent m → ProcSays m) → (∀ m, y = .sent m → ProcSays m) →
        ∀ x ∈ q.log ++ [(now, y)], ∀ m, x.2 = .sent m → ProcSays m := by
      intro q now y h1 h2 x hx m hm
      rcases List.mem_append.1 hx with hx | hx
      · exact h1 x hx m hm
      · rw [List.mem_singleton.1 hx] at hm
        exact h2 m hm
    obtain ⟨op, now⟩ := e
    cases op with
    | recv m =>
      simp only [Proc.Proc.step] at hs
      split at hs
      · simp only [Proc.Proc.receive] at hs
        have h1 := hnote now (.recv m) ih (by intro m h; cases h)
        split at hs
        · cases hs
          unfold Proc.Proc.onFunctionRequest
          split <;> exact h1
        · cases hs
          unfold Proc.Proc.onTask
          split
          · exact hnote (q := q.note now _) now (.used _) h1 (by intro m h; cases h)
          · exact hnote (q := q.note now _) now (.sent _) h1 (by intro m h; cases h; rfl)
        · split at hs
          · next hq =>
            cases hs
            unfold Proc.Proc.onFunctionResponse at hq
            split at hq
            · cases hq; exact h1
            · cases hq
          · cases hs
        · cases hs; exact h1
      · cases hs; exact ih
    | work c dur =>
      simp only [Proc.Proc.step, Proc.Proc.work] at hs
      split at hs
      · cases hs; exact ih
      · cases hs; exact hnote now (.stamped _) ih (by intro m h; cases h)
      · split at hs
        · cases hs; exact hnote now (.used _) ih (by intro m h; cases h)
        · cases hs; exact ih
      · cases hs; exact hnote now (.stamped _) ih (by intro m h; cases h)
      · unfold Proc.Proc.answer at hs
        split at hs
        · cases hs; exact hnote now (.sent _) ih (by intro m h; cases h; trivial)
        · split at hs
          · cases hs; exact hnote now (.sent _) ih (by intro m h; cases h; trivial)
          · cases hs
      · split at hs
        · cases hs; exact hnote now (.stamped _) ih (by intro m h; cases h)
        · cases hs
      · cases hs; exact ih
    | clean =>
      simp only [Proc.Proc.step] at hs
      cases hs
      unfold Proc.Proc.clean
      split
      · exact hnote now .scan ih (by intro m h; cases h)
      · exact ih
      · exact ih
      · show ∀ x ∈ (if q.functions.has _ then q.note now (.evicted _) else q).log, _
        split
        · exact hnote now (.evicted _) ih (by intro m h; cases h)
        · exact ih

/-- The messages that end a worker of a system: a task that it still has in its queue; the cancel of a task that it does not have, and
any answer about a function, while its processor is ready and has no task. -/
def EndsWorker (a : Worker.Agent) : Message → Prop
  | .task k => k.taskId ∈ a.queue.contents
  | .taskCancel t => t ∉ a.queue.contents ∧ Spec.Worker.ready a.log = true ∧ Spec.Worker.busy a.log = none
  | .functionResponse .. => Spec.Worker.ready a.log = true ∧ Spec.Worker.busy a.log = none
  | _ => False

/-- **C53** in a system of this code.  The full claim is that no message under way to a worker ends it.  Exactly these do; nothing that
its processors send does, and neither does its own loop. -/
theorem C53_system_partial (hr : System.Reach p rt cfg s) {x : Bytes} {a : Worker.Agent} {ret : Int} {qs : List (Proc.Proc F)}
    (hx : s.peers x = .worker a ret qs none) (now : Int) :
    (∀ m, (s.peers x).got m < s.sched.out.count (x, m) → ((∃ e, a.step ⟨.recv m, now⟩ = .error e) ↔ EndsWorker a m)) ∧
    (∀ m, 0 < procsSent m qs → ∃ a', a.step ⟨.heard m, now⟩ = .ok a') ∧
    ∃ a', a.step ⟨.turn, now⟩ = .ok a' := by
  have hi := hr.inv
  obtain ⟨d, start, ha⟩ := hi.worker hx
  refine ⟨fun m hm => ?_, fun m hm => ?_, (C53_inside ha now).1⟩
  · have hout : (x, m) ∈ s.sched.out := List.count_pos_iff.1 (by omega)
    rw [C53_kills_partial ha now m]
    have hno : ∀ {m' : Message}, (x, m') ∈ s.received → ∃ now, (now, Worker.Act.sent m') ∈ a.log := by
      intro m' hm'
      rcases Peer.sent_pos (hi.received hm') with ⟨c, h1, -⟩ | ⟨a', ret', qs', left, h1, ⟨now', h2⟩ | ⟨id, h2, -⟩⟩
      · rw [hx] at h1; cases h1
      · rw [hx] at h1; cases h1; exact ⟨now', h2⟩
      · rw [hx] at h1; cases h1; cases h2
    have hfor : ForWorker m := by
      refine C68_worker cfg s.received s.sched hi.sched x m hout (fun k h => ?_) (fun g h => ?_) (fun w h => ?_)
      all_goals
        obtain ⟨n, h⟩ := hno h
        exact (hi.workerSent hx h).elim
    have hfit := hi.sched.fits.out x m hout
    have hpr := C68_prompted cfg s.received s.sched hi.sched x m hout
    cases m with
    | heartbeatEcho => exact Iff.rfl
    | task k => exact Iff.rfl
    | taskCancel t => exact Iff.rfl
    | functionResponse => exact Iff.rfl
    | functionRequest ty f nm b =>
      simp only [Kills, EndsWorker, iff_false, Decidable.not_not]
      exact hpr.1
    | balanceRequest n =>
      simp only [Kills, EndsWorker, iff_false]
      have := hfit.1
      omega
    | _ => exact hfor.elim
  · unfold procsSent at hm
    have key : ∀ l : List (Proc.Proc F), 0 < (l.map fun q => q.log.countP fun x => decide (x.2 = Proc.Act.sent m)).sum →
        ∃ q ∈ l, ∃ x ∈ q.log, x.2 = Proc.Act.sent m := by
      intro l
      induction l with
      | nil => intro h; cases h
      | cons q l ih =>
        intro h
        rw [List.map_cons, List.sum_cons] at h
        by_cases hq : 0 < q.log.countP fun x => decide (x.2 = Proc.Act.sent m)
        · obtain ⟨y, h1, h2⟩ := List.countP_pos_iff.1 hq
          exact ⟨q, List.mem_cons_self, y, h1, of_decide_eq_true h2⟩
        · obtain ⟨q', h1, h2⟩ := ih (by omega)
          exact ⟨q', List.mem_cons_of_mem _ h1, h2⟩
    obtain ⟨q, hq, y, hy, he⟩ := key qs hm
    obtain ⟨n, hn⟩ := List.getElem?_of_mem hq
    have hP := hi.peer x
    rw [hx] at hP
    obtain ⟨st, hq'⟩ := (hP.2.2.1 n q hn).1
    have hs := proc_says hq' y hy m he
    have h3 := C53_inside ha now
    cases m with
    | taskResult i st' du r => exact h3.2.1 i st' du r
    | functionRequest ty f nm c =>
      cases (show ty = .request from hs)
      exact h3.2.2 f nm c
    | _ => exact hs.elim

/-! ### How it happens -/

/-- The agent of a worker that has not left. -/
def agentAt (s : Sys Nat) (x : Bytes) : Option Worker.Agent :=
  match s.peers x with
  | .worker a _ _ none => some a
  | _ => none

/-- A message arrives at the worker. -/
def toAgent (m : Message) : System.Op := .agent [2] ⟨.recv m, 5⟩
/-- The agent hears its processor. -/
def fromProc (m : Message) : System.Op := .agent [2] ⟨.heard m, 5⟩
/-- The agent goes on. -/
def agentTurn : System.Op := .agent [2] ⟨.turn, 5⟩
/-- A task with the function of `sysSubmit`. -/
def task9 (t : Bytes) : Message := .task ⟨t, [9], []⟩
/-- A processor asks for that function. -/
def asks9 : Message := .functionRequest .request [9] [] []
/-- The scheduler answers. -/
def answer9 : Message := .functionResponse .ok [9] [5] [9]
/-- A processor is ready. -/
def ready9 : Message := .taskResult [] .success 0 []

/-- How a worker of a system can come to its end: what happened before, and the message that is under way. -/
def workerDeaths : List (Script × Message × PyErr) :=
  [ -- a cancel crosses the result of its task
    ([(meet, 0), sysSubmit [10], ([schedOp .taskRoutine], 20), (quit ++ [schedOp (.recv [1] (.taskCancel [10]))], 0)], .taskCancel [10], .attributeError),
    -- the answer about a function crosses the cancel of the task that needs it
    ([(meet, 0), sysSubmit [10], ([schedOp .taskRoutine, toAgent (task9 [10]), agentTurn, .proc [2] 0 ⟨.recv (task9 [10]), 5⟩, fromProc asks9, schedOp (.recv [2] asks9)] ++
      quit ++ [schedOp (.recv [1] (.taskCancel [10])), toAgent (.taskCancel [10]), fromProc ready9], 0)], answer9, .attributeError),
    -- the worker was silent for too long; its task is given to it again
    ([(meet, 0), sysSubmit [10], sysSubmit [11], ([schedOp .taskRoutine, schedOp .taskRoutine, toAgent (task9 [10]), toAgent (task9 [11]), .sched ⟨.workerRoutine, 200, fun _ => []⟩,
      toAgent .heartbeatEcho, .agent [2] ⟨.heartbeat ⟨0, 0, 0, 0⟩, 200⟩, .sched ⟨.recv [2] (.heartbeat ⟨0, 0, 0, 0, 2, 0, true, false, false⟩), 200, fun _ => []⟩,
      schedOp .taskRoutine, schedOp .taskRoutine], 0)], task9 [10], .keyError) ]

theorem agentAt_eq {s : Sys Nat} {x : Bytes} {a : Worker.Agent} (h : agentAt s x = some a) : ∃ ret qs, s.peers x = .worker a ret qs none := by
  unfold agentAt at h
  split at h
  · next hx => cases h; exact ⟨_, _, hx⟩
  · cases h

/-- Each of these messages is under way to a worker of a system and ends it. -/
theorem C53_system_dies : ∀ d ∈ workerDeaths, ∃ s : Sys Nat, System.Reach plainPickle toy cfg0 s ∧ ∃ a ret qs, s.peers [2] = .worker a ret qs none ∧
    (s.peers [2]).got d.2.1 < s.sched.out.count ([2], d.2.1) ∧ a.step ⟨.recv d.2.1, 5⟩ = .error d.2.2 ∧ EndsWorker a d.2.1 := by
  have h : ∀ d ∈ workerDeaths, ((agentAt (playScript cfg0 d.1) [2]).map fun (a : Worker.Agent) =>
      decide (((playScript cfg0 d.1).peers [2]).got d.2.1 < (playScript cfg0 d.1).sched.out.count ([2], d.2.1) ∧
        errOf (a.step ⟨.recv d.2.1, 5⟩) = some d.2.2)) = some true := by decide +kernel
  intro d hd
  obtain ⟨a, ha, he⟩ := Option.map_eq_some_iff.1 (h d hd)
  obtain ⟨h1, h2⟩ := of_decide_eq_true he
  obtain ⟨ret, qs, hx⟩ := agentAt_eq ha
  have hr := playScript_reach cfg0 d.1
  exact ⟨_, hr, a, ret, qs, hx, h1, errOf_eq h2, ((C53_system_partial hr hx 5).1 _ h1).1 ⟨_, errOf_eq h2⟩⟩

/-- A worker that is idle survives a task. -/
example : ∃ s : Sys Nat, System.Reach plainPickle toy cfg0 s ∧ ∃ a ret qs, s.peers [2] = .worker a ret qs none ∧
    (s.peers [2]).got (task9 [10]) < s.sched.out.count ([2], task9 [10]) ∧ ¬ EndsWorker a (task9 [10]) := by
  have h : ((agentAt (playScript cfg0 [(meet, 0), sysSubmit [10], ([schedOp .taskRoutine], 0)]) [2]).map fun (a : Worker.Agent) =>
      decide (((playScript cfg0 [(meet, 0), sysSubmit [10], ([schedOp .taskRoutine], 0)]).peers [2]).got (task9 [10]) <
        (playScript cfg0 [(meet, 0), sysSubmit [10], ([schedOp .taskRoutine], 0)]).sched.out.count ([2], task9 [10]) ∧
        errOf (a.step ⟨.recv (task9 [10]), 5⟩) = none)) = some true := by decide +kernel
  obtain ⟨a, ha, he⟩ := Option.map_eq_some_iff.1 h
  obtain ⟨h1, h2⟩ := of_decide_eq_true he
  obtain ⟨ret, qs, hx⟩ := agentAt_eq ha
  have hr := playScript_reach cfg0 [(meet, 0), sysSubmit [10], ([schedOp .taskRoutine], 0)]
  refine ⟨_, hr, a, ret, qs, hx, h1, fun hk => ?_⟩
  obtain ⟨e, he⟩ := ((C53_system_partial hr hx 5).1 _ h1).2 hk
  rw [he] at h2
  cases h2

/-- The answer to a first request for a function, whose task was cancelled, serves for a second request; the answer to that one then comes
to a processor that waits for nothing. -/
def secondAnswer : Script :=
  [(meet, 0), sysSubmit [10], ([.joinClient [3], .client [3] (.submit [11] [5] [9] [])], 7), ([.client [3] (.submit [12] [5] [9] [])], 7),
   ([schedOp .taskRoutine, schedOp .taskRoutine, schedOp .taskRoutine, toAgent (task9 [10]), toAgent (task9 [11]), toAgent (task9 [12]), agentTurn,
     .proc [2] 0 ⟨.recv (task9 [10]), 5⟩, fromProc asks9, schedOp (.recv [2] asks9)] ++
     quit ++ [schedOp (.recv [1] (.taskCancel [10])), toAgent (.taskCancel [10]), fromProc ready9, agentTurn,
     .proc [2] 1 ⟨.recv (task9 [11]), 5⟩, fromProc asks9, schedOp (.recv [2] asks9), toAgent answer9, .proc [2] 1 ⟨.recv answer9, 5⟩] ++
     List.replicate 4 (.proc [2] 1 ⟨.work 0 0, 5⟩) ++ [fromProc (.taskResult [11] .success 0 [9]), agentTurn, .proc [2] 1 ⟨.recv (task9 [12]), 5⟩, toAgent answer9] ++
     List.replicate 4 (.proc [2] 1 ⟨.work 0 0, 5⟩) ++ [.proc [2] 1 ⟨.recv answer9, 5⟩], 0)]

/-- A processor of a worker that has not left. -/
def procAt (s : Sys Nat) (x : Bytes) (n : Nat) : Option (Proc.Proc Nat) :=
  match s.peers x with
  | .worker a _ qs none => if a.processor = some n then qs[n]? else none
  | _ => none

/-- **C64** in a system: a processor that is in use ends with an `AttributeError` in this way. -/
theorem C64_system_second : ∃ s : Sys Nat, System.Reach plainPickle toy wide s ∧ ∃ a ret qs q, s.peers [2] = .worker a ret qs none ∧
    a.processor = some 1 ∧ qs[1]? = some q ∧ q.step toy ⟨.work 0 0, 5⟩ = .error .noTask := by
  have h : ((procAt (playScript wide secondAnswer) [2] 1).map fun q => match q.step toy ⟨.work 0 0, 5⟩ with
      | .error .noTask => true
      | _ => false) = some true := by decide +kernel
  obtain ⟨q, hq, he⟩ := Option.map_eq_some_iff.1 h
  refine ⟨_, playScript_reach wide secondAnswer, ?_⟩
  unfold procAt at hq
  split at hq
  · next a ret qs hx =>
    split at hq
    · next hp =>
      refine ⟨a, ret, qs, q, hx, hp, hq, ?_⟩
      split at he
      · next hs => exact hs
      · cases he
    · cases hq
  · cases hq

end Verif.Props
