import Verif.Props.Monitor
import Verif.Props.Finish
import Verif.Props.Transit
import Verif.Props.ResidueEnds

/-!
# C29, C51, C70 and C101 in whole systems

The workers of this project report only statuses that end a task, so what `C29_statistics` and `C70_status` ask for
holds in every system made of them.
-/

namespace Verif.Props

open Verif.Wire Verif.Sched Verif.Spec Verif.System

variable {F V X : Type} {p : Client.Pickle} {rt : Proc.Runtime F V X} {cfg : Config} {s : Sys F}

/-- Whatever a worker reports is final. -/
theorem honest_ends (hr : System.Reach p rt cfg s) : HonestEnds s.received := by
  intro w t st d r hm
  have h := hr.inv
  have hm := h.received hm
  rcases Peer.sent_pos hm with ⟨c, hx, hm⟩ | ⟨a, ret, qs, left, hx, ⟨now, hm⟩ | ⟨id, -, hm⟩⟩
  · obtain ⟨l, -, h3⟩ := h.clientSent hx hm
    exact h3.elim
  · rcases h.workerSent hx hm with ⟨h3 | h3, -⟩ | h3
    · exact .inr (.inr (.inl h3))
    · exact .inr (.inr (.inr h3))
    · obtain ⟨n, q, now', hq, hs⟩ := agent_heard h hx h3
      have hP := h.peer w
      rw [hx] at hP
      obtain ⟨⟨start, hr⟩, -⟩ := hP.2.2.1 n q hq
      obtain ⟨l₁, l₂, e⟩ := List.append_of_mem hs
      rcases C55_answers_partial hr _ _ _ e with ⟨-, -, h4, -⟩ | ⟨u, k, h4, h5, h6⟩
      · exact .inl h4
      · cases st with
        | success => exact .inl rfl
        | failed => exact .inr (.inl rfl)
        | _ => exact h6.elim
  · cases hm

/-- **C29.** In every execution of clients, scheduler and workers the counters add up. -/
theorem C29_system (hr : System.Reach p rt cfg s) :
    allAcks s.sched.out = s.sched.tm.success + s.sched.tm.failed + s.sched.tm.canceled + s.sched.tm.notFound + s.sched.tm.tasks.size :=
  (C29_statistics cfg _ _ hr.inv.sched).1 (honest_ends hr)

/-- **C70.** In every execution of clients, scheduler and workers the last status shown tells where a task is, and what is
shown as running and as canceling is what was sent. -/
theorem C70_system (hr : System.Reach p rt cfg s) (t : Bytes) :
    (t ∈ waitingQueue s.sched ∨ beingPlaced s.sched = some t → (shown t s.sched.mon).getLast? = some .inactive) ∧
    (∀ w, workerOf s.sched t = some w → (shown t s.sched.mon).getLast? = some .running ∨ (shown t s.sched.mon).getLast? = some .canceling) ∧
    (¬ Holding s.sched t → shown t s.sched.mon = [] ∨ ∃ st, (shown t s.sched.mon).getLast? = some st ∧
      (st = .success ∨ st = .failed ∨ st = .canceled ∨ st = .notFound)) ∧
    Legal (shown t s.sched.mon) ∧ s.sched.mon.filterMap markShown = s.sched.out.filterMap markSent := by
  obtain ⟨h1, h2, h3, h4⟩ := C70_status cfg _ _ hr.inv.sched (honest_ends hr) t
  exact ⟨h1, h2, h3, h4, C70_traffic cfg _ _ hr.inv.sched (honest_ends hr)⟩

/-- A system in which a task was run, and what was counted and shown of it. -/
example : System.Reach plainPickle toy wide submitRun ∧ (allAcks submitRun.sched.out, submitRun.sched.tm.success, submitRun.sched.tm.tasks.size,
    shown [10] submitRun.sched.mon) = (1, 1, 0, [.inactive, .running, .success]) :=
  ⟨systemRun_reach _ _, by decide +kernel⟩

/-- A worker of another kind could report that a task runs: the task is gone and was not counted, and the monitor is left
with a status that does not end it. -/
theorem C29_other_worker : (runInit cfg0 [addFn, beat wk, submit [1], turn, ev (.recv wk (.taskResult [1] .running 0 []))]).map (fun p =>
      (allAcks p.2.out, p.2.tm.success + p.2.tm.failed + p.2.tm.canceled + p.2.tm.notFound + p.2.tm.tasks.size, (shown [1] p.2.mon).getLast?)) =
    some (1, 0, some .running) := by decide +kernel

/-- **C51.** In every execution of clients, scheduler and workers, no worker loses a task: every task that it received is queued,
in the loop's hand or with the processor, or it was answered or returned, each exactly once. -/
theorem C51_system (hr : System.Reach p rt cfg s) {x : Bytes} {a : Worker.Agent} {ret : Int} {qs : List (Proc.Proc F)} {left : Option Bytes}
    (hx : s.peers x = .worker a ret qs left) (t : Bytes) :
    Spec.Worker.times (Spec.Worker.isTask t) a.log =
      a.pend t + a.runs t + Spec.Worker.times (Spec.Worker.isAnswer t) a.log + Spec.Worker.returned t a.log := by
  obtain ⟨d, start, ha⟩ := hr.inv.worker hx
  exact C51_accounted ha (agent_honest hr.inv hx) t

/-- **C101.** In every execution of clients, scheduler and workers, a worker whose tasks were all answered or given back holds none. -/
theorem C101_system (hr : System.Reach p rt cfg s) {x : Bytes} {a : Worker.Agent} {ret : Int} {qs : List (Proc.Proc F)} {left : Option Bytes}
    (hx : s.peers x = .worker a ret qs left)
    (ht : ∀ t, Spec.Worker.times (Spec.Worker.isTask t) a.log =
      Spec.Worker.times (Spec.Worker.isAnswer t) a.log + Spec.Worker.returned t a.log) : Spec.Worker.Empty a := by
  obtain ⟨d, start, ha⟩ := hr.inv.worker hx
  exact C101_agent ha (agent_honest hr.inv hx) ht

/-- The worker of that system received a task and answered it. -/
example : (match submitRun.peers [2] with
    | .worker a _ _ _ => some (Spec.Worker.times (Spec.Worker.isTask [10]) a.log, a.pend [10], a.runs [10],
        Spec.Worker.times (Spec.Worker.isAnswer [10]) a.log, Spec.Worker.returned [10] a.log)
    | _ => none) = some (1, 0, 0, 1, 0) := by decide +kernel

end Verif.Props
