import Verif.System.Ready
import Verif.Props.Transit

/-!
# C88: where the task is that a worker's agent gave to its processor
-/

namespace Verif.Props

open Verif.Wire Verif.System Verif.Spec
open Verif.Client (Pickle)

variable {F V X : Type} {p : Pickle} {rt : Proc.Runtime F V X} {cfg : Sched.Config} {s : Sys F}
variable {w : Bytes} {a : Worker.Agent} {ret : Int} {qs : List (Proc.Proc F)} {left : Option Bytes}

/-- **C88 (partial).** The task of the agent is on the way to its current processor, or the processor works on it or
waits for its function, or its result is on the way back.  A processor that waits for a function has asked for it, and
the question or the answer is under way, or the scheduler did not know the function.

Missing: that no task is given to the processors of a worker twice.  This can happen when the scheduler counted the worker
as lost and gives it the task again (`C53_system_dies`). -/
theorem C88_running_partial (hr : System.Reach p rt cfg s) (hx : s.peers w = .worker a ret qs left) (ho : ToldOnce a.log) {k : Task}
    (hk : a.task = some k) : ∃ n q, a.processor = some n ∧ qs[n]? = some q ∧ Runs s w a qs n q k := by
  obtain ⟨d, st, hw⟩ := hr.inv.worker hx
  have hin := hr.inside hx ho
  obtain ⟨n, q, hn, hq, h⟩ := hin.place k (hw.good.mt.busy.trans hk)
  have hn' := hw.good.mt.current.symm.trans hn
  refine ⟨n, q, hn', hq, ?_⟩
  rcases h with (h | h | h) | ⟨st, d, r, h⟩
  · by_cases hm : ∃ f, q.main = .added f
    · obtain ⟨f, hm⟩ := hm
      exact .loading f h hm
    · exact .waiting h (hr.waits hx ho n q k hn' hq h fun f e => hm ⟨f, e⟩)
  · cases hm : q.main with
    | stamp k' => rw [hm] at h; cases h; exact .working (.inl hm)
    | fetch k' => rw [hm] at h; cases h; exact .working (.inr (.inl hm))
    | stamp2 k' f => rw [hm] at h; cases h; exact .working (.inr (.inr (.inl ⟨f, hm⟩)))
    | call k' f => rw [hm] at h; cases h; exact .working (.inr (.inr (.inr ⟨f, hm⟩)))
    | _ => rw [hm] at h; cases h
  · exact .coming h
  · exact .done st d r h

/-- **C88 (partial).** The current processor has no other task, under the same condition. -/
theorem C88_alone_partial (hr : System.Reach p rt cfg s) (hx : s.peers w = .worker a ret qs left) (ho : ToldOnce a.log) {n : Nat} {q : Proc.Proc F}
    (hn : a.processor = some n) (hq : qs[n]? = some q) {k : Task}
    (h : taken (.task k) q < toldTo n (.task k) a.log ∨ q.task = some k ∨
      q.main = .stamp k ∨ q.main = .fetch k ∨ (∃ f, q.main = .stamp2 k f) ∨ ∃ f, q.main = .call k f) : a.task = some k := by
  obtain ⟨d, st, hw⟩ := hr.inv.worker hx
  refine hw.good.mt.busy.symm.trans ((hr.inside hx ho).held n q k (hw.good.mt.current.trans hn) hq ?_)
  rcases h with h | h | h | h | ⟨f, h⟩ | ⟨f, h⟩
  · exact .inr (.inr h)
  · exact .inl h
  all_goals exact .inr (.inl (by rw [h]; rfl))

/-- **C88.** When the agent's loop waits for its processor to be ready, the processor's announcement is under way. -/
theorem C88_ready (hr : System.Reach p rt cfg s) (hx : s.peers w = .worker a ret qs left) {k : Task} {b : Bool} (hp : a.pos = .init k b) :
    a.task = none ∧ (b = true ∨ heardOf (.taskResult [] .success 0 []) a.log < procsSent (.taskResult [] .success 0 []) qs) := by
  obtain ⟨d, st, hw⟩ := hr.inv.worker hx
  obtain ⟨h1, h2⟩ := hw.good.inv.wait k b hp
  refine ⟨h1, ?_⟩
  cases hi : a.initialized with
  | true => exact .inl (h2.trans hi)
  | false => exact .inr (hr.coming hx hi)

/-- **C88.** When the agent's loop waits for its lock, the processor has a task. -/
theorem C88_lock (hr : System.Reach p rt cfg s) (hx : s.peers w = .worker a ret qs left) {k : Task} (hp : a.pos = .lock k) (hl : a.locked = true) :
    ∃ k', a.task = some k' := by
  obtain ⟨d, st, hw⟩ := hr.inv.worker hx
  have := hw.good.inv.lock
  rw [hl, hp] at this
  cases ht : a.task with
  | some k' => exact ⟨k', rfl⟩
  | none => rw [ht] at this; cases this

/-- **C88.** A processor begins with its announcement, at the time when the agent started it. -/
theorem C88_begins (hr : System.Reach p rt cfg s) (hx : s.peers w = .worker a ret qs left) {n : Nat} {q : Proc.Proc F} (hq : qs[n]? = some q) :
    ∃ t, (t, Worker.Act.started n) ∈ a.log ∧ q.log.head? = some (t, .sent (.taskResult [] .success 0 [])) := hr.begins hx n q hq

/-- The first steps of the task 10: it is on the way to the processor. -/
def given : List System.Op := [schedOp .taskRoutine, toAgent (task9 [10]), fromProc ready9, agentTurn]
/-- The processor asks for the function of the task. -/
def wanted : List System.Op := given ++ [.proc [2] 0 ⟨.recv (task9 [10]), 5⟩]
/-- It gets the function. -/
def gotten : List System.Op := wanted ++ [fromProc asks9, schedOp (.recv [2] asks9), toAgent answer9, .proc [2] 0 ⟨.recv answer9, 5⟩]
/-- The agent asks too late: the scheduler counts the worker as lost, gives the task to another worker and forgets the function when
the task is done. -/
def tooLate : Script :=
  [(meet, 1), sysSubmit [10], (wanted ++ [fromProc asks9, .joinWorker [3] 100 100 0, .agent [3] ⟨.heartbeat ⟨0, 0, 0, 0⟩, 200⟩,
    .sched ⟨.recv [3] (.heartbeat ⟨0, 0, 0, 0, 0, 0, false, false, false⟩), 200, fun _ => []⟩, .sched ⟨.workerRoutine, 200, fun _ => []⟩, schedOp .taskRoutine,
    .agent [3] ⟨.recv (task9 [10]), 5⟩, .agent [3] ⟨.heard ready9, 5⟩, .agent [3] ⟨.turn, 5⟩, .proc [3] 0 ⟨.recv (task9 [10]), 5⟩, .agent [3] ⟨.heard asks9, 5⟩,
    schedOp (.recv [3] asks9), .agent [3] ⟨.recv answer9, 5⟩, .proc [3] 0 ⟨.recv answer9, 5⟩] ++ List.replicate 4 (.proc [3] 0 ⟨.work 0 0, 5⟩) ++
    [.agent [3] ⟨.heard (.taskResult [10] .success 0 [9]), 5⟩, schedOp (.recv [3] (.taskResult [10] .success 0 [9])),
     .sched ⟨.functionRoutine, 400, fun _ => []⟩, schedOp (.recv [2] asks9), toAgent (.functionResponse .notExists [9] [] [])], 0)]

/-- Runs of a system in which the worker 2 has the task 10: it is on the way to the processor; the processor asks for the function; so does the
agent; the answer is on the way to the agent; and to the processor; the processor has the function; it calls the function; the result is on the
way to the agent; the scheduler does not know the function any more. -/
def runnings : List Script :=
  [ [(meet, 0), sysSubmit [10], (given, 0)],
    [(meet, 0), sysSubmit [10], (wanted, 0)],
    [(meet, 0), sysSubmit [10], (wanted ++ [fromProc asks9], 0)],
    [(meet, 0), sysSubmit [10], (wanted ++ [fromProc asks9, schedOp (.recv [2] asks9)], 0)],
    [(meet, 0), sysSubmit [10], (wanted ++ [fromProc asks9, schedOp (.recv [2] asks9), toAgent answer9], 0)],
    [(meet, 0), sysSubmit [10], (gotten, 0)],
    [(meet, 0), sysSubmit [10], (gotten ++ List.replicate 3 (.proc [2] 0 ⟨.work 0 0, 5⟩), 0)],
    [(meet, 0), sysSubmit [10], (gotten ++ List.replicate 4 (.proc [2] 0 ⟨.work 0 0, 5⟩), 0)],
    tooLate ]

/-- Where the task 10 of the worker 2 is. -/
def running (s : Sys Nat) : List Bool :=
  match s.peers [2] with
  | .worker a _ qs none =>
    match qs[0]? with
    | some q =>
      let waits := decide (q.task = some ⟨[10], [9], []⟩ ∧ q.main = .idle)
      [ decide (taken (task9 [10]) q < toldTo 0 (task9 [10]) a.log),
        waits && decide (heardOf asks9 a.log < procsSent asks9 qs),
        waits && decide (s.received.count ([2], asks9) < (s.peers [2]).sent asks9),
        waits && decide ((s.peers [2]).got answer9 < s.sched.out.count ([2], answer9)),
        waits && decide (taken answer9 q < toldTo 0 answer9 a.log),
        decide (q.task = some ⟨[10], [9], []⟩ ∧ q.main = .added [9]),
        decide (q.main = .call ⟨[10], [9], []⟩ (some 9)),
        decide (heardOf (.taskResult [10] .success 0 [9]) a.log < procsSent (.taskResult [10] .success 0 [9]) qs),
        waits && decide (0 < (s.peers [2]).got (.functionResponse .notExists [9] [] [])) ]
    | none => []
  | _ => []

/-- The ids of the tasks given to processors. -/
def toldIds (l : Worker.Hist) : List Bytes := l.filterMap fun y => match y.2 with | .told _ (.task k) => some k.taskId | _ => none

theorem toldOnce_of {l : Worker.Hist} (h : (toldIds l).Nodup) : ToldOnce l := by
  intro t
  have e : Worker.times (Worker.isTold t) l = (toldIds l).count t := by
    clear h
    induction l with
    | nil => rfl
    | cons y l ih =>
      have h1 : Worker.times (Worker.isTold t) (y :: l) = Worker.times (Worker.isTold t) l + if Worker.isTold t y.2 then 1 else 0 := List.countP_cons
      rw [h1, ih]
      unfold toldIds
      rw [List.filterMap_cons]
      rcases y with ⟨now, y⟩
      cases y with
      | told n m => cases m <;> simp [Worker.isTold, List.count_cons]
      | _ => simp [Worker.isTold]
  rw [e]
  exact List.nodup_iff_count.1 h t

/-- Each of the places is met. -/
example : ∀ n < 9, ∃ s : Sys Nat, System.Reach plainPickle toy wide s ∧ (∃ a ret qs, s.peers [2] = .worker a ret qs none ∧ ToldOnce a.log ∧
    a.task = some ⟨[10], [9], []⟩) ∧ running s = (List.range 9).map fun j => decide (j = n) := by
  have h : ∀ n < 9, (runnings[n]?).map (fun l => decide (((agentAt (playScript wide l) [2]).map fun (a : Worker.Agent) =>
      decide ((toldIds a.log).Nodup ∧ a.task = some ⟨[10], [9], []⟩)) = some true ∧
      running (playScript wide l) = (List.range 9).map fun j => decide (j = n))) = some true := by decide +kernel
  intro n hn
  obtain ⟨l, _, he⟩ := Option.map_eq_some_iff.1 (h n hn)
  obtain ⟨h1, h2⟩ := of_decide_eq_true he
  obtain ⟨a, ha, h3⟩ := Option.map_eq_some_iff.1 h1
  obtain ⟨h4, h5⟩ := of_decide_eq_true h3
  obtain ⟨ret, qs, hx⟩ := agentAt_eq ha
  exact ⟨_, playScript_reach wide l, ⟨a, ret, qs, hx, toldOnce_of h4, h5⟩, h2⟩

/-- The agent's loop waits for its processor; and for its lock. -/
example : (∃ s : Sys Nat, System.Reach plainPickle toy wide s ∧ ∃ a ret qs, s.peers [2] = .worker a ret qs none ∧ a.pos = .init ⟨[10], [9], []⟩ false) ∧
    ∃ s : Sys Nat, System.Reach plainPickle toy wide s ∧ ∃ a ret qs, s.peers [2] = .worker a ret qs none ∧ a.pos = .lock ⟨[11], [9], []⟩ ∧ a.locked = true := by
  have h1 : (agentAt (playScript wide [(meet.take 1, 0), sysSubmit [10], (meet.drop 1 ++ [schedOp .taskRoutine, toAgent (task9 [10]), agentTurn], 0)]) [2]).map
      (fun (a : Worker.Agent) => decide (a.pos = .init ⟨[10], [9], []⟩ false)) = some true := by decide +kernel
  have h2 : (agentAt (playScript wide [(meet, 0), sysSubmit [10], sysSubmit [11], (given ++ [schedOp .taskRoutine, toAgent (task9 [11]), agentTurn], 0)]) [2]).map
      (fun (a : Worker.Agent) => decide (a.pos = .lock ⟨[11], [9], []⟩ ∧ a.locked = true)) = some true := by decide +kernel
  obtain ⟨a, ha, h3⟩ := Option.map_eq_some_iff.1 h1
  obtain ⟨ret, qs, hx⟩ := agentAt_eq ha
  obtain ⟨b, hb, h4⟩ := Option.map_eq_some_iff.1 h2
  obtain ⟨ret', qs', hy⟩ := agentAt_eq hb
  exact ⟨⟨_, playScript_reach wide _, a, ret, qs, hx, of_decide_eq_true h3⟩, _, playScript_reach wide _, b, ret', qs', hy, of_decide_eq_true h4⟩

/-- The worker has run the task 10 when the scheduler counts it as lost and gives it the task again.  The client leaves, and the task is
cancelled: the agent ends the first processor and gives the task to the second one. -/
def givenAgain : List System.Op :=
  gotten ++ List.replicate 4 (.proc [2] 0 ⟨.work 0 0, 5⟩) ++
    [.sched ⟨.workerRoutine, 200, fun _ => []⟩, toAgent .heartbeatEcho, .agent [2] ⟨.heartbeat ⟨0, 0, 0, 0⟩, 200⟩,
     .sched ⟨.recv [2] (.heartbeat ⟨0, 0, 0, 0, 0, 0, true, true, true⟩), 200, fun _ => []⟩, schedOp .taskRoutine, toAgent (task9 [10]), agentTurn] ++
    quit ++ [schedOp (.recv [1] (.taskCancel [10])), toAgent (.taskCancel [10]), agentTurn, fromProc ready9, agentTurn]

/-- **C88 is false of the code** for a worker that was given a task twice: the result of the processor that was killed is taken for the
result of the second one.  The agent then counts no task as running, and the second processor has one. -/
theorem C88_twice : ∃ s : Sys Nat, System.Reach plainPickle toy wide s ∧ ∃ a ret qs q, s.peers [2] = .worker a ret qs none ∧ a.task = none ∧ a.locked = false ∧
    a.processor = some 1 ∧ qs[1]? = some q ∧ taken (task9 [10]) q < toldTo 1 (task9 [10]) a.log := by
  have h : (match (playScript wide [(meet, 0), sysSubmit [10], (givenAgain ++ [fromProc (.taskResult [10] .success 0 [9])], 0)]).peers [2] with
    | .worker a _ qs none => a.task.isNone && !a.locked && decide (a.processor = some 1) &&
      (match qs[1]? with | some q => decide (taken (task9 [10]) q < toldTo 1 (task9 [10]) a.log) | none => false)
    | _ => false) = true := by decide +kernel
  refine ⟨_, playScript_reach wide [(meet, 0), sysSubmit [10], (givenAgain ++ [fromProc (.taskResult [10] .success 0 [9])], 0)], ?_⟩
  split at h
  · next a ret qs hx =>
    simp only [Bool.and_eq_true, Bool.not_eq_true', decide_eq_true_eq, Option.isNone_iff_eq_none] at h
    obtain ⟨⟨⟨h1, h2⟩, h3⟩, h4⟩ := h
    split at h4
    · next q hq => exact ⟨a, ret, qs, q, hx, h1, h2, h3, hq, of_decide_eq_true h4⟩
    · cases h4
  · cases h

/-- **C88.** The cancelled task is run all the same: the worker had it twice, and one cancel ends one of the two. -/
theorem C88_runs_anyway : ∃ s : Sys Nat, System.Reach plainPickle toy wide s ∧ ∃ a l₁ l₂, agentAt s [2] = some a ∧ a.log = l₁ ++ l₂ ∧
    .recv (.taskCancel [10]) ∈ l₁.map Prod.snd ∧ .told 1 (task9 [10]) ∈ l₂.map Prod.snd ∧ ∀ x ∈ l₂.map Prod.snd, x ≠ .recv (task9 [10]) := by
  have h : (agentAt (playScript wide [(meet, 0), sysSubmit [10], (givenAgain, 0)]) [2]).map (fun a => (List.range a.log.length).any fun n =>
      decide (.recv (.taskCancel [10]) ∈ (a.log.take n).map Prod.snd) && decide (.told 1 (task9 [10]) ∈ (a.log.drop n).map Prod.snd) &&
      decide (∀ x ∈ (a.log.drop n).map Prod.snd, x ≠ .recv (task9 [10]))) = some true := by decide +kernel
  obtain ⟨a, ha, h⟩ := Option.map_eq_some_iff.1 h
  obtain ⟨n, -, h⟩ := List.any_eq_true.1 h
  simp only [Bool.and_eq_true, decide_eq_true_eq] at h
  exact ⟨_, playScript_reach wide [(meet, 0), sysSubmit [10], (givenAgain, 0)], a, a.log.take n, a.log.drop n, ha, (List.take_append_drop n _).symm, h.1.1, h.1.2, h.2⟩

end Verif.Props
