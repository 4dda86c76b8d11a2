import Verif.Worker.AgentInv

/-!
# Properties of the worker agent (C50-C54, C57)

The theorems are about every state the agent can reach: any messages from the scheduler and from the
processor, in any order, with the loops interleaved in any way (`Reach`).
-/

namespace Verif.Props

open Verif.Wire Verif.Queue Verif.Worker Verif.Worker.Agent Verif.Spec.Worker

/-! ### Concrete runs -/

theorem agent_run_reach {d start : Int} : ∀ {es : List Event} {a b : Agent}, Worker.Reach d start a → a.run es = .ok b →
    Worker.Reach d start b
  | [], a, b, h, e => by cases e; exact h
  | ev :: es, a, b, h, e => by
    simp only [Agent.run, Py.bind_ok] at e
    obtain ⟨c, h1, h2⟩ := e
    exact agent_run_reach (.step ev h h1) h2

theorem agent_run_later : ∀ {es : List Event} {a b c : Agent}, Worker.Later a b → b.run es = .ok c → Worker.Later a c
  | [], a, b, c, h, e => by cases e; exact h
  | ev :: es, a, b, c, h, e => by
    simp only [Agent.run, Py.bind_ok] at e
    obtain ⟨b', h1, h2⟩ := e
    exact agent_run_later (.step ev h h1) h2

/-- The states after two successive lists of events, looked at through `f`. -/
def agentWitness {α : Type} (d start : Int) (es es' : List Event) (f : Agent → Agent → α) : Option α :=
  match (Agent.init d start).run es with
  | .error _ => none
  | .ok a =>
    match a.run es' with
    | .error _ => none
    | .ok b => some (f a b)

theorem agentWitness_sound {α : Type} {d start : Int} {es es' : List Event} {f : Agent → Agent → α} {x : α}
    (h : agentWitness d start es es' f = some x) : ∃ a b, Worker.Reach d start a ∧ a.run es' = .ok b ∧ f a b = x := by
  unfold agentWitness at h
  split at h
  · cases h
  next a ha =>
  split at h
  · cases h
  next b hb =>
  cases h
  exact ⟨a, b, agent_run_reach .init ha, hb, rfl⟩

private def t1 : Task := ⟨[1], [7], []⟩
private def t2 : Task := ⟨[2], [7], []⟩

/-- The processor announces itself. -/
private def hello : Event := ⟨.heard (.taskResult [] .success 0 []), 1⟩

/-! ### C50 -/

/-- A worker runs one task at a time: a task is given only to the processor that runs, after it announced
itself, and while it has no task; a result is passed on only right after the processor sent it for the task
it was given (other results answer a cancel). -/
theorem C50_one_task {d start : Int} {a : Agent} (hr : Worker.Reach d start a) : Always Proper a.log := hr.good.ok

/-- Spelled out for tasks: between two tasks given to processors, the first was answered by the processor or
the processor was killed. -/
theorem C50_no_overlap {d start : Int} {a : Agent} (hr : Worker.Reach d start a) {l₁ l₂ l₃ : Hist} {now now' : Int} {n n' : Nat}
    {k k' : Task} (h : a.log = l₁ ++ (now, .told n (.task k)) :: l₂ ++ (now', .told n' (.task k')) :: l₃) :
    ∃ x ∈ l₂, (∃ m, x.2 = .killed m) ∨ ∃ st dur r, x.2 = .heard (.taskResult k.taskId st dur r) := by
  have hok := hr.good.ok
  have key : ∀ (l : Hist) (l₀ rest : Hist), a.log = l₀ ++ l ++ rest → busy l₀ = some k →
      (∀ x ∈ l, ¬ ((∃ m, x.2 = .killed m) ∨ ∃ st dur r, x.2 = .heard (.taskResult k.taskId st dur r))) →
      busy (l₀ ++ l) = some k := by
    intro l
    induction l with
    | nil => intro l₀ _ _ h _; simpa using h
    | cons x l ih =>
      intro l₀ rest e hb hx
      have hx0 := hx x (by simp)
      have e' : a.log = (l₀ ++ [x]) ++ l ++ rest := by rw [e]; simp
      have hp := hok l₀ x (l ++ rest) (by rw [e]; simp)
      rw [show l₀ ++ x :: l = (l₀ ++ [x]) ++ l by simp]
      refine ih _ rest e' ?_ (fun y hy => hx y (by simp [hy]))
      rw [busy_snoc]
      unfold busyStep
      split
      · next n j ex =>
        rw [ex] at hp
        have := hp.2.2
        rw [hb] at this; cases this
      · next m ex => exact (hx0 (Or.inl ⟨m, ex⟩)).elim
      · next i st dur r ex =>
        have : k.taskId ≠ i := by
          rintro rfl
          exact hx0 (Or.inr ⟨st, dur, r, ex⟩)
        simp [hb, this]
      · exact hb
  apply Classical.byContradiction
  intro hn
  have hb := (hok (l₁ ++ (now, .told n (.task k)) :: l₂) _ l₃ h).2.2
  have := key l₂ (l₁ ++ [(now, .told n (.task k))]) ((now', .told n' (.task k')) :: l₃) (by rw [h]; simp)
    (by rw [busy_snoc]; rfl) (fun x hx hc => hn ⟨x, hx, hc⟩)
  rw [show l₁ ++ [(now, Act.told n (.task k))] ++ l₂ = l₁ ++ (now, .told n (.task k)) :: l₂ by simp, hb] at this
  cases this

/-- After `__kill` there is no processor and the agent waits for a new one to report, whether or not there was
one before; a processor that was there is killed, once. -/
theorem C50_killed (a : Agent) (now : Int) : (a.kill now).processor = none ∧ (a.kill now).initialized = false ∧
    (a.kill now).tasks = a.tasks ∧ (a.kill now).log = a.log ++ (a.processor.map fun n => (now, .killed n)).toList := by
  unfold Agent.kill
  cases a.processor <;> simp [Agent.note]

/-- The worker never gets stuck by itself: when the processor is ready and has no task, the loop's next turn
gives it the task that waited longest; while the processor has a task or is starting, the turn sends nothing. -/
theorem C50_next_starts {d start : Int} {a : Agent} (hr : Worker.Reach d start a) (now : Int) :
    ∃ a', a.step ⟨.turn, now⟩ = .ok a' ∧
      (ready a.log = true → busy a.log = none → ∀ k, a.next? = some k →
        ∃ n, current a.log = some n ∧ a'.log = a.log ++ [(now, .told n (.task k))]) ∧
      (ready a.log = false ∨ busy a.log ≠ none → a'.log = a.log) := by
  have g := hr.good
  obtain ⟨a', h1, _, h3⟩ := turn_spec now g
  refine ⟨a', h1, ?_, ?_⟩
  · intro hrd hb k hk
    rw [g.mt.ready] at hrd
    rw [g.mt.busy] at hb
    rw [g.mt.current]
    rcases h3 with ⟨k', n, _, _, e, hn, hl⟩ | ⟨_, _, _, h⟩
    · rw [hk] at e; cases e; exact ⟨n, hn, hl⟩
    · rw [h hb hrd] at hk; cases hk
  · intro h
    rw [g.mt.ready, g.mt.busy] at h
    rcases h3 with ⟨_, _, e1, e2, _⟩ | ⟨hl, _⟩
    · rw [e1, e2] at h
      rcases h with h | h
      · cases h
      · exact (h rfl).elim
    · exact hl

/-- A message from the scheduler. -/
def _root_.Verif.Worker.Act.isRecv : Act → Bool
  | .recv _ => true
  | _ => false

/-- Two tasks: the second is given to the processor after the first was answered. -/
example : agentWitness 10 1 [⟨.recv (.task t1), 1⟩, ⟨.recv (.task t2), 1⟩, hello, ⟨.turn, 1⟩, ⟨.turn, 1⟩,
      ⟨.heard (.taskResult [1] .success 0 [9]), 2⟩] [⟨.turn, 3⟩]
    (fun a b => (decide (busy a.log = none ∧ ready a.log = true ∧ a.next? = some t2), b.log.drop 5)) =
    some (true, [(2, .heard (.taskResult [1] .success 0 [9])), (2, .sent (.taskResult [1] .success 0 [9])),
      (3, .told 0 (.task t2))]) := by decide +kernel

/-! ### C51 -/

/-- A worker loses no task: every received task is queued, in the loop's hand or with the processor, or it was
answered or returned, each exactly once.  (`pend` counts the first two, `runs` the third.) -/
theorem C51_accounted {d start : Int} {a : Agent} (hr : Worker.Reach d start a) (hh : Honest a.log) (t : Bytes) :
    times (isTask t) a.log = a.pend t + a.runs t + times (isAnswer t) a.log + returned t a.log := by
  induction hr with
  | init => rfl
  | step e hr hs ih =>
    have f := step_fine hr.good hs
    obtain ⟨l, hl⟩ := f.ext
    have := f.books.held hh t
    have := ih (by rw [hl] at hh; exact honest_left hh)
    omega

/-- Every copy of a task is given to a processor at most once, and never if it is returned. -/
theorem C51_told {d start : Int} {a : Agent} (hr : Worker.Reach d start a) (t : Bytes) :
    times (isTold t) a.log + returned t a.log + a.pend t ≤ times (isTask t) a.log := by
  induction hr with
  | init => exact Nat.le_refl _
  | step e hr hs ih =>
    have := (step_fine hr.good hs).books.told t
    omega

/-- The tasks of the loop and of the processor are counted once each. -/
example : agentWitness 10 1 [⟨.recv (.task t1), 1⟩, ⟨.recv (.task t2), 1⟩, ⟨.recv (.task ⟨[3], [7], []⟩), 1⟩,
      ⟨.recv (.task ⟨[4], [7], []⟩), 1⟩, hello, ⟨.turn, 1⟩, ⟨.turn, 1⟩, ⟨.recv (.balanceRequest 1), 1⟩] []
    (fun a _ => [[1], [2], [3], [4]].map fun t => (a.pend t, a.runs t, returned t a.log)) =
    some [(0, 1, 0), (1, 0, 0), (0, 0, 1), (1, 0, 0)] := by decide +kernel

/-! ### C52 -/

/-- A task is with the processor only if it was given to it. -/
theorem busy_told (t : Bytes) : ∀ l' l : Hist,
    taskCount t (busy (l ++ l')) + times (isTold t) l ≤ taskCount t (busy l) + times (isTold t) (l ++ l')
  | [], l => by simp
  | x :: l', l => by
    have ih := busy_told t l' (l ++ [x])
    rw [show l ++ x :: l' = (l ++ [x]) ++ l' by simp]
    have h1 : taskCount t (busy (l ++ [x])) ≤ taskCount t (busy l) + if isTold t x.2 then 1 else 0 := by
      rw [busy_snoc]
      unfold busyStep
      split
      · next n k e => simp only [e, isTold, taskCount_some, decide_eq_true_eq]; omega
      · simp
      · cases busy l with
        | none => simp
        | some k =>
          simp only [Option.filter]
          split
          · omega
          · simp
      · omega
    have h2 := times_snoc (isTold t) l x
    omega

/-- A task reported as cancelled is not given to a processor later and is not with it, unless it is received
again.  (The task was received at most once before.) -/
theorem C52_canceled {d start : Int} {a a' b : Agent} {t : Bytes} {now : Int} (hr : Worker.Reach d start a)
    (hh : Honest a.log) (h1 : times (isTask t) a.log ≤ 1)
    (hs : a.step ⟨.recv (.taskCancel t), now⟩ = .ok a')
    (hc : (now, Act.sent (.taskResult t .canceled 0 [])) ∈ a'.log.drop a.log.length)
    (hl : Worker.Later a' b) (hn : times (isTask t) b.log = times (isTask t) a'.log) :
    times (isTold t) b.log = times (isTold t) a'.log ∧ (∀ k, busy b.log = some k → k.taskId ≠ t) := by
  have g := hr.good
  have f := step_fine g hs
  have hr' := Worker.Reach.step ⟨.recv (.taskCancel t), now⟩ hr hs
  have acc := C51_accounted hr hh t
  have fb := hl.fine f.good
  have htold := fb.books.told t
  -- after the cancel no copy is left
  have hzero : a'.pend t = 0 ∧ a'.runs t = 0 := by
    by_cases hm : t ∈ a.queue.contents
    · obtain ⟨_, _, e2, e3, e4⟩ := onCancel_queued g hm hs
      have : 0 < a.queue.contents.count t := List.count_pos_iff.2 hm
      have h5 := count_erase_ite a.queue.contents t t
      simp only [pend, runs] at acc
      simp only [pend, runs, e2, e3, e4, h5]
      simp
      omega
    · obtain ⟨_, h | h⟩ := onCancel_other g hm hs
      · obtain ⟨⟨k, hk, hkt⟩, e2, e3, e4, _⟩ := h
        simp only [pend, runs, hk, taskCount_some, hkt] at acc
        simp only [pend, runs, e2, e3, e4]
        simp at acc ⊢
        omega
      · obtain ⟨_, _, _, _, e⟩ := h
        rw [e] at hc
        simp at hc
  -- tasks given out and waiting cannot exceed what was received
  have hpos : times (isTold t) a'.log ≤ times (isTold t) b.log := by
    obtain ⟨l, e⟩ := fb.ext
    rw [e]; simp [times, List.countP_append]
  have hret : returned t a'.log ≤ returned t b.log := by
    obtain ⟨l, e⟩ := fb.ext
    rw [e]; simp [returned]
  have hruns : b.runs t + times (isTold t) a'.log ≤ a'.runs t + times (isTold t) b.log := by
    obtain ⟨l, e⟩ := fb.ext
    have := busy_told t l a'.log
    rw [← e] at this
    rwa [fb.good.mt.busy, f.good.mt.busy] at this
  refine ⟨by omega, ?_⟩
  intro k hk hkt
  rw [fb.good.mt.busy] at hk
  have : b.runs t = 1 := by simp [runs, hk, hkt]
  omega

/-- The full claim is that a task reported as cancelled or as not found is not run later.  For "not found" it
holds if the loop does not have the task in its hand when the cancel arrives; see `C52_not_found_runs`. -/
theorem C52_not_found_partial {d start : Int} {a a' b : Agent} {t : Bytes} {now : Int} (hr : Worker.Reach d start a)
    (hs : a.step ⟨.recv (.taskCancel t), now⟩ = .ok a')
    (hc : (now, Act.sent (.taskResult t .notFound 0 [])) ∈ a'.log.drop a.log.length)
    (hp : ∀ k, a.pos.task? = some k → k.taskId ≠ t)
    (hl : Worker.Later a' b) (hn : times (isTask t) b.log = times (isTask t) a'.log) :
    times (isTold t) b.log = times (isTold t) a'.log ∧ (∀ k, busy b.log = some k → k.taskId ≠ t) := by
  have g := hr.good
  have f := step_fine g hs
  have fb := hl.fine f.good
  have htold := fb.books.told t
  have hzero : a'.pend t = 0 ∧ a'.runs t = 0 := by
    by_cases hm : t ∈ a.queue.contents
    · obtain ⟨_, e, _⟩ := onCancel_queued g hm hs
      rw [e] at hc
      simp at hc
    · obtain ⟨_, h | h⟩ := onCancel_other g hm hs
      · obtain ⟨_, _, _, _, _, n, _, _, e⟩ := h
        rw [e] at hc
        simp at hc
      · obtain ⟨h0, e2, e3, e4, _⟩ := h
        simp only [pend, runs, e2, e3, e4, Pos.count, List.count_eq_zero.2 hm]
        constructor
        · cases hk : a.pos.task? with
          | none => rfl
          | some k => simp [hp k hk]
        · cases hk : a.task with
          | none => rfl
          | some k =>
            have : k.taskId ≠ t := fun e => h0 ⟨k, hk, e⟩
            simp [this]
  have hpos : times (isTold t) a'.log ≤ times (isTold t) b.log := by
    obtain ⟨l, e⟩ := fb.ext
    rw [e]; simp [times, List.countP_append]
  have hret : returned t a'.log ≤ returned t b.log := by
    obtain ⟨l, e⟩ := fb.ext
    rw [e]; simp [returned]
  have hruns : b.runs t + times (isTold t) a'.log ≤ a'.runs t + times (isTold t) b.log := by
    obtain ⟨l, e⟩ := fb.ext
    have := busy_told t l a'.log
    rw [← e] at this
    rwa [fb.good.mt.busy, f.good.mt.busy] at this
  refine ⟨by omega, ?_⟩
  intro k hk hkt
  rw [fb.good.mt.busy] at hk
  have : b.runs t = 1 := by simp [runs, hk, hkt]
  omega

/-- A queued task and a running task are cancelled, the second by killing the processor; an unknown one is
not found. -/
example : agentWitness 10 1 [⟨.recv (.task t1), 1⟩, hello, ⟨.turn, 1⟩, ⟨.recv (.task t2), 1⟩]
      [⟨.recv (.taskCancel [2]), 2⟩, ⟨.recv (.taskCancel [3]), 2⟩, ⟨.recv (.taskCancel [1]), 2⟩]
    (fun a b => (b.log.drop a.log.length).filter fun x => x.2.isRecv == false) =
    some [(2, .sent (.taskResult [2] .canceled 0 [])), (2, .sent (.taskResult [3] .notFound 0 [])), (2, .killed 0),
      (2, .started 1), (2, .sent (.taskResult [1] .canceled 0 []))] := by decide +kernel

/-- The claim is false: a task that waits for the lock is reported as not found and runs afterwards. -/
theorem C52_not_found_runs : ∃ (a a' b : Agent), Worker.Reach 10 1 a ∧
    a.step ⟨.recv (.taskCancel [2]), 2⟩ = .ok a' ∧
    (2, Act.sent (.taskResult [2] .notFound 0 [])) ∈ a'.log.drop a.log.length ∧
    Worker.Later a' b ∧ times (isTask [2]) b.log = times (isTask [2]) a'.log ∧ times (isTask [2]) a.log = 1 ∧
    times (isTold [2]) a'.log = 0 ∧ times (isTold [2]) b.log = 1 ∧ busy b.log = some t2 := by
  have h : agentWitness 10 1 [⟨.recv (.task t1), 1⟩, hello, ⟨.turn, 1⟩, ⟨.recv (.task t2), 1⟩, ⟨.turn, 1⟩]
      [⟨.recv (.taskCancel [2]), 2⟩]
      (fun a a' =>
        match a'.run [⟨.heard (.taskResult [1] .success 0 [9]), 3⟩, ⟨.turn, 4⟩] with
        | .error _ => false
        | .ok b => decide ((2, Act.sent (.taskResult [2] .notFound 0 [])) ∈ a'.log.drop a.log.length ∧
            times (isTask [2]) b.log = times (isTask [2]) a'.log ∧ times (isTask [2]) a.log = 1 ∧
            times (isTold [2]) a'.log = 0 ∧ times (isTold [2]) b.log = 1 ∧ busy b.log = some t2)) = some true := by
    decide +kernel
  obtain ⟨a, a', ha, he, h⟩ := agentWitness_sound h
  split at h
  · cases h
  next b hb =>
  have h := of_decide_eq_true h
  refine ⟨a, a', b, ha, ?_, h.1, agent_run_later .now hb, h.2⟩
  simp only [Agent.run, Py.bind_ok] at he
  obtain ⟨c, hc, he⟩ := he
  cases he
  exact hc

/-! ### C53 -/

/-- The exception of a computation. -/
def errOf {α : Type} : Py α → Option PyErr
  | .ok _ => none
  | .error e => some e

theorem errOf_eq {α : Type} {x : Py α} {e : PyErr} (h : errOf x = some e) : x = .error e := by
  cases x with
  | ok _ => cases h
  | error e' => cases h; rfl

/-- The messages that end the worker. -/
def Kills (a : Agent) : Message → Prop
  | .heartbeatEcho => False
  | .task k => k.taskId ∈ a.queue.contents
  | .taskCancel t => t ∉ a.queue.contents ∧ ready a.log = true ∧ busy a.log = none
  | .functionResponse _ _ _ _ => ready a.log = true ∧ busy a.log = none
  | .functionRequest ty _ _ _ => ty ≠ .delete
  | .balanceRequest n => n < 0
  | _ => True

/-- The full claim is that no message the scheduler sends ends the worker.  Exactly these do: a task that is
still queued, a cancel for an unknown task or any function response while the processor is ready and has no
task, and messages that a scheduler does not send to workers.  See `C53_late_cancel` and
`C53_late_function`. -/
theorem C53_kills_partial {d start : Int} {a : Agent} (hr : Worker.Reach d start a) (now : Int) (m : Message) :
    (∃ e, a.step ⟨.recv m, now⟩ = .error e) ↔ Kills a m := by
  have g := hr.good
  have hready := g.mt.ready
  have hbusy := g.mt.busy
  cases m with
  | heartbeatEcho => simp [Agent.step, receive, Kills]
  | task k =>
    simp only [Agent.step, receive, Kills, onTaskNew]
    by_cases hm : k.taskId ∈ a.queue.contents
    · have : (a.note now (.recv (.task k))).queue.put id k.taskId = .error .keyError :=
        g.inv.wf.put_dup (by simpa using hm)
      simp [this, hm]
    · obtain ⟨q, hq, _⟩ := g.inv.wf.put_new (a := k.taskId) (by simpa using hm)
      have : (a.note now (.recv (.task k))).queue.put id k.taskId = .ok q := hq
      simp [this, hm]
  | taskCancel t =>
    simp only [Agent.step, receive, Kills]
    by_cases hm : t ∈ a.queue.contents
    · have : (a.note now (.recv (.taskCancel t))).tasks.has t = true := (g.inv.keys t).2 hm
      obtain ⟨q, hq, _⟩ := g.inv.wf.remove_present (a := t) (by simpa using hm)
      have hq : (a.note now (.recv (.taskCancel t))).queue.remove id t = .ok q := hq
      have h0 := this
      simp only [Dict.has, Option.isSome_iff_exists] at h0
      obtain ⟨k, hk⟩ := h0
      simp [onCancel, this, hm, Dict.pop, Dict.getPy, hk, orRaise, hq]
    · have : ¬ (a.note now (.recv (.taskCancel t))).tasks.has t = true := fun x => hm ((g.inv.keys t).1 x)
      simp only [onCancel, this, cancelRunning]
      rw [hready, hbusy]
      simp only [show (a.note now (.recv (.taskCancel t))).initialized = a.initialized from rfl,
        show (a.note now (.recv (.taskCancel t))).task = a.task from rfl]
      cases hi : a.initialized <;> cases hk : a.task <;> simp [hm, orRaise]
      split <;> simp
  | balanceRequest n =>
    by_cases hn : 0 ≤ n
    · obtain ⟨a', h, _⟩ := onBalance_spec (now := now) g hn
      simp only [Agent.step, h, Kills]
      simp; omega
    · simp only [Agent.step, receive, onBalance, Kills]
      rw [if_pos (by omega)]
      simp; omega
  | functionRequest ty fid nm c =>
    simp only [Agent.step, receive, onFunctionRequest, Kills]
    split <;> simp_all
  | functionResponse st fid nm c =>
    simp only [Agent.step, receive, onFunctionResponse, Kills]
    rw [hready, hbusy]
    simp only [show (a.note now (.recv (.functionResponse st fid nm c))).initialized = a.initialized from rfl,
      show (a.note now (.recv (.functionResponse st fid nm c))).task = a.task from rfl]
    cases hi : a.initialized <;> cases hk : a.task <;> simp [orRaise]
    split
    · split <;> simp
    · simp
  | _ => simp [Agent.step, receive, Kills]

/-- A message sequence as the scheduler sends it: a busy worker survives a cancel of its task. -/
example : agentWitness 10 1 [⟨.recv (.task t1), 1⟩, hello, ⟨.turn, 1⟩] [⟨.recv (.taskCancel [1]), 2⟩]
    (fun a b => (ready a.log, (busy a.log).isSome, ready b.log, (busy b.log).isSome)) =
    some (true, true, false, false) := by decide +kernel

/-- A cancel that crosses the result of its task ends the worker. -/
theorem C53_late_cancel : ∃ a, Worker.Reach 10 1 a ∧
    a.log.map (·.2) = [.started 0, .recv (.task t1), .heard (.taskResult [] .success 0 []), .told 0 (.task t1),
      .heard (.taskResult [1] .success 0 [9]), .sent (.taskResult [1] .success 0 [9])] ∧
    a.step ⟨.recv (.taskCancel [1]), 2⟩ = .error .attributeError := by
  have h : agentWitness 10 1 [⟨.recv (.task t1), 1⟩, hello, ⟨.turn, 1⟩, ⟨.heard (.taskResult [1] .success 0 [9]), 1⟩] []
      (fun a _ => decide (a.log.map (·.2) = [.started 0, .recv (.task t1), .heard (.taskResult [] .success 0 []), .told 0 (.task t1),
      .heard (.taskResult [1] .success 0 [9]), .sent (.taskResult [1] .success 0 [9])] ∧
        errOf (a.step ⟨.recv (.taskCancel [1]), 2⟩) = some .attributeError)) = some true := by decide +kernel
  obtain ⟨a, _, ha, _, h⟩ := agentWitness_sound h
  have h := of_decide_eq_true h
  exact ⟨a, ha, h.1, errOf_eq h.2⟩

/-- A function response that crosses the cancel of the task it is for ends the worker, once the new processor
has started. -/
theorem C53_late_function : ∃ a, Worker.Reach 10 1 a ∧
    a.log.map (·.2) = [.started 0, .recv (.task t1), .heard (.taskResult [] .success 0 []), .told 0 (.task t1),
      .heard (.functionRequest .request [7] [] []), .sent (.functionRequest .request [7] [] []),
      .recv (.taskCancel [1]), .killed 0, .started 1, .sent (.taskResult [1] .canceled 0 []),
      .heard (.taskResult [] .success 0 [])] ∧
    a.step ⟨.recv (.functionResponse .ok [7] [] [5]), 2⟩ = .error .attributeError := by
  have h : agentWitness 10 1 [⟨.recv (.task t1), 1⟩, hello, ⟨.turn, 1⟩, ⟨.heard (.functionRequest .request [7] [] []), 1⟩,
        ⟨.recv (.taskCancel [1]), 1⟩, hello] []
      (fun a _ => decide (a.log.map (·.2) = [.started 0, .recv (.task t1), .heard (.taskResult [] .success 0 []), .told 0 (.task t1),
        .heard (.functionRequest .request [7] [] []), .sent (.functionRequest .request [7] [] []),
        .recv (.taskCancel [1]), .killed 0, .started 1, .sent (.taskResult [1] .canceled 0 []),
        .heard (.taskResult [] .success 0 [])] ∧
        errOf (a.step ⟨.recv (.functionResponse .ok [7] [] [5]), 2⟩) = some .attributeError)) = some true := by decide +kernel
  obtain ⟨a, _, ha, _, h⟩ := agentWitness_sound h
  have h := of_decide_eq_true h
  exact ⟨a, ha, h.1, errOf_eq h.2⟩

/-- The processor's messages and the loops do not end the worker: `Failed` and `Success` results and requests
for functions are all a processor sends (processor.py), and the loop of the task manager never raises. -/
theorem C53_inside {d start : Int} {a : Agent} (hr : Worker.Reach d start a) (now : Int) :
    (∃ a', a.step ⟨.turn, now⟩ = .ok a') ∧
    (∀ i st dur r, ∃ a', a.step ⟨.heard (.taskResult i st dur r), now⟩ = .ok a') ∧
    ∀ f n c, ∃ a', a.step ⟨.heard (.functionRequest .request f n c), now⟩ = .ok a' := by
  refine ⟨?_, ?_, ?_⟩
  · obtain ⟨a', h, _⟩ := turn_spec now hr.good
    exact ⟨a', h⟩
  · intro i st dur r
    exact ⟨_, rfl⟩
  · intro f n c
    simp only [Agent.step, receiveInternal, onInternalFunctionRequest]
    split
    · exact ⟨_, rfl⟩
    split
    · exact ⟨_, rfl⟩
    split
    · exact ⟨_, rfl⟩
    · simp [pyAssert]

/-- Packed numbers fit their fields. -/
theorem packFrom_fits : ∀ {fs : List (Code × Int)} {off : Nat} {b : Bytes}, packFrom off fs = .ok b → ∀ {c : Code} {n : Int},
    (c, n) ∈ fs → c ≠ .bool → n < (256 ^ c.size : Nat)
  | [], _, _, _, _, _, hm, _ => by simp at hm
  | (c', n') :: fs, off, b, h, c, n, hm, hc => by
    simp only [packFrom, Py.bind_ok] at h
    obtain ⟨b1, h1, b2, h2, _⟩ := h
    rcases List.mem_cons.1 hm with e | hm
    · cases e
      unfold packField at h1
      split at h1
      · exact (hc rfl).elim
      · split at h1
        · next h => exact h.2
        · cases h1
    · exact packFrom_fits h2 hm hc

/-- A worker with more than 65535 queued tasks ends at its next heartbeat: the number does not fit its field. -/
theorem C53_overfull {d start : Int} {a : Agent} (hr : Worker.Reach d start a) (hq : 65535 < a.queue.contents.length)
    (hb : a.beatAt = 0) (now : Int) (f : Figures) : ∃ e, a.step ⟨.heartbeat f, now⟩ = .error e := by
  have g := hr.good
  have hp : a.procs ≠ 0 := by
    obtain ⟨n, hn⟩ := Option.isSome_iff_exists.1 g.inv.proc
    have := g.inv.procs n hn
    omega
  simp only [Agent.step, heartbeat, hp, hb, if_false, ne_eq, not_true]
  cases hs : (a.heartbeatMsg f).serialize with
  | error e => exact ⟨e, rfl⟩
  | ok l =>
    exfalso
    simp only [Heartbeat.serialize, Py.bind_ok, pack] at hs
    obtain ⟨b, hb, _⟩ := hs
    have := packFrom_fits hb (c := .H) (n := a.queue.len) (by simp [Heartbeat.fields, heartbeatMsg]) (by decide)
    rw [g.inv.wf.len] at this
    simp only [Code.size] at this
    omega

/-! ### C54 -/

/-- On a balance request for `n` tasks the worker returns the `min n queued` oldest queued tasks and forgets
exactly these. -/
theorem C54_balance {d start : Int} {a : Agent} (hr : Worker.Reach d start a) (now : Int) {n : Int} (hn : 0 ≤ n) :
    ∃ a', a.step ⟨.recv (.balanceRequest n), now⟩ = .ok a' ∧
      a'.log = a.log ++ [(now, .recv (.balanceRequest n)), (now, .sent (.balanceResponse (a.queue.contents.take n.toNat)))] ∧
      a'.queue.contents = a.queue.contents.drop n.toNat ∧
      (∀ t, a'.tasks.has t = true ↔ t ∈ a.queue.contents.drop n.toNat) ∧ a'.pos = a.pos ∧ a'.task = a.task := by
  obtain ⟨a', h1, h2, h3, h4, h5, h6⟩ := onBalance_spec (now := now) hr.good hn
  exact ⟨a', h1, h3, h4, fun t => by rw [h2.good.inv.keys, h4], h5, h6⟩

/-- No returned task was started: a queued task that was received once was never given to a processor. -/
theorem C54_unstarted {d start : Int} {a : Agent} (hr : Worker.Reach d start a) {t : Bytes} (hq : t ∈ a.queue.contents)
    (h1 : times (isTask t) a.log ≤ 1) : times (isTold t) a.log = 0 := by
  have := C51_told hr t
  have : 0 < a.queue.contents.count t := List.count_pos_iff.2 hq
  simp only [pend] at *
  omega

/-- Two of three queued tasks are returned, oldest first. -/
example : agentWitness 10 1 [⟨.recv (.task t1), 1⟩, ⟨.recv (.task t2), 1⟩, ⟨.recv (.task ⟨[3], [7], []⟩), 1⟩] [⟨.recv (.balanceRequest 2), 2⟩]
    (fun a b => (a.queue.contents, b.queue.contents, b.log.drop a.log.length)) =
    some ([[1], [2], [3]], [[3]], [(2, .recv (.balanceRequest 2)), (2, .sent (.balanceResponse [[1], [2]]))]) := by decide +kernel

/-! ### C57 -/

/-- Entries that are not about heartbeats. -/
def quiet : Act → Bool
  | .sent (.heartbeat _) => false
  | .recv .heartbeatEcho => false
  | _ => true

/-- Nothing about heartbeats happens. -/
def Calm (a a' : Agent) : Prop :=
  a'.beatAt = a.beatAt ∧ a'.lastSeen = a.lastSeen ∧ (a'.deathTimeout = a.deathTimeout ∧ a'.latency = a.latency) ∧
    ∃ l, a'.log = a.log ++ l ∧ ∀ x ∈ l, quiet x.2 = true

theorem Calm.rfl {a : Agent} : Calm a a := ⟨Eq.refl _, Eq.refl _, ⟨Eq.refl _, Eq.refl _⟩, [], by simp, by simp⟩

theorem Calm.note {a b : Agent} (h : Calm a b) (now : Int) {x : Act} (hx : quiet x = true) : Calm a (b.note now x) := by
  obtain ⟨h1, h2, h3, l, h4, h5⟩ := h
  refine ⟨h1, h2, h3, l ++ [(now, x)], by simp [Agent.note, h4], ?_⟩
  intro y hy
  rcases List.mem_append.1 hy with hy | hy
  · exact h5 y hy
  · simp only [List.mem_singleton] at hy; subst hy; exact hx

theorem takeOldest_calm {n : Nat} : ∀ {a b b' : Agent} {l : List Bytes}, Calm a b → b.takeOldest n = .ok (l, b') → Calm a b' := by
  induction n with
  | zero => intro a b b' l h e; cases e; exact h
  | succ n ih =>
    intro a b b' l h e
    simp only [takeOldest, Py.bind_ok] at e
    obtain ⟨⟨t, q⟩, _, ⟨k, ts⟩, _, ⟨l', c⟩, e, e'⟩ := e
    cases e'
    exact ih (a := a) (b := { b with queue := q, tasks := ts }) h e

theorem handOver_calm {a b b' : Agent} {now : Int} {k : Task} (h : Calm a b) (e : b.handOver now k = .ok b') : Calm a b' := by
  simp only [handOver, Py.bind_ok] at e
  obtain ⟨_, _, e⟩ := e
  cases e
  exact Calm.note (b := { b with task := some k, pos := .idle }) h now (by rfl)

theorem awaitProcessor_calm {a b b' : Agent} {now : Int} {k : Task} (h : Calm a b) (e : b.awaitProcessor now k = .ok b') : Calm a b' := by
  unfold awaitProcessor at e
  split at e
  · exact handOver_calm h e
  · cases e; exact h

theorem restart_calm {a b : Agent} {now : Int} (h : Calm a b) : Calm a (b.restart now) := by
  unfold restart startProcessor kill
  split
  · exact Calm.note (b := { b with initialized := false }) h now (by rfl)
  · exact Calm.note (h.note now (x := .killed _) (by rfl)) now (by rfl)

/-- The two events about heartbeats are the only ones that touch its fields. -/
theorem step_calm {a a' : Agent} {e : Event} (hs : a.step e = .ok a') (h1 : ∀ f, e.op ≠ .heartbeat f)
    (h2 : e.op ≠ .recv .heartbeatEcho) : Calm a a' := by
  unfold Agent.step at hs
  split at hs
  · next m he =>
    have hc : ∀ x, quiet (.recv x) = true → Calm a (a.note e.now (.recv x)) := fun x hx => Calm.rfl.note e.now hx
    cases m with
    | heartbeatEcho => exact (h2 he).elim
    | task k =>
      simp only [receive, onTaskNew, Py.bind_ok] at hs
      obtain ⟨q, _, hs⟩ := hs
      cases hs
      exact hc (.task k) (by rfl)
    | taskCancel t =>
      have h := hc (.taskCancel t) (by rfl)
      simp only [receive, onCancel] at hs
      split at hs
      · simp only [Py.bind_ok] at hs
        obtain ⟨⟨k, ts⟩, _, q, _, hs⟩ := hs
        cases hs
        exact Calm.note (b := { (a.note e.now (.recv (.taskCancel t))) with tasks := ts, queue := q }) h e.now (by rfl)
      · simp only [Py.bind_ok] at hs
        obtain ⟨⟨b, c⟩, hb, hs⟩ := hs
        have : Calm a c := by
          unfold cancelRunning at hb
          split at hb
          · cases hb; exact h
          · simp only [Py.bind_ok] at hb
            obtain ⟨k, _, hb⟩ := hb
            split at hb
            · cases hb; exact h
            · cases hb; exact restart_calm h
        split at hs
        · cases hs; exact this.note e.now (by rfl)
        · cases hs; exact this.note e.now (by rfl)
    | balanceRequest n =>
      have h := hc (.balanceRequest n) (by rfl)
      simp only [receive, Py.bind_ok, onBalance] at hs
      obtain ⟨⟨l, b⟩, hb, hs⟩ := hs
      cases hs
      split at hb
      · cases hb
      · exact (takeOldest_calm h hb).note e.now (by rfl)
    | functionRequest ty fid nm c =>
      have h := hc (.functionRequest ty fid nm c) (by rfl)
      simp only [receive, onFunctionRequest] at hs
      split at hs
      · cases hs; exact h.note e.now (by rfl)
      · cases hs
    | functionResponse st fid nm c =>
      have h := hc (.functionResponse st fid nm c) (by rfl)
      simp only [receive, onFunctionResponse] at hs
      split at hs
      · cases hs; exact h
      · simp only [Py.bind_ok] at hs
        obtain ⟨k, _, hs⟩ := hs
        split at hs
        · cases hs; exact h
        split at hs
        · cases hs; exact h
        · cases hs; exact h.note e.now (by rfl)
    | _ => simp only [receive] at hs; cases hs
  · next m he =>
    have hc : ∀ x, Calm a (a.note e.now (.heard x)) := fun x => Calm.rfl.note e.now (by rfl)
    cases m with
    | functionRequest ty fid nm c =>
      have h := hc (.functionRequest ty fid nm c)
      simp only [receiveInternal, onInternalFunctionRequest] at hs
      split at hs
      · cases hs; exact h
      split at hs
      · cases hs; exact h
      split at hs
      · cases hs; exact h
      · simp only [Py.bind_ok] at hs
        obtain ⟨_, _, hs⟩ := hs
        cases hs; exact h.note e.now (by rfl)
    | taskResult i st dur r =>
      have h := hc (.taskResult i st dur r)
      simp only [receiveInternal] at hs
      cases hs
      unfold onResult
      split
      · unfold onInitialized
        split
        · exact h
        · simp only
          split
          · exact Calm.note (b := { (a.note e.now (.heard (.taskResult i st dur r))) with initialized := true, pos := _ }) h e.now (by rfl)
          · exact h
      · split
        · exact h
        · split
          · exact h
          · exact h.note e.now (by rfl)
    | _ => simp only [receiveInternal] at hs; cases hs
  · unfold turn at hs
    split at hs
    · split at hs
      · cases hs; exact Calm.rfl
      · simp only [Py.bind_ok] at hs
        obtain ⟨⟨t, q⟩, _, ⟨k, ts⟩, _, hs⟩ := hs
        unfold awaitLock at hs
        split at hs
        · cases hs; exact Calm.rfl
        · exact awaitProcessor_calm (a := a) (b := { a with queue := q, tasks := ts, locked := true }) Calm.rfl hs
    · split at hs
      · cases hs; exact Calm.rfl
      · exact awaitProcessor_calm (a := a) (b := { a with locked := true }) Calm.rfl hs
    · split at hs
      · exact handOver_calm Calm.rfl hs
      · cases hs; exact Calm.rfl
  · next f he => exact (h1 f he).elim
  · unfold checkTimeout at hs
    split at hs
    · cases hs; exact Calm.rfl
    · cases hs

/-- When the scheduler last answered, and the number of open heartbeats, in one go. -/
def answers (start : Int) (l : Hist) : Int × Nat := l.foldl (fun p x => answerStep x.1 x.2 p) (start, 0)

theorem answers_snoc (start : Int) (l : Hist) (now : Int) (x : Act) :
    answers start (l ++ [(now, x)]) = answerStep now x (answers start l) := by
  simp only [answers, List.foldl_append, List.foldl_cons, List.foldl_nil]

theorem answers_quiet {start : Int} {l l' : Hist} (h : ∀ x ∈ l', quiet x.2 = true) : answers start (l ++ l') = answers start l := by
  simp only [answers, List.foldl_append]
  generalize (List.foldl _ _ l) = p
  induction l' generalizing p with
  | nil => rfl
  | cons x l' ih =>
    have hx := h x (by simp)
    rw [List.foldl_cons]
    have : answerStep x.1 x.2 p = p := by
      unfold answerStep
      split
      · next e => rw [e] at hx; cases hx
      · next e => rw [e] at hx; cases hx
      · rfl
    rw [this]
    exact ih (fun y hy => h y (by simp [hy])) p

theorem openBeats_answers (start : Int) (l : Hist) : openBeats l = (answers start l).2 := by
  have : ∀ (l : Hist) (n : Nat) (p : Int × Nat), n = p.2 →
      l.foldl (fun n x => beatStep x.2 n) n = (l.foldl (fun p x => answerStep x.1 x.2 p) p).2 := by
    intro l
    induction l with
    | nil => intro n p h; exact h
    | cons x l ih =>
      intro n p h
      simp only [List.foldl_cons]
      apply ih
      subst h
      generalize x.2 = y
      cases y with
      | sent m => cases m <;> rfl
      | recv m =>
        cases m with
        | heartbeatEcho =>
          simp only [beatStep, answerStep]
          split
          · omega
          · rfl
        | _ => rfl
      | _ => rfl
  exact this l 0 (start, 0) rfl

/-- Clock readings are positive: nanoseconds since 1970. -/
def Clock (l : Hist) : Prop := ∀ x ∈ l, x.1 ≠ 0

theorem beat_inv {d start : Int} {a : Agent} (hr : Worker.Reach d start a) (hc : Clock a.log) :
    answers start a.log = (a.lastSeen, if a.beatAt = 0 then 0 else 1) ∧ a.deathTimeout = d := by
  induction hr with
  | init => exact ⟨rfl, rfl⟩
  | @step a a' e hr hs ih =>
    have f := step_fine hr.good hs
    obtain ⟨l, hl⟩ := f.ext
    have hc0 : Clock a.log := fun x hx => hc x (by rw [hl]; exact List.mem_append_left _ hx)
    obtain ⟨ih1, ih2⟩ := ih hc0
    by_cases hbeat : ∃ f, e.op = .heartbeat f
    · obtain ⟨fg, hop⟩ := hbeat
      simp only [Agent.step, hop, heartbeat] at hs
      split at hs
      · cases hs; exact ⟨ih1, ih2⟩
      split at hs
      · cases hs; exact ⟨ih1, ih2⟩
      · next hz =>
        have hz : a.beatAt = 0 := Classical.byContradiction hz
        simp only [Py.bind_ok] at hs
        obtain ⟨_, _, hs⟩ := hs
        cases hs
        have hnow : e.now ≠ 0 := hc (e.now, .sent (.heartbeat (a.heartbeatMsg fg))) (by simp [Agent.send, Agent.note])
        refine ⟨?_, ih2⟩
        rw [hz] at ih1
        simp only [Agent.send, Agent.note, answers_snoc, ih1, answerStep, hnow, if_true, if_false]
    · by_cases hecho : e.op = .recv .heartbeatEcho
      · simp only [Agent.step, hecho, receive] at hs
        cases hs
        unfold onEcho
        split
        · next hz =>
          have hz : a.beatAt = 0 := hz
          rw [hz] at ih1
          refine ⟨?_, ih2⟩
          simp only [Agent.note, answers_snoc, ih1, answerStep, hz, if_true]
        · next hz =>
          have hz : ¬ a.beatAt = 0 := hz
          simp only [hz, if_false] at ih1
          refine ⟨?_, ih2⟩
          simp [Agent.note, answers_snoc, ih1, answerStep]
      · obtain ⟨h1, h2, h3, l, h4, h5⟩ := step_calm hs (fun f h => hbeat ⟨f, h⟩) hecho
        rw [h1, h2, h3.1, h4, answers_quiet h5]
        exact ⟨ih1, ih2⟩

/-- A worker has at most one unanswered heartbeat. -/
theorem C57_one_open {d start : Int} {a : Agent} (hr : Worker.Reach d start a) (hc : Clock a.log) : openBeats a.log ≤ 1 := by
  rw [openBeats_answers start, (beat_inv hr hc).1]
  simp only
  split <;> omega

/-- At a check, the worker ends iff the scheduler's last answer to a heartbeat (or the start) is at least the
death timeout ago. -/
theorem C57_timeout {d start : Int} {a : Agent} (hr : Worker.Reach d start a) (hc : Clock a.log) (now : Int) :
    (a.step ⟨.check, now⟩ = .error .timeoutError ↔ d ≤ now - lastAnswer start a.log) ∧
    (a.step ⟨.check, now⟩ = .ok a ↔ now - lastAnswer start a.log < d) := by
  obtain ⟨h1, h2⟩ := beat_inv hr hc
  have h3 : lastAnswer start a.log = a.lastSeen := by
    have : lastAnswer start a.log = (answers start a.log).1 := rfl
    rw [this, h1]
  simp only [Agent.step, checkTimeout, h2, h3]
  by_cases h : now - a.lastSeen < d
  · simp [h]
  · simp [h]; omega

/-- Heartbeats at times 2 and 5 with one answer at time 4; the second echo at time 6 answers nothing new. -/
example : agentWitness 10 1 [⟨.heartbeat ⟨1, 1, 1, 1⟩, 2⟩, ⟨.heartbeat ⟨1, 1, 1, 1⟩, 3⟩, ⟨.recv .heartbeatEcho, 4⟩,
      ⟨.recv .heartbeatEcho, 5⟩] [⟨.heartbeat ⟨1, 1, 1, 1⟩, 6⟩]
    (fun a b => (openBeats a.log, openBeats b.log, lastAnswer 1 a.log, errOf (b.step ⟨.check, 13⟩), errOf (b.step ⟨.check, 14⟩))) =
    some (0, 1, 4, none, some .timeoutError) := by decide +kernel

end Verif.Props
