import Verif.Worker.ProcessInv
import Verif.Props.Agent
import Verif.Props.Beat

/-!
# Properties of the worker as a process (C77)
-/

namespace Verif.Props

open Verif.Wire Verif.Queue Verif.Worker Verif.Worker.Agent Verif.Spec.Worker

/-- The figures of a heartbeat fit their fields (message.py 313-327). -/
def Measurable (a : Agent) (f : Figures) : Prop :=
  (0 ≤ f.agentCpu ∧ f.agentCpu < 2 ^ 16) ∧ (0 ≤ f.agentRss ∧ f.agentRss < 2 ^ 64) ∧
  (0 ≤ f.workerCpu ∧ f.workerCpu < 2 ^ 16) ∧ (0 ≤ f.workerRss ∧ f.workerRss < 2 ^ 64) ∧
  a.queue.contents.length < 2 ^ 16 ∧ (0 ≤ latency a.log ∧ latency a.log < 2 ^ 32)

/-- The events that end a worker without a goodbye. -/
def Crashes (a : Agent) : Op → Prop
  | .recv m => Kills a m
  | .heard (.taskResult _ _ _ _) => False
  | .heard (.functionRequest ty f _ _) => ty ≠ .request ∧ ready a.log = true ∧ ∃ k, busy a.log = some k ∧ k.functionId = f
  | .heard _ => True
  | .turn => False
  | .heartbeat f => openBeats a.log = 0 ∧ ¬ Measurable a f
  | .check => False

/-- Packing a heartbeat. -/
theorem heartbeat_packs {a : Agent} (g : Good a) (f : Figures) (hl : a.latency = latency a.log) :
    ((∃ l, (a.heartbeatMsg f).serialize = .ok l) ↔ Measurable a f) ∧ (a.heartbeatMsg f).serialize ≠ .error .timeoutError := by
  have hp := packFrom_ok (off := 0) (fs := (a.heartbeatMsg f).fields)
  constructor
  · have : (∃ l, (a.heartbeatMsg f).serialize = .ok l) ↔ ∃ bs, packFrom 0 (a.heartbeatMsg f).fields = .ok bs := by
      unfold Heartbeat.serialize pack
      cases packFrom 0 (a.heartbeatMsg f).fields <;> simp
    rw [this, hp]
    have hb : ∀ b : Bool, Code.bool.fits (boolInt b) := by intro b; cases b <;> simp [Code.fits]
    simp only [Heartbeat.fields, List.mem_cons, List.not_mem_nil, or_false, forall_eq_or_imp, forall_eq]
    simp only [heartbeatMsg, g.inv.wf.len, hl, Measurable]
    simp only [Code.fits, Code.size]
    constructor
    · rintro ⟨h1, h2, h3, h4, h5, h6, -⟩
      exact ⟨h1, h2, h3, h4, by omega, h6⟩
    · rintro ⟨h1, h2, h3, h4, h5, h6⟩
      exact ⟨h1, h2, h3, h4, by omega, h6, by trivial, by trivial, by trivial⟩
  · unfold Heartbeat.serialize pack
    have : ∀ (fs : List (Code × Int)) (off : Nat), packFrom off fs ≠ .error .timeoutError := by
      intro fs
      induction fs with
      | nil => intro off h; cases h
      | cons p fs ih =>
        intro off
        obtain ⟨c, n⟩ := p
        unfold packFrom
        by_cases hf : c.fits n
        · obtain ⟨b, hb⟩ := packField_ok.2 hf
          rw [hb]
          intro h
          simp only [Py.ok_bind] at h
          cases hx : packFrom (off + c.pad off + c.size) fs with
          | ok x => rw [hx] at h; cases h
          | error y => rw [hx] at h; cases h; exact ih _ hx
        · rw [packField_error hf]
          intro h; cases h
    cases hx : packFrom 0 (a.heartbeatMsg f).fields with
    | ok x => intro h; cases h
    | error y => intro h; cases h; exact this _ _ hx

/-- What an event of the loops does. -/
theorem loop_event {d start : Int} {a : Agent} (hr : Worker.Reach d start a) (hc : Clock a.log) (e : Event) :
    ((∃ x, a.step e = .error x ∧ x ≠ .timeoutError) ↔ Crashes a e.op) ∧
    (a.step e = .error .timeoutError ↔ e.op = .check ∧ d ≤ e.now - lastAnswer start a.log) := by
  have g := hr.good
  obtain ⟨op, now⟩ := e
  cases op with
  | recv m =>
    have h := C53_kills_partial hr now m
    have hno : a.step ⟨.recv m, now⟩ ≠ .error .timeoutError := by
      have hready := g.mt.ready
      have hbusy := g.mt.busy
      cases m with
      | task k =>
        simp only [Agent.step, receive, onTaskNew]
        by_cases hm : k.taskId ∈ a.queue.contents
        · have : (a.note now (.recv (.task k))).queue.put id k.taskId = .error .keyError :=
            g.inv.wf.put_dup (by simpa using hm)
          simp [this]
        · obtain ⟨q, hq, _⟩ := g.inv.wf.put_new (a := k.taskId) (by simpa using hm)
          have : (a.note now (.recv (.task k))).queue.put id k.taskId = .ok q := hq
          simp [this]
      | taskCancel t =>
        simp only [Agent.step, receive]
        by_cases hm : t ∈ a.queue.contents
        · have : (a.note now (.recv (.taskCancel t))).tasks.has t = true := (g.inv.keys t).2 hm
          obtain ⟨q, hq, _⟩ := g.inv.wf.remove_present (a := t) (by simpa using hm)
          have hq : (a.note now (.recv (.taskCancel t))).queue.remove id t = .ok q := hq
          have h0 := this
          simp only [Dict.has, Option.isSome_iff_exists] at h0
          obtain ⟨k, hk⟩ := h0
          simp [onCancel, this, Dict.pop, Dict.getPy, hk, orRaise, hq]
        · have : ¬ (a.note now (.recv (.taskCancel t))).tasks.has t = true := fun x => hm ((g.inv.keys t).1 x)
          simp only [onCancel, this, cancelRunning]
          simp only [show (a.note now (.recv (.taskCancel t))).initialized = a.initialized from rfl,
            show (a.note now (.recv (.taskCancel t))).task = a.task from rfl]
          cases hi : a.initialized <;> cases hk : a.task <;> simp [orRaise]
          split <;> simp
      | balanceRequest n =>
        by_cases hn : 0 ≤ n
        · obtain ⟨a', h, _⟩ := onBalance_spec (now := now) g hn
          simp only [Agent.step, h]
          simp
        · simp only [Agent.step, receive, onBalance]
          rw [if_pos (by omega)]
          simp
      | functionRequest ty fid nm c =>
        simp only [Agent.step, receive, onFunctionRequest]
        split <;> simp_all
      | functionResponse st fid nm c =>
        simp only [Agent.step, receive, onFunctionResponse]
        simp only [show (a.note now (.recv (.functionResponse st fid nm c))).initialized = a.initialized from rfl,
          show (a.note now (.recv (.functionResponse st fid nm c))).task = a.task from rfl]
        cases hi : a.initialized <;> cases hk : a.task <;> simp [orRaise]
        split
        · split <;> simp
        · simp
      | _ => simp [Agent.step, receive]
    refine ⟨⟨fun ⟨x, hx, _⟩ => h.1 ⟨x, hx⟩, fun hk => ?_⟩, ⟨fun hx => (hno hx).elim, fun hx => by cases hx.1⟩⟩
    obtain ⟨x, hx⟩ := h.2 hk
    exact ⟨x, hx, fun e => hno (e ▸ hx)⟩
  | heard m =>
    cases m with
    | taskResult i st du r => simp [Agent.step, receiveInternal, Crashes]
    | functionRequest ty fid nm c =>
      simp only [Agent.step, receiveInternal, onInternalFunctionRequest, Crashes]
      rw [g.mt.ready, g.mt.busy]
      simp only [show (a.note now (.heard (.functionRequest ty fid nm c))).initialized = a.initialized from rfl,
        show (a.note now (.heard (.functionRequest ty fid nm c))).task = a.task from rfl]
      cases hi : a.initialized with
      | false => simp
      | true =>
        cases hk : a.task with
        | none => simp
        | some k =>
          by_cases hf : k.functionId = fid
          · by_cases ht : ty = .request <;> simp [hf, ht, pyAssert]
          · simp [hf]
    | _ => simp [Agent.step, receiveInternal, Crashes]
  | turn =>
    obtain ⟨a', h⟩ := (C53_inside hr now).1
    simp [h, Crashes]
  | heartbeat f =>
    have ho : openBeats a.log = if a.beatAt = 0 then 0 else 1 := by
      rw [openBeats_answers start, (beat_inv hr hc).1]
    have hp : a.procs ≠ 0 := by
      obtain ⟨n, hn⟩ := Option.isSome_iff_exists.1 g.inv.proc
      have := g.inv.procs n hn
      omega
    have hl : a.latency = latency a.log := by
      show a.latency = (delays a.log).2
      rw [delay_inv hr hc]
    obtain ⟨h1, h2⟩ := heartbeat_packs g f hl
    simp only [Agent.step, heartbeat, if_neg hp, Crashes, ho, ← h1]
    by_cases hb : a.beatAt = 0
    · cases hx : (a.heartbeatMsg f).serialize with
      | ok l => simp [hb]
      | error x =>
        rw [hx] at h2
        have : x ≠ .timeoutError := fun e => h2 (by rw [e])
        simp [hb, this]
    · simp [hb]
  | check =>
    obtain ⟨h1, h2⟩ := C57_timeout hr hc now
    refine ⟨⟨?_, False.elim⟩, ?_⟩
    · rintro ⟨x, hx, hne⟩
      by_cases hd : d ≤ now - lastAnswer start a.log
      · rw [h1.2 hd] at hx; cases hx; exact hne rfl
      · rw [h2.2 (by omega)] at hx; cases hx
    · rw [h1]; simp

/-! ### Lives -/

/-- Every life is a history of the agent and then an end, or none. -/
theorem lives_agent {id : Bytes} {d start : Int} {p : Proc} (h : Lives id d start p) :
    ∃ a, Worker.Reach d start a ∧
      ((p.exit = none ∧ p.agent = a) ∨
       (p.exit = some .quit ∧ ∃ now, p.agent = (a.send now (.disconnectRequest id)).kill now) ∨
       (((∃ x, p.exit = some (.raised x) ∧ x ≠ .timeoutError) ∨ p.exit = some .terminated) ∧ p.agent = a)) := by
  induction h with
  | init => exact ⟨_, .init, .inl ⟨rfl, rfl⟩⟩
  | @step p op h ih =>
    obtain ⟨a, ha, ih⟩ := ih
    rcases ih with ⟨h1, h2⟩ | h1 | h1
    · obtain ⟨ag, ex⟩ := p
      cases h1
      cases h2
      cases op with
      | loop e =>
        cases hs : ag.step e with
        | ok b => exact ⟨b, .step e ha hs, .inl ⟨by simp [Proc.step, hs], by simp [Proc.step, hs]⟩⟩
        | error x =>
          by_cases hx : x = .timeoutError
          · subst hx
            exact ⟨ag, ha, .inr (.inl ⟨by simp [Proc.step, hs, Proc.quit], e.now, by simp [Proc.step, hs, Proc.quit]⟩)⟩
          · refine ⟨ag, ha, .inr (.inr ⟨.inl ⟨x, ?_, hx⟩, ?_⟩)⟩
            · cases x <;> first | exact absurd rfl hx | simp [Proc.step, hs]
            · cases x <;> first | exact absurd rfl hx | simp [Proc.step, hs]
      | interrupt now => exact ⟨ag, ha, .inr (.inl ⟨rfl, now, rfl⟩)⟩
      | terminate => exact ⟨ag, ha, .inr (.inr ⟨.inr rfl, rfl⟩)⟩
    · have : p.step id op = p := by unfold Proc.step; rw [h1.1]
      rw [this]
      exact ⟨a, ha, .inr (.inl h1)⟩
    · have : p.step id op = p := by
        unfold Proc.step
        rcases h1.1 with ⟨x, h, _⟩ | h <;> rw [h]
      rw [this]
      exact ⟨a, ha, .inr (.inr h1)⟩

/-- **C77, orderly ends.** A worker that has quit has said goodbye exactly once, under its own name; after that
it only killed its processor, and no processor is left.

Full statement: this holds of every worker that has ended.  Missing: workers that end by an exception other than
the timeout, or by `SIGTERM`; of these it is false (`C77_orphan`). -/
theorem C77_goodbye_partial {id : Bytes} {d start : Int} {p : Proc} (h : Lives id d start p) (hq : p.exit = some .quit) :
    ∃ l now n, p.agent.log = l ++ [(now, .sent (.disconnectRequest id)), (now, .killed n)] ∧
      times isGoodbye l = 0 ∧ alive l = [n] ∧ alive p.agent.log = [] := by
  obtain ⟨a, ha, h1⟩ := lives_agent h
  rcases h1 with ⟨h1, _⟩ | ⟨_, now, h1⟩ | ⟨h1, _⟩
  · rw [hq] at h1; cases h1
  · obtain ⟨n, hn⟩ := Option.isSome_iff_exists.1 ha.good.inv.proc
    obtain ⟨h2, h3⟩ := ha.neat
    rw [hn] at h2
    have e : p.agent.log = a.log ++ [(now, .sent (.disconnectRequest id)), (now, .killed n)] := by
      rw [h1]
      simp [Agent.kill, Agent.send, Agent.note, hn]
    refine ⟨a.log, now, n, e, h3, h2, ?_⟩
    rw [e, List.append_cons, alive_snoc, alive_snoc, h2]
    simp [aliveStep]
  · rcases h1 with ⟨x, h1, _⟩ | h1 <;> rw [hq] at h1 <;> cases h1

/-- **C77, all ends.** While it runs, a worker has one processor and has not said goodbye; if it ends in another
way than by quitting, then the same is true of it afterwards: its processor is left and the scheduler was not told. -/
theorem C77_orphan_exact {id : Bytes} {d start : Int} {p : Proc} (h : Lives id d start p) (hq : p.exit ≠ some .quit) :
    ∃ n, alive p.agent.log = [n] ∧ times isGoodbye p.agent.log = 0 := by
  obtain ⟨a, ha, h1⟩ := lives_agent h
  have : p.agent = a := by
    rcases h1 with ⟨_, h1⟩ | ⟨h1, _⟩ | ⟨_, h1⟩
    · exact h1
    · exact absurd h1 hq
    · exact h1
  obtain ⟨n, hn⟩ := Option.isSome_iff_exists.1 ha.good.inv.proc
  obtain ⟨h2, h3⟩ := ha.neat
  rw [hn] at h2
  exact ⟨n, by rw [this]; exact h2, by rw [this]; exact h3⟩

/-- **C77, which event does what.** Of a running worker:
* `SIGINT` makes it quit, and so does a check when the last answer to a heartbeat is at least the timeout ago;
* `SIGTERM` ends it, and so do exactly the events of `Crashes`;
* everything else lets it run. -/
theorem C77_when {id : Bytes} {d start : Int} {p : Proc} (h : Lives id d start p) (hc : Clock p.agent.log) (hp : p.exit = none) :
    (∀ now, (p.step id (.interrupt now)).exit = some .quit) ∧
    (p.step id .terminate).exit = some .terminated ∧
    (∀ e, ((p.step id (.loop e)).exit = some .quit ↔ e.op = .check ∧ d ≤ e.now - lastAnswer start p.agent.log) ∧
      ((∃ x, (p.step id (.loop e)).exit = some (.raised x)) ↔ Crashes p.agent e.op) ∧
      ((p.step id (.loop e)).exit = none ∨ (p.step id (.loop e)).exit = some .quit ∨ ∃ x, (p.step id (.loop e)).exit = some (.raised x)) ∧
      ((p.step id (.loop e)).exit = none → p.agent.step e = .ok (p.step id (.loop e)).agent)) := by
  obtain ⟨a, ha, h1⟩ := lives_agent h
  have hag : p.agent = a := by
    rcases h1 with ⟨_, h1⟩ | ⟨h1, _⟩ | ⟨h1, _⟩
    · exact h1
    · rw [hp] at h1; cases h1
    · rcases h1 with ⟨x, h1, _⟩ | h1 <;> rw [hp] at h1 <;> cases h1
  obtain ⟨ag, ex⟩ := p
  cases hp
  cases hag
  refine ⟨fun now => rfl, rfl, fun e => ?_⟩
  obtain ⟨g1, g2⟩ := loop_event ha hc e
  rw [← g1, ← g2]
  cases hs : ag.step e with
  | ok b => simp [Proc.step, hs]
  | error x =>
    by_cases hx : x = .timeoutError
    · subst hx; simp [Proc.step, hs, Proc.quit]
    · have : Proc.step id ⟨ag, none⟩ (.loop e) = ⟨ag, some (.raised x)⟩ := by
        cases x <;> first | exact absurd rfl hx | simp [Proc.step, hs]
      rw [this]
      simp [hx]

/-- An ended worker stays as it is. -/
theorem C77_final (id : Bytes) (p : Proc) (hp : p.exit ≠ none) (op : POp) : p.step id op = p := by
  unfold Proc.step
  cases h : p.exit with
  | none => exact absurd h hp
  | some x => rfl

/-! ### Concrete lives -/

theorem lives_fold {id : Bytes} {d start : Int} : ∀ (ops : List POp) {p : Proc}, Lives id d start p → Lives id d start (ops.foldl (Proc.step id) p)
  | [], _, h => h
  | op :: ops, _, h => lives_fold ops (.step op h)

private def t1 : Task := ⟨[1], [7], []⟩

/-- The processor announces itself. -/
private def hello : Event := ⟨.heard (.taskResult [] .success 0 []), 1⟩

/-- A worker that runs a task and then its task crosses a late cancel. -/
def lateCancel : List POp :=
  [.loop ⟨.recv (.task t1), 1⟩, .loop hello, .loop ⟨.turn, 1⟩, .loop ⟨.heard (.taskResult [1] .success 0 [9]), 1⟩, .loop ⟨.recv (.taskCancel [1]), 2⟩]

/-- **C77 is false: an exception leaves the processor behind.** A cancel that crosses the result of its task ends the
worker; it does not say goodbye, and its processor goes on.  The same after `SIGTERM`. -/
theorem C77_orphan :
    (∃ p, Lives [80] 10 1 p ∧ p.exit = some (.raised .attributeError) ∧ alive p.agent.log = [0] ∧ times isGoodbye p.agent.log = 0) ∧
    ∃ p, Lives [80] 10 1 p ∧ p.exit = some .terminated ∧ alive p.agent.log = [0] ∧ times isGoodbye p.agent.log = 0 :=
  ⟨⟨_, lives_fold lateCancel .init, by decide +kernel, by decide +kernel, by decide +kernel⟩,
   ⟨_, lives_fold [.loop hello, .terminate] .init, by decide +kernel, by decide +kernel, by decide +kernel⟩⟩

/-- A worker that replaced its processor is interrupted; another one is not answered for ten time units. -/
example :
    (([.loop ⟨.recv (.task t1), 1⟩, .loop hello, .loop ⟨.turn, 1⟩, .loop ⟨.recv (.taskCancel [1]), 2⟩, .interrupt 3, .interrupt 4] : List POp).foldl
      (Proc.step [80]) (Proc.init 10 1)).agent.log.drop 4 =
      [(2, .recv (.taskCancel [1])), (2, .killed 0), (2, .started 1), (2, .sent (.taskResult [1] .canceled 0 [])),
       (3, .sent (.disconnectRequest [80])), (3, .killed 1)] ∧
    (([.loop ⟨.check, 10⟩, .loop ⟨.check, 11⟩] : List POp).foldl (Proc.step [80]) (Proc.init 10 1)).exit = some .quit ∧
    (([.loop ⟨.check, 10⟩] : List POp).foldl (Proc.step [80]) (Proc.init 10 1)).exit = none := by decide +kernel

/-- A running worker with a ready processor and no task: a cancel would end it, and so would a heartbeat with a cpu
figure that does not fit. -/
example : ∃ p, Lives [80] 10 1 p ∧ Clock p.agent.log ∧ p.exit = none ∧ ready p.agent.log = true ∧ busy p.agent.log = none ∧
    Crashes p.agent (.recv (.taskCancel [4])) ∧ Measurable p.agent ⟨1, 2, 3, 4⟩ ∧ ¬ Measurable p.agent ⟨1, 2, 70000, 4⟩ := by
  refine ⟨_, lives_fold [.loop hello] .init, ?_, by decide +kernel, by decide +kernel, by decide +kernel, ⟨?_, by decide +kernel, by decide +kernel⟩, ?_, ?_⟩
  · intro x hx
    have : ([.loop hello] : List POp).foldl (Proc.step [80]) (Proc.init 10 1) |>.agent.log.all fun x => decide (x.1 ≠ 0) := by decide +kernel
    exact of_decide_eq_true (List.all_eq_true.1 this x hx)
  · decide +kernel
  · unfold Measurable; decide +kernel
  · unfold Measurable; decide +kernel

end Verif.Props
