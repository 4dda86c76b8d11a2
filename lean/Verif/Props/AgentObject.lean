import Verif.Worker.AgentObject
import Verif.Props.Agent

/-!
# A worker that dies of an exception dies silently (C109)
-/

namespace Verif.Props

open Verif Verif.Wire Verif.Worker Doing

/-- Nobody outside can tell the two agents apart: the same was sent, and the same processes were started and killed. -/
def Unseen (a b : Agent) : Prop := b.log = a.log ∧ b.processor = a.processor ∧ b.procs = a.procs

theorem Unseen.refl (a : Agent) : Unseen a a := ⟨rfl, rfl, rfl⟩

/-- A handler that keeps what it changed does what the other one does, and is unseen if it raises. -/
def Matches {β : Type} (a : Agent) (r : Py β × Agent) : Py (β × Agent) → Prop
  | .ok (b, a') => r = (.ok b, a')
  | .error e => r.1 = .error e ∧ Unseen a r.2

/-- The same for handlers that return nothing. -/
def Matches1 (a : Agent) (r : Py Unit × Agent) : Py Agent → Prop
  | .ok a' => r = (.ok (), a')
  | .error e => r.1 = .error e ∧ Unseen a r.2

theorem object_kill (a : Agent) (now : Int) : Agent.Object.kill now a = (.ok (), a.kill now) := by
  unfold Agent.Object.kill Agent.kill
  simp only [doing_bind, self]
  cases h : a.processor <;> simp [assign, doing_bind, Agent.note, h]

theorem object_restart (a : Agent) (now : Int) : Agent.Object.restart now a = (.ok (), a.restart now) := by
  unfold Agent.Object.restart
  simp only [doing_bind, object_kill]
  rfl

theorem object_handOver (a : Agent) (now : Int) (t : Task) : Matches1 a (Agent.Object.handOver now t a) (a.handOver now t) := by
  unfold Agent.Object.handOver Agent.handOver
  cases h : a.task with
  | none => simp [doing_bind, self, h, check, doing_pure, assign, pyAssert, Matches1, Agent.Object.tell]
  | some k => simp [doing_bind, self, h, check, fail, pyAssert, Matches1, Unseen]

theorem object_awaitProcessor (a : Agent) (now : Int) (t : Task) : Matches1 a (Agent.Object.awaitProcessor now t a) (a.awaitProcessor now t) := by
  unfold Agent.Object.awaitProcessor Agent.awaitProcessor
  simp only [doing_bind, self]
  split
  · exact object_handOver a now t
  · rfl

theorem object_awaitLock (a : Agent) (now : Int) (t : Task) : Matches1 a (Agent.Object.awaitLock now t a) (a.awaitLock now t) := by
  unfold Agent.Object.awaitLock Agent.awaitLock
  simp only [doing_bind, self]
  split
  · rfl
  · exact object_awaitProcessor { a with locked := true } now t

theorem object_functionResponse (a : Agent) (now : Int) (st : FunctionResponseType) (fid n c : Bytes) :
    Matches1 a (Agent.Object.onFunctionResponse now st fid n c a) (a.onFunctionResponse now st fid n c) := by
  unfold Agent.Object.onFunctionResponse Agent.onFunctionResponse
  simp only [doing_bind, self]
  split
  · rfl
  · cases h : a.task with
    | none => exact ⟨rfl, .refl a⟩
    | some t =>
      simp only [doing_bind, eval, orRaise, Py.ok_bind]
      split
      · rfl
      · split <;> rfl

theorem object_cancelRunning (a : Agent) (now : Int) (tid : Bytes) :
    Matches a (Agent.Object.cancelRunning now tid a) (a.cancelRunning now tid) := by
  unfold Agent.Object.cancelRunning Agent.cancelRunning
  simp only [doing_bind, self]
  split
  · rfl
  · cases h : a.task with
    | none => exact ⟨rfl, .refl a⟩
    | some t =>
      simp only [doing_bind, eval, orRaise, Py.ok_bind]
      split
      · rfl
      · simp only [doing_bind, object_restart]
        rfl

theorem object_onInitialized (a : Agent) (now : Int) (r : Bytes) : Agent.Object.onInitialized now r a = (.ok (), a.onInitialized now r) := by
  unfold Agent.Object.onInitialized Agent.onInitialized
  split
  · rfl
  · simp only [doing_bind, self, assign]
    cases a.task <;> rfl

theorem object_onResult (a : Agent) (now : Int) (tid : Bytes) (st : TaskStatus) (d : UInt32) (r : Bytes) :
    Agent.Object.onResult now tid st d r a = (.ok (), a.onResult now tid st d r) := by
  unfold Agent.Object.onResult Agent.onResult
  simp only [doing_bind, self]
  split
  · exact object_onInitialized a now tid
  · cases h : a.task with
    | none => rfl
    | some t =>
      simp only
      split
      · rfl
      · simp [doing_bind, self, Agent.Object.send, assign, check, doing_pure, Agent.send, Agent.note, h]

theorem object_internalRequest (a : Agent) (now : Int) (ty : FunctionRequestType) (fid n c : Bytes) :
    Matches1 a (Agent.Object.onInternalFunctionRequest now ty fid n c a) (a.onInternalFunctionRequest now ty fid n c) := by
  unfold Agent.Object.onInternalFunctionRequest Agent.onInternalFunctionRequest
  simp only [doing_bind, self]
  split
  · rfl
  · cases h : a.task with
    | none => rfl
    | some t =>
      simp only
      split
      · rfl
      · by_cases hy : ty = .request
        · simp [doing_bind, check, doing_pure, Agent.Object.send, assign, pyAssert, hy, Matches1]
        · simp [doing_bind, check, fail, pyAssert, hy, Matches1, Unseen]

theorem object_popTask (a : Agent) (tid : Bytes) :
    Agent.Object.popTask tid a = match a.tasks.pop tid with
      | .ok (t, tasks) => (.ok t, { a with tasks })
      | .error e => (.error e, a) := by
  unfold Agent.Object.popTask
  simp only [doing_bind, self, eval]
  cases a.tasks.pop tid <;> rfl

theorem object_popQueue (a : Agent) :
    Agent.Object.popQueue a = match a.queue.get id with
      | .ok (t, queue) => (.ok t, { a with queue })
      | .error e => (.error e, a) := by
  unfold Agent.Object.popQueue
  simp only [doing_bind, self, eval]
  cases a.queue.get id <;> rfl

theorem object_onTaskNew (a : Agent) (t : Task) : Matches1 a (Agent.Object.onTaskNew t a) (a.onTaskNew t) := by
  unfold Agent.Object.onTaskNew Agent.onTaskNew
  simp only [doing_bind, self, assign, eval]
  cases a.queue.put id t.taskId with
  | ok q => rfl
  | error e => exact ⟨rfl, rfl, rfl, rfl⟩

theorem object_onCancel (a : Agent) (now : Int) (tid : Bytes) : Matches1 a (Agent.Object.onCancel now tid a) (a.onCancel now tid) := by
  unfold Agent.Object.onCancel Agent.onCancel
  simp only [doing_bind, self]
  split
  · simp only [doing_bind, object_popTask]
    cases a.tasks.pop tid with
    | error e => exact ⟨rfl, .refl a⟩
    | ok x =>
      obtain ⟨t, tasks⟩ := x
      simp only [self, eval, Py.ok_bind]
      cases a.queue.remove id tid with
      | ok q => rfl
      | error e => exact ⟨rfl, rfl, rfl, rfl⟩
  · have := object_cancelRunning a now tid
    cases hc : a.cancelRunning now tid with
    | error e =>
      rw [hc] at this
      obtain ⟨h1, h2⟩ := this
      rcases hr : Agent.Object.cancelRunning now tid a with ⟨r1, r2⟩
      rw [hr] at h1 h2
      cases h1
      exact ⟨by simp only [doing_bind, hr], by simp only [doing_bind, hr]; exact h2⟩
    | ok x =>
      obtain ⟨b, a'⟩ := x
      rw [hc] at this
      have hr : Agent.Object.cancelRunning now tid a = (.ok b, a') := this
      simp only [doing_bind, hr, Py.ok_bind]
      cases b <;> rfl

theorem object_takeOldest (n : Nat) : ∀ a : Agent, Matches a (Agent.Object.takeOldest n a) (a.takeOldest n) := by
  induction n with
  | zero => intro a; rfl
  | succ n ih =>
    intro a
    unfold Agent.Object.takeOldest Agent.takeOldest
    simp only [doing_bind, object_popQueue]
    cases a.queue.get id with
    | error e => exact ⟨rfl, .refl a⟩
    | ok x =>
      obtain ⟨tid, queue⟩ := x
      simp only [Py.ok_bind, object_popTask]
      cases a.tasks.pop tid with
      | error e => exact ⟨rfl, rfl, rfl, rfl⟩
      | ok y =>
        obtain ⟨t, tasks⟩ := y
        simp only [Py.ok_bind]
        have := ih { a with queue, tasks }
        cases hc : Agent.takeOldest { a with queue, tasks } n with
        | error e =>
          rw [hc] at this
          obtain ⟨h1, h2⟩ := this
          rcases hr : Agent.Object.takeOldest n { a with queue, tasks } with ⟨r1, r2⟩
          rw [hr] at h1 h2
          cases h1
          exact ⟨by simp only, by simp only; exact h2⟩
        | ok x =>
          rw [hc] at this
          have hr : Agent.Object.takeOldest n { a with queue, tasks } = (.ok x.1, x.2) := this
          simp only [hr]
          rfl

theorem object_onBalance (a : Agent) (n : Int) : Matches a (Agent.Object.onBalance n a) (a.onBalance n) := by
  unfold Agent.Object.onBalance Agent.onBalance
  simp only [doing_bind, self]
  split
  · exact ⟨rfl, .refl a⟩
  · exact object_takeOldest _ a

theorem object_turn (a : Agent) (now : Int) : Matches1 a (Agent.Object.turn now a) (a.turn now) := by
  unfold Agent.Object.turn Agent.turn
  simp only [doing_bind, self]
  cases a.pos with
  | idle =>
    simp only
    split
    · rfl
    · simp only [doing_bind, object_popQueue]
      cases a.queue.get id with
      | error e => exact ⟨rfl, .refl a⟩
      | ok x =>
        obtain ⟨tid, queue⟩ := x
        simp only [Py.ok_bind, object_popTask]
        cases a.tasks.pop tid with
        | error e => exact ⟨rfl, rfl, rfl, rfl⟩
        | ok y => exact object_awaitLock { a with queue, tasks := y.2 } now y.1
  | lock t =>
    simp only
    split
    · rfl
    · exact object_awaitProcessor { a with locked := true } now t
  | init t w =>
    simp only
    split
    · exact object_handOver a now t
    · rfl

theorem object_heartbeat (a : Agent) (now : Int) (f : Agent.Figures) : Matches1 a (Agent.Object.heartbeat now f a) (a.heartbeat now f) := by
  unfold Agent.Object.heartbeat Agent.heartbeat
  simp only [doing_bind, self]
  split
  · rfl
  · split
    · rfl
    · simp only [doing_bind, eval]
      cases (a.heartbeatMsg f).serialize with
      | error e => exact ⟨rfl, .refl a⟩
      | ok x => rfl

theorem object_onEcho (a : Agent) (now : Int) : Agent.Object.onEcho now a = (.ok (), a.onEcho now) := by
  unfold Agent.Object.onEcho Agent.onEcho
  simp only [doing_bind, self]
  split <;> rfl

theorem object_receive (a : Agent) (now : Int) (m : Message) : Matches1 a (Agent.Object.receive now m a) (a.receive now m) := by
  cases m with
  | heartbeatEcho => exact object_onEcho a now
  | task t => exact object_onTaskNew a t
  | taskCancel tid => exact object_onCancel a now tid
  | balanceRequest n =>
    have := object_onBalance a n
    simp only [Agent.Object.receive, Agent.receive, doing_bind]
    cases hc : a.onBalance n with
    | error e =>
      rw [hc] at this
      obtain ⟨h1, h2⟩ := this
      rcases hr : Agent.Object.onBalance n a with ⟨r1, r2⟩
      rw [hr] at h1 h2
      cases h1
      exact ⟨by simp only, by simp only; exact h2⟩
    | ok x =>
      rw [hc] at this
      have hr : Agent.Object.onBalance n a = (.ok x.1, x.2) := this
      rw [hr]
      rfl
  | functionRequest type fid n c =>
    simp only [Agent.Object.receive, Agent.receive, Agent.Object.onFunctionRequest, Agent.onFunctionRequest]
    split
    · rfl
    · exact ⟨rfl, .refl a⟩
  | functionResponse st fid n c => exact object_functionResponse a now st fid n c
  | _ => exact ⟨rfl, .refl a⟩

theorem object_internal (a : Agent) (now : Int) (m : Message) : Matches1 a (Agent.Object.receiveInternal now m a) (a.receiveInternal now m) := by
  cases m with
  | functionRequest ty fid n c => exact object_internalRequest a now ty fid n c
  | taskResult tid st d r => exact object_onResult a now tid st d r
  | _ => exact ⟨rfl, .refl a⟩

/-- What the agent notes when an event begins. -/
def Arrives (e : Agent.Event) : List (Int × Act) :=
  match e.op with
  | .recv m => [(e.now, .recv m)]
  | .heard m => [(e.now, .heard m)]
  | _ => []

theorem object_step (a : Agent) (e : Agent.Event) :
    match a.step e with
    | .ok a' => Agent.Object.step e a = (.ok (), a')
    | .error x => (Agent.Object.step e a).1 = .error x ∧ (Agent.Object.step e a).2.log = a.log ++ Arrives e ∧
        (Agent.Object.step e a).2.processor = a.processor ∧ (Agent.Object.step e a).2.procs = a.procs := by
  have plain : ∀ {r : Py Unit × Agent} {x : Py Agent}, Matches1 a r x → match x with
      | .ok a' => r = (.ok (), a')
      | .error x => r.1 = .error x ∧ r.2.log = a.log ++ [] ∧ r.2.processor = a.processor ∧ r.2.procs = a.procs := fun {r x} h => by
    cases x with
    | ok a' => exact h
    | error e => exact ⟨h.1, by rw [List.append_nil]; exact h.2.1, h.2.2⟩
  obtain ⟨op, now⟩ := e
  cases op with
  | recv m =>
    have := object_receive (a.note now (.recv m)) now m
    show match (a.note now (.recv m)).receive now m with | .ok a' => _ | .error x => _
    cases hc : (a.note now (.recv m)).receive now m <;> rw [hc] at this <;> exact this
  | heard m =>
    have := object_internal (a.note now (.heard m)) now m
    show match (a.note now (.heard m)).receiveInternal now m with | .ok a' => _ | .error x => _
    cases hc : (a.note now (.heard m)).receiveInternal now m <;> rw [hc] at this <;> exact this
  | turn => exact plain (object_turn a now)
  | heartbeat f => exact plain (object_heartbeat a now f)
  | check =>
    refine plain (r := Agent.Object.checkTimeout now a) (x := a.checkTimeout now) ?_
    unfold Agent.Object.checkTimeout Agent.checkTimeout
    simp only [doing_bind, self]
    split
    · rfl
    · exact ⟨rfl, .refl a⟩

/-- **C109.** The agent whose changes stay when a handler raises does the same as the one of the rest of the model: it raises when that one
raises, and otherwise it is left in the same state. -/
theorem C109_same (a : Agent) (e : Agent.Event) :
    (∀ a', a.step e = .ok a' ↔ Agent.Object.step e a = (.ok (), a')) ∧ ∀ x, a.step e = .error x ↔ (Agent.Object.step e a).1 = .error x := by
  have := object_step a e
  cases hc : a.step e with
  | ok b =>
    rw [hc] at this
    have this : Agent.Object.step e a = (.ok (), b) := this
    rw [this]
    exact ⟨fun a' => ⟨fun h => (by cases h; rfl), fun h => (by cases h; rfl)⟩, fun x => ⟨fun h => (by cases h), fun h => (by cases h)⟩⟩
  | error y =>
    rw [hc] at this
    have this : (Agent.Object.step e a).1 = .error y := this.1
    exact ⟨fun a' => ⟨fun h => (by cases h), fun h => by rw [h] at this; cases this⟩, fun x => by rw [this]; exact ⟨fun h => by cases h; rfl, fun h => by cases h; rfl⟩⟩

/-- **C109.** A handler that raises has sent nothing, neither to the scheduler nor to the processor, and it has killed and started no processor. -/
theorem C109_silent (a : Agent) (e : Agent.Event) {x : PyErr} (h : (Agent.Object.step e a).1 = .error x) :
    (Agent.Object.step e a).2.log = a.log ++ Arrives e ∧ (Agent.Object.step e a).2.processor = a.processor ∧ (Agent.Object.step e a).2.procs = a.procs := by
  have := object_step a e
  rw [((C109_same a e).2 x).2 h] at this
  exact this.2

/-- A task that is sent twice: the dictionary was written before the queue raised, and nothing was sent. -/
example : (let a := Agent.init 10 1
    let a := (Agent.Object.step ⟨.recv (.task ⟨[1], [7], []⟩), 1⟩ a).2
    let r := Agent.Object.step ⟨.recv (.task ⟨[1], [8], []⟩), 2⟩ a
    (r.1, r.2.tasks.get? [1], r.2.log)) =
  (.error .keyError, some ⟨[1], [8], []⟩, [(1, .started 0), (1, .recv (.task ⟨[1], [7], []⟩)), (2, .recv (.task ⟨[1], [8], []⟩))]) := by decide +kernel

end Verif.Props
