import Verif.Worker.AgentInv

/-!
# What a worker passes on
-/

namespace Verif.Worker

open Verif.Queue Verif.Wire Verif.Spec.Worker

/-- The message was received from the scheduler. -/
def Got (l : Hist) (m : Message) : Prop := ∃ now, (now, Act.recv m) ∈ l

/-- The message was received from a processor. -/
def Heard (l : Hist) (m : Message) : Prop := ∃ now, (now, Act.heard m) ∈ l

/-- What an agent tells and sends: processors get tasks and functions as received; the scheduler gets answers and
requests, but no functions. -/
def Passed (l : Hist) : Act → Prop
  | .told _ (.task k) => Got l (.task k)
  | .told _ (.functionResponse st f nm c) => Got l (.functionResponse st f nm c)
  | .told _ (.functionRequest ty _ _ _) => ty = .delete
  | .told _ _ => False
  | .sent (.taskResult t st d r) => (st = .canceled ∨ st = .notFound) ∧ Got l (.taskCancel t) ∨ Heard l (.taskResult t st d r)
  | .sent (.functionRequest ty _ _ _) => ty = .request
  | .sent (.balanceResponse _) => True
  | .sent (.heartbeat _) => True
  | .sent _ => False
  | _ => True

/-- Tasks in the tables were received, and everything told and sent is proper. -/
structure Flow (a : Agent) : Prop where
  tasks : ∀ t k, a.tasks.get? t = some k → Got a.log (.task k)
  pos : ∀ k, a.pos.task? = some k → Got a.log (.task k)
  task : ∀ k, a.task = some k → Got a.log (.task k)
  passed : ∀ x ∈ a.log, Passed a.log x.2

theorem Got.mono {l l' : Hist} {m : Message} (h : Got l m) (hs : ∀ x ∈ l, x ∈ l') : Got l' m := h.elim fun n h => ⟨n, hs _ h⟩

theorem Heard.mono {l l' : Hist} {m : Message} (h : Heard l m) (hs : ∀ x ∈ l, x ∈ l') : Heard l' m := h.elim fun n h => ⟨n, hs _ h⟩

theorem Passed.mono {l l' : Hist} {x : Act} (h : Passed l x) (hs : ∀ y ∈ l, y ∈ l') : Passed l' x := by
  unfold Passed at h ⊢
  split at h <;> first | exact h | exact Got.mono h hs | exact h.imp (And.imp_right (Got.mono · hs)) (Heard.mono · hs)

theorem Passed.note {l : Hist} {now : Int} {x y : Act} (h : Passed l x) : Passed (l ++ [(now, y)]) x :=
  h.mono fun _ => List.mem_append_left _

theorem Flow.note {a : Agent} {now : Int} {x : Act} (h : Flow a) (hx : Passed (a.log ++ [(now, x)]) x) : Flow (a.note now x) where
  tasks t k e := (h.tasks t k e).mono fun _ => List.mem_append_left _
  pos k e := (h.pos k e).mono fun _ => List.mem_append_left _
  task k e := (h.task k e).mono fun _ => List.mem_append_left _
  passed y hy := by
    rcases List.mem_append.1 hy with hy | hy
    · exact (h.passed y hy).note
    · rw [List.mem_singleton] at hy; subst hy; exact hx

/-- The number of a processor that is started. -/
def begun : Int × Act → Option Nat
  | (_, .started n) => some n
  | _ => none

/-- From `a` to `a'` the agent took in no message, and the tables are as they should; new processors are numbered. -/
structure Flows (a a' : Agent) : Prop where
  flow : Flow a'
  log : ∃ ys, a'.log = a.log ++ ys ∧ (∀ y ∈ ys, ∀ m, y.2 ≠ .recv m ∧ y.2 ≠ .heard m) ∧
    ys.filterMap begun = List.range' a.procs (a'.procs - a.procs)
  procs : a.procs ≤ a'.procs

theorem Flows.rfl {a : Agent} (h : Flow a) : Flows a a := ⟨h, ⟨[], by simp, by simp, by simp⟩, Nat.le_refl _⟩

theorem Flows.trans {a b c : Agent} (h : Flows a b) (h' : Flows b c) : Flows a c := by
  obtain ⟨ys, h1, h2, h5⟩ := h.log
  obtain ⟨zs, h3, h4, h6⟩ := h'.log
  refine ⟨h'.flow, ⟨ys ++ zs, by rw [h3, h1, List.append_assoc], ?_, ?_⟩, Nat.le_trans h.procs h'.procs⟩
  · intro y hy
    rcases List.mem_append.1 hy with hy | hy
    · exact h2 y hy
    · exact h4 y hy
  · have hp := h.procs
    have hp' := h'.procs
    rw [List.filterMap_append, h5, h6]
    have e : List.range' b.procs (c.procs - b.procs) = List.range' (a.procs + (b.procs - a.procs)) (c.procs - b.procs) := by
      rw [Nat.add_sub_cancel' hp]
    rw [e, List.range'_append_1]
    congr 1
    omega

theorem Flow.own {a : Agent} {now : Int} {x : Act} (h : Flow a) (hx : Passed a.log x) (ho : ∀ m, x ≠ .recv m ∧ x ≠ .heard m)
    (hs : ∀ n, x ≠ .started n) : Flows a (a.note now x) := by
  refine ⟨h.note hx.note, ⟨[(now, x)], rfl, by simpa using ho, ?_⟩, Nat.le_refl _⟩
  show _ = List.range' a.procs (a.procs - a.procs)
  cases x with
  | started n => exact absurd rfl (hs n)
  | _ => simp [begun]

/-- Tables that hold no new tasks. -/
theorem Flow.less {a a' : Agent} (h : Flow a) (h1 : ∀ t k, a'.tasks.get? t = some k → Got a.log (.task k))
    (h2 : ∀ k, a'.pos.task? = some k → Got a.log (.task k)) (h3 : ∀ k, a'.task = some k → Got a.log (.task k))
    (h4 : a'.log = a.log) (h5 : a'.procs = a.procs) : Flows a a' where
  flow := ⟨h4 ▸ h1, h4 ▸ h2, h4 ▸ h3, h4 ▸ h.passed⟩
  log := ⟨[], by simpa using h4, by simp, by simp [h5]⟩
  procs := Nat.le_of_eq h5.symm

theorem tell_flows {a : Agent} (h : Flow a) (now : Int) {m : Message} (hm : ∀ n, Passed a.log (.told n m)) : Flows a (a.tell now m) :=
  h.own (hm _) (fun _ => ⟨nofun, nofun⟩) nofun

theorem send_flows {a : Agent} (h : Flow a) (now : Int) {m : Message} (hm : Passed a.log (.sent m)) : Flows a (a.send now m) :=
  h.own hm (fun _ => ⟨nofun, nofun⟩) nofun

theorem restart_flows {a : Agent} (h : Flow a) (now : Int) : Flows a (a.restart now) := by
  have hk : Flows a (a.kill now) := by
    unfold Agent.kill
    split
    · exact h.less h.tasks h.pos h.task (by rfl) rfl
    · have := h.own (now := now) (x := .killed ‹_›) trivial (fun _ => ⟨nofun, nofun⟩) nofun
      exact this.trans (this.flow.less this.flow.tasks this.flow.pos this.flow.task (by rfl) rfl)
  refine hk.trans ?_
  unfold Agent.restart Agent.startProcessor
  have hf : Flow ((a.kill now).note now (.started (a.kill now).procs)) := hk.flow.note trivial
  refine ⟨⟨hf.tasks, hf.pos, hf.task, hf.passed⟩, ⟨[(now, .started (a.kill now).procs)], rfl, by simp, ?_⟩, Nat.le_succ _⟩
  show _ = List.range' (a.kill now).procs ((a.kill now).procs + 1 - (a.kill now).procs)
  rw [Nat.add_sub_cancel_left]
  rfl

theorem onFunctionRequest_flows {a a' : Agent} {now : Int} {ty : FunctionRequestType} {f : Bytes} (h : Flow a)
    (e : a.onFunctionRequest now ty f = .ok a') : Flows a a' := by
  unfold Agent.onFunctionRequest at e
  split at e
  · cases e; exact tell_flows h now fun _ => by rfl
  · cases e

theorem onFunctionResponse_flows {a a' : Agent} {now : Int} {st : FunctionResponseType} {f nm c : Bytes} (h : Flow a)
    (hg : Got a.log (.functionResponse st f nm c)) (e : a.onFunctionResponse now st f nm c = .ok a') : Flows a a' := by
  unfold Agent.onFunctionResponse at e
  split at e
  · cases e; exact .rfl h
  · obtain ⟨k, -, e⟩ := Py.bind_ok.1 e
    split at e
    · cases e; exact .rfl h
    · split at e
      · cases e; exact .rfl h
      · cases e; exact tell_flows h now fun _ => hg

theorem onTaskNew_flows {a a' : Agent} {k : Task} (h : Flow a) (hg : Got a.log (.task k)) (e : a.onTaskNew k = .ok a') : Flows a a' := by
  unfold Agent.onTaskNew at e
  obtain ⟨q, -, e⟩ := Py.bind_ok.1 e
  cases e
  refine h.less ?_ h.pos h.task (by rfl) rfl
  intro t k' hk
  dsimp only at hk
  rw [Dict.get?_set] at hk
  split at hk
  · cases hk; exact hg
  · exact h.tasks _ _ hk

theorem erase_get {d : Dict Bytes Task} {i t : Bytes} {k : Task} (h : (d.erase t).get? i = some k) : d.get? i = some k := by
  rw [Dict.get?_erase] at h
  split at h
  · cases h
  · exact h

theorem onCancel_flows {a a' : Agent} {now : Int} {t : Bytes} (h : Flow a) (hg : Got a.log (.taskCancel t)) (e : a.onCancel now t = .ok a') : Flows a a' := by
  unfold Agent.onCancel at e
  split at e
  · obtain ⟨⟨k, ts⟩, h1, e⟩ := Py.bind_ok.1 e
    obtain ⟨q, -, e⟩ := Py.bind_ok.1 e
    cases e
    have h1 : Flows a { a with tasks := ts, queue := q } := by
      refine h.less ?_ h.pos h.task (by rfl) rfl
      intro i k' hk
      obtain ⟨-, rfl⟩ := Dict.pop_ok.1 h1
      exact h.tasks i k' (erase_get hk)
    exact h1.trans (send_flows h1.flow now (.inl ⟨.inl rfl, hg⟩))
  · obtain ⟨⟨b, a1⟩, h0, e⟩ := Py.bind_ok.1 e
    have h1 : Flows a a1 := by
      have h1 := h0
      unfold Agent.cancelRunning at h1
      split at h1
      · cases h1; exact .rfl h
      · obtain ⟨k, -, h1⟩ := Py.bind_ok.1 h1
        split at h1
        · cases h1; exact .rfl h
        · cases h1
          have := restart_flows h now
          exact this.trans (this.flow.less this.flow.tasks this.flow.pos nofun (by rfl) rfl)
    have hg' : Got a1.log (.taskCancel t) := by
      obtain ⟨ys, h2, -⟩ := h1.log
      exact hg.mono fun x hx => by rw [h2]; exact List.mem_append_left _ hx
    cases b
    · cases e; exact h1.trans (send_flows h1.flow now (.inl ⟨.inr rfl, hg'⟩))
    · cases e; exact h1.trans (send_flows h1.flow now (.inl ⟨.inl rfl, hg'⟩))

theorem takeOldest_flows {n : Nat} : ∀ {a a' : Agent} {l : List Bytes}, Flow a → a.takeOldest n = .ok (l, a') → Flows a a' := by
  induction n with
  | zero => intro a a' l h e; cases e; exact .rfl h
  | succ n ih =>
    intro a a' l h e
    unfold Agent.takeOldest at e
    obtain ⟨⟨t, q⟩, -, e⟩ := Py.bind_ok.1 e
    obtain ⟨⟨k, ts⟩, h1, e⟩ := Py.bind_ok.1 e
    obtain ⟨⟨l', a1⟩, h2, e⟩ := Py.bind_ok.1 e
    cases e
    obtain ⟨-, rfl⟩ := Dict.pop_ok.1 h1
    have h3 : Flows a { a with queue := q, tasks := a.tasks.erase t } :=
      h.less (fun i k hk => h.tasks i k (erase_get hk)) h.pos h.task (by rfl) rfl
    exact h3.trans (ih h3.flow h2)

theorem onBalance_flows {a a' : Agent} {n : Int} {l : List Bytes} (h : Flow a) (e : a.onBalance n = .ok (l, a')) : Flows a a' := by
  unfold Agent.onBalance at e
  dsimp only at e
  split at e
  · cases e
  · exact takeOldest_flows h e

theorem handOver_flows {a a' : Agent} {now : Int} {k : Task} (h : Flow a) (hk : Got a.log (.task k)) (e : a.handOver now k = .ok a') :
    Flows a a' := by
  unfold Agent.handOver at e
  obtain ⟨-, -, e⟩ := Py.bind_ok.1 e
  cases e
  have h1 : Flows a { a with task := some k, pos := .idle } :=
    h.less h.tasks nofun (fun k' e => by cases e; exact hk) (by rfl) rfl
  exact h1.trans (tell_flows h1.flow now fun _ => hk)

theorem awaitProcessor_flows {a a' : Agent} {now : Int} {k : Task} (h : Flow a) (hk : Got a.log (.task k))
    (e : a.awaitProcessor now k = .ok a') : Flows a a' := by
  unfold Agent.awaitProcessor at e
  split at e
  · exact handOver_flows h hk e
  · cases e
    exact h.less h.tasks (fun k' e => by cases e; exact hk) h.task (by rfl) rfl

theorem lock_flows {a : Agent} (h : Flow a) : Flows a { a with locked := true } := h.less h.tasks h.pos h.task (by rfl) rfl

theorem turn_flows {a a' : Agent} {now : Int} (h : Flow a) (e : a.turn now = .ok a') : Flows a a' := by
  unfold Agent.turn at e
  split at e
  · split at e
    · cases e; exact .rfl h
    · obtain ⟨⟨t, q⟩, -, e⟩ := Py.bind_ok.1 e
      obtain ⟨⟨k, ts⟩, h1, e⟩ := Py.bind_ok.1 e
      obtain ⟨hk, rfl⟩ := Dict.pop_ok.1 h1
      have h3 : Flows a { a with queue := q, tasks := a.tasks.erase t } :=
        h.less (fun i k hk => h.tasks i k (erase_get hk)) h.pos h.task (by rfl) rfl
      have hk : Got a.log (.task k) := h.tasks _ _ hk
      refine h3.trans ?_
      unfold Agent.awaitLock at e
      dsimp only at e
      split at e
      · cases e
        exact h3.flow.less h3.flow.tasks (fun k' e => by cases e; exact hk) h3.flow.task (by rfl) rfl
      · have := lock_flows h3.flow
        exact this.trans (awaitProcessor_flows this.flow hk e)
  · next k hp =>
    split at e
    · cases e; exact .rfl h
    · have := lock_flows h
      exact this.trans (awaitProcessor_flows this.flow (h.pos k (by rw [hp]; rfl)) e)
  · next k w hp =>
    split at e
    · exact handOver_flows h (h.pos k (by rw [hp]; rfl)) e
    · cases e; exact .rfl h

theorem onResult_flows {a : Agent} {now : Int} {t : Bytes} {st : TaskStatus} {d : UInt32} {r : Bytes} (h : Flow a)
    (hg : Heard a.log (.taskResult t st d r)) : Flows a (a.onResult now t st d r) := by
  unfold Agent.onResult
  split
  · unfold Agent.onInitialized
    split
    · exact .rfl h
    · dsimp only
      have h1 : Flows a { a with
          initialized := true
          pos := match a.pos with
            | .init t _ => .init t true
            | p => p } := by
        refine h.less h.tasks ?_ h.task (by rfl) rfl
        intro k hk
        apply h.pos
        revert hk
        dsimp only
        cases a.pos <;> exact id
      have key : ∀ b, Flow b → Flows b (match b.task with
          | some t => b.tell now (.task t)
          | none => b) := by
        intro b hb
        split
        · next k hk => exact tell_flows hb now fun _ => hb.task k hk
        · exact .rfl hb
      exact h1.trans (key _ h1.flow)
  · split
    · exact .rfl h
    · split
      · exact .rfl h
      · have : Flows a (a.send now (.taskResult t st d r)) := send_flows h now (.inr hg)
        exact this.trans (this.flow.less this.flow.tasks this.flow.pos nofun (by rfl) rfl)

theorem receiveInternal_flows {a a' : Agent} {now : Int} {m : Message} (h : Flow a) (hg : Heard a.log m)
    (e : a.receiveInternal now m = .ok a') : Flows a a' := by
  unfold Agent.receiveInternal at e
  split at e
  · unfold Agent.onInternalFunctionRequest at e
    split at e
    · cases e; exact .rfl h
    · split at e
      · cases e; exact .rfl h
      · split at e
        · cases e; exact .rfl h
        · obtain ⟨u, h1, e⟩ := Py.bind_ok.1 e
          cases e
          have h2 := of_decide_eq_true (pyAssert_ok.1 h1)
          exact send_flows h now h2
  · cases e; exact onResult_flows h hg
  · cases e

theorem receive_flows {a a' : Agent} {now : Int} {m : Message} (h : Flow a) (hg : Got a.log m)
    (e : a.receive now m = .ok a') : Flows a a' := by
  unfold Agent.receive at e
  split at e
  · cases e
    unfold Agent.onEcho
    split
    · exact .rfl h
    · exact h.less h.tasks h.pos h.task (by rfl) rfl
  · exact onTaskNew_flows h hg e
  · exact onCancel_flows h hg e
  · obtain ⟨⟨l, a1⟩, h1, e⟩ := Py.bind_ok.1 e
    cases e
    have h1 := onBalance_flows h h1
    exact h1.trans (send_flows h1.flow now trivial)
  · exact onFunctionRequest_flows h e
  · exact onFunctionResponse_flows h hg e
  · cases e

/-- What an event brings in. -/
def Agent.Event.input (e : Agent.Event) : Hist :=
  match e.op with
  | .recv m => [(e.now, .recv m)]
  | .heard m => [(e.now, .heard m)]
  | _ => []

/-- One event. -/
theorem step_flows {a a' : Agent} {e : Agent.Event} (h : Flow a) (hs : a.step e = .ok a') :
    Flow a' ∧ a.procs ≤ a'.procs ∧
      ∃ ys, a'.log = a.log ++ e.input ++ ys ∧ (∀ y ∈ ys, ∀ m, y.2 ≠ .recv m ∧ y.2 ≠ .heard m) ∧
        ys.filterMap begun = List.range' a.procs (a'.procs - a.procs) := by
  obtain ⟨op, now⟩ := e
  have key : ∀ {b : Agent}, b.procs = a.procs → b.log = a.log ++ (⟨op, now⟩ : Agent.Event).input → Flows b a' →
      Flow a' ∧ a.procs ≤ a'.procs ∧
      ∃ ys, a'.log = a.log ++ (⟨op, now⟩ : Agent.Event).input ++ ys ∧ (∀ y ∈ ys, ∀ m, y.2 ≠ .recv m ∧ y.2 ≠ .heard m) ∧
        ys.filterMap begun = List.range' a.procs (a'.procs - a.procs) := by
    intro b h1 h2 h3
    refine ⟨h3.flow, h1 ▸ h3.procs, ?_⟩
    obtain ⟨ys, h4, h5, h6⟩ := h3.log
    exact ⟨ys, by rw [h4, h2], h5, h1 ▸ h6⟩
  cases op with
  | recv m =>
    refine key (by rfl) (by rfl) (receive_flows (h.note (x := .recv m) (now := now) trivial) ⟨now, ?_⟩ hs)
    exact List.mem_append_right _ (by simp)
  | heard m =>
    refine key (by rfl) (by rfl) (receiveInternal_flows (h.note (x := .heard m) (now := now) trivial) ⟨now, ?_⟩ hs)
    exact List.mem_append_right _ (by simp)
  | turn => exact key rfl (List.append_nil _).symm (turn_flows h hs)
  | heartbeat f =>
    refine key rfl (List.append_nil _).symm ?_
    unfold Agent.step at hs
    dsimp only at hs
    unfold Agent.heartbeat at hs
    split at hs
    · cases hs; exact .rfl h
    · split at hs
      · cases hs; exact .rfl h
      · obtain ⟨-, -, e⟩ := Py.bind_ok.1 hs
        cases e
        have : Flows a (a.send now (.heartbeat (a.heartbeatMsg f))) := send_flows h now trivial
        exact this.trans (this.flow.less this.flow.tasks this.flow.pos this.flow.task (by rfl) rfl)
  | check =>
    refine key rfl (List.append_nil _).symm ?_
    unfold Agent.step at hs
    dsimp only at hs
    unfold Agent.checkTimeout at hs
    split at hs
    · cases hs; exact .rfl h
    · cases hs

theorem init_flow (d now : Int) : Flow (Agent.init d now) := by
  constructor
  · intro t k h; cases h
  · intro k h; cases h
  · intro k h; cases h
  · intro x hx
    rw [List.mem_singleton.1 hx]
    trivial

/-- In every state. -/
theorem Reach.flow {d start : Int} {a : Agent} (h : Reach d start a) : Flow a := by
  induction h with
  | init => exact init_flow _ _
  | step e _ hs ih => exact (step_flows ih hs).1

/-- Processors are numbered in the order of their start. -/
theorem Reach.begun {d start : Int} {a : Agent} (h : Reach d start a) : a.log.filterMap begun = List.range' 0 a.procs := by
  induction h with
  | init => rfl
  | @step a a' e hr hs ih =>
    obtain ⟨-, hp, ys, h1, -, h2⟩ := step_flows hr.flow hs
    have h3 : e.input.filterMap Worker.begun = [] := by
      unfold Agent.Event.input
      split <;> rfl
    rw [h1, List.filterMap_append, List.filterMap_append, ih, h2, h3, List.append_nil]
    have e' : List.range' a.procs (a'.procs - a.procs) = List.range' (0 + a.procs) (a'.procs - a.procs) := by rw [Nat.zero_add]
    rw [e', List.range'_append_1]
    congr 1
    omega

end Verif.Worker
