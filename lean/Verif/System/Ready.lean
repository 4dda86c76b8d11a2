import Verif.System.Asked
import Verif.Worker.AgentTime

/-!
# A processor that is not ready is about to announce itself

Each processor announces itself once, and the agent hears each announcement while it waits for it.
-/

namespace Verif.System

open Verif.Wire Verif.Sched Verif.Spec
open Verif.Client (Pickle)
open Verif.Spec.Worker (Hist current busy)

variable {F V X : Type} {p : Pickle} {rt : Proc.Runtime F V X} {cfg : Config} {s s' : Sys F}

theorem takeOldest_ready {n : Nat} : ∀ {a a' : Worker.Agent} {l : List Bytes}, a.takeOldest n = .ok (l, a') →
    a'.initialized = a.initialized ∧ a'.procs = a.procs ∧ a'.log = a.log := by
  induction n with
  | zero => intro a a' l h; cases h; exact ⟨rfl, rfl, rfl⟩
  | succ n ih =>
    intro a a' l h
    simp only [Worker.Agent.takeOldest, Py.bind_ok] at h
    obtain ⟨⟨t, q⟩, -, ⟨k, ts⟩, -, ⟨l', a1⟩, h3, h4⟩ := h
    cases h4
    have := ih h3
    exact this

theorem handOver_ready {a a' : Worker.Agent} {now : Int} {t : Task} (h : a.handOver now t = .ok a') :
    a'.initialized = a.initialized ∧ a'.procs = a.procs := by
  simp only [Worker.Agent.handOver, Py.bind_ok] at h
  obtain ⟨_, -, h⟩ := h
  cases h
  exact ⟨rfl, rfl⟩

theorem awaitProcessor_ready {a a' : Worker.Agent} {now : Int} {t : Task} (h : a.awaitProcessor now t = .ok a') :
    a'.initialized = a.initialized ∧ a'.procs = a.procs := by
  unfold Worker.Agent.awaitProcessor at h
  split at h
  · exact handOver_ready h
  · cases h; exact ⟨rfl, rfl⟩

/-- How the agent's knowledge of whether its processor is ready changes. -/
theorem agent_ready {a a' : Worker.Agent} {e : Worker.Agent.Event} (h : a.step e = .ok a') :
    (∃ st d r, e.op = .heard (.taskResult [] st d r)) ∧ a'.initialized = true ∧ a'.procs = a.procs ∨
    (∀ st d r, e.op ≠ .heard (.taskResult [] st d r)) ∧
      (a'.initialized = a.initialized ∧ a'.procs = a.procs ∨ a.initialized = true ∧ a'.initialized = false ∧ a'.procs = a.procs + 1) := by
  obtain ⟨op, now⟩ := e
  cases op with
  | recv m =>
    refine .inr ⟨nofun, ?_⟩
    simp only [Worker.Agent.step] at h
    cases m with
    | heartbeatEcho =>
      simp only [Worker.Agent.receive, Worker.Agent.onEcho] at h
      split at h
      · cases h; exact .inl ⟨rfl, rfl⟩
      · cases h; exact .inl ⟨rfl, rfl⟩
    | task t =>
      simp only [Worker.Agent.receive, Worker.Agent.onTaskNew, Py.bind_ok] at h
      obtain ⟨q, -, h⟩ := h
      cases h; exact .inl ⟨rfl, rfl⟩
    | taskCancel tid =>
      simp only [Worker.Agent.receive] at h
      unfold Worker.Agent.onCancel at h
      split at h
      · simp only [Py.bind_ok] at h
        obtain ⟨⟨_, _⟩, -, _, -, h⟩ := h
        cases h; exact .inl ⟨rfl, rfl⟩
      · rw [Py.bind_ok] at h
        obtain ⟨⟨b, a1⟩, h1, h⟩ := h
        have key : a1.initialized = a.initialized ∧ a1.procs = a.procs ∨ a.initialized = true ∧ a1.initialized = false ∧ a1.procs = a.procs + 1 := by
          unfold Worker.Agent.cancelRunning at h1
          split at h1
          · cases h1; exact .inl ⟨rfl, rfl⟩
          · next hi =>
            rw [Py.bind_ok] at h1
            obtain ⟨t, -, h1⟩ := h1
            split at h1
            · cases h1; exact .inl ⟨rfl, rfl⟩
            · cases h1
              refine .inr ⟨by simpa [Worker.Agent.note] using hi, ?_, ?_⟩
              · simp only [Worker.Agent.restart, Worker.Agent.startProcessor, Worker.Agent.kill, Worker.Agent.note]
                split <;> rfl
              · simp only [Worker.Agent.restart, Worker.Agent.startProcessor, Worker.Agent.kill, Worker.Agent.note]
                split <;> rfl
        simp only at h
        split at h
        · cases h; exact key
        · cases h; exact key
    | balanceRequest n =>
      simp only [Worker.Agent.receive, Worker.Agent.onBalance, Py.bind_ok] at h
      obtain ⟨⟨l, a1⟩, h1, h⟩ := h
      cases h
      split at h1
      · cases h1
      · obtain ⟨h2, h3, -⟩ := takeOldest_ready h1
        exact .inl ⟨h2, h3⟩
    | functionRequest ty fid nm c =>
      simp only [Worker.Agent.receive, Worker.Agent.onFunctionRequest] at h
      split at h
      · cases h; exact .inl ⟨rfl, rfl⟩
      · cases h
    | functionResponse st fid nm c =>
      simp only [Worker.Agent.receive, Worker.Agent.onFunctionResponse] at h
      split at h
      · cases h; exact .inl ⟨rfl, rfl⟩
      · rw [Py.bind_ok] at h
        obtain ⟨t, -, h⟩ := h
        split at h
        · cases h; exact .inl ⟨rfl, rfl⟩
        · split at h
          · cases h; exact .inl ⟨rfl, rfl⟩
          · cases h; exact .inl ⟨rfl, rfl⟩
    | _ => cases h
  | heard m =>
    simp only [Worker.Agent.step] at h
    cases m with
    | functionRequest ty fid nm c =>
      refine .inr ⟨nofun, ?_⟩
      simp only [Worker.Agent.receiveInternal, Worker.Agent.onInternalFunctionRequest] at h
      split at h
      · cases h; exact .inl ⟨rfl, rfl⟩
      · split at h
        · cases h; exact .inl ⟨rfl, rfl⟩
        · split at h
          · cases h; exact .inl ⟨rfl, rfl⟩
          · rw [Py.bind_ok] at h
            obtain ⟨_, -, h⟩ := h
            cases h; exact .inl ⟨rfl, rfl⟩
    | taskResult i st d r =>
      simp only [Worker.Agent.receiveInternal, Except.ok.injEq] at h
      subst h
      unfold Worker.Agent.onResult
      by_cases hi : a.initialized = true
      · have hres : ∀ b : Worker.Agent, b.initialized = a.initialized ∧ b.procs = a.procs →
            (∃ st' d' r', (Worker.Agent.Op.heard (.taskResult i st d r)) = .heard (.taskResult [] st' d' r')) ∧ b.initialized = true ∧ b.procs = a.procs ∨
            (∀ st' d' r', (Worker.Agent.Op.heard (.taskResult i st d r)) ≠ .heard (.taskResult [] st' d' r')) ∧
            (b.initialized = a.initialized ∧ b.procs = a.procs ∨ a.initialized = true ∧ b.initialized = false ∧ b.procs = a.procs + 1) := by
          intro b hb
          by_cases he : i = []
          · subst he
            exact .inl ⟨⟨_, _, _, rfl⟩, hb.1.trans hi, hb.2⟩
          · exact .inr ⟨fun _ _ _ e => by cases e; exact he rfl, .inl hb⟩
        apply hres
        simp only [Worker.Agent.note, hi]
        simp only [Bool.not_true, Bool.false_eq_true, if_false]
        split
        · exact ⟨rfl, rfl⟩
        · split
          · exact ⟨rfl, rfl⟩
          · exact ⟨rfl, rfl⟩
      · simp only [Worker.Agent.note, hi]
        simp only [Bool.not_false, if_true]
        unfold Worker.Agent.onInitialized
        by_cases he : i = []
        · subst he
          refine .inl ⟨⟨_, _, _, rfl⟩, ?_⟩
          simp only [ne_eq, not_true_eq_false, if_false]
          split <;> exact ⟨rfl, rfl⟩
        · refine .inr ⟨fun _ _ _ e => by cases e; exact he rfl, .inl ?_⟩
          simp only [ne_eq, he, not_false_eq_true, if_true]
          simp
    | _ => cases h
  | turn =>
    refine .inr ⟨nofun, .inl ?_⟩
    simp only [Worker.Agent.step, Worker.Agent.turn] at h
    split at h
    · split at h
      · cases h; exact ⟨rfl, rfl⟩
      · simp only [Py.bind_ok] at h
        obtain ⟨⟨t, q⟩, -, ⟨k, ts⟩, -, h⟩ := h
        simp only at h
        unfold Worker.Agent.awaitLock at h
        split at h
        · cases h; exact ⟨rfl, rfl⟩
        · have := awaitProcessor_ready h
          exact this
    · split at h
      · cases h; exact ⟨rfl, rfl⟩
      · have := awaitProcessor_ready h
        exact this
    · split at h
      · exact handOver_ready h
      · cases h; exact ⟨rfl, rfl⟩
  | heartbeat f =>
    refine .inr ⟨nofun, .inl ?_⟩
    simp only [Worker.Agent.step, Worker.Agent.heartbeat] at h
    split at h
    · cases h; exact ⟨rfl, rfl⟩
    · split at h
      · cases h; exact ⟨rfl, rfl⟩
      · rw [Py.bind_ok] at h
        obtain ⟨_, -, h⟩ := h
        cases h; exact ⟨rfl, rfl⟩
  | check =>
    refine .inr ⟨nofun, .inl ?_⟩
    simp only [Worker.Agent.step, Worker.Agent.checkTimeout] at h
    split at h
    · cases h; exact ⟨rfl, rfl⟩
    · cases h

/-- The processor has announced itself once, and in no other way. -/
structure Announced (q : Proc.Proc F) : Prop where
  once : (q.log.countP fun x => decide (x.2 = .sent Proc.Proc.sentinel)) = 1
  only : ∀ y ∈ q.log, ∀ st d r, y.2 = .sent (.taskResult [] st d r) → Message.taskResult [] st d r = Proc.Proc.sentinel

theorem Announced.init (ret start : Int) : Announced (Proc.Proc.init ret start : Proc.Proc F) := by
  refine ⟨by simp [Proc.Proc.init], ?_⟩
  intro y hy st d r e
  simp only [Proc.Proc.init, List.mem_singleton] at hy
  subst hy
  simp only [Proc.Act.sent.injEq] at e
  exact e.symm

theorem Announced.step {q q' : Proc.Proc F} {e : Proc.Event} (h : Announced q) (hs : q.step rt e = .ok q')
    (hk : ∀ k, q.main.task? = some k → k.taskId ≠ []) : Announced q' := by
  have grow : ∀ {ys : List (Int × Proc.Act)}, q'.log = q.log ++ ys → (∀ y ∈ ys, ∀ st d r, y.2 ≠ .sent (.taskResult [] st d r)) → Announced q' := by
    intro ys h1 h2
    refine ⟨?_, ?_⟩
    · rw [h1, List.countP_append, h.once]
      have : (ys.countP fun x => decide (x.2 = .sent Proc.Proc.sentinel)) = 0 := by
        refine List.countP_eq_zero.2 fun y hy => ?_
        have := h2 y hy .success 0 []
        exact fun e => this (of_decide_eq_true e)
      rw [this]
    · intro y hy
      rw [h1, List.mem_append] at hy
      rcases hy with hy | hy
      · exact h.only y hy
      · exact fun st d r e => absurd e (h2 y hy st d r)
  obtain ⟨op, now⟩ := e
  cases op with
  | clean =>
    simp only [Proc.Proc.step] at hs
    cases hs
    unfold Proc.Proc.clean at grow ⊢
    split
    · next hc => 
      simp only [hc] at grow
      exact grow (ys := [(now, .scan)]) rfl (by simp)
    · next hc => 
      simp only [hc] at grow
      exact grow (ys := []) (by simp) (by simp)
    · next hc => 
      simp only [hc] at grow
      exact grow (ys := []) (by simp) (by simp)
    · next fid ids hc =>
      simp only [hc] at grow
      by_cases hf : q.functions.has fid = true
      · simp only [hf, if_true] at grow ⊢
        exact grow (ys := [(now, .evicted fid)]) rfl (by simp)
      · simp only [hf] at grow ⊢
        exact grow (ys := []) (by simp) (by simp)
  | recv m =>
    simp only [Proc.Proc.step] at hs
    split at hs
    · unfold Proc.Proc.receive at hs
      split at hs
      · next ty fid nm c =>
        cases hs
        by_cases hty : ty = .delete
        · simp only [Proc.Proc.onFunctionRequest, hty, if_true] at grow ⊢
          exact grow (ys := [(now, .recv (.functionRequest .delete fid nm c))]) rfl (by simp)
        · simp only [Proc.Proc.onFunctionRequest, hty, if_false] at grow ⊢
          exact grow (ys := [(now, .recv (.functionRequest ty fid nm c))]) rfl (by simp)
      · next k' =>
        cases hs
        cases hf : q.functions.get? k'.functionId with
        | some f =>
          simp only [Proc.Proc.onTask, Proc.Proc.note, hf] at grow ⊢
          exact grow (ys := [(now, .recv (.task k')), (now, .used k'.functionId)]) (by simp) (by simp)
        | none =>
          simp only [Proc.Proc.onTask, Proc.Proc.note, hf] at grow ⊢
          exact grow (ys := [(now, .recv (.task k')), (now, .sent (.functionRequest .request k'.functionId [] []))]) (by simp) (by simp)
      · next st fid nm c =>
        simp only at hs
        split at hs
        · next q1 h1 =>
          cases hs
          unfold Proc.Proc.onFunctionResponse at h1
          split at h1
          · cases h1
            exact grow (ys := [(now, .recv (.functionResponse st fid nm c))]) rfl (by simp)
          · cases h1
        · cases hs
      · cases hs
        exact grow (ys := [(now, .recv m)]) rfl (by simp)
    · cases hs
      exact h
  | work c dur =>
    simp only [Proc.Proc.step] at hs
    unfold Proc.Proc.work at hs
    split at hs
    · cases hs
      exact h
    · next k' hm' =>
      cases hs
      exact grow (ys := [(now, .stamped k'.functionId)]) rfl (by simp)
    · next k' hm' =>
      split at hs
      · cases hs
        exact grow (ys := [(now, .used k'.functionId)]) rfl (by simp)
      · cases hs
        exact grow (ys := []) (by simp) (by simp)
    · next k' f hm' =>
      cases hs
      exact grow (ys := [(now, .stamped k'.functionId)]) rfl (by simp)
    · next k' f hm' =>
      have hne := hk k' (by rw [hm']; rfl)
      unfold Proc.Proc.answer at hs
      split at hs
      · next r _ =>
        cases hs
        exact grow (ys := [(now, .sent (.taskResult k'.taskId .success dur r))]) rfl (by simp [hne])
      · split at hs
        · next r _ =>
          cases hs
          exact grow (ys := [(now, .sent (.taskResult k'.taskId .failed dur r))]) rfl (by simp [hne])
        · cases hs
    · next fid hm' =>
      split at hs
      · next k' hk' =>
        cases hs
        exact grow (ys := [(now, .stamped fid)]) rfl (by simp)
      · cases hs
    · next fid hm' =>
      cases hs
      exact grow (ys := []) (by simp) (by simp)

theorem procsSent_announced : ∀ {qs : List (Proc.Proc F)}, (∀ q ∈ qs, Announced q) → procsSent Proc.Proc.sentinel qs = qs.length
  | [], _ => rfl
  | q :: qs, h => by
    have := procsSent_announced (qs := qs) fun q hq => h q (List.mem_cons_of_mem _ hq)
    have h1 := (h q List.mem_cons_self).once
    simp only [procsSent, List.map_cons, List.sum_cons, List.length_cons] at this ⊢
    omega

theorem Reach.announced (hr : Reach p rt cfg s) : ∀ {w : Bytes} {a : Worker.Agent} {ret : Int} {qs : List (Proc.Proc F)} {left : Option Bytes},
    s.peers w = .worker a ret qs left → ∀ q ∈ qs, Announced q := by
  induction hr with
  | init => intro w a ret qs left hx; cases hx
  | @step s s' o hr hs ih =>
    intro w a ret qs left hx q' hq'
    have h := hr.inv
    rcases step_worked hs hx with ⟨d, start, rfl, rfl, -⟩ | hx' | ⟨a₀, qs₀, e, hx', hs', rfl, -, -, -⟩ | ⟨qs₀, n, q, q₁, e, hx', hn, hq, hs', rfl, -, hrecv⟩ | ⟨hx', -⟩
    · rw [List.mem_singleton.1 hq']
      exact .init _ _
    · exact ih hx' q' hq'
    · unfold extend at hq'
      rcases List.mem_append.1 hq' with hq' | hq'
      · exact ih hx' q' hq'
      · rw [(List.mem_replicate.1 hq').2]
        exact .init _ _
    · rcases List.mem_or_eq_of_mem_set hq' with hq' | rfl
      · exact ih hx' q' hq'
      · have hw := h.wired hx'
        exact (ih hx' q (List.mem_of_getElem? hq)).step hs' fun k hk => hw.ne (AtProc.told hw hq (.inr (.inl hk)))
    · exact ih hx' q' hq'

/-- The agent heard one announcement of each processor, but for the current one if it is not ready. -/
theorem Reach.ready (hr : Reach p rt cfg s) : ∀ {w : Bytes} {a : Worker.Agent} {ret : Int} {qs : List (Proc.Proc F)} {left : Option Bytes},
    s.peers w = .worker a ret qs left → heardOf Proc.Proc.sentinel a.log + (if a.initialized then 0 else 1) = a.procs := by
  induction hr with
  | init => intro w a ret qs left hx; cases hx
  | @step s s' o hr hs ih =>
    intro w a ret qs left hx
    have h := hr.inv
    rcases step_worked hs hx with ⟨d, start, rfl, rfl, -⟩ | hx' | ⟨a₀, qs₀, e, hx', hs', rfl, -, -, hheard⟩ | ⟨qs₀, n, q, q₁, e, hx', hn, hq, hs', rfl, -, hrecv⟩ | ⟨hx', -⟩
    · rfl
    · exact ih hx'
    · have ih := ih hx'
      have hP := h.peer w
      rw [hx'] at hP
      obtain ⟨⟨d, st, hr₀⟩, hlen, -, -⟩ := hP
      obtain ⟨-, hprocs, ys, hlog, hys, -⟩ := Worker.step_flows hr₀.flow hs'
      have hann := hr.announced hx'
      have hys0 : (ys.countP fun x => decide (x.2 = .heard Proc.Proc.sentinel)) = 0 := by
        refine List.countP_eq_zero.2 fun y hy => ?_
        simpa using (hys y hy _).2
      have hcount : heardOf Proc.Proc.sentinel a.log = heardOf Proc.Proc.sentinel a₀.log + e.input.countP fun x => decide (x.2 = .heard Proc.Proc.sentinel) := by
        unfold heardOf
        rw [hlog, List.countP_append, List.countP_append, hys0]
        rfl
      rcases agent_ready hs' with ⟨⟨st, d, r, he⟩, h1, h2⟩ | ⟨hne, h1⟩
      · have hlt := hheard _ he
        have hsen : Message.taskResult [] st d r = Proc.Proc.sentinel := by
          obtain ⟨q, hq, hpos⟩ := procsSent_pos (Nat.lt_of_le_of_lt (Nat.zero_le _) hlt)
          obtain ⟨y, hy, e⟩ := List.countP_pos_iff.1 hpos
          exact (hann q hq).only y hy st d r (of_decide_eq_true e)
        rw [hsen] at he hlt
        rw [procsSent_announced hann, hlen] at hlt
        have : (e.input.countP fun x => decide (x.2 = .heard Proc.Proc.sentinel)) = 1 := by
          unfold Worker.Agent.Event.input
          rw [he]
          simp
        rw [h1, h2, hcount, this]
        split at ih
        · omega
        · simp only [if_true]; omega
      · have : (e.input.countP fun x => decide (x.2 = .heard Proc.Proc.sentinel)) = 0 := by
          refine List.countP_eq_zero.2 fun y hy => ?_
          unfold Worker.Agent.Event.input at hy
          split at hy
          · rw [List.mem_singleton.1 hy]; simp
          · next m hm =>
            rw [List.mem_singleton.1 hy]
            simp only [decide_eq_true_eq, Worker.Act.heard.injEq]
            rintro rfl
            exact hne _ _ _ hm
          · cases hy
        rw [hcount, this]
        rcases h1 with ⟨h1, h2⟩ | ⟨h0, h1, h2⟩
        · rw [h1, h2]; exact ih
        · rw [h1, h2]
          rw [h0] at ih
          simp only [if_true] at ih
          simp only [Bool.false_eq_true, if_false]
          omega
    · exact ih hx'
    · exact ih hx'

/-- A processor that is not ready is about to announce itself. -/
theorem Reach.coming (hr : Reach p rt cfg s) {w : Bytes} {a : Worker.Agent} {ret : Int} {qs : List (Proc.Proc F)} {left : Option Bytes}
    (hx : s.peers w = .worker a ret qs left) (hi : a.initialized = false) : heardOf Proc.Proc.sentinel a.log < procsSent Proc.Proc.sentinel qs := by
  have h1 := hr.ready hx
  have hP := hr.inv.peer w
  rw [hx] at hP
  rw [procsSent_announced (hr.announced hx), hP.2.1]
  rw [hi] at h1
  simp at h1
  omega

/-- A processor's log begins when the agent starts it. -/
theorem Reach.begins (hr : Reach p rt cfg s) : ∀ {w : Bytes} {a : Worker.Agent} {ret : Int} {qs : List (Proc.Proc F)} {left : Option Bytes},
    s.peers w = .worker a ret qs left → ∀ (n : Nat) q, qs[n]? = some q →
      ∃ t, (t, Worker.Act.started n) ∈ a.log ∧ q.log.head? = some (t, .sent Proc.Proc.sentinel) := by
  induction hr with
  | init => intro w a ret qs left hx; cases hx
  | @step s s' o hr hs ih =>
    intro w a ret qs left hx n q' hq'
    have h := hr.inv
    rcases step_worked hs hx with ⟨d, start, rfl, rfl, -⟩ | hx' | ⟨a₀, qs₀, e, hx', hs', rfl, -, -, -⟩ | ⟨qs₀, m, q, q₁, e, hx', hn, hq, hs', rfl, -, hrecv⟩ | ⟨hx', -⟩
    · cases n with
      | zero => cases hq'; exact ⟨start, List.mem_singleton_self _, rfl⟩
      | succ n => cases hq'
    · exact ih hx' n q' hq'
    · have hP := h.peer w
      rw [hx'] at hP
      obtain ⟨⟨d, st, hr₀⟩, hlen, -, -⟩ := hP
      obtain ⟨-, hprocs, ys, hlog, -, hb⟩ := Worker.step_flows hr₀.flow hs'
      obtain ⟨zs, hlog', hz⟩ := Worker.step_stamped hs'
      unfold extend at hq'
      by_cases hlt : n < qs₀.length
      · rw [List.getElem?_append_left hlt] at hq'
        obtain ⟨t, h1, h2⟩ := ih hx' n q' hq'
        exact ⟨t, by rw [hlog']; exact List.mem_append_left _ h1, h2⟩
      · rw [List.getElem?_append_right (Nat.le_of_not_lt hlt)] at hq'
        obtain ⟨h1, h2⟩ := List.getElem?_eq_some_iff.1 hq'
        rw [List.length_replicate] at h1
        rw [List.getElem_replicate] at h2
        subst h2
        have h3 : n ∈ ys.filterMap Worker.begun := by
          rw [hb, List.mem_range'_1]
          omega
        obtain ⟨⟨t, y⟩, hy, he⟩ := List.mem_filterMap.1 h3
        have h4 : y = .started n := by
          cases y <;> simp only [Worker.begun] at he <;> cases he
          rfl
        subst h4
        rw [List.append_assoc] at hlog
        have h5 : (t, Worker.Act.started n) ∈ zs := by
          rw [List.append_cancel_left (hlog'.symm.trans hlog)]
          exact List.mem_append_right _ hy
        cases hz _ h5
        exact ⟨_, by rw [hlog']; exact List.mem_append_right _ h5, rfl⟩
    · obtain ⟨xs, ys, hl, -, -⟩ := Proc.step_log hs'
      by_cases e' : m = n
      · subst e'
        have hlt : m < qs₀.length := (List.getElem?_eq_some_iff.1 hq).1
        rw [List.getElem?_set_self hlt] at hq'
        cases hq'
        obtain ⟨t, h1, h2⟩ := ih hx' m q hq
        refine ⟨t, h1, ?_⟩
        rw [hl, List.append_assoc, List.head?_append, h2]
        rfl
      · rw [List.getElem?_set_ne e'] at hq'
        exact ih hx' n q' hq'
    · exact ih hx' n q' hq'

end Verif.System
