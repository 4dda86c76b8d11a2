import Verif.System.Weights

/-!
# Weights of what workers have to do
-/

namespace Verif.System

open Verif.Wire Verif.Sched Verif.Spec
open Verif.Worker (Agent)
open Verif.Spec.Worker (Hist)

variable {F V X : Type} {rt : Proc.Runtime F V X}

/-- everything the agent told processors -/
def allTold (l : Hist) : List Message := l.filterMap fun x => match x.2 with | .told _ m => some m | _ => none

/-- everything the agent heard from processors -/
def heardList (l : Hist) : List Message := l.filterMap fun x => match x.2 with | .heard m => some m | _ => none

theorem heardList_count (m : Message) (l : Hist) : (heardList l).count m = heardOf m l := by
  unfold heardOf
  induction l with
  | nil => rfl
  | cons x l ih =>
    unfold heardList at ih ⊢
    obtain ⟨now, x⟩ := x
    rw [List.filterMap_cons, List.countP_cons]
    cases x <;> simp [ih, List.count_cons]

/-- The work in the hands of the task manager's loop. -/
def posWork : Worker.Pos → Nat
  | .idle => 0
  | .lock _ => 13
  | .init _ _ => 12

/-- What an action of an agent adds. -/
def actWork (has : Bytes → Bool) : Worker.Act → Int
  | .recv m => - (workDn m : Nat)
  | .heard m => - (heardWork m : Nat)
  | .sent m => (workUp has m : Nat)
  | .told _ m => (toldWork m : Nat)
  | .started _ => 0
  | .killed _ => 0

/-- What a history adds. -/
def histWork (has : Bytes → Bool) (l : Hist) : Int :=
  (weigh toldWork (allTold l) + weigh (workUp has) (sentBy l) : Nat) - (weigh heardWork (heardList l) + weigh workDn (gotBy l) : Nat)

theorem histWork_snoc (has : Bytes → Bool) (l : Hist) (now : Int) (x : Worker.Act) :
    histWork has (l ++ [(now, x)]) = histWork has l + actWork has x := by
  have h1 : allTold (l ++ [(now, x)]) = allTold l ++ allTold [(now, x)] := by simp [allTold]
  have h2 : sentBy (l ++ [(now, x)]) = sentBy l ++ sentBy [(now, x)] := by simp [sentBy]
  have h3 : heardList (l ++ [(now, x)]) = heardList l ++ heardList [(now, x)] := by simp [heardList]
  have h4 : gotBy (l ++ [(now, x)]) = gotBy l ++ gotBy [(now, x)] := by simp [gotBy]
  unfold histWork
  rw [h1, h2, h3, h4]
  simp only [weigh_append]
  cases x <;> simp [allTold, sentBy, heardList, gotBy, weigh, actWork] <;> omega

/-- The work inside an agent, with what it sent, told and received; a processor is worth its first message. -/
def agentValue (has : Bytes → Bool) (a : Agent) : Int :=
  (14 * a.tasks.size + posWork a.pos + 12 * a.procs : Nat) + histWork has a.log

theorem agentValue_note (has : Bytes → Bool) (a : Agent) (now : Int) (x : Worker.Act) :
    agentValue has (a.note now x) = agentValue has a + actWork has x := by
  unfold agentValue
  simp only [Agent.note, histWork_snoc]
  omega

theorem agentValue_congr (has : Bytes → Bool) {a a' : Agent} (h1 : a'.tasks = a.tasks) (h2 : a'.pos = a.pos) (h3 : a'.procs = a.procs)
    (h4 : a'.log = a.log) : agentValue has a' = agentValue has a := by
  unfold agentValue; rw [h1, h2, h3, h4]

/-- Steps of an agent that nobody outside causes. -/
def innerAgent : Agent.Op → Bool
  | .recv _ => true
  | .heard _ => true
  | .turn => true
  | _ => false

/-- How a part of a step changes the value. -/
def Adds (has : Bytes → Bool) (n : Int) (a : Agent) (x : Py Agent) : Prop := ∀ a', x = .ok a' → agentValue has a' ≤ agentValue has a + n

theorem handOver_value (has : Bytes → Bool) (now : Int) (k : Task) (a a' : Agent) (h : a.handOver now k = .ok a') :
    agentValue has a' + posWork a.pos = agentValue has a + 11 := by
  simp only [Agent.handOver, Py.bind_ok, Py.pure_eq] at h
  obtain ⟨_, _, e⟩ := h
  cases e
  unfold Agent.tell
  rw [agentValue_note]
  unfold agentValue
  simp only [actWork, toldWork, posWork]
  omega

theorem awaitProcessor_value (has : Bytes → Bool) (now : Int) (k : Task) (a a' : Agent) (h : a.awaitProcessor now k = .ok a') :
    agentValue has a' + posWork a.pos ≤ agentValue has a + 12 := by
  unfold Agent.awaitProcessor at h
  split at h
  · have := handOver_value has now k a a' h
    omega
  · cases h
    unfold agentValue
    simp only [posWork]
    omega

theorem awaitLock_value (has : Bytes → Bool) (now : Int) (k : Task) (a a' : Agent) (h : a.awaitLock now k = .ok a') :
    agentValue has a' + posWork a.pos ≤ agentValue has a + 13 := by
  unfold Agent.awaitLock at h
  split at h
  · cases h
    unfold agentValue
    simp only [posWork]
    omega
  · have := awaitProcessor_value has now k _ a' h
    have e : agentValue has { a with locked := true } = agentValue has a := rfl
    rw [e] at this
    simp only at this
    omega

theorem tell_value (has : Bytes → Bool) (a : Agent) (now : Int) (m : Message) : agentValue has (a.tell now m) = agentValue has a + (toldWork m : Nat) :=
  agentValue_note _ _ _ _

theorem send_value (has : Bytes → Bool) (a : Agent) (now : Int) (m : Message) : agentValue has (a.send now m) = agentValue has a + (workUp has m : Nat) :=
  agentValue_note _ _ _ _

theorem kill_value (has : Bytes → Bool) (a : Agent) (now : Int) : agentValue has (a.kill now) = agentValue has a := by
  unfold Agent.kill
  split
  · rfl
  · rename_i n _
    have := agentValue_note has a now (.killed n)
    simp only [actWork] at this
    have e : agentValue has { a.note now (.killed n) with processor := none, initialized := false } = agentValue has (a.note now (.killed n)) := rfl
    rw [e]; omega

theorem restart_value (has : Bytes → Bool) (a : Agent) (now : Int) : agentValue has (a.restart now) = agentValue has a + 12 := by
  unfold Agent.restart Agent.startProcessor
  have h1 := kill_value has a now
  have h2 := agentValue_note has (a.kill now) now (.started (a.kill now).procs)
  unfold agentValue at h1 h2 ⊢
  simp only [actWork, Agent.note] at h1 h2 ⊢
  omega

theorem size_lt_erase {d : Dict Bytes Task} {t : Bytes} {r : Task × Dict Bytes Task} (h : d.pop t = .ok r) : r.2.size + 1 = d.size := by
  obtain ⟨h1, h2⟩ := Dict.pop_ok.1 h
  rw [h2]
  exact Dict.size_erase h1

theorem takeOldest_value (has : Bytes → Bool) : ∀ (n : Nat) (a : Agent) {r : List Bytes × Agent}, a.takeOldest n = .ok r →
    agentValue has r.2 ≤ agentValue has a
  | 0, a, r, h => by cases h; exact Int.le_refl _
  | n + 1, a, r, h => by
    simp only [Agent.takeOldest, Py.bind_ok, Py.pure_eq] at h
    obtain ⟨⟨t, queue⟩, _, ⟨k, tasks⟩, ht, ⟨l, a1⟩, h1, e⟩ := h
    cases e
    have h2 := takeOldest_value has n _ h1
    have h3 := size_lt_erase ht
    simp only at h2 h3
    have h4 : agentValue has { a with queue := queue, tasks := tasks } ≤ agentValue has a := by
      unfold agentValue; simp only; omega
    exact Int.le_trans h2 h4

theorem turn_value (has : Bytes → Bool) {a a' : Agent} {now : Int} (h : a.turn now = .ok a') : a' = a ∨ agentValue has a' < agentValue has a := by
  unfold Agent.turn at h
  split at h <;> rename_i hp
  · split at h
    · cases h; exact .inl rfl
    · simp only [Py.bind_ok] at h
      obtain ⟨⟨t, queue⟩, _, ⟨k, tasks⟩, ht, h1⟩ := h
      have h2 := awaitLock_value has now _ _ _ h1
      have h3 := size_lt_erase ht
      refine .inr ?_
      unfold agentValue at h2 ⊢
      simp only [hp, posWork] at h2 h3 ⊢
      omega
  · split at h
    · cases h; exact .inl rfl
    · have h2 := awaitProcessor_value has now _ _ _ h
      refine .inr ?_
      unfold agentValue at h2 ⊢
      simp only [hp, posWork] at h2 ⊢
      omega
  · split at h
    · have h2 := handOver_value has now _ _ _ h
      refine .inr ?_
      simp only [hp, posWork] at h2
      omega
    · cases h; exact .inl rfl

/-- The rare part of what an agent sent and received. -/
def agentRare (a : Agent) : Int := (weigh rareUp (sentBy a.log) : Nat) - (weigh rareDn (gotBy a.log) : Nat)

theorem size_set_le {d : Dict Bytes Task} {t : Bytes} {k : Task} : (d.set t k).size ≤ d.size + 1 := by
  have key : ∀ l : List (Bytes × Task), (Dict.lset l t k).length ≤ l.length + 1 := by
    intro l
    induction l with
    | nil => simp [Dict.lset]
    | cons e l ih =>
      obtain ⟨x, v⟩ := e
      simp only [Dict.lset]
      split <;> simp only [List.length_cons] <;> omega
  exact key d.items

theorem onCancel_value (has : Bytes → Bool) {a a' : Agent} {now : Int} {t : Bytes} (h : a.onCancel now t = .ok a') :
    agentValue has a' ≤ agentValue has a + 13 := by
  unfold Agent.onCancel at h
  split at h
  · simp only [Py.bind_ok, Py.pure_eq] at h
    obtain ⟨⟨k, tasks⟩, ht, queue, _, e⟩ := h
    cases e
    rw [send_value]
    have h3 := size_lt_erase ht
    unfold agentValue
    simp only [workUp] at h3 ⊢
    omega
  · simp only [Py.bind_ok] at h
    obtain ⟨⟨b, a1⟩, h1, h2⟩ := h
    have hv : agentValue has a1 ≤ agentValue has a + 12 := by
      unfold Agent.cancelRunning at h1
      split at h1
      · cases h1; omega
      · simp only [Py.bind_ok] at h1
        obtain ⟨k, _, h1⟩ := h1
        split at h1
        · cases h1; omega
        · cases h1
          have := restart_value has a now
          exact Int.le_of_eq this
    split at h2
    · cases h2
      rw [send_value]
      simp only [workUp]
      omega
    · cases h2
      rw [send_value]
      simp only [workUp]
      omega

theorem onResult_value (has : Bytes → Bool) (a : Agent) (now : Int) (t : Bytes) (st : TaskStatus) (d : UInt32) (r : Bytes) :
    agentValue has (a.onResult now t st d r) ≤ agentValue has a + (if t = [] then 11 else 1) := by
  have h0 : (0 : Int) ≤ if t = [] then 11 else 1 := by split <;> omega
  unfold Agent.onResult
  split
  · unfold Agent.onInitialized
    split
    · omega
    · rename_i ht
      have ht : t = [] := Classical.not_not.1 ht
      rw [if_pos ht]
      have e : ∀ a1 : Agent, a1.tasks = a.tasks → posWork a1.pos = posWork a.pos → a1.procs = a.procs → a1.log = a.log →
          agentValue has a1 = agentValue has a := by
        intro a1 e1 e2 e3 e4
        unfold agentValue
        rw [e1, e2, e3, e4]
      simp only
      split
      · rw [tell_value]
        simp only [toldWork]
        refine Int.le_trans (Int.add_le_add_right (b := agentValue has a) (Int.le_of_eq ?_) 11) (by omega)
        refine e _ rfl ?_ rfl rfl
        cases a.pos <;> rfl
      · refine Int.le_trans (Int.le_of_eq (e _ rfl ?_ rfl rfl)) (by omega)
        cases a.pos <;> rfl
  · split
    · split <;> omega
    · split
      · split <;> omega
      · have h := send_value has a now (.taskResult t st d r)
        have e : agentValue has { a.send now (.taskResult t st d r) with task := none, locked := false } =
          agentValue has (a.send now (.taskResult t st d r)) := rfl
        rw [e, h]
        simp only [workUp]
        split <;> omega

theorem agentRare_note (a : Agent) (now : Int) (x : Worker.Act) :
    agentRare (a.note now x) = agentRare a + (weigh rareUp (sentBy [(now, x)]) : Nat) - (weigh rareDn (gotBy [(now, x)]) : Nat) := by
  have h2 : sentBy (a.log ++ [(now, x)]) = sentBy a.log ++ sentBy [(now, x)] := by simp [sentBy]
  have h4 : gotBy (a.log ++ [(now, x)]) = gotBy a.log ++ gotBy [(now, x)] := by simp [gotBy]
  unfold agentRare Agent.note
  simp only [h2, h4, weigh_append]
  omega

theorem agentRare_congr {a a' : Agent} (h : a'.log = a.log) : agentRare a' = agentRare a := by unfold agentRare; rw [h]

theorem agentRare_tell (a : Agent) (now : Int) (m : Message) : agentRare (a.tell now m) = agentRare a := by
  unfold Agent.tell
  rw [agentRare_note]
  simp [sentBy, gotBy, weigh]

theorem agentRare_send (a : Agent) (now : Int) (m : Message) (hm : rareUp m = 0) : agentRare (a.send now m) = agentRare a := by
  unfold Agent.send
  rw [agentRare_note]
  simp [sentBy, gotBy, weigh, hm]

theorem agentRare_handOver {a a' : Agent} {now : Int} {k : Task} (h : a.handOver now k = .ok a') : agentRare a' = agentRare a := by
  simp only [Agent.handOver, Py.bind_ok, Py.pure_eq] at h
  obtain ⟨_, _, e⟩ := h
  cases e
  exact (agentRare_tell _ _ _).trans (agentRare_congr rfl)

theorem agentRare_await {a a' : Agent} {now : Int} {k : Task} (h : a.awaitProcessor now k = .ok a') : agentRare a' = agentRare a := by
  unfold Agent.awaitProcessor at h
  split at h
  · exact agentRare_handOver h
  · cases h; rfl

theorem agentRare_lock {a a' : Agent} {now : Int} {k : Task} (h : a.awaitLock now k = .ok a') : agentRare a' = agentRare a := by
  unfold Agent.awaitLock at h
  split at h
  · cases h; rfl
  · exact (agentRare_await h).trans (agentRare_congr rfl)

theorem agentRare_turn {a a' : Agent} {now : Int} (h : a.turn now = .ok a') : agentRare a' = agentRare a := by
  unfold Agent.turn at h
  split at h
  · split at h
    · cases h; rfl
    · simp only [Py.bind_ok] at h
      obtain ⟨⟨t, queue⟩, _, ⟨k, tasks⟩, ht, h1⟩ := h
      exact (agentRare_lock h1).trans (agentRare_congr rfl)
  · split at h
    · cases h; rfl
    · exact (agentRare_await h).trans (agentRare_congr rfl)
  · split at h
    · exact agentRare_handOver h
    · cases h; rfl

theorem agentRare_restart (a : Agent) (now : Int) : agentRare (a.restart now) = agentRare a := by
  have h1 : ∀ a : Agent, agentRare (a.kill now) = agentRare a := by
    intro a
    unfold Agent.kill
    split
    · rfl
    · rename_i n _
      refine (agentRare_congr (a := a.note now (.killed n)) rfl).trans ?_
      rw [agentRare_note]
      simp [sentBy, gotBy, weigh]
  have h2 : ∀ a : Agent, agentRare (a.startProcessor now) = agentRare a := by
    intro a
    unfold Agent.startProcessor
    refine (agentRare_congr (a := a.note now (.started a.procs)) rfl).trans ?_
    rw [agentRare_note]
    simp [sentBy, gotBy, weigh]
  exact (h2 _).trans (h1 a)

theorem agentRare_cancel {a a' : Agent} {now : Int} {t : Bytes} (h : a.onCancel now t = .ok a') : agentRare a' = agentRare a := by
  unfold Agent.onCancel at h
  split at h
  · simp only [Py.bind_ok, Py.pure_eq] at h
    obtain ⟨⟨k, tasks⟩, ht, queue, _, e⟩ := h
    cases e
    exact (agentRare_send _ _ _ rfl).trans (agentRare_congr rfl)
  · simp only [Py.bind_ok] at h
    obtain ⟨⟨b, a1⟩, h1, h2⟩ := h
    have hv : agentRare a1 = agentRare a := by
      unfold Agent.cancelRunning at h1
      split at h1
      · cases h1; rfl
      · simp only [Py.bind_ok] at h1
        obtain ⟨k, _, h1⟩ := h1
        split at h1
        · cases h1; rfl
        · cases h1
          exact (agentRare_congr rfl).trans (agentRare_restart a now)
    split at h2 <;> (cases h2; exact (agentRare_send _ _ _ rfl).trans hv)

theorem agentRare_result (a : Agent) (now : Int) (t : Bytes) (st : TaskStatus) (d : UInt32) (r : Bytes) :
    agentRare (a.onResult now t st d r) = agentRare a := by
  unfold Agent.onResult
  split
  · unfold Agent.onInitialized
    split
    · rfl
    · simp only
      split
      · exact (agentRare_tell _ _ _).trans (agentRare_congr rfl)
      · exact agentRare_congr rfl
  · split
    · rfl
    · split
      · rfl
      · exact (agentRare_congr rfl).trans (agentRare_send a now (.taskResult t st d r) rfl)

theorem takeOldest_rare : ∀ (n : Nat) (a : Agent) {r : List Bytes × Agent}, a.takeOldest n = .ok r → agentRare r.2 = agentRare a
  | 0, a, r, h => by cases h; rfl
  | n + 1, a, r, h => by
    simp only [Agent.takeOldest, Py.bind_ok, Py.pure_eq] at h
    obtain ⟨⟨t, queue⟩, _, ⟨k, tasks⟩, ht, ⟨l, a1⟩, h1, e⟩ := h
    cases e
    exact (takeOldest_rare n _ h1).trans (agentRare_congr rfl)

theorem noteRecv_rare (a : Agent) (now : Int) (m : Message) : agentRare (a.note now (.recv m)) = agentRare a - (rareDn m : Nat) := by
  rw [agentRare_note]
  simp [sentBy, gotBy, weigh]

theorem noteHeard_rare (a : Agent) (now : Int) (m : Message) : agentRare (a.note now (.heard m)) = agentRare a := by
  rw [agentRare_note]
  simp [sentBy, gotBy, weigh]

/-- An agent's step replaces work by less work, unless it answers a request of the balancer. -/
theorem agent_value {has : Bytes → Bool} {a a' : Agent} {e : Agent.Event} (ho : innerAgent e.op = true) (hs : a.step e = .ok a') :
    agentRare a' < agentRare a ∨ agentRare a' = agentRare a ∧ (a' = a ∨ agentValue has a' < agentValue has a) := by
  obtain ⟨op, now⟩ := e
  cases op with
  | heartbeat => cases ho
  | check => cases ho
  | turn => exact .inr ⟨agentRare_turn hs, turn_value has hs⟩
  | recv m =>
    have hs : (a.note now (.recv m)).receive now m = .ok a' := hs
    have hv := agentValue_note has a now (.recv m)
    have hr := noteRecv_rare a now m
    simp only [actWork] at hv
    cases m with
    | heartbeatEcho =>
      simp only [Agent.receive] at hs
      cases hs
      refine .inr ⟨?_, .inr ?_⟩
      · refine Eq.trans ?_ (hr.trans (by simp [rareDn]))
        unfold Agent.onEcho; split <;> rfl
      · have : agentValue has ((a.note now (.recv .heartbeatEcho)).onEcho now) = agentValue has (a.note now (.recv .heartbeatEcho)) := by
          unfold Agent.onEcho; split <;> rfl
        simp only [workDn] at hv
        omega
    | task k =>
      simp only [Agent.receive, Agent.onTaskNew, Py.bind_ok, Py.pure_eq] at hs
      obtain ⟨queue, _, e⟩ := hs
      cases e
      refine .inr ⟨(agentRare_congr (a := a.note now (.recv (.task k))) rfl).trans (hr.trans (by simp [rareDn])), .inr ?_⟩
      have h3 := size_set_le (d := (a.note now (.recv (.task k))).tasks) (t := k.taskId) (k := k)
      unfold agentValue at hv ⊢
      simp only [workDn] at hv h3 ⊢
      omega
    | taskCancel t =>
      have hs : (a.note now (.recv (.taskCancel t))).onCancel now t = .ok a' := hs
      refine .inr ⟨(agentRare_cancel hs).trans (hr.trans (by simp [rareDn])), .inr ?_⟩
      have := onCancel_value has hs
      simp only [workDn] at hv
      omega
    | balanceRequest n =>
      simp only [Agent.receive, Py.bind_ok, Py.pure_eq] at hs
      obtain ⟨⟨l, a1⟩, h1, e⟩ := hs
      cases e
      unfold Agent.onBalance at h1
      simp only at h1
      split at h1
      · cases h1
      · have h2 := takeOldest_rare _ _ h1
        refine .inl ?_
        unfold Agent.send
        rw [agentRare_note]
        simp only [rareDn] at hr
        simp [sentBy, gotBy, weigh, rareUp]
        simp only at h2
        omega
    | functionRequest ty f nm b =>
      simp only [Agent.receive, Agent.onFunctionRequest] at hs
      split at hs
      · cases hs
        refine .inr ⟨(agentRare_tell _ _ _).trans (hr.trans (by simp [rareDn])), .inr ?_⟩
        rw [tell_value]
        simp only [workDn, toldWork] at hv ⊢
        omega
      · cases hs
    | functionResponse st f nm b =>
      simp only [Agent.receive, Agent.onFunctionResponse] at hs
      simp only [workDn] at hv
      have hr0 : agentRare (a.note now (.recv (.functionResponse st f nm b))) = agentRare a := hr.trans (by simp [rareDn])
      split at hs
      · cases hs
        exact .inr ⟨hr0, .inr (by omega)⟩
      · simp only [Py.bind_ok] at hs
        obtain ⟨k, _, hs⟩ := hs
        split at hs
        · cases hs
          exact .inr ⟨hr0, .inr (by omega)⟩
        · split at hs
          · cases hs
            exact .inr ⟨hr0, .inr (by omega)⟩
          · cases hs
            refine .inr ⟨(agentRare_tell _ _ _).trans hr0, .inr ?_⟩
            rw [tell_value]
            simp only [toldWork]
            omega
    | _ => cases hs
  | heard m =>
    have hs : (a.note now (.heard m)).receiveInternal now m = .ok a' := hs
    have hv := agentValue_note has a now (.heard m)
    have hr := noteHeard_rare a now m
    simp only [actWork] at hv
    cases m with
    | functionRequest ty f nm b =>
      simp only [Agent.receiveInternal, Agent.onInternalFunctionRequest] at hs
      simp only [heardWork] at hv
      split at hs
      · cases hs
        exact .inr ⟨hr, .inr (by omega)⟩
      · split at hs
        · cases hs
          exact .inr ⟨hr, .inr (by omega)⟩
        · split at hs
          · cases hs
            exact .inr ⟨hr, .inr (by omega)⟩
          · simp only [Py.bind_ok] at hs
            obtain ⟨_, hty, hs⟩ := hs
            cases hs
            have hty : ty = .request := by
              unfold pyAssert at hty
              split at hty <;> simp_all
            subst hty
            refine .inr ⟨(agentRare_send _ _ _ rfl).trans hr, .inr ?_⟩
            rw [send_value]
            simp only [workUp]
            omega
    | taskResult t st d r =>
      simp only [Agent.receiveInternal] at hs
      cases hs
      refine .inr ⟨(agentRare_result _ _ _ _ _ _).trans hr, .inr ?_⟩
      have := onResult_value has (a.note now (.heard (.taskResult t st d r))) now t st d r
      simp only [heardWork] at hv
      by_cases ht : t = []
      · subst ht
        simp only [if_true] at this hv
        omega
      · simp only [if_neg ht] at this hv
        omega
    | _ => cases hs

/-! ### Processors -/

/-- What is left of handling a message. -/
def mainWork : Proc.Main F → Nat
  | .idle => 0
  | .stamp _ => 6
  | .fetch _ => 5
  | .stamp2 _ _ => 4
  | .call _ _ => 3
  | .added _ => 6
  | .del2 _ => 1

/-- everything the processor sent -/
def sentList (q : Proc.Proc F) : List Message := q.log.filterMap fun x => match x.2 with | .sent m => some m | _ => none

theorem sentList_count (m : Message) (q : Proc.Proc F) : (sentList q).count m = q.log.countP fun x => decide (x.2 = .sent m) := by
  unfold sentList
  generalize q.log = l
  induction l with
  | nil => rfl
  | cons x l ih =>
    obtain ⟨now, x⟩ := x
    rw [List.filterMap_cons, List.countP_cons]
    cases x <;> simp [ih, List.count_cons]

/-- The work inside a processor, with what it sent and received. -/
def procValue (q : Proc.Proc F) : Int :=
  (mainWork q.main + weigh heardWork (sentList q) : Nat) - (weigh toldWork (takenList q) : Nat)

/-- Steps of a processor's main thread. -/
def innerProc : Proc.Op → Bool
  | .clean => false
  | _ => true

/-- What an action of a processor adds. -/
def procAct : Proc.Act → Int
  | .recv m => - (toldWork m : Nat)
  | .sent m => (heardWork m : Nat)
  | _ => 0

theorem procValue_eq {q q' : Proc.Proc F} {now : Int} {x : Proc.Act} (h : q'.log = q.log ++ [(now, x)]) :
    procValue q' = procValue q + ((mainWork q'.main : Nat) - (mainWork q.main : Nat)) + procAct x := by
  unfold procValue sentList takenList
  rw [h]
  simp only [List.filterMap_append, weigh_append]
  cases x <;> simp [weigh, procAct] <;> omega

theorem procValue_same {q q' : Proc.Proc F} (h : q'.log = q.log) :
    procValue q' = procValue q + ((mainWork q'.main : Nat) - (mainWork q.main : Nat)) := by
  unfold procValue sentList takenList
  rw [h]
  omega

/-- A processor's step replaces work by less work. -/
theorem proc_value {q q' : Proc.Proc F} {e : Proc.Event} (ho : innerProc e.op = true) (hid : ∀ k f, q.main = .call k f → k.taskId ≠ [])
    (hs : q.step rt e = .ok q') : q' = q ∨ procValue q' < procValue q := by
  obtain ⟨op, now⟩ := e
  cases op with
  | clean => cases ho
  | recv m =>
    simp only [Proc.Proc.step] at hs
    split at hs <;> rename_i hm
    · refine .inr ?_
      have h1 := procValue_eq (q := q) (q' := q.note now (.recv m)) rfl
      have hmm : (q.note now (.recv m)).main = .idle := hm
      rw [hmm, hm] at h1
      simp only [procAct, mainWork] at h1
      have hpos : 1 ≤ toldWork m := by unfold toldWork; split <;> omega
      unfold Proc.Proc.receive at hs
      simp only at hs
      split at hs
      · rename_i ty f nm b
        cases hs
        simp only [toldWork] at h1
        unfold Proc.Proc.onFunctionRequest
        split
        · have h2 := procValue_same (q := q.note now (.recv (.functionRequest ty f nm b)))
            (q' := { q.note now (.recv (.functionRequest ty f nm b)) with
              alive := (q.note now (.recv (.functionRequest ty f nm b))).alive.erase f, main := .del2 f }) rfl
          simp only [hmm, mainWork] at h2
          omega
        · omega
      · rename_i k
        cases hs
        simp only [toldWork] at h1
        unfold Proc.Proc.onTask
        split
        · have h2 := procValue_eq (q := q.note now (.recv (.task k))) (q' := { ((q.note now (.recv (.task k))).note now (.used k.functionId)) with main := .stamp k }) rfl
          simp only [hmm, mainWork, procAct] at h2
          dsimp only at h2 ⊢
          omega
        · have h2 := procValue_eq (q := q.note now (.recv (.task k)))
            (q' := { ((q.note now (.recv (.task k))).note now (.sent (.functionRequest .request k.functionId [] []))) with task := some k }) rfl
          have e : ({ ((q.note now (.recv (.task k))).note now (.sent (.functionRequest .request k.functionId [] []))) with task := some k } : Proc.Proc F).main = .idle := hm
          rw [e, hmm] at h2
          simp only [mainWork, procAct, heardWork] at h2
          dsimp only at h2 ⊢
          omega
      · rename_i st f nm b
        unfold Proc.Proc.onFunctionResponse at hs
        simp only [toldWork] at h1
        split at hs
        · rename_i q1 hq1
          cases hs
          split at hq1
          · cases hq1
            rename_i g _
            have h2 := procValue_same (q := q.note now (.recv (.functionResponse st f nm b)))
              (q' := { q.note now (.recv (.functionResponse st f nm b)) with functions := (q.note now (.recv (.functionResponse st f nm b))).functions.set f g, main := .added f }) rfl
            simp only [hmm, mainWork] at h2
            omega
          · cases hq1
        · cases hs
      · cases hs
        omega
    · cases hs; exact .inl rfl
  | work c dur =>
    simp only [Proc.Proc.step, Proc.Proc.work] at hs
    split at hs <;> rename_i hm
    · cases hs; exact .inl rfl
    · rename_i k
      cases hs
      refine .inr ?_
      have h2 := procValue_eq (q := q) (q' := { (q.stamp now k.functionId) with main := .fetch k }) rfl
      simp only [hm, mainWork, procAct] at h2
      omega
    · rename_i k
      split at hs
      · rename_i f _
        cases hs
        refine .inr ?_
        have h2 := procValue_eq (q := q) (q' := { (q.note now (.used k.functionId)) with main := .stamp2 k f }) rfl
        simp only [hm, mainWork, procAct] at h2
        omega
      · cases hs
        refine .inr ?_
        have h2 := procValue_same (q := q) (q' := { q with main := .call k none }) rfl
        simp only [hm, mainWork] at h2
        omega
    · rename_i k f
      cases hs
      refine .inr ?_
      have h2 := procValue_eq (q := q) (q' := { (q.stamp now k.functionId) with main := .call k (some f) }) rfl
      simp only [hm, mainWork, procAct] at h2
      omega
    · rename_i k f
      refine .inr ?_
      have hk := hid k f hm
      have key : ∀ (st : TaskStatus) (r : Bytes), procValue { (q.note now (.sent (.taskResult k.taskId st dur r))) with main := .idle } < procValue q := by
        intro st r
        have h2 := procValue_eq (q := q) (q' := { (q.note now (.sent (.taskResult k.taskId st dur r))) with main := .idle }) rfl
        simp only [hm, mainWork, procAct, heardWork, if_neg hk] at h2
        dsimp only at h2 ⊢
        omega
      unfold Proc.Proc.answer at hs
      split at hs
      · cases hs; exact key _ _
      · split at hs
        · cases hs; exact key _ _
        · cases hs
    · rename_i f
      split at hs
      · rename_i k _
        cases hs
        refine .inr ?_
        have h2 := procValue_eq (q := q) (q' := { (q.stamp now f) with task := none, main := .fetch k }) rfl
        simp only [hm, mainWork, procAct] at h2
        omega
      · cases hs
    · rename_i f
      cases hs
      refine .inr ?_
      have h2 := procValue_same (q := q) (q' := { q with functions := q.functions.erase f, main := .idle }) rfl
      simp only [hm, mainWork] at h2
      omega

end Verif.System
