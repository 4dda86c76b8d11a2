import Verif.System.Flow

/-!
# Weights of messages and of what peers have to do

The weights are such that every step that does not belong to a larger change replaces something by things that weigh less
together.
-/

namespace Verif.System

open Verif.Wire Verif.Sched Verif.Spec
open Verif.Client (Pickle)

variable {F V X : Type} {p : Pickle} {rt : Proc.Runtime F V X}

/-- Messages to the scheduler that only users, clocks and balancing cause. -/
def rareUp : Message → Nat
  | .graphTask _ => 2
  | .graphTaskCancel _ => 1
  | .taskCancel _ => 1
  | .heartbeat _ => 1
  | .balanceResponse _ => 1
  | .disconnectRequest _ => 1
  | .functionRequest .delete _ _ _ => 1
  | _ => 0

/-- Messages from the scheduler that only its clock causes. -/
def rareDn : Message → Nat
  | .balanceRequest _ => 2
  | _ => 0

/-- A client is told that a function is known which is not. -/
def staleDn (has : Bytes → Bool) : Message → Nat
  | .functionResponse .ok f _ _ => if has f then 0 else 1
  | .functionResponse .duplicated f _ _ => if has f then 0 else 1
  | _ => 0

/-- Work that a message to the scheduler means. -/
def workUp (has : Bytes → Bool) : Message → Nat
  | .task k => if has k.functionId then 2 else 16
  | .functionRequest _ _ _ _ => 9
  | _ => 1

/-- Work that a message from the scheduler means. -/
def workDn : Message → Nat
  | .functionResponse _ _ _ _ => 8
  | .taskEcho _ .functionNotExists => 15
  | .task _ => 15
  | .taskCancel _ => 14
  | .functionRequest _ _ _ _ => 3
  | _ => 1

/-- Work that a message to a processor means. -/
def toldWork : Message → Nat
  | .task _ => 11
  | .functionResponse _ _ _ _ => 7
  | .functionRequest _ _ _ _ => 2
  | _ => 1

/-- Work that a message from a processor means. -/
def heardWork : Message → Nat
  | .taskResult t _ _ _ => if t = [] then 12 else 2
  | .functionRequest _ _ _ _ => 10
  | _ => 1

/-! ### Clients -/

/-- What is left of a call of the user. -/
def userWork : Client.User → Nat
  | .idle => 0
  | .stored _ _ _ => 19
  | .check _ => 18
  | .request _ => 17
  | .append _ => 6
  | .register _ => 1
  | .registerGraph _ _ => 1

/-- tasks that wait for the answer about their function -/
def buffered (c : Client.Client) : Nat := Client.weight (fun ks : List Task => ks.length) c.notReady.items

theorem buffered_append (c : Client.Client) (k : Task) : buffered (c.appendTask k) = buffered c + 1 := by
  unfold buffered Client.Client.appendTask
  have := Client.weight_lset (fun ks : List Task => ks.length) c.notReady.items k.functionId (((c.notReady.get? k.functionId).getD []) ++ [k])
  simp only [Dict.set] at *
  have e : Dict.lget c.notReady.items k.functionId = c.notReady.get? k.functionId := rfl
  rw [e] at this
  cases h : c.notReady.get? k.functionId <;> simp [h] at this ⊢ <;> omega

theorem buffered_erase (c : Client.Client) {f : Bytes} {ks : List Task} (h : c.notReady.get? f = some ks) :
    Client.weight (fun ks : List Task => ks.length) (c.notReady.erase f).items + ks.length = buffered c := by
  unfold buffered
  have := Client.weight_lerase (fun ks : List Task => ks.length) c.notReady.nodup f
  have e : Dict.lget c.notReady.items f = some ks := h
  rw [e] at this
  exact this

/-- The work inside a client. -/
def clientWork (has : Bytes → Bool) (c : Client.Client) : Nat :=
  4 * buffered c + userWork c.user + weigh (fun m => workUp has m + 1) c.outbox

/-- With what it sent and received. -/
def clientValue (has : Bytes → Bool) (c : Client.Client) : Int :=
  (clientWork has c + weigh (workUp has) (clientPut c.log) : Nat) - (weigh workDn (clientGot c.log) : Nat)

/-- Steps of a client that nobody outside causes. -/
def innerClient : Client.Op → Bool
  | .advance => true
  | .recv _ => true
  | .flush => true
  | _ => false

theorem only_value {has : Bytes → Bool} {c c' : Client.Client} (h : Client.OnlyFutures c c') : clientValue has c' = clientValue has c := by
  unfold clientValue clientWork buffered
  rw [h.notReady, h.user, h.outbox, h.log]

theorem clientPut_append (l l' : List Client.Act) : clientPut (l ++ l') = clientPut l ++ clientPut l' := by simp [clientPut]
theorem clientGot_append (l l' : List Client.Act) : clientGot (l ++ l') = clientGot l ++ clientGot l' := by simp [clientGot]

theorem value_note (has : Bytes → Bool) (c : Client.Client) (x : Client.Act) :
    clientValue has (c.note x) = clientValue has c + (weigh (workUp has) (clientPut [x]) : Nat) - (weigh workDn (clientGot [x]) : Nat) := by
  unfold clientValue clientWork buffered
  simp only [Client.Client.note, clientPut_append, clientGot_append, weigh_append]
  omega

/-- The same tables, queue and history. -/
theorem value_congr (has : Bytes → Bool) {c c' : Client.Client} (h1 : c'.notReady = c.notReady) (h2 : c'.user = c.user) (h3 : c'.outbox = c.outbox)
    (h4 : c'.log = c.log) : clientValue has c' = clientValue has c := by
  unfold clientValue clientWork buffered
  rw [h1, h2, h3, h4]

theorem bufferSend_value (has : Bytes → Bool) {c c' : Client.Client} {k : Task} (h : c.bufferSend k = .ok c') :
    clientValue has c' ≤ clientValue has c + 14 := by
  have key : ∀ c : Client.Client, clientValue has (c.appendTask k) = clientValue has c + 4 := by
    intro c
    have := buffered_append c k
    unfold clientValue clientWork
    rw [this]
    simp only [Client.Client.appendTask]
    omega
  unfold Client.Client.bufferSend at h
  split at h
  · cases h
    rw [key]; omega
  · simp only [Client.Client.requestFunction, Py.bind_ok, Py.pure_eq] at h
    obtain ⟨c1, ⟨⟨nm, b⟩, _, e1⟩, e2⟩ := h
    cases e1; cases e2
    rw [key]
    unfold clientValue clientWork buffered
    simp only [Client.Client.send, weigh_append, weigh_cons, weigh_nil, workUp]
    omega

/-- A client's step replaces work by less work, unless it heard of a function that is not there. -/
theorem client_value {has : Bytes → Bool} {c c' : Client.Client} (hi : Client.TaskInv p c) {o : Client.Op} (ho : innerClient o = true)
    (hs : c.step p o = .ok c') :
    c' = c ∨ clientValue has c' < clientValue has c ∨ weigh (staleDn has) (clientGot c.log) < weigh (staleDn has) (clientGot c'.log) := by
  cases o with
  | submit => cases ho
  | get => cases ho
  | cancel => cases ho
  | disconnect => cases ho
  | exit => cases ho
  | advance =>
    simp only [Client.Client.step, Client.Client.advance] at hs
    split at hs <;> rename_i hu
    · cases hs; exact .inl rfl
    · cases hs
      refine .inr (.inl ?_)
      unfold clientValue clientWork buffered; simp only [hu, userWork]; omega
    · cases hs
      refine .inr (.inl ?_)
      unfold clientValue clientWork buffered; simp only [hu]
      split <;> simp only [userWork] <;> omega
    · simp only [Client.Client.requestFunction, Py.bind_ok, Py.pure_eq] at hs
      obtain ⟨c1, ⟨⟨nm, b⟩, _, e1⟩, e2⟩ := hs
      cases e1; cases e2
      refine .inr (.inl ?_)
      unfold clientValue clientWork buffered
      simp only [Client.Client.send, weigh_append, weigh_cons, weigh_nil, workUp, hu, userWork]
      omega
    · rename_i k
      cases hs
      refine .inr (.inl ?_)
      have := buffered_append c k
      unfold buffered at this
      unfold clientValue clientWork buffered
      simp only [this, hu, userWork]
      simp only [Client.Client.appendTask]
      omega
    · cases hs
      refine .inr (.inl ?_)
      unfold clientValue clientWork buffered
      simp only [Client.Client.note, clientPut_append, clientGot_append, weigh_append, hu, userWork]
      simp [clientPut, clientGot, weigh]
      omega
    · cases hs
      refine .inr (.inl ?_)
      unfold clientValue clientWork buffered
      simp only [Client.Client.note, clientPut_append, clientGot_append, weigh_append, hu, userWork]
      simp [clientPut, clientGot, weigh]
      omega
  | flush =>
    simp only [Client.Client.step, Client.Client.flush] at hs
    split at hs
    · cases hs; exact .inl rfl
    · split at hs <;> rename_i hu
      · cases hs; exact .inl rfl
      · simp only [Py.bind_ok, Py.pure_eq] at hs
        obtain ⟨_, _, e⟩ := hs
        cases e
        refine .inr (.inl ?_)
        unfold clientValue clientWork buffered
        simp only [Client.Client.note, clientPut_append, clientGot_append, weigh_append, hu, weigh_cons]
        simp [clientPut, clientGot, weigh]
        omega
  | recv m =>
    simp only [Client.Client.step, Client.Client.receive] at hs
    split at hs
    · cases hs; exact .inl rfl
    · have hn : clientValue has (c.note (.recv m)) = clientValue has c - (workDn m : Nat) := by
        rw [value_note]; simp [clientPut, clientGot, weigh]
      have hpos : 1 ≤ workDn m := by unfold workDn; split <;> omega
      split at hs
      · rename_i t st
        simp only [Client.Client.onTaskEcho] at hs
        split at hs
        · cases hs; exact .inr (.inl (by rw [hn]; omega))
        · split at hs
          · cases hs; exact .inr (.inl (by rw [hn]; omega))
          · have h1 := bufferSend_value has hs
            have h2 : workDn (.taskEcho t .functionNotExists) = 15 := rfl
            exact .inr (.inl (by omega))
          · cases hs
          · simp only [Py.bind_ok] at hs
            obtain ⟨⟨_, ts⟩, _, ⟨_, fs⟩, _, n, _, e⟩ := hs
            have h1 : clientValue has c' = clientValue has (c.note (.recv (.taskEcho t .submitOK))) :=
              (only_value (Client.setFuture_only e)).trans (value_congr has rfl rfl rfl rfl)
            exact .inr (.inl (by omega))
          · cases hs
          · cases hs
      · rename_i st f nm b
        simp only [Client.Client.onFunctionResponse, Py.bind_ok] at hs
        obtain ⟨_, ha, hs⟩ := hs
        have hst : st = .ok ∨ st = .duplicated := by
          unfold pyAssert at ha
          split at ha <;> simp_all
        have h8 : workDn (.functionResponse st f nm b) = 8 := rfl
        split at hs
        · cases hs; exact .inr (.inl (by rw [hn]; omega))
        · rename_i ks hg
          cases hs
          by_cases hh : has f = true
          · refine .inr (.inl ?_)
            have hw := hi.wait f ks hg
            have e1 : weigh (fun m => workUp has m + 1) (ks.map Message.task) = 3 * ks.length := by
              clear hg
              induction ks with
              | nil => rfl
              | cons k ks ih =>
                have h1 := (hw k List.mem_cons_self).1
                rw [List.map_cons, weigh_cons, ih fun k hk => hw k (List.mem_cons_of_mem _ hk)]
                simp only [workUp, h1, hh, if_true, List.length_cons]
                omega
            have e2 := buffered_erase c hg
            unfold clientValue clientWork at hn ⊢
            simp only [weigh_append, e1]
            unfold buffered at hn e2 ⊢
            simp only [Client.Client.note] at hn ⊢
            omega
          · refine .inr (.inr ?_)
            have hf : has f = false := by simpa using hh
            simp only [Client.Client.note, clientGot_append, weigh_append]
            rcases hst with rfl | rfl <;> simp [clientGot, weigh, staleDn, hf]
      · rename_i t st d r
        refine .inr (.inl ?_)
        have key : clientValue has c' = clientValue has (c.note (.recv (.taskResult t st d r))) := by
          simp only [Client.Client.onTaskResult] at hs
          split at hs
          · cases hs; rfl
          · split at hs
            · simp only [Py.bind_ok] at hs
              obtain ⟨_, _, e⟩ := hs
              exact (only_value (Client.setFuture_only e)).trans (value_congr has rfl rfl rfl rfl)
            · simp only [Py.bind_ok] at hs
              obtain ⟨_, _, e⟩ := hs
              exact (only_value (Client.setFuture_only e)).trans (value_congr has rfl rfl rfl rfl)
            · cases hs; exact value_congr has rfl rfl rfl rfl
        omega
      · rename_i g st rs
        refine .inr (.inl ?_)
        have key : clientValue has c' = clientValue has (c.note (.recv (.graphTaskResult g st rs))) := by
          simp only [Client.Client.onGraphTaskResult] at hs
          split at hs
          · cases hs; rfl
          · split at hs
            · exact (only_value (Client.resolveAll_only hs)).trans (value_congr has rfl rfl rfl rfl)
            · simp only [Py.bind_ok] at hs
              obtain ⟨_, _, _, _, e⟩ := hs
              exact (only_value (Client.resolveAll_only e)).trans (value_congr has rfl rfl rfl rfl)
            · cases hs; exact value_congr has rfl rfl rfl rfl
        omega
      · cases hs

/-- The rare part of what a client sent or is about to send. -/
def clientRare (c : Client.Client) : Nat := weigh rareUp c.outbox + weigh rareUp (clientPut c.log)

theorem client_rare {c c' : Client.Client} {o : Client.Op} (ho : innerClient o = true) (hs : c.step p o = .ok c') : clientRare c' ≤ clientRare c := by
  have hnote : ∀ (c : Client.Client) (m : Message), clientRare (c.note (.recv m)) = clientRare c := by
    intro c m
    simp [clientRare, Client.Client.note, clientPut, weigh]
  have honly : ∀ {c c' : Client.Client}, Client.OnlyFutures c c' → clientRare c' = clientRare c := by
    intro c c' h; unfold clientRare; rw [h.outbox, h.log]
  have hreq : ∀ {c c' : Client.Client} {k : Task}, c.requestFunction k = .ok c' → clientRare c' = clientRare c := by
    intro c c' k h
    simp only [Client.Client.requestFunction, Py.bind_ok, Py.pure_eq] at h
    obtain ⟨⟨nm, b⟩, _, e1⟩ := h
    cases e1
    simp [clientRare, Client.Client.send, weigh, rareUp]
  have htask : ∀ ks : List Task, weigh rareUp (ks.map Message.task) = 0 := by
    intro ks
    induction ks with
    | nil => rfl
    | cons k ks ih => rw [List.map_cons, weigh_cons, ih]; rfl
  cases o with
  | submit => cases ho
  | get => cases ho
  | cancel => cases ho
  | disconnect => cases ho
  | exit => cases ho
  | advance =>
    simp only [Client.Client.step, Client.Client.advance] at hs
    split at hs
    · cases hs; exact Nat.le_refl _
    · cases hs; exact Nat.le_refl _
    · cases hs; exact Nat.le_refl _
    · simp only [Py.bind_ok, Py.pure_eq] at hs
      obtain ⟨c1, h1, e2⟩ := hs
      cases e2
      exact Nat.le_of_eq (Eq.trans (b := clientRare c1) rfl (hreq h1))
    · cases hs; exact Nat.le_refl _
    · cases hs
      simp [clientRare, Client.Client.note, clientPut, weigh]
    · cases hs
      simp [clientRare, Client.Client.note, clientPut, weigh]
  | flush =>
    simp only [Client.Client.step, Client.Client.flush] at hs
    split at hs
    · cases hs; exact Nat.le_refl _
    · split at hs <;> rename_i hu
      · cases hs; exact Nat.le_refl _
      · simp only [Py.bind_ok, Py.pure_eq] at hs
        obtain ⟨_, _, e⟩ := hs
        cases e
        simp [clientRare, Client.Client.note, clientPut, weigh, hu]
        omega
  | recv m =>
    simp only [Client.Client.step, Client.Client.receive] at hs
    split at hs
    · cases hs; exact Nat.le_refl _
    · refine Nat.le_of_eq (Eq.trans ?_ (hnote c m))
      split at hs
      · simp only [Client.Client.onTaskEcho] at hs
        split at hs
        · cases hs; rfl
        · split at hs
          · cases hs; rfl
          · unfold Client.Client.bufferSend at hs
            split at hs
            · cases hs; rfl
            · simp only [Py.bind_ok, Py.pure_eq] at hs
              obtain ⟨c1, h1, e2⟩ := hs
              cases e2
              exact Eq.trans (b := clientRare c1) rfl (hreq h1)
          · cases hs
          · simp only [Py.bind_ok] at hs
            obtain ⟨⟨_, ts⟩, _, ⟨_, fs⟩, _, n, _, e⟩ := hs
            exact (honly (Client.setFuture_only e)).trans rfl
          · cases hs
          · cases hs
      · simp only [Client.Client.onFunctionResponse, Py.bind_ok] at hs
        obtain ⟨_, _, hs⟩ := hs
        split at hs
        · cases hs; rfl
        · cases hs
          simp only [clientRare, weigh_append, htask]
          omega
      · simp only [Client.Client.onTaskResult] at hs
        split at hs
        · cases hs; rfl
        · split at hs
          · simp only [Py.bind_ok] at hs
            obtain ⟨_, _, e⟩ := hs
            exact (honly (Client.setFuture_only e)).trans rfl
          · simp only [Py.bind_ok] at hs
            obtain ⟨_, _, e⟩ := hs
            exact (honly (Client.setFuture_only e)).trans rfl
          · cases hs; rfl
      · simp only [Client.Client.onGraphTaskResult] at hs
        split at hs
        · cases hs; rfl
        · split at hs
          · exact (honly (Client.resolveAll_only hs)).trans rfl
          · simp only [Py.bind_ok] at hs
            obtain ⟨_, _, _, _, e⟩ := hs
            exact (honly (Client.resolveAll_only e)).trans rfl
          · cases hs; rfl
      · cases hs

end Verif.System
