import Verif.Client.ClientFutures

/-!
# The client when no message is handled while `submit` runs
-/

namespace Verif.Client

open Verif.Wire Verif.Spec.Client Client

/-- Where a task is that is not acknowledged. -/
def Placed (c : Client) (k : Task) : Prop :=
  c.user.unsent? = some k ∨ (∃ ks, c.notReady.get? k.functionId = some ks ∧ k ∈ ks) ∨ Message.task k ∈ c.outbox ∨
  lastCopy k.taskId c.log = .flying ∨ lastCopy k.taskId c.log = .echoed .duplicated

/-- What holds if no message is handled while `submit` runs. -/
structure AloneInv (c : Client) : Prop where
  ask : ∀ fid, (c.notReady.get? fid).isSome → Outstanding fid c
  app : ∀ k, c.user = .append k → Outstanding k.functionId c
  place : ∀ t k, c.toTask.get? t = some k → Placed c k

theorem _root_.Verif.Spec.Client.ReachAlone.reach {p : Pickle} {c : Client} (h : ReachAlone p c) : Reach p c := by
  induction h with
  | init => exact .init
  | step o _ hf _ e ih => exact .step o ih hf e

/-- An entry that changes neither the requests nor the copies. -/
structure Silent (x : Act) : Prop where
  ask : ∀ fid s, askStep fid x s = s
  copy : ∀ t s, copyStep t x s = s

theorem _root_.Verif.Spec.Client.Outstanding.mono {fid : Bytes} {c c' : Client} (h : Outstanding fid c) (h1 : ∀ m ∈ c.outbox, m ∈ c'.outbox)
    (h2 : asked fid c.log = true → asked fid c'.log = true) : Outstanding fid c' := by
  rcases h with ⟨nm, b, h⟩ | h
  · exact .inl ⟨nm, b, h1 _ h⟩
  · exact .inr (h2 h)

theorem AloneInv.congr {c c' : Client} (h : AloneInv c) (h1 : c'.toTask = c.toTask) (h2 : c'.notReady = c.notReady)
    (h3 : c'.outbox = c.outbox) (h4 : c'.user = c.user) (h5 : c'.log = c.log) : AloneInv c' := by
  obtain ⟨a1, a2, a3⟩ := h
  constructor
  · simpa [h2, Outstanding, h3, h5] using a1
  · simpa [h4, Outstanding, h3, h5] using a2
  · simpa [h1, Placed, h2, h3, h4, h5] using a3

theorem AloneInv.only {c c' : Client} (h : AloneInv c) (ho : OnlyFutures c c') : AloneInv c' :=
  h.congr ho.toTask ho.notReady ho.outbox ho.user ho.log

theorem AloneInv.note {c : Client} (h : AloneInv c) {x : Act} (hx : Silent x) : AloneInv (c.note x) := by
  obtain ⟨a1, a2, a3⟩ := h
  have e1 : ∀ fid, asked fid (c.log ++ [x]) = asked fid c.log := fun fid => by rw [asked_snoc, hx.ask]
  have e2 : ∀ t, lastCopy t (c.log ++ [x]) = lastCopy t c.log := fun t => by rw [lastCopy_snoc, hx.copy]
  constructor
  · simpa [Outstanding, Client.note, e1] using a1
  · simpa [Outstanding, Client.note, e1] using a2
  · simpa [Placed, Client.note, e2] using a3

theorem silent_submitted (k : Task) (nm b : Bytes) : Silent (.submitted k nm b) := ⟨fun _ _ => rfl, fun _ _ => rfl⟩
theorem silent_graph (g : GraphTask) : Silent (.graph g) := ⟨fun _ _ => rfl, fun _ _ => rfl⟩
theorem silent_returned (t : Bytes) (n : Nat) : Silent (.returned t n) := ⟨fun _ _ => rfl, fun _ _ => rfl⟩
theorem silent_started (t : Bytes) (n : List Nat) : Silent (.started t n) := ⟨fun _ _ => rfl, fun _ _ => rfl⟩
theorem silent_cancelled (n : Nat) : Silent (.cancelled n) := ⟨fun _ _ => rfl, fun _ _ => rfl⟩
theorem silent_exited : Silent .exited := ⟨fun _ _ => rfl, fun _ _ => rfl⟩
theorem silent_taskCancel (t : Bytes) : Silent (.sent (.taskCancel t)) := ⟨fun _ _ => rfl, fun _ _ => rfl⟩
theorem silent_graphCancel (t : Bytes) : Silent (.sent (.graphTaskCancel t)) := ⟨fun _ _ => rfl, fun _ _ => rfl⟩
theorem silent_result (t : Bytes) (st : TaskStatus) (m : UInt32) (r : Bytes) : Silent (.recv (.taskResult t st m r)) :=
  ⟨fun _ _ => rfl, fun _ _ => rfl⟩
theorem silent_graphResult (t : Bytes) (st : TaskStatus) (r : List Bytes) : Silent (.recv (.graphTaskResult t st r)) :=
  ⟨fun _ _ => rfl, fun _ _ => rfl⟩

/-- The table is asked about and the request is queued if needed. -/
theorem append_alone {c : Client} {k : Task} (h1 : ∀ fid, (c.notReady.get? fid).isSome → Outstanding fid c)
    (h2 : Outstanding k.functionId c) : ∀ fid, ((c.appendTask k).notReady.get? fid).isSome → Outstanding fid (c.appendTask k) := by
  intro fid hs
  simp only [appendTask, Dict.get?_set] at hs
  split at hs
  · rename_i e; subst e; exact h2
  · exact h1 fid hs

theorem append_wait {c : Client} {k k' : Task}
    (h : ∃ ks, c.notReady.get? k'.functionId = some ks ∧ k' ∈ ks) : ∃ ks, (c.appendTask k).notReady.get? k'.functionId = some ks ∧ k' ∈ ks := by
  obtain ⟨ks, h1, h2⟩ := h
  simp only [appendTask, Dict.get?_set]
  split
  · rename_i e
    rw [e, h1]
    exact ⟨_, rfl, by simp [h2]⟩
  · exact ⟨ks, h1, h2⟩

theorem append_self (c : Client) (k : Task) : ∃ ks, (c.appendTask k).notReady.get? k.functionId = some ks ∧ k ∈ ks := by
  simp [appendTask]

theorem bufferSend_alone {c c' : Client} {k : Task} (e : c.bufferSend k = .ok c') :
    (∀ m ∈ c.outbox, m ∈ c'.outbox) ∧ c'.log = c.log ∧ c'.user = c.user ∧ c'.toTask = c.toTask ∧
    ((∀ fid, (c.notReady.get? fid).isSome → Outstanding fid c) → (∀ fid, (c'.notReady.get? fid).isSome → Outstanding fid c')) ∧
    (∀ k' : Task, (∃ ks, c.notReady.get? k'.functionId = some ks ∧ k' ∈ ks) → ∃ ks, c'.notReady.get? k'.functionId = some ks ∧ k' ∈ ks) ∧
    ∃ ks, c'.notReady.get? k.functionId = some ks ∧ k ∈ ks := by
  simp only [bufferSend] at e
  split at e
  · rename_i hh
    cases e
    exact ⟨fun _ h => h, rfl, rfl, rfl, fun h => append_alone h (h _ hh), fun k' h => append_wait h, append_self c k⟩
  · simp only [Py.bind_ok, Py.pure_eq] at e
    obtain ⟨c1, e1, e2⟩ := e
    cases e2
    obtain ⟨nm, b, rfl⟩ := request_count e1
    refine ⟨fun m h => List.mem_append_left _ h, rfl, rfl, rfl, ?_, fun k' h => append_wait h, append_self _ k⟩
    intro h
    refine append_alone ?_ (.inl ⟨nm, b, by simp [Client.send]⟩)
    exact fun fid hs => (h fid hs).mono (fun m hm => List.mem_append_left _ hm) id

theorem receive_alone {p : Pickle} {c c' : Client} {m : Message} (ht : TaskInv p c) (h : AloneInv c) (hu : c.user = .idle)
    (e : c.receive p m = .ok c') : AloneInv c' := by
  simp only [receive] at e
  split at e
  · rename_i t st
    have hcopy : ∀ i, i ≠ t → lastCopy i (c.log ++ [.recv (.taskEcho t st)]) = lastCopy i c.log := by
      intro i hi
      rw [lastCopy_snoc]
      simp only [copyStep]
      rw [if_neg (fun h => hi h.symm)]
    have hself : lastCopy t (c.log ++ [.recv (.taskEcho t st)]) = .echoed st := by
      rw [lastCopy_snoc]; simp [copyStep]
    have hask : ∀ fid, asked fid (c.log ++ [.recv (.taskEcho t st)]) = asked fid c.log := fun fid => by rw [asked_snoc]; rfl
    obtain ⟨a1, a2, a3⟩ := h
    have hout : ∀ fid, Outstanding fid c → Outstanding fid (c.note (.recv (.taskEcho t st))) :=
      fun fid h => h.mono (fun _ h => h) (by simp only [Client.note, hask]; exact id)
    -- other tasks stay where they are
    have other : ∀ k : Task, k.taskId ≠ t → Placed c k → Placed (c.note (.recv (.taskEcho t st))) k := by
      intro k hk hp
      simpa only [Placed, Client.note, hcopy _ hk] using hp
    simp only [onTaskEcho] at e
    split at e
    · rename_i hn
      cases e
      refine ⟨fun fid hs => hout fid (a1 fid hs), fun k hk => hout _ (a2 k hk), ?_⟩
      intro i k hk
      have hid : k.taskId = i := (ht.task i k hk).1
      refine other k ?_ (a3 i k hk)
      rintro rfl
      rw [← hid] at hk
      exact absurd (hn.symm.trans hk) (by simp)
    · rename_i k0 hk0
      have hk0 : c.toTask.get? t = some k0 := hk0
      split at e
      · cases e
        refine ⟨fun fid hs => hout fid (a1 fid hs), fun k hk => hout _ (a2 k hk), ?_⟩
        intro i k hk
        have hid : k.taskId = i := (ht.task i k hk).1
        by_cases hi : k.taskId = t
        · right; right; right; right
          rw [hi]
          exact hself
        · exact other k hi (a3 i k hk)
      · obtain ⟨b1, b2, b3, b4, b5, b6, b7⟩ := bufferSend_alone e
        refine ⟨?_, ?_, ?_⟩
        · exact b5 (fun fid hs => hout fid (a1 fid hs))
        · intro k hk
          rw [b3] at hk
          exact absurd hk (by simp [Client.note, hu])
        · intro i k hk
          rw [b4] at hk
          have hid : k.taskId = i := (ht.task i k hk).1
          by_cases hi : k.taskId = t
          · have : k = k0 := by
              rw [← hid, hi] at hk
              exact Option.some.inj (hk.symm.trans hk0)
            subst this
            exact .inr (.inl b7)
          · rcases other k hi (a3 i k hk) with h | h | h | h | h
            · exact .inl (by rw [b3]; exact h)
            · exact .inr (.inl (b6 k h))
            · exact .inr (.inr (.inl (b1 _ h)))
            · exact .inr (.inr (.inr (.inl (by rw [b2]; exact h))))
            · exact .inr (.inr (.inr (.inr (by rw [b2]; exact h))))
      · cases e
      · simp only [Py.bind_ok] at e
        obtain ⟨⟨x, x'⟩, hx, ⟨y, y'⟩, hy, n, _, e⟩ := e
        have ho := setFuture_only e
        obtain ⟨_, h1⟩ := Dict.pop_ok.1 hx
        cases h1
        have hi : AloneInv { (c.note (.recv (.taskEcho t .submitOK))) with toTask := c.toTask.erase t } := by
          refine ⟨fun fid hs => hout fid (a1 fid hs), fun k hk => hout _ (a2 k hk), ?_⟩
          intro i k hk
          simp only [Dict.get?_erase] at hk
          split at hk
          · cases hk
          · rename_i hne
            have hid : k.taskId = i := (ht.task i k hk).1
            exact other k (by rw [hid]; exact fun e => hne e.symm) (a3 i k hk)
        exact hi.congr ho.toTask ho.notReady ho.outbox ho.user ho.log
      · cases e
      · cases e
  · rename_i st fid nm b
    have hask : ∀ i, i ≠ fid → asked i (c.log ++ [.recv (.functionResponse st fid nm b)]) = asked i c.log := by
      intro i hi
      rw [asked_snoc]
      have hi : fid ≠ i := fun h => hi h.symm
      simp [askStep, hi]
    have hcopy : ∀ i, lastCopy i (c.log ++ [.recv (.functionResponse st fid nm b)]) = lastCopy i c.log := by
      intro i; rw [lastCopy_snoc]; rfl
    simp only [onFunctionResponse, Py.bind_ok] at e
    obtain ⟨_, hst, e⟩ := e
    obtain ⟨a1, a2, a3⟩ := h
    split at e <;> cases e
    · rename_i hn
      have hn : c.notReady.get? fid = none := hn
      refine ⟨?_, ?_, ?_⟩
      · intro i hs
        have hne : i ≠ fid := by
          rintro rfl
          have hs : (c.notReady.get? i).isSome = true := hs
          simp [hn] at hs
        exact (a1 i hs).mono (fun _ h => h) (by simp only [Client.note, hask i hne]; exact id)
      · intro k hk; exact absurd hk (by simp [Client.note, hu])
      · intro i k hk
        have := a3 i k hk
        simpa only [Placed, Client.note, hcopy] using this
    · rename_i ks hg
      have hg : c.notReady.get? fid = some ks := hg
      refine ⟨?_, ?_, ?_⟩
      · intro i hs
        simp only [Client.note, Dict.get?_erase] at hs
        split at hs
        · cases hs
        · rename_i hne
          exact (a1 i hs).mono (fun m hm => List.mem_append_left _ hm) (by
            simp only [Client.note, hask i (fun e => hne e.symm)]; exact id)
      · intro k hk; exact absurd hk (by simp [Client.note, hu])
      · intro i k hk
        simp only [Placed, Client.note, hcopy, Dict.get?_erase]
        rcases a3 i k hk with h | ⟨ks', h, h'⟩ | h | h | h
        · exact .inl h
        · by_cases he : fid = k.functionId
          · subst he
            rw [h] at hg; cases hg
            exact .inr (.inr (.inl (by simp [h'])))
          · exact .inr (.inl (by rw [if_neg he]; exact ⟨ks', h, h'⟩))
        · exact .inr (.inr (.inl (List.mem_append_left _ h)))
        · exact .inr (.inr (.inr (.inl h)))
        · exact .inr (.inr (.inr (.inr h)))
  · rename_i t st mm r
    have h1 := h.note (silent_result t st mm r)
    simp only [onTaskResult] at e
    split at e
    · cases e; exact h1
    · split at e
      · simp only [Py.bind_ok] at e
        obtain ⟨_, _, e⟩ := e
        have ho := setFuture_only e
        exact h1.congr ho.toTask ho.notReady ho.outbox ho.user ho.log
      · simp only [Py.bind_ok] at e
        obtain ⟨_, _, e⟩ := e
        have ho := setFuture_only e
        exact h1.congr ho.toTask ho.notReady ho.outbox ho.user ho.log
      · cases e; exact h1.congr rfl rfl rfl rfl rfl
  · rename_i g st rs
    have h1 := h.note (silent_graphResult g st rs)
    simp only [onGraphTaskResult] at e
    split at e
    · cases e; exact h1
    · split at e
      · have ho := resolveAll_only e
        exact h1.congr ho.toTask ho.notReady ho.outbox ho.user ho.log
      · simp only [Py.bind_ok] at e
        obtain ⟨_, _, _, _, e⟩ := e
        have ho := resolveAll_only e
        exact h1.congr ho.toTask ho.notReady ho.outbox ho.user ho.log
      · cases e; exact h1.congr rfl rfl rfl rfl rfl
  · cases e

theorem exitTasks_alone {l : List (Bytes × Nat)} {c c' : Client} (h : AloneInv c) (e : c.exitTasks l = .ok c') : AloneInv c' := by
  induction l generalizing c with
  | nil => simp only [exitTasks] at e; cases e; exact h
  | cons x l ih =>
    simp only [exitTasks, Py.bind_ok] at e
    obtain ⟨c1, h1, h2⟩ := e
    exact ih ((h.note (silent_taskCancel _)).only (setFuture_only h1)) h2

theorem exitGraphs_alone {l : List (Bytes × List Nat)} {c c' : Client} (h : AloneInv c) (e : c.exitGraphs l = .ok c') : AloneInv c' := by
  induction l generalizing c with
  | nil => simp only [exitGraphs] at e; cases e; exact h
  | cons x l ih =>
    simp only [exitGraphs, Py.bind_ok] at e
    obtain ⟨c1, h1, h2⟩ := e
    exact ih ((h.note (silent_graphCancel _)).only (exitFutures_only h1)) h2

theorem step_alone {p : Pickle} {c c' : Client} {o : Op} (ht : TaskInv p c) (h : AloneInv c) (hn : FreshOp c o) (hu : Undisturbed c o)
    (e : c.step p o = .ok c') : AloneInv c' := by
  cases o with
  | submit t nm b args =>
    simp only [Client.step] at e
    split at e <;> cases e
    · rename_i hi
      obtain ⟨a1, a2, a3⟩ := h.note (silent_submitted ⟨t, p.hash b, args.map fun a => ⟨.data, a⟩⟩ nm b)
      refine ⟨a1, by simp [submit], ?_⟩
      intro i k hk
      simp only [submit, Dict.get?_set] at hk
      split at hk
      · cases hk; exact .inl rfl
      · rcases a3 i k hk with h | h
        · simp [Client.note, hi, User.unsent?] at h
        · exact .inr h
    · exact h
  | get g =>
    simp only [Client.step] at e
    split at e <;> cases e
    · rename_i hi
      obtain ⟨a1, a2, a3⟩ := h.note (silent_graph g)
      refine ⟨fun fid hs => (a1 fid hs).mono (fun m hm => List.mem_append_left _ hm) id, by simp [Client.get], ?_⟩
      intro i k hk
      rcases a3 i k hk with h | h | h | h
      · simp [Client.note, hi, User.unsent?] at h
      · exact .inr (.inl h)
      · exact .inr (.inr (.inl (List.mem_append_left _ h)))
      · exact .inr (.inr (.inr h))
    · exact h
  | advance =>
    simp only [Client.step, advance] at e
    split at e
    · cases e; exact h
    · rename_i k nm b hi
      cases e
      obtain ⟨a1, a2, a3⟩ := h
      refine ⟨a1, by simp, ?_⟩
      intro i k hk
      have := a3 i k hk
      simpa [Placed, hi, User.unsent?] using this
    · rename_i k hi
      cases e
      obtain ⟨a1, a2, a3⟩ := h
      have hp : ∀ i k', c.toTask.get? i = some k' → k = k' ∨ (∃ ks, c.notReady.get? k'.functionId = some ks ∧ k' ∈ ks) ∨
          Message.task k' ∈ c.outbox ∨ lastCopy k'.taskId c.log = .flying ∨ lastCopy k'.taskId c.log = .echoed .duplicated := by
        intro i k' hk
        have := a3 i k' hk
        simpa [Placed, hi, User.unsent?] using this
      by_cases hh : c.notReady.has k.functionId = true
      all_goals simp only [hh, if_true, if_false, Bool.false_eq_true]
      · refine ⟨a1, ?_, ?_⟩
        · intro k' hk'; cases hk'; exact a1 _ hh
        · intro i k' hk
          simpa [Placed, User.unsent?] using hp i k' hk
      · refine ⟨a1, by simp, ?_⟩
        intro i k' hk
        simpa [Placed, User.unsent?] using hp i k' hk
    · rename_i k hi
      simp only [Py.bind_ok, Py.pure_eq] at e
      obtain ⟨c1, e1, e2⟩ := e
      cases e2
      obtain ⟨nm, b, rfl⟩ := request_count e1
      obtain ⟨a1, a2, a3⟩ := h
      refine ⟨?_, ?_, ?_⟩
      · exact fun fid hs => (a1 fid hs).mono (fun m hm => List.mem_append_left _ hm) id
      · intro k' hk'
        cases hk'
        exact .inl ⟨nm, b, by simp [Client.send]⟩
      · intro i k' hk
        rcases a3 i k' hk with h | h | h | h
        · exact .inl (by simpa [hi, User.unsent?] using h)
        · exact .inr (.inl h)
        · exact .inr (.inr (.inl (List.mem_append_left _ h)))
        · exact .inr (.inr (.inr h))
    · rename_i k hi
      cases e
      obtain ⟨a1, a2, a3⟩ := h
      refine ⟨?_, by simp, ?_⟩
      · exact append_alone a1 (a2 k hi)
      · intro i k' hk
        rcases a3 i k' hk with h | h | h
        · simp only [hi, User.unsent?, Option.some.injEq] at h
          subst h
          exact .inr (.inl (append_self c k))
        · exact .inr (.inl (append_wait h))
        · exact .inr (.inr h)
    · rename_i k hi
      cases e
      obtain ⟨a1, a2, a3⟩ := h.note (silent_returned k.taskId c.futures.length)
      refine ⟨a1, by simp, ?_⟩
      intro i k' hk
      have := a3 i k' hk
      simpa [Placed, Client.note, hi, User.unsent?] using this
    · rename_i g ns hi
      cases e
      obtain ⟨a1, a2, a3⟩ := h.note (silent_started g ns)
      refine ⟨a1, by simp, ?_⟩
      intro i k' hk
      have := a3 i k' hk
      simpa [Placed, Client.note, hi, User.unsent?] using this
  | cancel n => cases e; exact (h.note (silent_cancelled n)).congr rfl rfl rfl rfl rfl
  | disconnect => cases e; exact h.congr rfl rfl rfl rfl rfl
  | recv m =>
    simp only [Client.step] at e
    split at e
    · cases e; exact h
    · exact receive_alone ht h hu e
  | flush =>
    simp only [Client.step] at e
    split at e
    · cases e; exact h
    · simp only [flush] at e
      split at e
      · cases e; exact h
      · rename_i m ms ho
        simp only [Py.bind_ok, Py.pure_eq] at e
        obtain ⟨_, _, e⟩ := e
        cases e
        obtain ⟨a1, a2, a3⟩ := h
        have hout : ∀ fid, Outstanding fid c → Outstanding fid { (c.note (.sent m)) with outbox := ms } := by
          intro fid h
          rcases h with ⟨nm, b, h⟩ | h
          · rw [ho, List.mem_cons] at h
            rcases h with h | h
            · subst h
              right
              simp only [Client.note]
              rw [asked_snoc]; simp [askStep]
            · exact .inl ⟨nm, b, h⟩
          · right
            simp only [Client.note]
            rw [asked_snoc, h]
            unfold askStep
            split <;> simp_all
        refine ⟨fun fid hs => hout fid (a1 fid hs), fun k hk => hout _ (a2 k hk), ?_⟩
        intro i k hk
        have keep : ∀ s, s = Copy.flying ∨ s = .echoed .duplicated → lastCopy k.taskId c.log = s →
            lastCopy k.taskId (c.log ++ [.sent m]) = s ∨ lastCopy k.taskId (c.log ++ [.sent m]) = .flying := by
          intro s hs he
          rw [lastCopy_snoc, he]
          unfold copyStep
          split
          · split
            · exact .inr rfl
            · exact .inl rfl
          · simp_all
          · exact .inl rfl
        rcases a3 i k hk with h | h | h | h | h
        · exact .inl h
        · exact .inr (.inl h)
        · rw [ho, List.mem_cons] at h
          rcases h with h | h
          · subst h
            refine .inr (.inr (.inr (.inl ?_)))
            simp only [Client.note]
            rw [lastCopy_snoc]; simp [copyStep]
          · exact .inr (.inr (.inl h))
        · rcases keep _ (.inl rfl) h with h | h <;> exact .inr (.inr (.inr (.inl h)))
        · rcases keep _ (.inr rfl) h with h | h
          · exact .inr (.inr (.inr (.inr h)))
          · exact .inr (.inr (.inr (.inl h)))
  | exit =>
    simp only [Client.step] at e
    split at e
    · simp only [exit, Py.bind_ok, Py.pure_eq] at e
      obtain ⟨c1, h1, c2, h2, e⟩ := e
      cases e
      exact ((exitGraphs_alone (exitTasks_alone h h1) h2).note silent_exited).congr rfl rfl rfl rfl rfl
    · cases e; exact h

theorem _root_.Verif.Spec.Client.ReachAlone.alone {p : Pickle} {c : Client} (h : ReachAlone p c) : AloneInv c := by
  induction h with
  | init => constructor <;> simp [Client.init]
  | step o hr hf hu e ih => exact step_alone hr.reach.task ih hf hu e

/-! ## Unacknowledged tasks -/

/-- `submit` created the task and no acceptance arrived. -/
theorem Reach.unacked {p : Pickle} {c : Client} (h : Reach p c) :
    ∀ k nm b, Act.submitted k nm b ∈ c.log → Act.recv (.taskEcho k.taskId .submitOK) ∉ c.log → c.toTask.get? k.taskId = some k := by
  induction h with
  | init => simp [Client.init]
  | @step c c' o hr hf e ih =>
    intro k nm b hk hn
    have hn0 : Act.recv (.taskEcho k.taskId .submitOK) ∉ c.log := fun h => hn (step_mono e _ h)
    obtain ⟨xs, hl, hx⟩ := step_log e
    have hsame : c'.toTask = c.toTask → (Act.submitted k nm b ∈ c.log) → c'.toTask.get? k.taskId = some k := by
      intro h1 h2; rw [h1]; exact ih k nm b h2 hn0
    have hold : (∀ t nm b args, o ≠ .submit t nm b args) → Act.submitted k nm b ∈ c.log := by
      intro ho
      rw [hl] at hk
      rcases List.mem_append.1 hk with hk | hk
      · exact hk
      · rcases hx with hx | ⟨_, _, _, _, _, rfl⟩ | ⟨g, rfl, _⟩
        · exfalso
          obtain ⟨l1, l2, rfl⟩ := List.append_of_mem hk
          simp [usedIds_append, usedIds] at hx
        · exact absurd rfl (ho _ _ _ _)
        · simp at hk
    cases o with
    | submit t nm' b' args =>
      simp only [Client.step] at e
      split at e <;> cases e
      · simp only [submit, Client.note, List.mem_append, List.mem_singleton] at hk
        simp only [submit, Client.note, Dict.get?_set]
        rcases hk with hk | hk
        · have h1 := hr.task.used k nm b hk
          rw [if_neg (fun (e : t = k.taskId) => hf (e ▸ h1))]
          exact ih k nm b hk hn0
        · cases hk; simp
      · exact ih k nm b hk hn
    | get g =>
      have hk0 := hold (by simp)
      simp only [Client.step] at e
      split at e <;> cases e <;> exact hsame rfl hk0
    | advance =>
      have hk0 := hold (by simp)
      simp only [Client.step, advance] at e
      split at e
      · cases e; exact hsame rfl hk0
      · cases e; exact hsame rfl hk0
      · cases e; exact hsame rfl hk0
      · simp only [Py.bind_ok, Py.pure_eq] at e
        obtain ⟨c1, e1, e2⟩ := e
        cases e2
        obtain ⟨nm, b, rfl⟩ := request_count e1
        exact hsame rfl hk0
      · cases e; exact hsame rfl hk0
      · cases e; exact hsame rfl hk0
      · cases e; exact hsame rfl hk0
    | cancel n => cases e; exact hsame rfl (hold (by simp))
    | disconnect => cases e; exact hsame rfl (hold (by simp))
    | flush =>
      have hk0 := hold (by simp)
      simp only [Client.step] at e
      split at e
      · cases e; exact hsame rfl hk0
      · simp only [flush] at e
        split at e
        · cases e; exact hsame rfl hk0
        · simp only [Py.bind_ok, Py.pure_eq] at e
          obtain ⟨_, _, e⟩ := e
          cases e
          exact hsame rfl hk0
    | exit =>
      have hk0 := hold (by simp)
      simp only [Client.step] at e
      split at e
      · simp only [exit, Py.bind_ok, Py.pure_eq] at e
        obtain ⟨c1, h1, c2, h2, e⟩ := e
        cases e
        refine hsame ?_ hk0
        have k1 : ∀ {l : List (Bytes × Nat)} {c c' : Client}, c.exitTasks l = .ok c' → c'.toTask = c.toTask := by
          intro l
          induction l with
          | nil => intro c c' e; simp only [exitTasks] at e; cases e; rfl
          | cons x l ih =>
            intro c c' e
            simp only [exitTasks, Py.bind_ok] at e
            obtain ⟨c1, h1, h2⟩ := e
            rw [ih h2, (setFuture_only h1).toTask]; rfl
        have k2 : ∀ {l : List (Bytes × List Nat)} {c c' : Client}, c.exitGraphs l = .ok c' → c'.toTask = c.toTask := by
          intro l
          induction l with
          | nil => intro c c' e; simp only [exitGraphs] at e; cases e; rfl
          | cons x l ih =>
            intro c c' e
            simp only [exitGraphs, Py.bind_ok] at e
            obtain ⟨c1, h1, h2⟩ := e
            rw [ih h2, (exitFutures_only h1).toTask]; rfl
        exact (k2 h2).trans (k1 h1)
      · cases e; exact hsame rfl hk0
    | recv m =>
      have hk0 := hold (by simp)
      simp only [Client.step] at e
      split at e
      · cases e; exact hsame rfl hk0
      · have hlog := receive_log e
        simp only [receive] at e
        split at e
        · simp only [onTaskEcho] at e
          split at e
          · cases e; exact hsame rfl hk0
          · split at e
            · cases e; exact hsame rfl hk0
            · exact hsame ((bufferSend_alone e).2.2.2.1) hk0
            · cases e
            · simp only [Py.bind_ok] at e
              obtain ⟨⟨x, x'⟩, hx, y, hy, n, _, e⟩ := e
              obtain ⟨_, h1⟩ := Dict.pop_ok.1 hx
              cases h1
              rw [(setFuture_only e).toTask]
              show (c.toTask.erase _).get? k.taskId = some k
              rw [Dict.get?_erase, if_neg]
              · exact ih k nm b hk0 hn0
              · intro e
                subst e
                exact hn (by rw [hlog]; simp)
            · cases e
            · cases e
        · simp only [onFunctionResponse, Py.bind_ok] at e
          obtain ⟨_, hst, e⟩ := e
          split at e <;> cases e <;> exact hsame rfl hk0
        · simp only [onTaskResult] at e
          split at e
          · cases e; exact hsame rfl hk0
          · split at e
            · simp only [Py.bind_ok] at e
              obtain ⟨_, _, e⟩ := e
              exact hsame (setFuture_only e).toTask hk0
            · simp only [Py.bind_ok] at e
              obtain ⟨_, _, e⟩ := e
              exact hsame (setFuture_only e).toTask hk0
            · cases e; exact hsame rfl hk0
        · simp only [onGraphTaskResult] at e
          split at e
          · cases e; exact hsame rfl hk0
          · split at e
            · exact hsame (resolveAll_only e).toTask hk0
            · simp only [Py.bind_ok] at e
              obtain ⟨_, _, _, _, e⟩ := e
              exact hsame (resolveAll_only e).toTask hk0
            · cases e; exact hsame rfl hk0
        · cases e

end Verif.Client
