import Verif.Client.ClientAlone

/-!
# Where a task is that the client was not told is accepted, whatever the two threads do
-/

namespace Verif.Client

open Verif.Wire Verif.Spec.Client Client

/-- Every task in the table has a place. -/
def PlaceInv (c : Client) : Prop := ∀ t k, c.toTask.get? t = some k → Placed c k

theorem PlaceInv.congr {c c' : Client} (h : PlaceInv c) (h1 : c'.toTask = c.toTask) (h2 : c'.notReady = c.notReady)
    (h3 : c'.outbox = c.outbox) (h4 : c'.user = c.user) (h5 : c'.log = c.log) : PlaceInv c' := by
  unfold PlaceInv at *
  simpa [h1, Placed, h2, h3, h4, h5] using h

theorem PlaceInv.only {c c' : Client} (h : PlaceInv c) (ho : OnlyFutures c c') : PlaceInv c' :=
  h.congr ho.toTask ho.notReady ho.outbox ho.user ho.log

theorem PlaceInv.note {c : Client} (h : PlaceInv c) {x : Act} (hx : ∀ t s, copyStep t x s = s) : PlaceInv (c.note x) := by
  have e2 : ∀ t, lastCopy t (c.log ++ [x]) = lastCopy t c.log := fun t => by rw [lastCopy_snoc, hx]
  unfold PlaceInv at *
  simpa [Placed, Client.note, e2] using h

theorem receive_place {p : Pickle} {c c' : Client} {m : Message} (ht : TaskInv p c) (h : PlaceInv c)
    (e : c.receive p m = .ok c') : PlaceInv c' := by
  simp only [receive] at e
  split at e
  · rename_i t st
    have hcopy : ∀ i, i ≠ t → lastCopy i (c.log ++ [.recv (.taskEcho t st)]) = lastCopy i c.log := by
      intro i hi
      rw [lastCopy_snoc]
      simp only [copyStep]
      rw [if_neg (fun h => hi h.symm)]
    have hself : lastCopy t (c.log ++ [.recv (.taskEcho t st)]) = .echoed st := by
      rw [lastCopy_snoc]; simp [copyStep]
    have other : ∀ k : Task, k.taskId ≠ t → Placed c k → Placed (c.note (.recv (.taskEcho t st))) k := by
      intro k hk hp
      simpa only [Placed, Client.note, hcopy _ hk] using hp
    simp only [onTaskEcho] at e
    split at e
    · rename_i hn
      cases e
      intro i k hk
      have hid : k.taskId = i := (ht.task i k hk).1
      refine other k ?_ (h i k hk)
      rintro rfl
      rw [← hid] at hk
      exact absurd (hn.symm.trans hk) (by simp)
    · rename_i k0 hk0
      have hk0 : c.toTask.get? t = some k0 := hk0
      split at e
      · cases e
        intro i k hk
        by_cases hi : k.taskId = t
        · right; right; right; right
          rw [hi]
          exact hself
        · exact other k hi (h i k hk)
      · obtain ⟨b1, b2, b3, b4, _, b6, b7⟩ := bufferSend_alone e
        intro i k hk
        rw [b4] at hk
        have hid : k.taskId = i := (ht.task i k hk).1
        by_cases hi : k.taskId = t
        · have : k = k0 := by
            rw [← hid, hi] at hk
            exact Option.some.inj (hk.symm.trans hk0)
          subst this
          exact .inr (.inl b7)
        · rcases other k hi (h i k hk) with h | h | h | h | h
          · exact .inl (by rw [b3]; exact h)
          · exact .inr (.inl (b6 k h))
          · exact .inr (.inr (.inl (b1 _ h)))
          · exact .inr (.inr (.inr (.inl (by rw [b2]; exact h))))
          · exact .inr (.inr (.inr (.inr (by rw [b2]; exact h))))
      · cases e
      · simp only [Py.bind_ok] at e
        obtain ⟨⟨x, x'⟩, hx, ⟨y, y'⟩, hy, n, _, e⟩ := e
        have ho := setFuture_only e
        obtain ⟨_, h1⟩ := Dict.pop_ok.1 hx
        cases h1
        have hi : PlaceInv { (c.note (.recv (.taskEcho t .submitOK))) with toTask := c.toTask.erase t } := by
          intro i k hk
          simp only [Dict.get?_erase] at hk
          split at hk
          · cases hk
          · rename_i hne
            have hid : k.taskId = i := (ht.task i k hk).1
            exact other k (by rw [hid]; exact fun e => hne e.symm) (h i k hk)
        exact hi.congr ho.toTask ho.notReady ho.outbox ho.user ho.log
      · cases e
      · cases e
  · rename_i st fid nm b
    have hcopy : ∀ i, lastCopy i (c.log ++ [.recv (.functionResponse st fid nm b)]) = lastCopy i c.log := by
      intro i; rw [lastCopy_snoc]; rfl
    simp only [onFunctionResponse, Py.bind_ok] at e
    obtain ⟨_, hst, e⟩ := e
    split at e <;> cases e
    · exact h.note fun _ _ => rfl
    · rename_i ks hg
      have hg : c.notReady.get? fid = some ks := hg
      intro i k hk
      simp only [Placed, Client.note, hcopy, Dict.get?_erase]
      rcases h i k hk with h | ⟨ks', h, h'⟩ | h | h | h
      · exact .inl h
      · by_cases he : fid = k.functionId
        · subst he
          rw [h] at hg; cases hg
          exact .inr (.inr (.inl (by simp [h'])))
        · exact .inr (.inl (by rw [if_neg he]; exact ⟨ks', h, h'⟩))
      · exact .inr (.inr (.inl (List.mem_append_left _ h)))
      · exact .inr (.inr (.inr (.inl h)))
      · exact .inr (.inr (.inr (.inr h)))
  · rename_i t st mm r
    have h1 : PlaceInv (c.note (.recv (.taskResult t st mm r))) := h.note fun _ _ => rfl
    simp only [onTaskResult] at e
    split at e
    · cases e; exact h1
    · split at e
      · simp only [Py.bind_ok] at e
        obtain ⟨_, _, e⟩ := e
        have ho := setFuture_only e
        exact h1.congr ho.toTask ho.notReady ho.outbox ho.user ho.log
      · simp only [Py.bind_ok] at e
        obtain ⟨_, _, e⟩ := e
        have ho := setFuture_only e
        exact h1.congr ho.toTask ho.notReady ho.outbox ho.user ho.log
      · cases e; exact h1.congr rfl rfl rfl rfl rfl
  · rename_i g st rs
    have h1 : PlaceInv (c.note (.recv (.graphTaskResult g st rs))) := h.note fun _ _ => rfl
    simp only [onGraphTaskResult] at e
    split at e
    · cases e; exact h1
    · split at e
      · have ho := resolveAll_only e
        exact h1.congr ho.toTask ho.notReady ho.outbox ho.user ho.log
      · simp only [Py.bind_ok] at e
        obtain ⟨_, _, _, _, e⟩ := e
        have ho := resolveAll_only e
        exact h1.congr ho.toTask ho.notReady ho.outbox ho.user ho.log
      · cases e; exact h1.congr rfl rfl rfl rfl rfl
  · cases e

theorem exitTasks_place {l : List (Bytes × Nat)} {c c' : Client} (h : PlaceInv c) (e : c.exitTasks l = .ok c') : PlaceInv c' := by
  induction l generalizing c with
  | nil => simp only [exitTasks] at e; cases e; exact h
  | cons x l ih =>
    simp only [exitTasks, Py.bind_ok] at e
    obtain ⟨c1, h1, h2⟩ := e
    exact ih ((h.note fun _ _ => rfl).only (setFuture_only h1)) h2

theorem exitGraphs_place {l : List (Bytes × List Nat)} {c c' : Client} (h : PlaceInv c) (e : c.exitGraphs l = .ok c') : PlaceInv c' := by
  induction l generalizing c with
  | nil => simp only [exitGraphs] at e; cases e; exact h
  | cons x l ih =>
    simp only [exitGraphs, Py.bind_ok] at e
    obtain ⟨c1, h1, h2⟩ := e
    exact ih ((h.note fun _ _ => rfl).only (exitFutures_only h1)) h2

theorem step_place {p : Pickle} {c c' : Client} {o : Op} (ht : TaskInv p c) (h : PlaceInv c)
    (e : c.step p o = .ok c') : PlaceInv c' := by
  cases o with
  | submit t nm b args =>
    simp only [Client.step] at e
    split at e <;> cases e
    · rename_i hi
      have a3 : PlaceInv (c.note (.submitted ⟨t, p.hash b, args.map fun a => ⟨.data, a⟩⟩ nm b)) := h.note fun _ _ => rfl
      intro i k hk
      simp only [submit, Dict.get?_set] at hk
      split at hk
      · cases hk; exact .inl rfl
      · rcases a3 i k hk with h | h
        · simp [Client.note, hi, User.unsent?] at h
        · exact .inr h
    · exact h
  | get g =>
    simp only [Client.step] at e
    split at e <;> cases e
    · rename_i hi
      have a3 : PlaceInv (c.note (.graph g)) := h.note fun _ _ => rfl
      intro i k hk
      rcases a3 i k hk with h | h | h | h
      · simp [Client.note, hi, User.unsent?] at h
      · exact .inr (.inl h)
      · exact .inr (.inr (.inl (List.mem_append_left _ h)))
      · exact .inr (.inr (.inr h))
    · exact h
  | advance =>
    simp only [Client.step, advance] at e
    split at e
    · cases e; exact h
    · rename_i k nm b hi
      cases e
      intro i k hk
      have := h i k hk
      simpa [Placed, hi, User.unsent?] using this
    · rename_i k hi
      cases e
      intro i k' hk
      have := h i k' hk
      by_cases hh : c.notReady.has k.functionId = true <;> simpa [Placed, hi, User.unsent?, hh] using this
    · rename_i k hi
      simp only [Py.bind_ok, Py.pure_eq] at e
      obtain ⟨c1, e1, e2⟩ := e
      cases e2
      obtain ⟨nm, b, rfl⟩ := request_count e1
      intro i k' hk
      rcases h i k' hk with h | h | h | h
      · exact .inl (by simpa [hi, User.unsent?] using h)
      · exact .inr (.inl h)
      · exact .inr (.inr (.inl (List.mem_append_left _ h)))
      · exact .inr (.inr (.inr h))
    · rename_i k hi
      cases e
      intro i k' hk
      rcases h i k' hk with h | h | h
      · simp only [hi, User.unsent?, Option.some.injEq] at h
        subst h
        exact .inr (.inl (append_self c k))
      · exact .inr (.inl (append_wait h))
      · exact .inr (.inr h)
    · rename_i k hi
      cases e
      have a3 : PlaceInv (c.note (.returned k.taskId c.futures.length)) := h.note fun _ _ => rfl
      intro i k' hk
      have := a3 i k' hk
      simpa [Placed, Client.note, hi, User.unsent?] using this
    · rename_i g ns hi
      cases e
      have a3 : PlaceInv (c.note (.started g ns)) := h.note fun _ _ => rfl
      intro i k' hk
      have := a3 i k' hk
      simpa [Placed, Client.note, hi, User.unsent?] using this
  | cancel n =>
    cases e
    have a3 : PlaceInv (c.note (.cancelled n)) := h.note fun _ _ => rfl
    exact a3.congr rfl rfl rfl rfl rfl
  | disconnect => cases e; exact h.congr rfl rfl rfl rfl rfl
  | recv m =>
    simp only [Client.step] at e
    split at e
    · cases e; exact h
    · exact receive_place ht h e
  | flush =>
    simp only [Client.step] at e
    split at e
    · cases e; exact h
    · simp only [flush] at e
      split at e
      · cases e; exact h
      · rename_i m ms ho
        simp only [Py.bind_ok, Py.pure_eq] at e
        obtain ⟨_, _, e⟩ := e
        cases e
        intro i k hk
        have keep : ∀ s, s = Copy.flying ∨ s = .echoed .duplicated → lastCopy k.taskId c.log = s →
            lastCopy k.taskId (c.log ++ [.sent m]) = s ∨ lastCopy k.taskId (c.log ++ [.sent m]) = .flying := by
          intro s hs he
          rw [lastCopy_snoc, he]
          unfold copyStep
          split
          · split
            · exact .inr rfl
            · exact .inl rfl
          · simp_all
          · exact .inl rfl
        rcases h i k hk with h | h | h | h | h
        · exact .inl h
        · exact .inr (.inl h)
        · rw [ho, List.mem_cons] at h
          rcases h with h | h
          · subst h
            refine .inr (.inr (.inr (.inl ?_)))
            simp only [Client.note]
            rw [lastCopy_snoc]; simp [copyStep]
          · exact .inr (.inr (.inl h))
        · rcases keep _ (.inl rfl) h with h | h <;> exact .inr (.inr (.inr (.inl h)))
        · rcases keep _ (.inr rfl) h with h | h
          · exact .inr (.inr (.inr (.inr h)))
          · exact .inr (.inr (.inr (.inl h)))
  | exit =>
    simp only [Client.step] at e
    split at e
    · simp only [exit, Py.bind_ok, Py.pure_eq] at e
      obtain ⟨c1, h1, c2, h2, e⟩ := e
      cases e
      have h3 := exitGraphs_place (exitTasks_place h h1) h2
      have h4 : PlaceInv (c2.note .exited) := h3.note fun _ _ => rfl
      exact h4.congr rfl rfl rfl rfl rfl
    · cases e; exact h

theorem Reach.place {p : Pickle} {c : Client} (h : Reach p c) : PlaceInv c := by
  induction h with
  | init => intro t k hk; simp [Client.init] at hk
  | step o hr hf e ih => exact step_place hr.task ih e

end Verif.Client
