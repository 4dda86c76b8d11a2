import Verif.Client.ClientInv

/-!
# What the futures of a client hold
-/

namespace Verif.Client

open Verif.Wire Verif.Spec.Client Client

/-! ## Ids are new -/

theorem exitTasks_log {l : List (Bytes × Nat)} {c c' : Client} (e : c.exitTasks l = .ok c') :
    c'.log = c.log ++ l.map fun x => Act.sent (.taskCancel x.1) := by
  induction l generalizing c with
  | nil => simp only [exitTasks] at e; cases e; simp
  | cons x l ih =>
    simp only [exitTasks, Py.bind_ok] at e
    obtain ⟨c1, h1, h2⟩ := e
    rw [ih h2, (setFuture_only h1).log]
    simp [Client.note]

theorem exitGraphs_log {l : List (Bytes × List Nat)} {c c' : Client} (e : c.exitGraphs l = .ok c') :
    c'.log = c.log ++ l.map fun x => Act.sent (.graphTaskCancel x.1) := by
  induction l generalizing c with
  | nil => simp only [exitGraphs] at e; cases e; simp
  | cons x l ih =>
    simp only [exitGraphs, Py.bind_ok] at e
    obtain ⟨c1, h1, h2⟩ := e
    rw [ih h2, (exitFutures_only h1).log]
    simp [Client.note]

theorem exitTasks_same {l : List (Bytes × Nat)} {c c' : Client} (e : c.exitTasks l = .ok c') :
    c'.graphs = c.graphs ∧ c'.toFuture = c.toFuture ∧ c'.user = c.user ∧ c.futures.length = c'.futures.length := by
  induction l generalizing c with
  | nil => simp only [exitTasks] at e; cases e; exact ⟨rfl, rfl, rfl, rfl⟩
  | cons x l ih =>
    simp only [exitTasks, Py.bind_ok] at e
    obtain ⟨c1, h1, h2⟩ := e
    obtain ⟨i1, i2, i3, i4⟩ := ih h2
    have ho := setFuture_only h1
    exact ⟨i1.trans ho.graphs, i2.trans ho.toFuture, i3.trans ho.user, ho.length.trans i4⟩

theorem exitGraphs_same {l : List (Bytes × List Nat)} {c c' : Client} (e : c.exitGraphs l = .ok c') :
    c'.graphs = c.graphs ∧ c'.toFuture = c.toFuture ∧ c'.user = c.user ∧ c.futures.length = c'.futures.length := by
  induction l generalizing c with
  | nil => simp only [exitGraphs] at e; cases e; exact ⟨rfl, rfl, rfl, rfl⟩
  | cons x l ih =>
    simp only [exitGraphs, Py.bind_ok] at e
    obtain ⟨c1, h1, h2⟩ := e
    obtain ⟨i1, i2, i3, i4⟩ := ih h2
    have ho := exitFutures_only h1
    exact ⟨i1.trans ho.graphs, i2.trans ho.toFuture, i3.trans ho.user, ho.length.trans i4⟩

/-- What a message adds to the history: itself. -/
theorem receive_log {p : Pickle} {c c' : Client} {m : Message} (e : c.receive p m = .ok c') : c'.log = c.log ++ [.recv m] := by
  simp only [receive] at e
  split at e
  · simp only [onTaskEcho] at e
    split at e
    · cases e; rfl
    · split at e
      · cases e; rfl
      · exact (bufferSend_count e []).2.1
      · cases e
      · simp only [Py.bind_ok] at e
        obtain ⟨_, _, _, _, _, _, e⟩ := e
        exact (setFuture_only e).log
      · cases e
      · cases e
  · simp only [onFunctionResponse, Py.bind_ok] at e
    obtain ⟨_, hst, e⟩ := e
    split at e <;> cases e <;> rfl
  · simp only [onTaskResult] at e
    split at e
    · cases e; rfl
    · split at e
      · simp only [Py.bind_ok] at e
        obtain ⟨_, _, e⟩ := e
        exact (setFuture_only e).log
      · simp only [Py.bind_ok] at e
        obtain ⟨_, _, e⟩ := e
        exact (setFuture_only e).log
      · cases e; rfl
  · simp only [onGraphTaskResult] at e
    split at e
    · cases e; rfl
    · split at e
      · exact (resolveAll_only e).log
      · simp only [Py.bind_ok] at e
        obtain ⟨_, _, _, _, e⟩ := e
        exact (resolveAll_only e).log
      · cases e; rfl
  · cases e

/-- What an event adds to the history. -/
theorem step_log {p : Pickle} {c c' : Client} {o : Op} (e : c.step p o = .ok c') : ∃ xs, c'.log = c.log ++ xs ∧
    (usedIds xs = [] ∨ (∃ k nm b, xs = [.submitted k nm b] ∧ (∃ args, o = .submit k.taskId nm b args)) ∨ (∃ g, xs = [.graph g] ∧ o = .get g)) := by
  have nil : c' = c → ∃ xs, c'.log = c.log ++ xs ∧ (usedIds xs = [] ∨ (∃ k nm b, xs = [.submitted k nm b] ∧
      (∃ args, o = .submit k.taskId nm b args)) ∨ (∃ g, xs = [.graph g] ∧ o = .get g)) := by
    rintro rfl; exact ⟨[], by simp, .inl rfl⟩
  cases o with
  | submit t nm b args =>
    simp only [step] at e
    split at e <;> cases e
    · exact ⟨_, rfl, .inr (.inl ⟨_, _, _, rfl, args, rfl⟩)⟩
    · exact nil rfl
  | get g =>
    simp only [step] at e
    split at e <;> cases e
    · exact ⟨_, rfl, .inr (.inr ⟨_, rfl, rfl⟩)⟩
    · exact nil rfl
  | advance =>
    simp only [step, advance] at e
    split at e
    · cases e; exact nil rfl
    · cases e; exact ⟨[], by simp, .inl rfl⟩
    · cases e; exact ⟨[], by simp, .inl rfl⟩
    · simp only [Py.bind_ok, Py.pure_eq] at e
      obtain ⟨c1, e1, e2⟩ := e
      cases e2
      obtain ⟨nm, b, rfl⟩ := request_count e1
      exact ⟨[], by simp [Client.send], .inl rfl⟩
    · cases e; exact ⟨[], by simp [appendTask], .inl rfl⟩
    · cases e; exact ⟨_, rfl, .inl rfl⟩
    · cases e; exact ⟨_, rfl, .inl rfl⟩
  | cancel n => cases e; exact ⟨_, rfl, .inl rfl⟩
  | disconnect => cases e; exact ⟨[], by simp, .inl rfl⟩
  | recv m =>
    simp only [step] at e
    split at e
    · cases e; exact nil rfl
    · exact ⟨_, receive_log e, .inl rfl⟩
  | flush =>
    simp only [step] at e
    split at e
    · cases e; exact nil rfl
    · simp only [flush] at e
      split at e
      · cases e; exact nil rfl
      · simp only [Py.bind_ok, Py.pure_eq] at e
        obtain ⟨_, _, e⟩ := e
        cases e
        exact ⟨_, rfl, .inl rfl⟩
  | exit =>
    simp only [step] at e
    split at e
    · simp only [exit, Py.bind_ok, Py.pure_eq] at e
      obtain ⟨c1, h1, c2, h2, e⟩ := e
      cases e
      refine ⟨(c.toFuture.items.map fun x => Act.sent (.taskCancel x.1)) ++ (c1.graphs.items.map fun x => Act.sent (.graphTaskCancel x.1)) ++ [.exited], ?_, ?_⟩
      · simp only [Client.note]
        rw [exitGraphs_log h2, exitTasks_log h1]
        simp
      · left
        have h : ∀ {α : Type} (l : List α) (f : α → Message), usedIds (l.map fun x => Act.sent (f x)) = [] := by
          intro α l f
          induction l with
          | nil => rfl
          | cons x l ih => simpa [usedIds] using ih
        rw [usedIds_append, usedIds_append]
        rw [h c.toFuture.items (fun x => .taskCancel x.1), h c1.graphs.items (fun x => .graphTaskCancel x.1)]
        rfl
    · cases e; exact nil rfl

theorem step_mono {p : Pickle} {c c' : Client} {o : Op} (e : c.step p o = .ok c') : ∀ x ∈ c.log, x ∈ c'.log := by
  obtain ⟨xs, h, _⟩ := step_log e
  intro x hx
  rw [h]
  exact List.mem_append_left _ hx

theorem Reach.ids {p : Pickle} {c : Client} (h : Reach p c) : (usedIds c.log).Nodup := by
  induction h with
  | init => simp [Client.init, usedIds]
  | step o hr hf e ih =>
    obtain ⟨xs, h1, h2⟩ := step_log e
    rw [h1, usedIds_append]
    rcases h2 with h2 | ⟨k, nm, b, rfl, args, rfl⟩ | ⟨g, rfl, rfl⟩
    · rw [h2]; simpa using ih
    · rw [List.nodup_append]
      refine ⟨ih, by simp [usedIds], ?_⟩
      intro x hx y hy e
      simp only [usedIds, List.mem_singleton] at hy
      subst hy e
      exact hf hx
    · rw [List.nodup_append]
      refine ⟨ih, by simpa [usedIds] using hf.1, ?_⟩
      intro x hx y hy e
      simp only [usedIds, List.append_nil] at hy
      subst e
      exact hf.2 _ hy hx

theorem countP_submit_le (t : Bytes) (l : Hist) : l.countP (isSubmit t) ≤ (usedIds l).countP (fun i => decide (i = t)) := by
  induction l with
  | nil => simp [usedIds]
  | cons x l ih =>
    cases x <;> simp [usedIds, isSubmit, List.countP_cons, List.countP_append] <;> omega

theorem countP_le_one {l : List Bytes} (h : l.Nodup) (t : Bytes) : l.countP (fun i => decide (i = t)) ≤ 1 := by
  induction l with
  | nil => simp
  | cons x l ih =>
    rw [List.nodup_cons] at h
    rw [List.countP_cons]
    by_cases e : x = t
    · subst e
      have : l.countP (fun i => decide (i = x)) = 0 := by
        rw [List.countP_eq_zero]
        intro y hy
        simp only [decide_eq_true_eq]
        rintro rfl
        exact h.1 hy
      simp [this]
    · simpa [e] using ih h.2

/-! ## Where a state of a future comes from -/

/-- Only events of its own task or graph give a future its state. -/
def Explained (l : Hist) (n : Nat) : FState → Prop
  | .result r => (∃ t m, Act.returned t n ∈ l ∧ Act.recv (.taskResult t .success m r) ∈ l) ∨
    (∃ g ns rs, ∃ i : Nat, Act.started g ns ∈ l ∧ ns[i]? = some n ∧ Act.recv (.graphTaskResult g .success rs) ∈ l ∧ rs[i]? = some r)
  | .exception r => (∃ t m, Act.returned t n ∈ l ∧ Act.recv (.taskResult t .failed m r) ∈ l) ∨
    (∃ g ns rs, ∃ i : Nat, Act.started g ns ∈ l ∧ ns[i]? = some n ∧ Act.recv (.graphTaskResult g .failed rs) ∈ l ∧ rs[0]? = some r ∧ i < rs.length)
  | .disconnected => Act.exited ∈ l ∧ ((∃ t, Act.returned t n ∈ l) ∨ ∃ g ns, Act.started g ns ∈ l ∧ n ∈ ns)
  | .notified => Act.cancelled n ∈ l
  | .cancelled => Act.cancelled n ∈ l
  | _ => True

theorem Explained.mono {l l' : Hist} {n : Nat} {s : FState} (h : Explained l n s) (hs : ∀ x ∈ l, x ∈ l') : Explained l' n s := by
  cases s with
  | pending => trivial
  | running => trivial
  | cancelled => exact hs _ h
  | notified => exact hs _ h
  | result r =>
    rcases h with ⟨t, m, h1, h2⟩ | ⟨g, ns, rs, i, h1, h2, h3, h4⟩
    · exact .inl ⟨t, m, hs _ h1, hs _ h2⟩
    · exact .inr ⟨g, ns, rs, i, hs _ h1, h2, hs _ h3, h4⟩
  | exception r =>
    rcases h with ⟨t, m, h1, h2⟩ | ⟨g, ns, rs, i, h1, h2, h3, h4⟩
    · exact .inl ⟨t, m, hs _ h1, hs _ h2⟩
    · exact .inr ⟨g, ns, rs, i, hs _ h1, h2, hs _ h3, h4⟩
  | disconnected =>
    obtain ⟨h1, h2⟩ := h
    refine ⟨hs _ h1, ?_⟩
    rcases h2 with ⟨t, h2⟩ | ⟨g, ns, h2, h3⟩
    · exact .inl ⟨t, hs _ h2⟩
    · exact .inr ⟨g, ns, hs _ h2, h3⟩

theorem setFuture_explained {c c' : Client} {n : Nat} {f : FState → Py FState} {l : Hist}
    (h : ∀ i s, c.futures[i]? = some s → Explained l i s) (hf : ∀ s s', c.futures[n]? = some s → f s = .ok s' → Explained l n s')
    (e : c.setFuture n f = .ok c') : ∀ i s, c'.futures[i]? = some s → Explained l i s := by
  obtain ⟨s, s', h1, h2, rfl⟩ := setFuture_ok e
  intro i x hx
  simp only [List.getElem?_set] at hx
  split at hx
  · rename_i e
    subst e
    split at hx
    · cases hx; exact hf s _ h1 h2
    · cases hx
  · exact h i x hx

theorem finish_ok {s x y : FState} (h : FState.finish s x = .ok y) : y = s ∧ (x = .pending ∨ x = .running) := by
  cases x <;> simp [FState.finish] at h <;> simp [h]

theorem setRunning_ok {x y : FState} (h : FState.setRunning x = .ok y) :
    (x = .pending ∧ y = .running) ∨ (x = .cancelled ∧ y = .notified) := by
  cases x <;> simp [FState.setRunning] at h <;> simp [h]

theorem resolveAll_explained {f : Bytes → Py FState} {rs : List Bytes} {ns : List Nat} {c c' : Client} {l : Hist}
    (h : ∀ i s, c.futures[i]? = some s → Explained l i s)
    (hf : ∀ (i : Nat) r n s, rs[i]? = some r → ns[i]? = some n → f r = .ok s → Explained l n s)
    (e : c.resolveAll f rs ns = .ok c') : ∀ i s, c'.futures[i]? = some s → Explained l i s := by
  induction rs generalizing c ns with
  | nil => simp only [resolveAll] at e; cases e; exact h
  | cons r rs ih =>
    cases ns with
    | nil => simp [resolveAll] at e
    | cons n ns =>
      simp only [resolveAll, Py.bind_ok] at e
      obtain ⟨s, h0, c1, h1, h2⟩ := e
      refine ih (setFuture_explained h ?_ h1) ?_ h2
      · intro x y _ hy
        obtain ⟨rfl, _⟩ := finish_ok hy
        exact hf 0 r n _ rfl rfl h0
      · exact fun i r' n' s' h1 h2 h3 => hf (i + 1) r' n' s' (by simpa using h1) (by simpa using h2) h3

theorem exitFutures_explained {ns : List Nat} {c c' : Client} {l : Hist}
    (h : ∀ i s, c.futures[i]? = some s → Explained l i s) (hf : ∀ n ∈ ns, Explained l n .disconnected)
    (e : c.exitFutures ns = .ok c') : ∀ i s, c'.futures[i]? = some s → Explained l i s := by
  induction ns generalizing c with
  | nil => simp only [exitFutures] at e; cases e; exact h
  | cons n ns ih =>
    simp only [exitFutures, Py.bind_ok] at e
    obtain ⟨c1, h1, h2⟩ := e
    refine ih (setFuture_explained h ?_ h1) (fun n hn => hf n (by simp [hn])) h2
    intro x y _ hy
    obtain ⟨rfl, _⟩ := finish_ok hy
    exact hf n (by simp)

theorem exitTasks_explained {ns : List (Bytes × Nat)} {c c' : Client} {l : Hist}
    (h : ∀ i s, c.futures[i]? = some s → Explained l i s) (hf : ∀ x ∈ ns, Explained l x.2 .disconnected)
    (e : c.exitTasks ns = .ok c') : ∀ i s, c'.futures[i]? = some s → Explained l i s := by
  induction ns generalizing c with
  | nil => simp only [exitTasks] at e; cases e; exact h
  | cons x ns ih =>
    simp only [exitTasks, Py.bind_ok] at e
    obtain ⟨c1, h1, h2⟩ := e
    refine ih (setFuture_explained (c := c.note _) h ?_ h1) (fun n hn => hf n (by simp [hn])) h2
    intro y z _ hy
    obtain ⟨rfl, _⟩ := finish_ok hy
    exact hf x (by simp)

theorem exitGraphs_explained {ns : List (Bytes × List Nat)} {c c' : Client} {l : Hist}
    (h : ∀ i s, c.futures[i]? = some s → Explained l i s) (hf : ∀ x ∈ ns, ∀ n ∈ x.2, Explained l n .disconnected)
    (e : c.exitGraphs ns = .ok c') : ∀ i s, c'.futures[i]? = some s → Explained l i s := by
  induction ns generalizing c with
  | nil => simp only [exitGraphs] at e; cases e; exact h
  | cons x ns ih =>
    simp only [exitGraphs, Py.bind_ok] at e
    obtain ⟨c1, h1, h2⟩ := e
    exact ih (exitFutures_explained (c := c.note _) h (hf x (by simp)) h1) (fun n hn => hf n (by simp [hn])) h2

/-- Each future belongs to one task or graph, and its state comes from there. -/
structure OwnInv (c : Client) : Prop where
  ret : ∀ t n, Act.returned t n ∈ c.log → n < c.futures.length
  start : ∀ g ns, Act.started g ns ∈ c.log → ∀ n ∈ ns, n < c.futures.length
  one : ∀ t t' n, Act.returned t n ∈ c.log → Act.returned t' n ∈ c.log → t = t'
  apart : ∀ t g ns n, Act.returned t n ∈ c.log → Act.started g ns ∈ c.log → n ∉ ns
  user : ∀ t n, Act.returned t n ∈ c.log → n ∉ c.user.refs
  userG : ∀ g ns n, Act.started g ns ∈ c.log → n ∈ ns → n ∉ c.user.refs
  graphs : ∀ g ns g' ns' n, Act.started g ns ∈ c.log → Act.started g' ns' ∈ c.log → n ∈ ns → n ∈ ns' → g = g' ∧ ns = ns'
  expl : ∀ n s, c.futures[n]? = some s → Explained c.log n s

theorem OwnInv.same {c c' : Client} (h : OwnInv c) (h1 : ∀ t n, Act.returned t n ∈ c'.log → Act.returned t n ∈ c.log)
    (h2 : ∀ g ns, Act.started g ns ∈ c'.log → Act.started g ns ∈ c.log) (h3 : c.futures.length = c'.futures.length)
    (h4 : c'.user.refs = c.user.refs) (h5 : ∀ n s, c'.futures[n]? = some s → Explained c'.log n s) : OwnInv c' := by
  obtain ⟨a1, a2, a3, a4, a5, a6, a7, a8⟩ := h
  exact ⟨fun t n h => h3 ▸ a1 t n (h1 _ _ h), fun g ns h n hn => h3 ▸ a2 g ns (h2 _ _ h) n hn,
    fun t t' n h h' => a3 t t' n (h1 _ _ h) (h1 _ _ h'), fun t g ns n h h' => a4 t g ns n (h1 _ _ h) (h2 _ _ h'),
    fun t n h => h4 ▸ a5 t n (h1 _ _ h), fun g ns n h h' => h4 ▸ a6 g ns n (h2 _ _ h) h',
    fun g ns g' ns' n h h' => a7 g ns g' ns' n (h2 _ _ h) (h2 _ _ h'), h5⟩

theorem receive_own {p : Pickle} {c c' : Client} {m : Message} (hf : FutInv c) (h : OwnInv c) (e : c.receive p m = .ok c') : OwnInv c' := by
  have hl := receive_log e
  have sub : ∀ x ∈ c.log, x ∈ c'.log := fun x hx => by rw [hl]; exact List.mem_append_left _ hx
  have hexp : ∀ i s, c.futures[i]? = some s → Explained c'.log i s := fun i s hs => (h.expl i s hs).mono sub
  have hm : Act.recv m ∈ c'.log := by rw [hl]; simp
  -- enough: lengths, user, and the explanation
  suffices hh : c.futures.length = c'.futures.length ∧ c'.user = c.user ∧ ∀ n s, c'.futures[n]? = some s → Explained c'.log n s by
    refine h.same ?_ ?_ hh.1 (by rw [hh.2.1]) hh.2.2
    · intro t n hx; rw [hl] at hx; simpa using hx
    · intro t n hx; rw [hl] at hx; simpa using hx
  simp only [receive] at e
  split at e
  · rename_i t st
    simp only [onTaskEcho] at e
    split at e
    · cases e; exact ⟨rfl, rfl, hexp⟩
    · split at e
      · cases e; exact ⟨rfl, rfl, hexp⟩
      · obtain ⟨b1, b2, b3, b4⟩ := bufferSend_count e []
        have hfu : c'.futures = c.futures := by
          simp only [bufferSend] at e
          split at e
          · cases e; rfl
          · simp only [Py.bind_ok, Py.pure_eq] at e
            obtain ⟨c1, e1, e2⟩ := e
            cases e2
            obtain ⟨nm, b, rfl⟩ := request_count e1
            rfl
        exact ⟨by rw [hfu], b3, by rw [hfu]; exact hexp⟩
      · cases e
      · simp only [Py.bind_ok] at e
        obtain ⟨x, _, y, _, n, hn, e⟩ := e
        have ho := setFuture_only e
        refine ⟨ho.length, ho.user, ?_⟩
        refine setFuture_explained (f := FState.setRunning) ?_ ?_ e
        · exact hexp
        · intro s s' hs hs'
          rcases setRunning_ok hs' with ⟨_, rfl⟩ | ⟨rfl, rfl⟩
          · trivial
          · exact hexp n .cancelled hs
      · cases e
      · cases e
  · simp only [onFunctionResponse, Py.bind_ok] at e
    obtain ⟨_, hst, e⟩ := e
    split at e <;> cases e <;> exact ⟨rfl, rfl, hexp⟩
  · rename_i t st mm r
    simp only [onTaskResult] at e
    split at e
    · cases e; exact ⟨rfl, rfl, hexp⟩
    · rename_i n hn
      have hown : Act.returned t n ∈ c'.log := by
        have : c.toFuture.get? t = some n := hn
        rw [hf.fut] at this
        exact sub _ (openFuture_returned this)
      split at e
      · simp only [Py.bind_ok] at e
        obtain ⟨_, _, e⟩ := e
        have ho := setFuture_only e
        refine ⟨ho.length, ho.user, setFuture_explained (c := { (c.note _) with toFuture := _ }) hexp ?_ e⟩
        intro s s' hs hs'
        obtain ⟨rfl, _⟩ := finish_ok hs'
        exact .inl ⟨t, mm, hown, hm⟩
      · simp only [Py.bind_ok] at e
        obtain ⟨_, _, e⟩ := e
        have ho := setFuture_only e
        refine ⟨ho.length, ho.user, setFuture_explained (c := { (c.note _) with toFuture := _ }) hexp ?_ e⟩
        intro s s' hs hs'
        obtain ⟨rfl, _⟩ := finish_ok hs'
        exact .inl ⟨t, mm, hown, hm⟩
      · cases e; exact ⟨rfl, rfl, hexp⟩
  · rename_i g st rs
    simp only [onGraphTaskResult] at e
    split at e
    · cases e; exact ⟨rfl, rfl, hexp⟩
    · rename_i ns hn
      have hown : Act.started g ns ∈ c'.log := by
        have : c.graphs.get? g = some ns := hn
        rw [hf.gr] at this
        exact sub _ (openGraph_started this)
      split at e
      · have ho := resolveAll_only e
        refine ⟨ho.length, ho.user, resolveAll_explained (c := { (c.note _) with graphs := _ }) hexp ?_ e⟩
        intro i r n s h1 h2 h3
        split at h3 <;> cases h3
        exact .inr ⟨g, ns, rs, i, hown, h2, hm, h1⟩
      · simp only [Py.bind_ok] at e
        obtain ⟨x, hx, _, _, e⟩ := e
        have ho := resolveAll_only e
        refine ⟨ho.length, ho.user, resolveAll_explained (c := { (c.note _) with graphs := _ }) hexp ?_ e⟩
        intro i r n s h1 h2 h3
        cases h3
        refine .inr ⟨g, ns, rs, i, hown, h2, hm, pyIndex_ok.1 hx, ?_⟩
        rcases Nat.lt_or_ge i rs.length with h | h
        · exact h
        · rw [List.getElem?_eq_none h] at h1; cases h1
      · cases e; exact ⟨rfl, rfl, hexp⟩
  · cases e

theorem step_own {p : Pickle} {c c' : Client} {o : Op} (hf : FutInv c) (h : OwnInv c) (e : c.step p o = .ok c') : OwnInv c' := by
  have sub := step_mono e
  have hexp : ∀ i s, c.futures[i]? = some s → Explained c'.log i s := fun i s hs => (h.expl i s hs).mono sub
  cases o with
  | submit t nm b args =>
    simp only [step] at e
    split at e <;> cases e
    · rename_i hu
      refine h.same ?_ ?_ rfl (by rw [hu]; rfl) hexp
      · intro t n hx; simpa [submit, Client.note] using hx
      · intro t n hx; simpa [submit, Client.note] using hx
    · exact h
  | get g =>
    simp only [step] at e
    split at e <;> cases e
    · rename_i hu
      obtain ⟨a1, a2, a3, a4, a5, a6, a7, a8⟩ := h
      have r1 : ∀ t n, Act.returned t n ∈ (c.get g).log → Act.returned t n ∈ c.log := by
        intro t n hx; simpa [Client.get, Client.note, Client.send] using hx
      have r2 : ∀ t n, Act.started t n ∈ (c.get g).log → Act.started t n ∈ c.log := by
        intro t n hx; simpa [Client.get, Client.note, Client.send] using hx
      have hlen : (c.get g).futures.length = c.futures.length + g.targets.length := by simp [Client.get]
      refine ⟨?_, ?_, fun t t' n h h' => a3 t t' n (r1 _ _ h) (r1 _ _ h'), fun t g ns n h h' => a4 t g ns n (r1 _ _ h) (r2 _ _ h'),
        ?_, ?_, fun g ns g' ns' n h h' => a7 g ns g' ns' n (r2 _ _ h) (r2 _ _ h'), ?_⟩
      · intro t n hx; have := a1 t n (r1 _ _ hx); omega
      · intro t ns hx n hn; have := a2 t ns (r2 _ _ hx) n hn; omega
      · intro t n hx hm
        have := a1 t n (r1 _ _ hx)
        simp only [Client.get, User.refs, List.mem_range'] at hm
        omega
      · intro t ns n hx hn hm
        have := a2 t ns (r2 _ _ hx) n hn
        simp only [Client.get, User.refs, List.mem_range'] at hm
        omega
      · intro n s hs
        simp only [Client.get, List.getElem?_append] at hs
        split at hs
        · exact hexp n s hs
        · have : s = .pending := by
            rw [List.getElem?_map] at hs
            cases hx : g.targets[n - c.futures.length]? <;> simp [hx] at hs
            exact hs.symm
          subst this; trivial
    · exact h
  | advance =>
    simp only [step, advance] at e
    split at e
    · cases e; exact h
    · rename_i k nm b hu
      cases e
      exact h.same (fun _ _ h => h) (fun _ _ h => h) rfl (by rw [hu]; rfl) hexp
    · rename_i k hu
      cases e
      refine h.same (fun _ _ h => h) (fun _ _ h => h) rfl ?_ hexp
      rw [hu]
      simp only
      split <;> rfl
    · rename_i k hu
      simp only [Py.bind_ok, Py.pure_eq] at e
      obtain ⟨c1, e1, e2⟩ := e
      cases e2
      obtain ⟨nm, b, rfl⟩ := request_count e1
      exact h.same (fun _ _ h => h) (fun _ _ h => h) rfl (by rw [hu]; rfl) hexp
    · rename_i k hu
      cases e
      exact h.same (fun _ _ h => h) (fun _ _ h => h) rfl (by rw [hu]; rfl) hexp
    · rename_i k hu
      cases e
      obtain ⟨a1, a2, a3, a4, a5, a6, a7, a8⟩ := h
      have r1 : ∀ t n, Act.returned t n ∈ c.log ++ [.returned k.taskId c.futures.length] →
          Act.returned t n ∈ c.log ∨ (t = k.taskId ∧ n = c.futures.length) := by
        intro t n hx
        rcases List.mem_append.1 hx with hx | hx
        · exact .inl hx
        · simp only [List.mem_singleton] at hx; cases hx; exact .inr ⟨rfl, rfl⟩
      have r2 : ∀ t n, Act.started t n ∈ c.log ++ [.returned k.taskId c.futures.length] → Act.started t n ∈ c.log := by
        intro t n hx; simpa using hx
      refine ⟨?_, ?_, ?_, ?_, by simp [User.refs], by simp [User.refs], fun g ns g' ns' n h h' => a7 g ns g' ns' n (r2 _ _ h) (r2 _ _ h'), ?_⟩
      · intro t n hx
        rcases r1 t n hx with hx | ⟨rfl, rfl⟩
        · have := a1 t n hx; simp; omega
        · simp
      · intro t ns hx n hn; have := a2 t ns (r2 _ _ hx) n hn; simp; omega
      · intro t t' n hx hx'
        rcases r1 t n hx with h0 | ⟨h1, h2⟩ <;> rcases r1 t' n hx' with h0' | ⟨h1', h2'⟩
        · exact a3 _ _ _ h0 h0'
        · have := a1 t n h0; omega
        · have := a1 t' n h0'; omega
        · rw [h1, h1']
      · intro t g ns n hx hx' hn
        rcases r1 t n hx with hx | ⟨rfl, rfl⟩
        · exact a4 _ _ _ _ hx (r2 _ _ hx') hn
        · have := a2 g ns (r2 _ _ hx') _ hn; omega
      · intro n s hs
        simp only [List.getElem?_append] at hs
        split at hs
        · exact hexp n s hs
        · have : s = .pending := by
            cases hx : n - c.futures.length <;> simp [hx] at hs
            exact hs.symm
          subst this; trivial
    · rename_i g ns hu
      cases e
      obtain ⟨a1, a2, a3, a4, a5, a6, a7, a8⟩ := h
      have hr : ∀ n ∈ ns, n < c.futures.length := fun n hn => hf.bound n (by simp [Client.refs, hu, User.refs, hn])
      have r1 : ∀ t n, Act.returned t n ∈ c.log ++ [.started g ns] → Act.returned t n ∈ c.log := by
        intro t n hx; simpa using hx
      have r2 : ∀ t n, Act.started t n ∈ c.log ++ [.started g ns] → Act.started t n ∈ c.log ∨ (t = g ∧ n = ns) := by
        intro t n hx
        rcases List.mem_append.1 hx with hx | hx
        · exact .inl hx
        · simp only [List.mem_singleton] at hx; cases hx; exact .inr ⟨rfl, rfl⟩
      refine ⟨fun t n hx => a1 t n (r1 _ _ hx), ?_, fun t t' n h h' => a3 t t' n (r1 _ _ h) (r1 _ _ h'), ?_,
        by simp [User.refs], by simp [User.refs], ?_, hexp⟩
      · intro t ns' hx n hn
        rcases r2 t ns' hx with hx | ⟨rfl, rfl⟩
        · exact a2 t ns' hx n hn
        · exact hr n hn
      · intro t g' ns' n hx hx' hn
        rcases r2 g' ns' hx' with hx' | ⟨rfl, rfl⟩
        · exact a4 _ _ _ _ (r1 _ _ hx) hx' hn
        · exact a5 t n (r1 _ _ hx) (by simpa [hu, User.refs] using hn)
      · intro g1 n1 g2 n2 n hx hx' hn hn'
        rcases r2 g1 n1 hx with h0 | ⟨h1, h2⟩ <;> rcases r2 g2 n2 hx' with h0' | ⟨h1', h2'⟩
        · exact a7 _ _ _ _ _ h0 h0' hn hn'
        · exact absurd (by rw [h2'] at hn'; simpa [hu, User.refs] using hn') (a6 _ _ n h0 hn)
        · exact absurd (by rw [h2] at hn; simpa [hu, User.refs] using hn) (a6 _ _ n h0' hn')
        · exact ⟨h1.trans h1'.symm, h2.trans h2'.symm⟩
  | cancel n =>
    cases e
    refine h.same ?_ ?_ (by simp) rfl ?_
    · intro t n hx; simpa [Client.note] using hx
    · intro t n hx; simpa [Client.note] using hx
    · intro i s hs
      simp only [List.getElem?_modify] at hs
      cases hg : c.futures[i]? with
      | none => simp [hg] at hs
      | some x =>
        rw [hg] at hs
        by_cases hi : n = i
        · subst hi
          simp at hs
          subst hs
          cases x <;> first | exact hexp n _ hg | simp [FState.cancel, Explained, Client.note]
        · simp [hi] at hs
          subst hs
          exact hexp i _ hg
  | disconnect => cases e; exact h.same (fun _ _ h => h) (fun _ _ h => h) rfl rfl hexp
  | recv m =>
    simp only [step] at e
    split at e
    · cases e; exact h
    · exact receive_own hf h e
  | flush =>
    simp only [step] at e
    split at e
    · cases e; exact h
    · simp only [flush] at e
      split at e
      · cases e; exact h
      · simp only [Py.bind_ok, Py.pure_eq] at e
        obtain ⟨_, _, e⟩ := e
        cases e
        refine h.same ?_ ?_ rfl rfl hexp
        · intro t n hx; simpa [Client.note] using hx
        · intro t n hx; simpa [Client.note] using hx
  | exit =>
    simp only [step] at e
    split at e
    · simp only [exit, Py.bind_ok, Py.pure_eq] at e
      obtain ⟨c1, h1, c2, h2, e⟩ := e
      cases e
      obtain ⟨i1, i2, i3, i4⟩ := exitTasks_same h1
      obtain ⟨j1, j2, j3, j4⟩ := exitGraphs_same h2
      have hl : c2.log = c.log ++ (c.toFuture.items.map fun x => Act.sent (.taskCancel x.1)) ++
          (c1.graphs.items.map fun x => Act.sent (.graphTaskCancel x.1)) := by
        rw [exitGraphs_log h2, exitTasks_log h1]
      refine h.same ?_ ?_ (i4.trans j4) (by simp [Client.note, j3, i3]) ?_
      · intro t n hx; simp only [Client.note, hl] at hx; simpa using hx
      · intro t n hx; simp only [Client.note, hl] at hx; simpa using hx
      · have hex : Act.exited ∈ (c2.note .exited).log := by simp [Client.note]
        refine exitGraphs_explained (c' := c2) (exitTasks_explained hexp ?_ h1) ?_ h2
        · intro x hx
          refine ⟨hex, .inl ⟨x.1, sub _ ?_⟩⟩
          have := Dict.mem_items.1 (show (x.1, x.2) ∈ c.toFuture.items from hx)
          rw [hf.fut] at this
          exact openFuture_returned this
        · intro x hx n hn
          refine ⟨hex, .inr ⟨x.1, x.2, sub _ ?_, hn⟩⟩
          rw [i1] at hx
          have := Dict.mem_items.1 (show (x.1, x.2) ∈ c.graphs.items from hx)
          rw [hf.gr] at this
          exact openGraph_started this
    · cases e; exact h

theorem Reach.own {p : Pickle} {c : Client} (h : Reach p c) : OwnInv c := by
  induction h with
  | init => constructor <;> simp [Client.init]
  | step o hr hf e ih => exact step_own hr.fut ih e

/-! ## Resolved futures stay -/

theorem setFuture_final {c c' : Client} {n i : Nat} {f : FState → Py FState} {s : FState} (hf : ∀ x, Final x → ∀ y, f x ≠ .ok y)
    (hs : c.futures[i]? = some s) (hF : Final s) (e : c.setFuture n f = .ok c') : c'.futures[i]? = some s := by
  obtain ⟨x, y, h1, h2, rfl⟩ := setFuture_ok e
  simp only [List.getElem?_set]
  split
  · rename_i e
    subst e
    rw [hs] at h1; cases h1
    exact absurd h2 (hf _ hF _)
  · exact hs

theorem finish_final (s : FState) : ∀ x, Final x → ∀ y, FState.finish s x ≠ .ok y := by
  intro x hx y h
  rcases (finish_ok h).2 with rfl | rfl <;> exact hx

theorem setRunning_final : ∀ x, Final x → ∀ y, FState.setRunning x ≠ .ok y := by
  intro x hx y h
  rcases setRunning_ok h with ⟨rfl, _⟩ | ⟨rfl, _⟩ <;> exact hx

theorem resolveAll_final {f : Bytes → Py FState} {rs : List Bytes} {ns : List Nat} {c c' : Client} {i : Nat} {s : FState}
    (hs : c.futures[i]? = some s) (hF : Final s) (e : c.resolveAll f rs ns = .ok c') : c'.futures[i]? = some s := by
  induction rs generalizing c ns with
  | nil => simp only [resolveAll] at e; cases e; exact hs
  | cons r rs ih =>
    cases ns with
    | nil => simp [resolveAll] at e
    | cons n ns =>
      simp only [resolveAll, Py.bind_ok] at e
      obtain ⟨x, _, c1, h1, h2⟩ := e
      exact ih (setFuture_final (finish_final x) hs hF h1) h2

theorem exitFutures_final {ns : List Nat} {c c' : Client} {i : Nat} {s : FState}
    (hs : c.futures[i]? = some s) (hF : Final s) (e : c.exitFutures ns = .ok c') : c'.futures[i]? = some s := by
  induction ns generalizing c with
  | nil => simp only [exitFutures] at e; cases e; exact hs
  | cons n ns ih =>
    simp only [exitFutures, Py.bind_ok] at e
    obtain ⟨c1, h1, h2⟩ := e
    exact ih (setFuture_final (finish_final _) hs hF h1) h2

theorem exitTasks_final {ns : List (Bytes × Nat)} {c c' : Client} {i : Nat} {s : FState}
    (hs : c.futures[i]? = some s) (hF : Final s) (e : c.exitTasks ns = .ok c') : c'.futures[i]? = some s := by
  induction ns generalizing c with
  | nil => simp only [exitTasks] at e; cases e; exact hs
  | cons n ns ih =>
    simp only [exitTasks, Py.bind_ok] at e
    obtain ⟨c1, h1, h2⟩ := e
    exact ih (setFuture_final (c := c.note _) (finish_final _) hs hF h1) h2

theorem exitGraphs_final {ns : List (Bytes × List Nat)} {c c' : Client} {i : Nat} {s : FState}
    (hs : c.futures[i]? = some s) (hF : Final s) (e : c.exitGraphs ns = .ok c') : c'.futures[i]? = some s := by
  induction ns generalizing c with
  | nil => simp only [exitGraphs] at e; cases e; exact hs
  | cons n ns ih =>
    simp only [exitGraphs, Py.bind_ok] at e
    obtain ⟨c1, h1, h2⟩ := e
    exact ih (exitFutures_final (c := c.note _) hs hF h1) h2

theorem receive_final {p : Pickle} {c c' : Client} {m : Message} {i : Nat} {s : FState} (hs : c.futures[i]? = some s) (hF : Final s)
    (e : c.receive p m = .ok c') : c'.futures[i]? = some s := by
  simp only [receive] at e
  split at e
  · simp only [onTaskEcho] at e
    split at e
    · cases e; exact hs
    · split at e
      · cases e; exact hs
      · simp only [bufferSend] at e
        split at e
        · cases e; exact hs
        · simp only [Py.bind_ok, Py.pure_eq] at e
          obtain ⟨c1, e1, e2⟩ := e
          cases e2
          obtain ⟨nm, b, rfl⟩ := request_count e1
          exact hs
      · cases e
      · simp only [Py.bind_ok] at e
        obtain ⟨x, _, y, _, n, hn, e⟩ := e
        exact setFuture_final (c := { (c.note _) with toTask := _, toFunction := _ }) setRunning_final hs hF e
      · cases e
      · cases e
  · simp only [onFunctionResponse, Py.bind_ok] at e
    obtain ⟨_, hst, e⟩ := e
    split at e <;> cases e <;> exact hs
  · simp only [onTaskResult] at e
    split at e
    · cases e; exact hs
    · split at e
      · simp only [Py.bind_ok] at e
        obtain ⟨_, _, e⟩ := e
        exact setFuture_final (c := { (c.note _) with toFuture := _ }) (finish_final _) hs hF e
      · simp only [Py.bind_ok] at e
        obtain ⟨_, _, e⟩ := e
        exact setFuture_final (c := { (c.note _) with toFuture := _ }) (finish_final _) hs hF e
      · cases e; exact hs
  · simp only [onGraphTaskResult] at e
    split at e
    · cases e; exact hs
    · split at e
      · exact resolveAll_final (c := { (c.note _) with graphs := _ }) hs hF e
      · simp only [Py.bind_ok] at e
        obtain ⟨_, _, _, _, e⟩ := e
        exact resolveAll_final (c := { (c.note _) with graphs := _ }) hs hF e
      · cases e; exact hs
  · cases e

theorem getElem?_append_some {l l' : List FState} {i : Nat} {s : FState} (h : l[i]? = some s) : (l ++ l')[i]? = some s := by
  obtain ⟨hi, _⟩ := List.getElem?_eq_some_iff.1 h
  rw [List.getElem?_append_left hi]
  exact h

theorem step_final {p : Pickle} {c c' : Client} {o : Op} {i : Nat} {s : FState} (hs : c.futures[i]? = some s) (hF : Final s)
    (e : c.step p o = .ok c') : c'.futures[i]? = some s := by
  cases o with
  | submit t nm b args =>
    simp only [step] at e
    split at e <;> cases e <;> exact hs
  | get g =>
    simp only [step] at e
    split at e <;> cases e
    · exact getElem?_append_some hs
    · exact hs
  | advance =>
    simp only [step, advance] at e
    split at e
    · cases e; exact hs
    · cases e; exact hs
    · cases e; exact hs
    · simp only [Py.bind_ok, Py.pure_eq] at e
      obtain ⟨c1, e1, e2⟩ := e
      cases e2
      obtain ⟨nm, b, rfl⟩ := request_count e1
      exact hs
    · cases e; exact hs
    · cases e; exact getElem?_append_some hs
    · cases e; exact hs
  | cancel n =>
    cases e
    simp only [List.getElem?_modify, hs]
    split
    · cases s <;> first | rfl | exact absurd hF id
    · rfl
  | disconnect => cases e; exact hs
  | recv m =>
    simp only [step] at e
    split at e
    · cases e; exact hs
    · exact receive_final hs hF e
  | flush =>
    simp only [step] at e
    split at e
    · cases e; exact hs
    · simp only [flush] at e
      split at e
      · cases e; exact hs
      · simp only [Py.bind_ok, Py.pure_eq] at e
        obtain ⟨_, _, e⟩ := e
        cases e
        exact hs
  | exit =>
    simp only [step] at e
    split at e
    · simp only [exit, Py.bind_ok, Py.pure_eq] at e
      obtain ⟨c1, h1, c2, h2, e⟩ := e
      cases e
      exact exitGraphs_final (c' := c2) (exitTasks_final hs hF h1) hF h2
    · cases e; exact hs

/-! ## What the loops do -/

/-- The future can be resolved. -/
def Ready (c : Client) (n : Nat) : Prop := c.futures[n]? = some .pending ∨ c.futures[n]? = some .running

theorem setFuture_finish {c : Client} {n : Nat} (s : FState) (h : Ready c n) :
    c.setFuture n (FState.finish s) = .ok { c with futures := c.futures.set n s } := by
  rcases h with h | h <;> simp [setFuture, pyIndex, h, FState.finish] <;> rfl

theorem setFuture_ready {c c' : Client} {n : Nat} {s : FState} (e : c.setFuture n (FState.finish s) = .ok c') : Ready c n := by
  obtain ⟨x, y, h1, h2, rfl⟩ := setFuture_ok e
  rcases (finish_ok h2).2 with rfl | rfl
  · exact .inl h1
  · exact .inr h1

/-- Ready or not only depends on the future. -/
theorem Ready.set {c : Client} {n m : Nat} (s : FState) (h : Ready c n) (hne : m ≠ n) :
    Ready { c with futures := c.futures.set m s } n := by
  simpa [Ready, List.getElem?_set, hne] using h

/-- The loop over the results. -/
theorem resolveAll_total {f : Bytes → Py FState} {rs : List Bytes} {ns : List Nat} {c : Client} (hn : ns.Nodup) (hl : rs.length ≤ ns.length)
    (hr : ∀ (i n : Nat), i < rs.length → ns[i]? = some n → Ready c n) (hf : ∀ r ∈ rs, ∃ s, f r = .ok s) :
    ∃ c', c.resolveAll f rs ns = .ok c' := by
  induction rs generalizing c ns with
  | nil => exact ⟨c, rfl⟩
  | cons r rs ih =>
    cases ns with
    | nil => simp at hl
    | cons n ns =>
      obtain ⟨s, hs⟩ := hf r (by simp)
      have h0 : Ready c n := hr 0 n (by simp) rfl
      rw [List.nodup_cons] at hn
      simp only [resolveAll, hs, Py.ok_bind, setFuture_finish s h0]
      refine ih hn.2 (by simpa using hl) ?_ (fun r hr => hf r (by simp [hr]))
      intro i m hi hm
      refine (hr (i + 1) m (by simpa using hi) (by simpa using hm)).set s ?_
      rintro rfl
      exact hn.1 (List.mem_of_getElem? hm)

theorem resolveAll_spec {f : Bytes → Py FState} {rs : List Bytes} {ns : List Nat} {c c' : Client} (hn : ns.Nodup)
    (e : c.resolveAll f rs ns = .ok c') :
    (∀ (i : Nat) r n, rs[i]? = some r → ns[i]? = some n → ∃ s, f r = .ok s ∧ c'.futures[n]? = some s) ∧
    (∀ n, (∀ i, i < rs.length → ns[i]? ≠ some n) → c'.futures[n]? = c.futures[n]?) := by
  induction rs generalizing c ns with
  | nil => simp only [resolveAll] at e; cases e; simp
  | cons r rs ih =>
    cases ns with
    | nil => simp [resolveAll] at e
    | cons n ns =>
      simp only [resolveAll, Py.bind_ok] at e
      obtain ⟨s, hs, c1, h1, h2⟩ := e
      rw [List.nodup_cons] at hn
      obtain ⟨i1, i2⟩ := ih hn.2 h2
      have hr := setFuture_ready h1
      rw [setFuture_finish s hr] at h1
      cases h1
      refine ⟨?_, ?_⟩
      · intro i r' n' hr' hn'
        cases i with
        | zero =>
          simp only [List.getElem?_cons_zero, Option.some.injEq] at hr' hn'
          subst hr' hn'
          refine ⟨s, hs, ?_⟩
          rw [i2]
          · have hlt : n < c.futures.length := by
              rcases hr with h | h <;> exact (List.getElem?_eq_some_iff.1 h).1
            simp [hlt]
          · intro i _ hi
            exact hn.1 (List.mem_of_getElem? hi)
        | succ i => exact i1 i r' n' (by simpa using hr') (by simpa using hn')
      · intro m hm
        rw [i2]
        · have : n ≠ m := fun e => hm 0 (by simp) (by simp [e])
          simp [this]
        · intro i hi
          simpa using hm (i + 1) (by simpa using hi)

theorem exitFutures_total {ns : List Nat} {c : Client} (hn : ns.Nodup) (hr : ∀ n ∈ ns, Ready c n) : ∃ c', c.exitFutures ns = .ok c' := by
  induction ns generalizing c with
  | nil => exact ⟨c, rfl⟩
  | cons n ns ih =>
    rw [List.nodup_cons] at hn
    simp only [exitFutures, setFuture_finish _ (hr n (by simp)), Py.ok_bind]
    exact ih hn.2 (fun m hm => (hr m (by simp [hm])).set _ (fun e => hn.1 (e ▸ hm)))

theorem exitFutures_spec {ns : List Nat} {c c' : Client} (e : c.exitFutures ns = .ok c') :
    (∀ n ∈ ns, Ready c n ∧ c'.futures[n]? = some .disconnected) ∧ (∀ n, n ∉ ns → c'.futures[n]? = c.futures[n]?) := by
  induction ns generalizing c with
  | nil => simp only [exitFutures] at e; cases e; simp
  | cons n ns ih =>
    simp only [exitFutures, Py.bind_ok] at e
    obtain ⟨c1, h1, h2⟩ := e
    obtain ⟨i1, i2⟩ := ih h2
    have hr := setFuture_ready h1
    have hd : c'.futures[n]? = some .disconnected := by
      rw [setFuture_finish _ hr] at h1
      cases h1
      refine exitFutures_final ?_ trivial h2
      have hlt : n < c.futures.length := by
        rcases hr with h | h <;> exact (List.getElem?_eq_some_iff.1 h).1
      simp [hlt]
    rw [setFuture_finish _ hr] at h1
    cases h1
    refine ⟨?_, ?_⟩
    · intro m hm
      rcases List.mem_cons.1 hm with rfl | hm
      · exact ⟨hr, hd⟩
      · by_cases hx : m = n
        · subst hx; exact ⟨hr, hd⟩
        · obtain ⟨h1, h2⟩ := i1 m hm
          refine ⟨?_, h2⟩
          have hx : ¬ n = m := fun e => hx e.symm
          simpa [Ready, List.getElem?_set, hx] using h1
    · intro m hm
      rw [List.mem_cons, not_or] at hm
      rw [i2 m hm.2]
      have hx : ¬ n = m := fun e => hm.1 e.symm
      simp [hx]

theorem exitTasks_total {l : List (Bytes × Nat)} {c : Client} (hn : (l.map (·.2)).Nodup) (hr : ∀ n ∈ l.map (·.2), Ready c n) :
    ∃ c', c.exitTasks l = .ok c' := by
  induction l generalizing c with
  | nil => exact ⟨c, rfl⟩
  | cons x l ih =>
    simp only [List.map_cons, List.nodup_cons] at hn
    have h0 : Ready (c.note (.sent (.taskCancel x.1))) x.2 := hr x.2 (by simp)
    simp only [exitTasks, setFuture_finish _ h0, Py.ok_bind]
    refine ih hn.2 (fun m hm => ?_)
    have : Ready (c.note (.sent (.taskCancel x.1))) m := hr m (by simp only [List.map_cons, List.mem_cons]; exact .inr hm)
    exact this.set _ (fun e => hn.1 (e ▸ hm))

theorem exitTasks_spec {l : List (Bytes × Nat)} {c c' : Client} (e : c.exitTasks l = .ok c') :
    (∀ n ∈ l.map (·.2), Ready c n ∧ c'.futures[n]? = some .disconnected) ∧ (∀ n, n ∉ l.map (·.2) → c'.futures[n]? = c.futures[n]?) := by
  induction l generalizing c with
  | nil => simp only [exitTasks] at e; cases e; simp
  | cons x l ih =>
    simp only [exitTasks, Py.bind_ok] at e
    obtain ⟨c1, h1, h2⟩ := e
    obtain ⟨i1, i2⟩ := ih h2
    have hr : Ready (c.note (.sent (.taskCancel x.1))) x.2 := setFuture_ready h1
    have hr0 : Ready c x.2 := hr
    have hd : c'.futures[x.2]? = some .disconnected := by
      rw [setFuture_finish _ hr] at h1
      cases h1
      refine exitTasks_final ?_ trivial h2
      have hlt : x.2 < c.futures.length := by
        rcases hr0 with h | h <;> exact (List.getElem?_eq_some_iff.1 h).1
      simp [Client.note, hlt]
    rw [setFuture_finish _ hr] at h1
    cases h1
    refine ⟨?_, ?_⟩
    · intro m hm
      rw [List.map_cons, List.mem_cons] at hm
      by_cases hx : m = x.2
      · subst hx; exact ⟨hr0, hd⟩
      · rcases hm with hm | hm
        · exact absurd hm hx
        · obtain ⟨h1, h2⟩ := i1 m hm
          refine ⟨?_, h2⟩
          have hx : ¬ x.2 = m := fun e => hx e.symm
          simpa [Ready, Client.note, List.getElem?_set, hx] using h1
    · intro m hm
      rw [List.map_cons, List.mem_cons, not_or] at hm
      rw [i2 m hm.2]
      have hx : ¬ x.2 = m := fun e => hm.1 e.symm
      simp [Client.note, hx]

theorem exitGraphs_total {l : List (Bytes × List Nat)} {c : Client} (hn : (l.map (·.2)).flatten.Nodup)
    (hr : ∀ n ∈ (l.map (·.2)).flatten, Ready c n) : ∃ c', c.exitGraphs l = .ok c' := by
  induction l generalizing c with
  | nil => exact ⟨c, rfl⟩
  | cons x l ih =>
    simp only [List.map_cons, List.flatten_cons, List.nodup_append] at hn
    obtain ⟨n1, n2, n3⟩ := hn
    obtain ⟨c1, h1⟩ := exitFutures_total (c := c.note (.sent (.graphTaskCancel x.1))) n1 (fun n hm => by
      have : Ready c n := hr n (by simp only [List.map_cons, List.flatten_cons]; exact List.mem_append_left _ hm)
      exact this)
    simp only [exitGraphs, h1, Py.ok_bind]
    refine ih n2 (fun m hm => ?_)
    have : Ready c m := hr m (by simp only [List.map_cons, List.flatten_cons]; exact List.mem_append_right _ hm)
    have hsame := (exitFutures_spec h1).2 m (fun hx => n3 m hx m hm rfl)
    rcases this with h | h
    · exact .inl (hsame.trans h)
    · exact .inr (hsame.trans h)

theorem exitGraphs_spec {l : List (Bytes × List Nat)} {c c' : Client} (e : c.exitGraphs l = .ok c') :
    (∀ n ∈ (l.map (·.2)).flatten, Ready c n ∧ c'.futures[n]? = some .disconnected) ∧
    (∀ n, n ∉ (l.map (·.2)).flatten → c'.futures[n]? = c.futures[n]?) := by
  induction l generalizing c with
  | nil => simp only [exitGraphs] at e; cases e; simp
  | cons x l ih =>
    simp only [exitGraphs, Py.bind_ok] at e
    obtain ⟨c1, h1, h2⟩ := e
    obtain ⟨i1, i2⟩ := ih h2
    obtain ⟨j1, j2⟩ := exitFutures_spec h1
    refine ⟨?_, ?_⟩
    · intro m hm
      by_cases hx : m ∈ x.2
      · exact ⟨(j1 m hx).1, exitGraphs_final (j1 m hx).2 trivial h2⟩
      · rw [List.map_cons, List.flatten_cons, List.mem_append] at hm
        rcases hm with hm | hm
        · exact absurd hm hx
        · obtain ⟨h1, h2⟩ := i1 m hm
          refine ⟨?_, h2⟩
          have hs := j2 m hx
          rcases h1 with h | h
          · exact .inl (hs.symm.trans h)
          · exact .inr (hs.symm.trans h)
    · intro m hm
      rw [List.map_cons, List.flatten_cons, List.mem_append, not_or] at hm
      rw [i2 m hm.2, j2 m hm.1]
      rfl

end Verif.Client
