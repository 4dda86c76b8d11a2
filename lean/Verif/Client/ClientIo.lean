import Verif.Client.ClientFutures

/-!
# What a client takes in and puts out
-/

namespace Verif.Client

open Verif.Wire Verif.Spec.Client Client

/-- The graph whose futures are not in the table yet. -/
def User.pend : User → Option (Bytes × List Nat)
  | .registerGraph g ns => some (g, ns)
  | _ => none

/-- Entries of the history that are of no interest here. -/
def Calm : Act → Prop
  | .submitted .. => True
  | .sent (.taskCancel _) => True
  | .sent (.graphTaskCancel _) => True
  | .cancelled _ => True
  | .exited => True
  | .returned .. => True
  | _ => False

/-- Messages that are no graph. -/
def NoGraph (m : Message) : Prop := ∀ g, m ≠ .graphTask g

/-- What one event does to history, outbox and the graph in the making. -/
inductive Io (c c' : Client) (o : Op) : Prop where
  | quiet (xs : List Act) (ms : List Message) (h1 : c'.log = c.log ++ xs) (h2 : ∀ x ∈ xs, Calm x) (h3 : c'.outbox = c.outbox ++ ms)
      (h4 : ∀ m ∈ ms, NoGraph m) (h5 : c'.user.pend = c.user.pend)
      (h6 : ∀ t n, Act.returned t n ∈ xs → ∃ k, c.user.task? = some k ∧ k.taskId = t)
  | get (g : GraphTask) (h1 : o = .get g) (h2 : c'.log = c.log ++ [.graph g]) (h3 : c'.outbox = c.outbox ++ [.graphTask g])
      (h4 : c.user = .idle) (h5 : c'.user.pend = some (g.taskId, List.range' c.futures.length g.targets.length))
  | recv (m : Message) (ms : List Message) (h1 : o = .recv m) (h2 : c'.log = c.log ++ [.recv m]) (h3 : c'.outbox = c.outbox ++ ms)
      (h4 : ∀ m ∈ ms, NoGraph m) (h5 : c'.user = c.user)
  | flush (m : Message) (h1 : c'.log = c.log ++ [.sent m]) (h2 : c.outbox = m :: c'.outbox) (h3 : c'.user = c.user)
  | started (g : Bytes) (ns : List Nat) (h1 : c.user.pend = some (g, ns)) (h2 : c'.log = c.log ++ [.started g ns])
      (h3 : c'.outbox = c.outbox) (h4 : c'.user = .idle)

theorem noGraph_task (k : Task) : NoGraph (.task k) := nofun

theorem bufferSend_out {c c' : Client} {k : Task} (e : c.bufferSend k = .ok c') :
    ∃ ms, c'.outbox = c.outbox ++ ms ∧ ∀ m ∈ ms, NoGraph m := by
  unfold bufferSend at e
  split at e
  · cases e; exact ⟨[], by simp [appendTask], by simp⟩
  · obtain ⟨c1, h1, e⟩ := Py.bind_ok.1 e
    cases e
    obtain ⟨nm, b, rfl⟩ := request_count h1
    exact ⟨[.functionRequest .add k.functionId nm b], by simp [appendTask, Client.send], by simp [NoGraph]⟩

theorem receive_out {p : Pickle} {c c' : Client} {m : Message} (e : c.receive p m = .ok c') :
    c'.user = c.user ∧ ∃ ms, c'.outbox = c.outbox ++ ms ∧ ∀ m ∈ ms, NoGraph m := by
  have same : OnlyFutures (c.note (.recv m)) c' → c'.user = c.user ∧ ∃ ms, c'.outbox = c.outbox ++ ms ∧ ∀ m ∈ ms, NoGraph m := by
    intro h
    exact ⟨h.user, [], by rw [h.outbox]; simp [Client.note], by simp⟩
  simp only [receive] at e
  split at e
  · simp only [onTaskEcho] at e
    split at e
    · cases e; exact same (.refl _)
    · split at e
      · cases e; exact same (.refl _)
      · have h := bufferSend_out e
        exact ⟨(bufferSend_count e []).2.2.1, h⟩
      · cases e
      · simp only [Py.bind_ok] at e
        obtain ⟨x, hx, y, hy, n, _, e⟩ := e
        have h := setFuture_only e
        exact ⟨h.user, [], by rw [h.outbox]; simp [Client.note], by simp⟩
      · cases e
      · cases e
  · simp only [onFunctionResponse, Py.bind_ok] at e
    obtain ⟨_, hst, e⟩ := e
    split at e <;> cases e
    · exact same (.refl _)
    · next ks _ => exact ⟨rfl, ks.map .task, rfl, by simp [NoGraph]⟩
  · simp only [onTaskResult] at e
    split at e
    · cases e; exact same (.refl _)
    · split at e
      · obtain ⟨_, _, e⟩ := Py.bind_ok.1 e
        have h := setFuture_only e
        exact ⟨h.user, [], by rw [h.outbox]; simp [Client.note], by simp⟩
      · obtain ⟨_, _, e⟩ := Py.bind_ok.1 e
        have h := setFuture_only e
        exact ⟨h.user, [], by rw [h.outbox]; simp [Client.note], by simp⟩
      · cases e; exact ⟨rfl, [], by simp [Client.note], by simp⟩
  · simp only [onGraphTaskResult] at e
    split at e
    · cases e; exact same (.refl _)
    · split at e
      · have h := resolveAll_only e
        exact ⟨h.user, [], by rw [h.outbox]; simp [Client.note], by simp⟩
      · obtain ⟨_, _, e⟩ := Py.bind_ok.1 e
        obtain ⟨_, _, e⟩ := Py.bind_ok.1 e
        have h := resolveAll_only e
        exact ⟨h.user, [], by rw [h.outbox]; simp [Client.note], by simp⟩
      · cases e; exact ⟨rfl, [], by simp [Client.note], by simp⟩
  · cases e

theorem exitTasks_out {l : List (Bytes × Nat)} {c c' : Client} (e : c.exitTasks l = .ok c') : c'.outbox = c.outbox := by
  induction l generalizing c with
  | nil => cases e; rfl
  | cons x l ih =>
    obtain ⟨t, n⟩ := x
    simp only [exitTasks, Py.bind_ok] at e
    obtain ⟨c1, h1, e⟩ := e
    rw [ih e, (setFuture_only h1).outbox]
    rfl

theorem exitGraphs_out {l : List (Bytes × List Nat)} {c c' : Client} (e : c.exitGraphs l = .ok c') : c'.outbox = c.outbox := by
  induction l generalizing c with
  | nil => cases e; rfl
  | cons x l ih =>
    obtain ⟨t, n⟩ := x
    simp only [exitGraphs, Py.bind_ok] at e
    obtain ⟨c1, h1, e⟩ := e
    rw [ih e, (exitFutures_only h1).outbox]
    rfl

theorem step_io {p : Pickle} {c c' : Client} {o : Op} (e : c.step p o = .ok c') : Io c c' o := by
  have nil : c'.log = c.log → c'.outbox = c.outbox → c'.user.pend = c.user.pend → Io c c' o := by
    intro h1 h2 h3
    exact .quiet [] [] (by simpa using h1) (by simp) (by simpa using h2) (by simp) h3 (by simp)
  cases o with
  | submit t nm b args =>
    simp only [step] at e
    split at e <;> cases e
    · rename_i hu
      exact .quiet [.submitted _ _ _] [] rfl (by simp [Calm]) (by simp [submit, Client.note]) (by simp) (by rw [hu]; rfl) (by simp)
    · exact nil rfl rfl rfl
  | get g =>
    simp only [step] at e
    split at e <;> cases e
    · exact .get g rfl rfl rfl ‹_› rfl
    · exact nil rfl rfl rfl
  | advance =>
    simp only [step, advance] at e
    split at e
    · cases e; exact nil rfl rfl rfl
    · rename_i hu; cases e; exact nil rfl rfl (by rw [hu]; rfl)
    · rename_i hu; cases e; refine nil rfl rfl ?_
      rw [hu]; dsimp only; split <;> rfl
    · rename_i k hu
      simp only [Py.bind_ok, Py.pure_eq] at e
      obtain ⟨c1, e1, e2⟩ := e
      cases e2
      obtain ⟨nm, b, rfl⟩ := request_count e1
      exact .quiet [] [.functionRequest .add k.functionId nm b] (by simp [Client.send]) (by simp) (by simp [Client.send]) (by simp [NoGraph])
        (by rw [hu]; rfl) (by simp)
    · rename_i hu; cases e; exact nil (by simp [appendTask]) (by simp [appendTask]) (by rw [hu]; rfl)
    · rename_i k hu; cases e
      refine .quiet [.returned _ _] [] rfl (by simp [Calm]) (by simp [Client.note]) (by simp) (by rw [hu]; rfl) ?_
      intro t n h
      simp only [List.mem_singleton, Act.returned.injEq] at h
      exact ⟨k, by rw [hu]; rfl, h.1.symm⟩
    · rename_i g ns hu; cases e; exact .started g ns (by rw [hu]; rfl) rfl rfl rfl
  | cancel n => cases e; exact .quiet [.cancelled n] [] rfl (by simp [Calm]) (by simp [Client.note]) (by simp) rfl (by simp)
  | disconnect => cases e; exact nil rfl rfl rfl
  | recv m =>
    simp only [step] at e
    split at e
    · cases e; exact nil rfl rfl rfl
    · obtain ⟨h1, ms, h2, h3⟩ := receive_out e
      exact .recv m ms rfl (receive_log e) h2 h3 h1
  | flush =>
    simp only [step] at e
    split at e
    · cases e; exact nil rfl rfl rfl
    · simp only [Client.flush] at e
      split at e
      · cases e; exact nil rfl rfl rfl
      · rename_i m ms hm
        simp only [Py.bind_ok, Py.pure_eq] at e
        obtain ⟨_, _, e⟩ := e
        cases e
        exact .flush m rfl hm rfl
  | exit =>
    simp only [step] at e
    split at e
    · simp only [exit, Py.bind_ok, Py.pure_eq] at e
      obtain ⟨c1, h1, c2, h2, e⟩ := e
      cases e
      refine .quiet ((c.toFuture.items.map fun x => Act.sent (.taskCancel x.1)) ++ (c1.graphs.items.map fun x => Act.sent (.graphTaskCancel x.1)) ++ [.exited]) []
        ?_ ?_ ?_ (by simp) ?_ ?_
      · simp only [Client.note]
        rw [exitGraphs_log h2, exitTasks_log h1]
        simp
      · simp only [List.mem_append, List.mem_map, List.mem_singleton]
        rintro x ((⟨y, -, rfl⟩ | ⟨y, -, rfl⟩) | rfl) <;> trivial
      · simp [Client.note, exitGraphs_out h2, exitTasks_out h1]
      · simp [Client.note, (exitGraphs_same h2).2.2.1, (exitTasks_same h1).2.2.1]
      · simp
    · cases e; exact nil rfl rfl rfl

/-! ### Received messages -/

theorem countP_calm {P : Act → Bool} {xs : List Act} (h : ∀ x ∈ xs, Calm x) (hP : ∀ x, Calm x → P x = false) : xs.countP P = 0 := by
  rw [List.countP_eq_zero]
  intro x hx
  simp [hP x (h x hx)]

/-- A message is taken in only if it is the event. -/
theorem step_recv {p : Pickle} {c c' : Client} {o : Op} (e : c.step p o = .ok c') (m : Message) :
    (c'.log.countP fun x => decide (x = .recv m)) ≤ (c.log.countP fun x => decide (x = .recv m)) + if o = .recv m then 1 else 0 := by
  cases step_io e with
  | quiet xs ms h1 h2 =>
    rw [h1, List.countP_append, countP_calm h2 (fun x hx => by cases x <;> first | rfl | exact hx.elim)]
    omega
  | get g h1 h2 => rw [h2]; simp
  | recv m' ms h1 h2 => rw [h2, h1]; simp [List.countP_append, List.countP_cons]
  | flush m' h1 => rw [h1]; simp
  | started g ns h1 h2 => rw [h2]; simp

/-! ### Graphs -/

/-- A graph was sent, or is to be sent, as often as it was built. -/
def GraphCount (c : Client) : Prop :=
  ∀ g, (c.log.countP fun x => decide (x = .sent (.graphTask g))) + (c.outbox.countP fun m => decide (m = .graphTask g)) =
    c.log.countP fun x => decide (x = .graph g)

theorem countP_noGraph {ms : List Message} (h : ∀ m ∈ ms, NoGraph m) (g : GraphTask) : (ms.countP fun m => decide (m = .graphTask g)) = 0 := by
  rw [List.countP_eq_zero]
  intro m hm
  simpa using h m hm g

theorem Reach.graphCount {p : Pickle} {c : Client} (h : Reach p c) : GraphCount c := by
  induction h with
  | init => intro g; simp [Client.init]
  | @step c c' o hr hf e ih =>
    intro g
    have ih := ih g
    cases step_io e with
    | quiet xs ms h1 h2 h3 h4 =>
      rw [h1, h3]
      simp only [List.countP_append]
      rw [countP_noGraph h4, countP_calm h2 (fun x hx => by
        cases x <;> first | rfl | exact hx.elim | skip
        rename_i m; cases m <;> first | rfl | exact hx.elim), countP_calm (P := fun x => decide (x = .graph g)) h2 (fun x hx => by
        cases x <;> first | rfl | exact hx.elim)]
      omega
    | get g' h1 h2 h3 =>
      rw [h2, h3]
      simp only [List.countP_append, List.countP_cons, List.countP_nil, decide_eq_true_eq, Message.graphTask.injEq, Act.graph.injEq,
        reduceCtorEq, if_false]
      split <;> omega
    | recv m' ms h1 h2 h3 h4 =>
      rw [h2, h3]
      simp only [List.countP_append, List.countP_cons, List.countP_nil, decide_eq_true_eq, reduceCtorEq, if_false]
      rw [countP_noGraph h4]
      omega
    | flush m' h1 h2 =>
      rw [h1]
      rw [h2] at ih
      simp only [List.countP_append, List.countP_cons, List.countP_nil, decide_eq_true_eq, Act.sent.injEq, reduceCtorEq, if_false] at ih ⊢
      split at ih <;> simp_all <;> omega
    | started g ns h1 h2 h3 =>
      rw [h2, h3]
      simpa [List.countP_append, List.countP_cons] using ih

theorem countP_graph_le (g : GraphTask) (l : Hist) : (l.countP fun x => decide (x = .graph g)) ≤ (usedIds l).countP fun i => decide (i = g.taskId) := by
  induction l with
  | nil => simp [usedIds]
  | cons x l ih =>
    cases x <;> simp only [usedIds, graphIds, List.countP_cons, List.countP_append, decide_eq_true_eq, reduceCtorEq, if_false,
      Act.graph.injEq, List.cons_append] <;> try omega
    rename_i g'
    by_cases h : g' = g
    · subst h; simp; omega
    · simp only [h, if_false]; omega

/-- A graph is sent at most once. -/
theorem Reach.graphOnce {p : Pickle} {c : Client} (h : Reach p c) (g : GraphTask) :
    (c.log.countP fun x => decide (x = .sent (.graphTask g))) ≤ 1 := by
  have h1 := h.graphCount g
  have h2 := countP_graph_le g c.log
  have h3 := countP_le_one h.ids g.taskId
  omega

/-- A future that `submit` returned belongs to a task it created. -/
theorem Reach.returned {p : Pickle} {c : Client} (h : Reach p c) {t : Bytes} {n : Nat} (hn : Act.returned t n ∈ c.log) :
    ∃ k nm b, Act.submitted k nm b ∈ c.log ∧ k.taskId = t := by
  induction h with
  | init => cases hn
  | @step c c' o hr hf e ih =>
    have old : Act.returned t n ∈ c.log → ∃ k nm b, Act.submitted k nm b ∈ c'.log ∧ k.taskId = t := by
      intro h
      obtain ⟨k, nm, b, h1, h2⟩ := ih h
      exact ⟨k, nm, b, step_mono e _ h1, h2⟩
    cases step_io e with
    | quiet xs ms h1 h2 h3 h4 h5 h6 =>
      rw [h1] at hn
      rcases List.mem_append.1 hn with hn | hn
      · exact old hn
      · obtain ⟨k, h7, h8⟩ := h6 t n hn
        obtain ⟨nm, b, h9, -⟩ := hr.task.user k h7
        exact ⟨k, nm, b, step_mono e _ h9, h8⟩
    | get g' h1 h2 => rw [h2] at hn; exact old (by simpa using hn)
    | recv m' ms h1 h2 => rw [h2] at hn; exact old (by simpa using hn)
    | flush m' h1 => rw [h1] at hn; exact old (by simpa using hn)
    | started g ns h1 h2 => rw [h2] at hn; exact old (by simpa using hn)

/-- Graphs that have futures were built. -/
def StartInv (c : Client) : Prop :=
  ∀ g ns, Act.started g ns ∈ c.log ∨ c.user.pend = some (g, ns) → ∃ m, Act.graph m ∈ c.log ∧ m.taskId = g

theorem Reach.start {p : Pickle} {c : Client} (h : Reach p c) : StartInv c := by
  induction h with
  | init => intro g ns h; rcases h with h | h <;> cases h
  | @step c c' o hr hf e ih =>
    intro g ns hn
    have old : Act.started g ns ∈ c.log ∨ c.user.pend = some (g, ns) → ∃ m, Act.graph m ∈ c'.log ∧ m.taskId = g := by
      intro h
      obtain ⟨m, h1, h2⟩ := ih g ns h
      exact ⟨m, step_mono e _ h1, h2⟩
    cases step_io e with
    | quiet xs ms h1 h2 h3 h4 h5 h6 =>
      rw [h1, h5, List.mem_append] at hn
      rcases hn with (hn | hn) | hn
      · exact old (.inl hn)
      · exact (h2 _ hn).elim
      · exact old (.inr hn)
    | get g' h1 h2 h3 h4 h5 =>
      rw [h2, h5] at hn
      rcases hn with hn | hn
      · exact old (.inl (by simpa using hn))
      · cases hn; exact ⟨g', by rw [h2]; simp, rfl⟩
    | recv m' ms h1 h2 h3 h4 h5 => rw [h2, h5] at hn; exact old (by simpa using hn)
    | flush m' h1 h2 h3 => rw [h1, h3] at hn; exact old (by simpa using hn)
    | started g' ns' h1 h2 h3 h4 =>
      rw [h2, h4] at hn
      rcases hn with hn | hn
      · rcases List.mem_append.1 hn with hn | hn
        · exact old (.inl hn)
        · simp only [List.mem_singleton, Act.started.injEq] at hn
          obtain ⟨rfl, rfl⟩ := hn
          exact old (.inr h1)
      · cases hn

theorem graph_used {m : GraphTask} {l : Hist} (h : Act.graph m ∈ l) : ∀ t ∈ graphIds m, t ∈ usedIds l := by
  induction l with
  | nil => cases h
  | cons x l ih =>
    intro t ht
    rcases List.mem_cons.1 h with rfl | h
    · simp [usedIds, ht]
    · have := ih h t ht
      cases x <;> simp [usedIds, this]

/-- The futures of graph `m` are those from `base` on. -/
def Futures (m : GraphTask) (base : Nat) (c : Client) : Prop :=
  Act.graph m ∈ c.log ∧ (Act.started m.taskId (List.range' base m.targets.length) ∈ c.log ∨
    c.user.pend = some (m.taskId, List.range' base m.targets.length))

theorem get_futures {c : Client} {m : GraphTask} : Futures m c.futures.length (c.get m) :=
  ⟨by simp [Client.get, Client.note, Client.send], .inr rfl⟩

theorem step_futures {p : Pickle} {c c' : Client} {o : Op} {m : GraphTask} {base : Nat} (h : Futures m base c)
    (e : c.step p o = .ok c') : Futures m base c' := by
  obtain ⟨h0, hs⟩ := h
  refine ⟨step_mono e _ h0, ?_⟩
  rcases hs with hs | hs
  · exact .inl (step_mono e _ hs)
  · cases step_io e with
    | quiet xs ms h1 h2 h3 h4 h5 h6 => exact .inr (h5 ▸ hs)
    | get g' h1 h2 h3 h4 h5 => rw [h4] at hs; cases hs
    | recv m' ms h1 h2 h3 h4 h5 => exact .inr (h5 ▸ hs)
    | flush m' h1 h2 h3 => exact .inr (h3 ▸ hs)
    | started g' ns' h1 h2 h3 h4 =>
      rw [h1] at hs
      cases hs
      exact .inl (by rw [h2]; simp)

/-- What a future of graph `m` holds comes from a result of this graph. -/
theorem Futures.own {p : Pickle} {c : Client} (hr : Reach p c) {m : GraphTask} {base : Nat} (h : Futures m base c) {i : Nat}
    (hi : i < m.targets.length) {r : Bytes} (hf : c.futures[base + i]? = some (.result r)) :
    ∃ rs, Act.recv (.graphTaskResult m.taskId .success rs) ∈ c.log ∧ rs[i]? = some r := by
  have ho := hr.own
  have hmem : base + i ∈ List.range' base m.targets.length := List.mem_range'_1.2 ⟨by omega, by omega⟩
  have href : ∀ {g ns}, c.user.pend = some (g, ns) → c.user.refs = ns := by
    intro g ns hp
    cases hu : c.user <;> rw [hu] at hp <;> cases hp
    rfl
  rcases ho.expl _ _ hf with ⟨t, d, h1, h2⟩ | ⟨g, ns, rs, j, h1, h2, h3, h4⟩
  · rcases h.2 with hs | hs
    · exact absurd hmem (ho.apart _ _ _ _ h1 hs)
    · exact absurd (href hs ▸ hmem) (ho.user _ _ h1)
  · have hm2 := List.mem_of_getElem? h2
    rcases h.2 with hs | hs
    · obtain ⟨rfl, rfl⟩ := ho.graphs _ _ _ _ _ h1 hs hm2 hmem
      refine ⟨rs, h3, ?_⟩
      have hj : j < m.targets.length := by simpa using (List.getElem?_eq_some_iff.1 h2).1
      rw [List.getElem?_range' hj] at h2
      · simp only [Nat.one_mul, Option.some.injEq] at h2
        obtain rfl : j = i := by omega
        exact h4
    · exact absurd (href hs ▸ hmem) (ho.userG _ _ _ h1 hm2)

end Verif.Client
