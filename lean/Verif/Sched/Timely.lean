import Verif.Sched.Prompt

/-!
# The invariant of executions in which the task routine gets its turns
-/

namespace Verif.Sched

open Verif.Queue Verif.Util Verif.Wire Verif.Spec

namespace Alloc
variable {a : Alloc}

theorem Near.exact_of_empty (h : a.Inv) (hn : a.Near) (h0 : a.queue.len = 0) : a.Exact := by
  refine ⟨hn.load, ?_⟩
  intro w
  cases hs : a.queue.stale w with
  | none => rfl
  | some x =>
    obtain ⟨p, hp, _⟩ := hn.least w (by rw [hs]; simp)
    rw [(PQueue.len_zero h.pq).1 h0 w] at hp; cases hp

theorem removeTask_both (h : a.Inv) (hx : a.Exact) (t : Bytes) : ∃ r, a.removeTask t = .ok r ∧ r.2.Inv ∧ r.2.Exact := by
  obtain ⟨r, e, h2⟩ := hx.removeTask h t
  refine ⟨r, e, ?_, h2⟩
  cases ht : a.t2w.get? t with
  | none => rw [removeTask_unknown ht] at e; cases e; exact h
  | some w =>
    obtain ⟨s, _, _, h1 | h1⟩ := removeTask_known h ht
    · obtain ⟨a', e', h3, _⟩ := h1
      rw [e] at e'; cases e'; exact h3
    · exact absurd (hx.fresh w) h1.1.stale

theorem removeWorker_both (h : a.Inv) (hx : a.Exact) (w : Bytes) (hint : List Bytes) :
    ∃ r, a.removeWorker w hint = .ok r ∧ r.2.Inv ∧ r.2.Exact := by
  obtain ⟨r, e, h2⟩ := hx.removeWorker h w hint
  refine ⟨r, e, ?_, h2⟩
  cases hw : a.w2t.get? w with
  | none => rw [removeWorker_unknown hint hw] at e; cases e; exact h
  | some s =>
    rcases removeWorker_known h hint hw with ⟨_, a', e', h3, _⟩ | ⟨h1, _⟩
    · rw [e] at e'; cases e'; exact h3
    · exact absurd (hx.fresh w) h1

end Alloc

/-- Everything is up to date, unless a turn is due; then a task waits for it. -/
structure Timely (s : Sched) (due : Bool) : Prop where
  near : s.wm.alloc.Near
  exact : due = false → s.wm.alloc.Exact
  wait : s.wm.alloc.Exact ∨ s.tm.pending ≠ none ∨ 0 < s.tm.unassigned.size

theorem Timely.of_exact {s : Sched} {d : Bool} (h : s.wm.alloc.Exact) : Timely s d := ⟨h.near, fun _ => h, Or.inl h⟩

theorem Timely.still {s s' : Sched} {d : Bool} (h : Timely s d) (hs : Still s s') : Timely s' d := by
  refine ⟨by rw [hs.alloc]; exact h.near, fun hd => by rw [hs.alloc]; exact h.exact hd, ?_⟩
  rw [hs.alloc, hs.pend, hs.size]
  exact h.wait

theorem Timely.saw {s s' : Sched} {d : Bool} (h : Timely s d) (hi : s.wm.alloc.Inv) (h0 : 0 ≤ s.tm.unassigned.size) (hm : s.cfg.maxWaiting ≠ 0)
    (hs : Saw s s') : Timely s' true := by
  rcases hs.look with e | ⟨e1, e2⟩
  · refine ⟨by rw [e]; exact h.near, by simp, ?_⟩
    rw [e, hs.pend]
    refine h.wait.imp_right (Or.imp_right ?_)
    intro h1
    exact Int.lt_of_lt_of_le h1 hs.size
  · exact ⟨(e1 hi h.near).2, by simp, Or.inr (Or.inr (e2 hm h0))⟩

namespace Sched
variable {s : Sched}

theorem size_nonneg {q : IQueue Bytes Bytes} (h : q.WF id) : 0 ≤ q.size := by
  have := h.len
  simp only [IQueue.len] at this
  omega

theorem unqueue_size (h : s.tm.unassigned.WF id) (t : Bytes) : Py.Post (s.unqueue t)
    (fun s' => Calm s s' ∧ 0 ≤ s'.tm.unassigned.size) (fun _ => True) := by
  unfold unqueue
  split
  · by_cases ht : id t ∈ s.tm.unassigned.contents.map id
    · obtain ⟨q, e, h1, _⟩ := h.remove_present ht
      rw [e]
      exact ⟨⟨rfl, rfl⟩, size_nonneg h1⟩
    · rw [h.remove_absent ht]; trivial
  · split
    · exact post_any fun _ => ⟨⟨rfl, rfl⟩, size_nonneg h⟩
    · exact ⟨calm_refl s, size_nonneg h⟩

/-- After the end of a task. -/
theorem taskDone_timely (o : Order) (now : Int) (n : Nat) (r : TaskRes) (hq : s.tm.unassigned.WF id) (hi : s.wm.alloc.Inv) (hx : s.wm.alloc.Exact)
    (hm : s.cfg.maxWaiting ≠ 0) : Py.Post (taskDone o now n s r) (fun s' => Timely s' true) (fun _ => True) := by
  cases n with
  | zero => trivial
  | succ n =>
    unfold taskDone onTaskDoneWith
    simp only
    rw [Py.post_bind]
    have hcs := count_still (s := s) r.status
    refine Py.Post.imp (unqueue_size (s := s.count r.status) (by rw [hcs.size]; exact hq) _) (fun s2 h2 => ?_) (fun _ h => h)
    have hx2 : s2.wm.alloc = s.wm.alloc := h2.1.alloc.trans hcs.alloc
    have hm2 : s2.cfg = s.cfg := h2.1.cfg.trans hcs.cfg
    rw [Py.post_bind]
    refine Py.Post.imp (sendMonitor_still _ _) (fun s3 h3 => ?_) (fun _ h => h)
    refine post_any fun p => ?_
    rw [Py.post_bind]
    refine Py.Post.imp (doneFunction_still _) (fun s4 h4 => ?_) (fun _ h => h)
    rw [Py.post_bind]
    refine Py.Post.imp (clientDone_still _) (fun c h5 => ?_) (fun _ h => h)
    obtain ⟨c, s5⟩ := c
    simp only at h5 ⊢
    have h25 : Still s2 s5 := PreOrder.trans s2 s3 s5 h3 (PreOrder.trans s3 s4 s5 ⟨h4.1, h4.2, h4.3, h4.4⟩ h5)
    have hx5 : s5.wm.alloc = s.wm.alloc := h25.alloc.trans hx2
    rw [Py.post_bind]
    refine Py.Post.imp (graphTaskDone_cs (taskDone_calm o now n) _ _ _ _) (fun b h6 => ?_) (fun _ h => h)
    obtain ⟨b, s6⟩ := b
    have ht : Timely s6 true := by
      rcases h6 with h6 | h6
      · exact Timely.of_exact (by rw [h6.alloc, hx5]; exact hx)
      · refine (Timely.of_exact (s := s5) (d := true) (by rw [hx5]; exact hx)).saw (by rw [hx5]; exact hi) ?_ ?_ h6
        · rw [h25.size]; exact h2.2
        · rw [h25.cfg, hm2]; exact hm
    simp only
    split
    · exact ht
    · exact ht.still ⟨rfl, rfl, rfl, rfl⟩

/-- A result. -/
theorem onTaskResult_timely (o : Order) (now : Int) (r : TaskRes) (hq : s.tm.unassigned.WF id) (hi : s.wm.alloc.Inv) (hx : s.wm.alloc.Exact)
    (hm : s.cfg.maxWaiting ≠ 0) : Py.Post (s.onTaskResult o now r) (fun s' => Timely s' true) (fun _ => True) := by
  unfold onTaskResult
  obtain ⟨p, e, h1, h2⟩ := Alloc.removeTask_both hi hx r.taskId
  rw [e]
  simp only [Py.ok_bind]
  split
  · exact Timely.of_exact h2
  · exact taskDone_timely o now _ r hq h1 h2 hm

/-! ### Workers -/

theorem takeBack_exact : ∀ (ts : List Bytes) (a : Alloc), a.Inv → a.Exact → ∃ r, takeBack a ts = .ok r ∧ r.2.Inv ∧ r.2.Exact
  | [], a, hi, hx => ⟨_, rfl, hi, hx⟩
  | t :: ts, a, hi, hx => by
    unfold takeBack
    obtain ⟨⟨w, a1⟩, e, h1, h2⟩ := Alloc.removeTask_both hi hx t
    obtain ⟨r, e', h3, h4⟩ := takeBack_exact ts a1 h1 h2
    rw [e]
    simp only [Py.ok_bind, e']
    exact ⟨_, rfl, h3, h4⟩

theorem onBalanceResponse_exact (ids : List Bytes) (hi : s.wm.alloc.Inv) (hx : s.wm.alloc.Exact) :
    Py.Post (s.onBalanceResponse ids) (fun s' => s'.wm.alloc.Exact) (fun _ => True) := by
  unfold onBalanceResponse
  obtain ⟨r, e, _, h2⟩ := takeBack_exact ids _ hi hx
  rw [e]
  refine Py.Post.imp (rerouteTasks_only _ _) ?_ (fun _ h => h)
  rintro s' ⟨_, h, _⟩
  rw [h]; exact h2

theorem disconnectWorker_exact (o : Order) (w : Bytes) (hi : s.wm.alloc.Inv) (hx : s.wm.alloc.Exact) :
    Py.Post (s.disconnectWorker o w) (fun p => p.2.wm.alloc.Inv ∧ p.2.wm.alloc.Exact) (fun _ => True) := by
  unfold disconnectWorker
  split
  · exact ⟨hi, hx⟩
  · refine post_any fun p => ?_
    obtain ⟨r, e, h1, h2⟩ := Alloc.removeWorker_both hi hx w (o w)
    rw [e]
    simp only [Py.ok_bind]
    split
    · exact ⟨h1, h2⟩
    · rw [Py.post_bind]
      refine Py.Post.imp (rerouteTasks_only _ _) ?_ (fun _ h => h)
      rintro s' ⟨_, h, _⟩
      show s'.wm.alloc.Inv ∧ s'.wm.alloc.Exact
      rw [h]; exact ⟨h1, h2⟩

theorem disconnectAll_exact (o : Order) : ∀ (ws : List Bytes) (s : Sched), s.wm.alloc.Inv → s.wm.alloc.Exact →
    Py.Post (s.disconnectAll o ws) (fun s' => s'.wm.alloc.Exact) (fun _ => True)
  | [], _, _, hx => hx
  | w :: ws, s, hi, hx => by
    unfold disconnectAll
    rw [Py.post_bind]
    refine Py.Post.imp (disconnectWorker_exact o w hi hx) ?_ (fun _ h => h)
    rintro ⟨b, s1⟩ ⟨h1, h2⟩
    exact disconnectAll_exact o ws s1 h1 h2

theorem workerRoutine_exact (o : Order) (now : Int) (hi : s.wm.alloc.Inv) (hx : s.wm.alloc.Exact) :
    Py.Post (s.workerRoutine o now) (fun s' => s'.wm.alloc.Exact) (fun _ => True) := by
  unfold workerRoutine cleanWorkers
  have : s.balanceRequest.wm.alloc = s.wm.alloc := by
    obtain ⟨last, count, out, e, _⟩ := balanceRequest_only s
    rw [e]
  exact disconnectAll_exact o _ _ (by rw [this]; exact hi) (by rw [this]; exact hx)

/-! ### Graphs -/

/-- A node that does not run leaves the queues alone. -/
theorem cleanNodes_still {done : Sched → TaskRes → Py Sched} : ∀ (ts : List Bytes) (s : Sched) (tasks : Dict Bytes NodeInfo),
    (∀ t i, tasks.get? t = some i → i.state = .inactive) → Rel Still s (cleanNodes done s tasks ts)
  | [], s, _, _ => still_refl s
  | t :: ts, s, tasks, h => by
    unfold cleanNodes cleanNode
    cases ht : tasks.get? t with
    | none =>
      simp only [Py.ok_bind]
      exact cleanNodes_still ts s tasks h
    | some i =>
      simp only [h t i ht]
      unfold Rel
      rw [Py.post_bind, Py.post_bind]
      refine Py.Post.imp (doneFunction_still _) (fun s1 h1 => ?_) (fun _ h => h)
      rw [Py.post_pure]
      refine Py.Post.imp (cleanNodes_still ts { s1 with gm := { s1.gm with nodeGraph := s1.gm.nodeGraph.erase t } } (tasks.erase t) ?_)
        (fun s2 h2 => PreOrder.trans s s1 s2 h1 ⟨h2.1, h2.2, h2.3, h2.4⟩) (fun _ h => h)
      intro t' i'
      rw [Dict.get?_erase]
      split
      · intro hx; cases hx
      · exact h t' i'

theorem unpackNodes_inactive (o : Order) (now : Int) (gt : GraphTask) : ∀ (ts : List Task) (u : Unpack) (s : Sched),
    (∀ t i, u.tasks.get? t = some i → i.state = .inactive) →
    Py.Post (s.unpackNodes o now gt u ts) (fun p => Still s p.2 ∧ ∀ t i, p.1.tasks.get? t = some i → i.state = .inactive) (fun _ => True)
  | [], _, s, h => ⟨still_refl s, h⟩
  | t :: ts, u, s, h => by
    unfold unpackNodes unpackNode
    rw [Py.post_bind, Py.post_bind]
    refine Py.Post.imp (useFunction_still _ _ _) (fun s1 h1 => ?_) (fun _ h => h)
    rw [Py.post_pure]
    refine Py.Post.imp (unpackNodes_inactive o now gt ts _ _ ?_) (fun p hp => ⟨?_, hp.2⟩) (fun _ h => h)
    · intro t' i'
      rw [Dict.get?_set]
      split
      · rintro ⟨⟩; rfl
      · exact h t' i'
    · exact PreOrder.trans s s1 p.2 h1 ⟨hp.1.1, hp.1.2, hp.1.3, hp.1.4⟩

theorem checkGraph_saw (done : Sched → TaskRes → Py Sched) (o : Order) (now : Int) {gid : Bytes} {g : Graph} (hg : s.gm.graphs.get? gid = some g)
    (h : ∀ t i, g.tasks.get? t = some i → i.state = .inactive) : Rel Saw s (checkGraph done s o now gid) := by
  unfold checkGraph
  rw [Dict.getPy_of_get? hg]
  simp only [Py.ok_bind]
  split
  · unfold finishGraph
    rw [Dict.getPy_of_get? hg]
    simp only [Py.ok_bind]
    refine .any fun _ => ?_
    unfold cleanGraph
    refine .bind2 (α := Graph) ?_ fun g s5 _ => ⟨rfl, rfl, Int.le_refl _, Or.inl rfl⟩
    unfold Rel2 clientDone
    rw [Py.post_bind]
    refine post_any fun p => ?_
    rw [Py.post_pure]
    simp only [Dict.pop_of_get? hg, Py.ok_bind]
    rw [Py.post_bind]
    refine Py.Post.imp (cleanNodes_still _ _ g.tasks h) (fun s5 h5 => ?_) (fun _ h => h)
    exact Still.saw ⟨h5.1, h5.2, h5.3, h5.4⟩
  · refine .after (s' := s.setGraph gid { g with sorter := g.sorter.getReady.2 }) ?_ (startNodes_saw _ _ _ _)
    exact ⟨rfl, rfl, Int.le_refl _, Or.inl rfl⟩

theorem addGraph_saw (o : Order) (now : Int) (c : Bytes) (gt : GraphTask) : Rel Saw s (s.addGraph o now c gt) := by
  unfold addGraph
  refine .after (addAll_still c now gt.functions.items s).saw ?_
  refine .bind (clientNew_still _ _).saw fun s2 _ => ?_
  unfold Rel
  rw [Py.post_bind]
  refine Py.Post.imp (unpackNodes_inactive o now gt gt.graph _ s2 (by simp)) ?_ (fun _ h => h)
  rintro ⟨u, s3⟩ ⟨h3, hu⟩
  refine post_any fun so => ?_
  have h4 : ∀ g, Saw s2 (s3.setGraph gt.taskId g) := fun g => (PreOrder.trans s2 s3 _ h3 ⟨rfl, rfl, rfl, rfl⟩ : Still s2 (s3.setGraph gt.taskId g)).saw
  refine Rel.after (h4 ⟨gt.targets, u.taskIds, so, u.tasks, u.deps, c⟩) ?_
  exact checkGraph_saw (g := ⟨gt.targets, u.taskIds, so, u.tasks, u.deps, c⟩) _ o now (by simp [setGraph, Dict.get?_set]) hu

/-! ### The task routine -/

theorem assignTask_exact (k : Task) (hi : s.wm.alloc.Inv) (hn : s.wm.alloc.Near) (h0 : ¬ s.wm.alloc.queue.len = 0) :
    Py.Post (s.assignTask k) (fun s' => s'.wm.alloc.Exact) (fun _ => True) := by
  unfold assignTask
  rw [Alloc.queue_empty_iff hi] at h0
  obtain ⟨w0, hw0⟩ := Classical.not_forall.1 h0
  obtain ⟨s0, hs0⟩ := Option.ne_none_iff_exists'.1 hw0
  cases e : s.wm.alloc.assignTask k.taskId with
  | error _ => trivial
  | ok r =>
    have hx := Alloc.assignTask_near hi hn hs0 k.taskId e
    simp only [Py.ok_bind]
    split
    · exact post_any fun _ => hx
    · refine Py.Post.imp (sendMonitor_still _ _) (fun s' h' => ?_) (fun _ h => h)
      rw [h'.alloc]; exact hx

theorem taskRoutine_exact {d : Bool} (hi : s.wm.alloc.Inv) (ht : Timely s d) :
    Py.Post s.taskRoutine (fun s' => s'.wm.alloc.Exact) (fun _ => True) := by
  unfold taskRoutine
  split
  · split
    · next h0 => exact ht.near.exact_of_empty hi h0
    · next h0 => exact assignTask_exact (s := { s with tm := { s.tm with pending := none } }) _ hi ht.near h0
  · next hp =>
    split
    · next h0 =>
      rcases ht.wait with h | h | h
      · exact h
      · exact absurd hp h
      · simp only [IQueue.len] at h0; omega
    · refine post_any fun p => post_any fun k => ?_
      split
      · next h0 => exact ht.near.exact_of_empty hi h0
      · next h0 => exact assignTask_exact (s := { s with tm := { s.tm with unassigned := p.2 } }) _ hi ht.near h0

/-! ### Functions -/

theorem onFunction_still (c : Bytes) (type : FunctionRequestType) (f name content : Bytes) (now : Int) :
    Rel Still s (s.onFunction c type f name content now) := by
  cases type with
  | check =>
    show Still s (s.functionCheck c f)
    unfold functionCheck functionResponse
    split <;> exact ⟨rfl, rfl, rfl, rfl⟩
  | add => exact functionAdd_still c f name content now
  | request =>
    show Still s (s.functionRequest c f)
    unfold functionRequest
    split <;> exact ⟨rfl, rfl, rfl, rfl⟩
  | delete =>
    show Rel Still s (s.functionDelete c f)
    unfold functionDelete functionResponse
    split
    · exact ⟨rfl, rfl, rfl, rfl⟩
    · refine .any fun _ => ?_
      split
      · exact ⟨rfl, rfl, rfl, rfl⟩
      · exact .any fun _ => .any fun _ => ⟨rfl, rfl, rfl, rfl⟩

theorem onDeleteFunction_still (o : Order) (f : Bytes) : Still s (s.onDeleteFunction o f) := by
  unfold onDeleteFunction
  have : ∀ (l : List Bytes) (s0 : Sched), Still s s0 → Still s (l.foldl (fun s w => s.send w (.functionRequest .delete f [] [])) s0) := by
    intro l
    induction l with
    | nil => exact fun _ h => h
    | cons w l ih => exact fun s0 h => ih _ (PreOrder.trans s s0 _ h ⟨rfl, rfl, rfl, rfl⟩)
  exact this _ s (still_refl s)

theorem dropFunctions_still (o : Order) : ∀ (l : List Bytes) (s : Sched), Rel Still s (s.dropFunctions o l)
  | [], s => still_refl s
  | f :: l, s => by
    unfold dropFunctions
    refine .any fun p => ?_
    refine .after (s' := ({ s with fm := { s.fm with funcs := p.2 } } : Sched).onDeleteFunction o f) ?_ (dropFunctions_still o l _)
    exact PreOrder.trans s { s with fm := { s.fm with funcs := p.2 } } _ ⟨rfl, rfl, rfl, rfl⟩ (onDeleteFunction_still o f)

end Sched

/-! ### One event, and all of them -/

theorem step_timely {cfg : Config} {l : Log} {s : Sched} (hg : Good cfg l s) (hm : cfg.maxWaiting ≠ 0) {d d' : Bool} (ht : Timely s d) (e : Event)
    (hd : nextDue d e = some d') : Py.Post (s.step e) (fun s' => Timely s' d') (fun _ => True) := by
  have hi := hg.conc.alloc
  have hq := hg.conc.queue
  have hm' : s.cfg.maxWaiting ≠ 0 := by rw [hg.cfg]; exact hm
  have hstill : ∀ {x : Py Sched}, Rel Still s x → Py.Post x (fun s' => Timely s' d) (fun _ => True) :=
    fun h => Py.Post.imp h (fun _ hs => ht.still hs) (fun _ h => h)
  have hsaw : ∀ {x : Py Sched}, Rel Saw s x → Py.Post x (fun s' => Timely s' true) (fun _ => True) :=
    fun h => Py.Post.imp h (fun _ hs => ht.saw hi (Sched.size_nonneg hq) hm' hs) (fun _ h => h)
  have hrest : ∀ {x : Py Sched} {b : Bool}, (if d = true then none else some b) = some d' →
      (s.wm.alloc.Exact → Py.Post x (fun s' => Timely s' b) (fun _ => True)) → Py.Post x (fun s' => Timely s' d') (fun _ => True) := by
    intro x b hb h
    cases d with
    | true => cases hb
    | false => cases hb; exact h (ht.exact rfl)
  have hof : ∀ {x : Py Sched} {b : Bool}, Py.Post x (fun s' => s'.wm.alloc.Exact) (fun _ => True) → Py.Post x (fun s' => Timely s' b) (fun _ => True) :=
    fun h => Py.Post.imp h (fun _ hs => Timely.of_exact hs) (fun _ h => h)
  have hcalm : s.wm.alloc.Exact → ∀ {x : Py Sched} {b : Bool}, Rel Calm s x → Py.Post x (fun s' => Timely s' b) (fun _ => True) :=
    fun hx _ _ h => Py.Post.imp h (fun _ hs => Timely.of_exact (by rw [hs.alloc]; exact hx)) (fun _ h => h)
  obtain ⟨op, now, o⟩ := e
  cases op with
  | taskRoutine => cases hd; exact hof (Sched.taskRoutine_exact hi ht)
  | graphRoutine =>
    cases hd
    refine hsaw ?_
    show Rel Saw s (s.graphRoutine o now)
    unfold Sched.graphRoutine
    split
    · exact Sched.saw_refl s
    · next c gt rest _ =>
      exact .after (s' := { s with gm := { s.gm with queue := rest } }) ⟨rfl, rfl, Int.le_refl _, Or.inl rfl⟩ (Sched.addGraph_saw o now c gt)
  | functionRoutine =>
    cases hd
    exact hstill (Sched.dropFunctions_still o _ s)
  | workerRoutine => exact hrest hd fun hx => hof (Sched.workerRoutine_exact o now hi hx)
  | report =>
    cases hd
    exact post_any fun _ => ht
  | recv source m =>
    cases m with
    | task k => cases hd; exact hsaw (Sched.onTaskNew_saw source k now)
    | taskResult t st du r => exact hrest hd fun hx => Sched.onTaskResult_timely o now ⟨t, st, du, r⟩ hq hi hx hm'
    | graphTask g => cases hd; exact ht.still ⟨rfl, rfl, rfl, rfl⟩
    | functionRequest type f name content => cases hd; exact hstill (Sched.onFunction_still source type f name content now)
    | heartbeat hb =>
      refine hrest hd fun hx => ?_
      exact Timely.of_exact (hx.addWorker hi source)
    | balanceResponse ids => exact hrest hd fun hx => hof (Sched.onBalanceResponse_exact ids hi hx)
    | graphTaskCancel gid =>
      refine hrest hd fun hx => hcalm hx ?_
      show Rel Calm s (s.onGraphTaskCancel o now gid)
      unfold Sched.onGraphTaskCancel
      exact .bind2 (Sched.cleanGraph_calm (Sched.taskDone_calm _ _ _) _ _ _) fun _ s' _ => Sched.calm_refl s'
    | taskCancel t => exact hrest hd fun hx => hcalm hx (Sched.onTaskCancelWith_calm (Sched.taskDone_calm _ _ _) _ _)
    | disconnectRequest w =>
      refine hrest hd fun hx => hof ?_
      show Py.Post (s.onDisconnect o source w) _ _
      unfold Sched.onDisconnect
      rw [Py.post_bind]
      refine Py.Post.imp (Sched.disconnectWorker_exact o w hi hx) ?_ (fun _ h => h)
      rintro ⟨b, s1⟩ ⟨_, h1⟩
      cases b <;> exact h1
    | _ => exact hrest hd fun hx => Timely.of_exact hx

theorem Exec.timely {cfg : Config} {es : List Event} {l : Log} {s : Sched} (h : Exec cfg es l s) (hm : cfg.maxWaiting ≠ 0) :
    ∀ {d : Bool}, turnDue es = some d → Timely s d := by
  induction h with
  | init => intro d _; exact Timely.of_exact (Alloc.exact_init _)
  | @step es l s s' e hr ha hs ih =>
    intro d' hd
    rw [turnDue_snoc] at hd
    obtain ⟨d, h1, h2⟩ := Option.bind_eq_some_iff.1 hd
    have := step_timely hr.reach.good hm (ih h1) e h2
    rw [hs] at this
    exact this

end Verif.Sched
