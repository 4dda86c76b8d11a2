import Verif.Sched.Manager

/-!
# The end of a task, and the removal of a graph
-/

namespace Verif.Sched

open Verif.Queue Verif.Util Verif.Wire

namespace Sched

variable {s : Sched} {h : History}

theorem count_eq (s : Sched) (st : TaskStatus) : ∃ tm', s.count st = { s with tm := tm' } ∧
    tm'.tasks = s.tm.tasks ∧ tm'.unassigned = s.tm.unassigned ∧ tm'.running = s.tm.running ∧
    tm'.pending = s.tm.pending ∧ (s.count st).abs = s.abs.count st := by
  cases st <;> exact ⟨_, rfl, rfl, rfl, rfl, rfl, rfl⟩

/-- The state after the first half of `on_task_done`; `alloc` is the allocator without the task. -/
theorem done_front (hc : Conc s) (hi : Inv h s.abs) {alloc : Alloc} {r : TaskRes}
    (ht : (s.abs.tasks r.taskId).isSome) (hp : s.abs.pendId ≠ some r.taskId)
    (ha : alloc.Inv) (hm : alloc.max = s.wm.alloc.max)
    (hw : ∀ w, (alloc.w2t.get? w).isSome ↔ (s.wm.alloc.w2t.get? w).isSome)
    (ht2w : alloc.t2w.get? = upd s.wm.alloc.t2w.get? r.taskId none) :
    ∃ c s1, s.abs.owner r.taskId = some c ∧ Conc s1 ∧ s1.cfg = s.cfg ∧ s1.abs = s.abs.retire r.taskId r.status ∧
      s1.gm = s.gm ∧ s1.wm = { s.wm with alloc } ∧
      ∀ graphDone, onTaskDoneWith graphDone { s with wm := { s.wm with alloc } } r =
        (graphDone s1 r >>= fun p => if p.1 then .ok p.2 else .ok (p.2.send c r.msg)) := by
  obtain ⟨k, hk⟩ := Option.isSome_iff_exists.1 ht
  have hpin := hi.pinned _ _ hk
  obtain ⟨i, hfn⟩ := Option.isSome_iff_exists.1 (hi.known _ _ hpin)
  obtain ⟨c, hown⟩ := Option.isSome_iff_exists.1 (hi.owned _ ht)
  -- the queues
  have hunq : ∃ q run, (∀ s2 : Sched, s2.tm.unassigned = s.tm.unassigned → s2.tm.running = s.tm.running →
        s2.unqueue r.taskId = .ok { s2 with tm := { s2.tm with unassigned := q, running := run } }) ∧
      q.WF id ∧ q.contents = s.tm.unassigned.contents.filter (· ≠ r.taskId) ∧
      ∀ t, t ∈ run ↔ t ∈ s.tm.running ∧ t ≠ r.taskId := by
    have hmem := hc.queue.contains r.taskId
    simp only [id_eq, List.map_id_fun] at hmem
    by_cases hq : r.taskId ∈ s.tm.unassigned.contents
    · obtain ⟨q, e, h1, h2⟩ := hc.queue.remove_present (a := r.taskId) (by simpa using hq)
      refine ⟨q, s.tm.running, ?_, h1, by simpa using h2, ?_⟩
      · intro s2 e1 e2
        unfold unqueue
        rw [e1, hmem.2 hq]
        simp [e, ← e2]
      · intro t
        refine ⟨fun hm => ⟨hm, ?_⟩, fun hm => hm.1⟩
        rintro rfl
        have h3 := (hi.apart r.taskId hq).2
        rw [show s.abs.worker = s.wm.alloc.t2w.get? from rfl] at h3
        rw [hc.running, h3] at hm; cases hm
    · have hnc : s.tm.unassigned.contains id r.taskId = false := by
        rw [Bool.eq_false_iff]; exact fun h => hq (hmem.1 h)
      have hfil : s.tm.unassigned.contents.filter (· ≠ r.taskId) = s.tm.unassigned.contents := by
        rw [List.filter_eq_self]
        intro x hx
        simp only [ne_eq, decide_not, Bool.not_eq_eq_eq_not, Bool.not_true, decide_eq_false_iff_not]
        rintro rfl; exact hq hx
      have hrun : r.taskId ∈ s.tm.running := by
        rw [hc.running]
        rcases (hi.place r.taskId).1 ht with h1 | h1 | h1
        · exact absurd h1 hq
        · exact absurd h1 hp
        · exact h1
      refine ⟨s.tm.unassigned, s.tm.running.discard r.taskId, ?_, hc.queue, hfil.symm, by simp⟩
      intro s2 e1 e2
      unfold unqueue
      rw [e1, hnc, e2]
      simp only [PySet.mem_items, hrun, PySet.remove_of_mem hrun]
      simp [← e1]
  obtain ⟨q, run, eq, hqWF, hqc, hrun⟩ := hunq
  obtain ⟨tm', ecount, c1, c2, c3, c4, c5⟩ := count_eq ({ s with wm := { s.wm with alloc } } : Sched) r.status
  obtain ⟨uses, e3, hU, hU'⟩ := doneFunction_ok (s := { s with
      wm := { s.wm with alloc }, tm := { tm' with unassigned := q, running := run, tasks := s.tm.tasks.erase r.taskId },
      mon := s.mon ++ [.taskState r.taskId i.name r.status] }) (tid := r.taskId) hc.uses hpin
  obtain ⟨clients, e4, hC, hC'⟩ := clientDone_ok (s := { s with
      fm := { s.fm with uses }
      wm := { s.wm with alloc }, tm := { tm' with unassigned := q, running := run, tasks := s.tm.tasks.erase r.taskId },
      mon := s.mon ++ [.taskState r.taskId i.name r.status] }) (tid := r.taskId) hc.clients hown
  refine ⟨c, { s with
      clients, fm := { s.fm with uses }
      wm := { s.wm with alloc }, tm := { tm' with unassigned := q, running := run, tasks := s.tm.tasks.erase r.taskId },
      mon := s.mon ++ [.taskState r.taskId i.name r.status] }, hown, ?_, rfl, ?_, rfl, rfl, ?_⟩
  · refine ⟨ha, hm.trans hc.max, hqWF, hU, hC, ?_, ?_⟩
    · intro t
      simp only [hrun t, ht2w, hc.running, upd_apply]
      by_cases e : r.taskId = t
      · simp [e]
      · have : t ≠ r.taskId := fun e' => e e'.symm
        simp [e, this]
    · intro w
      rw [hw]; exact hc.alive w
  · rw [ecount] at c5
    have hsz := Dict.size_erase (d := s.tm.tasks) hk
    simp only [Sched.abs, Abs.count] at c5
    simp only [Sched.abs, Abs.retire, hU', hC', hqc, ht2w, Dict.get?_erase_upd, c4]
    have hnm : s.abs.nameOf r.taskId = i.name := by
      simp only [Abs.nameOf, show s.abs.tasks r.taskId = some k from hk, Option.bind_some,
        show s.abs.funcs k.functionId = some i from hfn, Option.map_some, Option.getD_some]
    simp only [Sched.abs] at hnm
    cases hst : r.status <;> simp [hst] at c5 ⊢ <;> simp [Abs.count, c5, hnm] <;> omega
  · intro graphDone
    have hk' : tm'.tasks.get? r.taskId = some k := by rw [c1]; exact hk
    unfold onTaskDoneWith
    rw [ecount]
    simp only
    rw [eq _ (by exact c2) (by exact c3)]
    simp only [Py.ok_bind]
    rw [sendMonitor_ok (k := k) (i := i) (by exact hk') (by exact hfn)]
    simp only [Py.ok_bind]
    rw [show (Sched.monitor { s with wm := { s.wm with alloc }, tm := { tm' with unassigned := q, running := run } }
      (.taskState r.taskId i.name r.status)).tm.tasks = s.tm.tasks from c1, Dict.pop_of_get? hk]
    simp only [Py.ok_bind]
    rw [show (Sched.monitor { s with wm := { s.wm with alloc }, tm := { tm' with unassigned := q, running := run } }
      (.taskState r.taskId i.name r.status)) = { s with wm := { s.wm with alloc }, tm := { tm' with unassigned := q, running := run }, mon := s.mon ++ [.taskState r.taskId i.name r.status] } from rfl]
    simp only
    rw [e3]
    simp only [Py.ok_bind]
    rw [e4]
    rfl

/-- A call of `on_task_done` for a node whose graph is gone raises. -/
def Fails (done : Sched → TaskRes → Py Sched) : Prop :=
  ∀ s r gid, s.gm.nodeGraph.get? r.taskId = some gid → s.gm.graphs.get? gid = none → ∃ e, done s r = .error e

theorem bind_error {α β : Type} {x : Py α} {f : α → Py β} (hf : ∀ a, x = .ok a → ∃ e, f a = .error e) :
    ∃ e, (x >>= f) = .error e := by
  cases x with
  | error e => exact ⟨e, rfl⟩
  | ok a => exact hf a rfl

theorem unqueue_gm {s s' : Sched} {t : Bytes} (hs : s.unqueue t = .ok s') : s'.gm = s.gm := by
  unfold unqueue at hs
  split at hs
  · obtain ⟨q, _, h2⟩ := Py.bind_ok.1 hs; cases h2; rfl
  · split at hs
    · obtain ⟨q, _, h2⟩ := Py.bind_ok.1 hs; cases h2; rfl
    · cases hs; rfl

theorem sendMonitor_gm {s s' : Sched} {t : Bytes} {st : TaskStatus} (hs : s.sendMonitor t st = .ok s') : s'.gm = s.gm := by
  unfold sendMonitor at hs
  obtain ⟨_, _, h2⟩ := Py.bind_ok.1 hs
  obtain ⟨_, _, h3⟩ := Py.bind_ok.1 h2
  cases h3; rfl

theorem doneFunction_gm {s s' : Sched} {t : Bytes} (hs : s.doneFunction t = .ok s') : s'.gm = s.gm := by
  unfold doneFunction at hs
  obtain ⟨_, _, h2⟩ := Py.bind_ok.1 hs
  cases h2; rfl

theorem clientDone_gm {s : Sched} {t : Bytes} {p : Bytes × Sched} (hs : s.clientDone t = .ok p) : p.2.gm = s.gm := by
  unfold clientDone at hs
  obtain ⟨_, _, h2⟩ := Py.bind_ok.1 hs
  cases h2; rfl

theorem count_gm (s : Sched) (st : TaskStatus) : (s.count st).gm = s.gm := by
  cases st <;> rfl

theorem markNodeDone_err {s : Sched} {gid : Bytes} {r : TaskRes} (hg : s.gm.graphs.get? gid = none) :
    s.markNodeDone gid r = .error .keyError := by
  unfold markNodeDone
  rw [Dict.getPy_none hg]
  rfl

theorem taskDone_fails (o : Order) (now : Int) (n : Nat) : Fails (taskDone o now n) := by
  intro s r gid hn hg
  cases n with
  | zero => exact ⟨_, rfl⟩
  | succ n =>
    unfold taskDone onTaskDoneWith
    refine bind_error fun s1 h1 => ?_
    refine bind_error fun s2 h2 => ?_
    refine bind_error fun p3 h3 => ?_
    refine bind_error fun s4 h4 => ?_
    refine bind_error fun p5 h5 => ?_
    have e : p5.2.gm = s.gm := by
      rw [clientDone_gm h5, doneFunction_gm h4]
      show s2.gm = _
      rw [sendMonitor_gm h2, unqueue_gm h1, count_gm]
    refine bind_error fun p6 h6 => ?_
    unfold graphTaskDone at h6
    rw [e, hn] at h6
    simp only at h6
    rw [markNodeDone_err (by rw [e]; exact hg)] at h6
    cases h6

/-- Cancelling the nodes of a graph that is being removed. -/
theorem cleanNodes_spec {done : Sched → TaskRes → Py Sched} (hd : Fails done) {gid : Bytes} {g : Graph}
    (ids : List Bytes) (hn : ids.Nodup) : ∀ (s : Sched) (tasks : Dict Bytes NodeInfo), Conc s →
    s.gm.graphs.get? gid = none → (∀ t ∈ ids, tasks.get? t = g.tasks.get? t) →
    (∀ t ∈ ids, (g.tasks.get? t).isSome → s.gm.nodeGraph.get? t = some gid) →
    (∀ t ∈ ids, ∀ i, g.tasks.get? t = some i → i.state = .inactive → (s.fm.uses.v2k.get? t).isSome) →
    (∀ t, (s.wm.alloc.t2w.get? t).isSome →
      ∃ k, s.tm.tasks.get? t = some k ∧ (s.fm.funcs.get? k.functionId).isSome) →
    (∀ t, t ∈ s.tm.unassigned.contents → s.wm.alloc.t2w.get? t = none) →
    Py.Post (cleanNodes done s tasks ids)
      (fun s' => Conc s' ∧ s'.cfg = s.cfg ∧ s'.wm = s.wm ∧ s'.tm = s.tm ∧ s'.gm.graphs = s.gm.graphs ∧
        s'.abs = { s.abs with
          uses := fun t => if t ∈ ids ∧ (g.tasks.get? t).map (·.state) = some .inactive then none else s.abs.uses t
          node := fun t => if t ∈ ids ∧ (g.tasks.get? t).isSome then none else s.abs.node t
          out := s.abs.out ++ cancels s.abs g ids
          mon := s.abs.mon ++ halts s.abs g ids } ∧
        ∀ t ∈ ids, ∀ i, g.tasks.get? t = some i → i.state = .running → t ∉ s.abs.waiting)
      (fun _ => ∃ t ∈ ids, ∃ i, g.tasks.get? t = some i ∧ i.state = .running ∧ t ∈ s.abs.waiting) := by
  induction ids with
  | nil =>
    intro s tasks hc _ _ _ _ _ _
    simp only [cleanNodes, Py.post_ok]
    refine ⟨hc, trivial, trivial, trivial, trivial, ?_, by simp⟩
    simp [cancels, halts]
  | cons t ids ih =>
    intro s tasks hc hg ht hng huse hrun hwait
    rw [List.nodup_cons] at hn
    -- the rest of the loop, from a state that differs as described
    have rest : ∀ (s1 : Sched) (tasks1 : Dict Bytes NodeInfo), Conc s1 → s1.cfg = s.cfg → s1.wm = s.wm → s1.tm = s.tm →
        s1.fm.funcs = s.fm.funcs → s1.gm.graphs = s.gm.graphs → (∀ x ∈ ids, tasks1.get? x = tasks.get? x) →
        (∀ x, s1.abs.uses x = if x = t ∧ (g.tasks.get? t).map (·.state) = some .inactive then none else s.abs.uses x) →
        (∀ x, s1.abs.node x = if x = t ∧ (g.tasks.get? t).isSome then none else s.abs.node x) →
        s1.abs.queue = s.abs.queue → s1.abs.owner = s.abs.owner →
        s1.out = s.out ++ cancels s.abs g [t] ∧ s1.mon = s.mon ++ halts s.abs g [t] →
        (∀ i, g.tasks.get? t = some i → i.state = .running → t ∉ s.abs.waiting) →
        Py.Post (cleanNodes done s1 tasks1 ids)
          (fun s' => Conc s' ∧ s'.cfg = s.cfg ∧ s'.wm = s.wm ∧ s'.tm = s.tm ∧ s'.gm.graphs = s.gm.graphs ∧
            s'.abs = { s.abs with
              uses := fun x => if x ∈ t :: ids ∧ (g.tasks.get? x).map (·.state) = some .inactive then none else s.abs.uses x
              node := fun x => if x ∈ t :: ids ∧ (g.tasks.get? x).isSome then none else s.abs.node x
              out := s.abs.out ++ cancels s.abs g (t :: ids)
              mon := s.abs.mon ++ halts s.abs g (t :: ids) } ∧
            ∀ x ∈ t :: ids, ∀ i, g.tasks.get? x = some i → i.state = .running → x ∉ s.abs.waiting)
          (fun _ => ∃ x ∈ t :: ids, ∃ i, g.tasks.get? x = some i ∧ i.state = .running ∧ x ∈ s.abs.waiting) := by
      intro s1 tasks1 hc1 e1 e2 e3 e4 e5 e6 e7 e8 eq eo e9 e10
      have hcan : ∀ l, cancels s1.abs g l = cancels s.abs g l := by
        intro l
        simp [cancels, Sched.abs, e2]
      have hhal : ∀ l, halts s1.abs g l = halts s.abs g l := by
        intro l
        simp [halts, Abs.nameOf, Sched.abs, e2, e3, e4]
      refine (ih hn.2 s1 tasks1 hc1 (by rw [e5]; exact hg) ?_ ?_ ?_ ?_ ?_).imp ?_ ?_
      · intro x hx; rw [e6 x hx, ht x (List.mem_cons_of_mem _ hx)]
      · intro x hx hs
        have : x ≠ t := by rintro rfl; exact hn.1 hx
        have h1 := e8 x
        simp only [this, false_and, if_false] at h1
        exact h1.trans (hng x (List.mem_cons_of_mem _ hx) hs)
      · intro x hx i hi hs
        have : x ≠ t := by rintro rfl; exact hn.1 hx
        have h1 := e7 x
        simp only [this, false_and, if_false] at h1
        rw [show s1.fm.uses.v2k.get? x = s.fm.uses.v2k.get? x from h1]
        exact huse x (List.mem_cons_of_mem _ hx) i hi hs
      · intro x hx
        rw [e2] at hx; rw [e3, e4]
        exact hrun x hx
      · intro x hx
        rw [e3] at hx; rw [e2]
        exact hwait x hx
      · rintro s' ⟨h1, h2, h3, h4, h5, h6, h7⟩
        refine ⟨h1, h2.trans e1, h3.trans e2, h4.trans e3, h5.trans e5, ?_, ?_⟩
        · rw [h6]
          have f1 : s1.abs.funcs = s.abs.funcs := by simp [Sched.abs, e4]
          have f2 : s1.abs.tasks = s.abs.tasks ∧ s1.abs.held = s.abs.held ∧ s1.abs.waiting = s.abs.waiting ∧
            s1.abs.pending = s.abs.pending ∧ s1.abs.success = s.abs.success ∧ s1.abs.failed = s.abs.failed ∧
            s1.abs.canceled = s.abs.canceled ∧ s1.abs.notFound = s.abs.notFound := by simp [Sched.abs, e3]
          have f3 : s1.abs.worker = s.abs.worker ∧ s1.abs.up = s.abs.up := by simp [Sched.abs, e2]
          have f4 : s1.abs.graphs = s.abs.graphs := by simp [Sched.abs, e5]
          have f5 : s1.abs.out = s.abs.out ++ cancels s.abs g [t] := e9.1
          have f7 : s1.abs.mon = s.abs.mon ++ halts s.abs g [t] := e9.2
          have f6 : s1.abs.limited = s.abs.limited := by simp [Sched.abs, e1]
          have f8 : s1.abs.cap = s.abs.cap := by simp [Sched.abs, e1]
          obtain ⟨a1, a2, a3, a4, a5, a6, a7, a8⟩ := f2
          simp only [hcan, hhal, f7, f1, a1, a2, a3, a4, a5, a6, a7, a8, f3.1, f3.2, f4, f5, f6, f8, eq, eo]
          simp only [Abs.mk.injEq, true_and, and_true]
          refine ⟨?_, ?_, ?_, ?_⟩
          · funext x
            simp only [e7 x, List.mem_cons]
            by_cases ex : x = t
            · subst ex; simp [hn.1]
            · simp [ex]
          · funext x
            simp only [e8 x, List.mem_cons]
            by_cases ex : x = t
            · subst ex; simp [hn.1]
            · simp [ex]
          · rw [List.append_assoc]
            congr 1
            rw [show t :: ids = [t] ++ ids from rfl]
            simp only [cancels, List.filterMap_append]
          · rw [List.append_assoc]
            congr 1
            rw [show t :: ids = [t] ++ ids from rfl]
            simp only [halts, List.filterMap_append]
        · intro x hx i hi hs
          rcases List.mem_cons.1 hx with rfl | hx
          · exact e10 i hi hs
          · have := h7 x hx i hi hs
            simpa [Sched.abs, e3] using this
      · rintro _ ⟨x, hx, i, hi, hs, hw⟩
        refine ⟨x, List.mem_cons_of_mem _ hx, i, hi, hs, ?_⟩
        simpa [Sched.abs, e3] using hw
    simp only [cleanNodes, Py.post_bind]
    unfold cleanNode
    rw [ht t List.mem_cons_self]
    cases hx : g.tasks.get? t with
    | none =>
      simp only [Py.post_ok]
      refine rest s tasks hc rfl rfl rfl rfl rfl (fun _ _ => rfl) ?_ ?_ rfl rfl ?_ ?_
      · simp [hx]
      · simp [hx]
      · simp [cancels, halts, hx]
      · simp [hx]
    | some i =>
      simp only
      -- what happens after the node has been dealt with
      have fin : ∀ (s1 : Sched), Conc s1 → s1.cfg = s.cfg → s1.wm = s.wm → s1.tm = s.tm →
          s1.fm.funcs = s.fm.funcs → s1.gm = s.gm → s1.clients = s.clients →
          (∀ x, s1.abs.uses x = if x = t ∧ i.state = .inactive then none else s.abs.uses x) →
          s1.out = s.out ++ cancels s.abs g [t] ∧ s1.mon = s.mon ++ halts s.abs g [t] →
          (i.state = .running → t ∉ s.abs.waiting) →
          Py.Post (cleanNodes done { s1 with gm := { s1.gm with nodeGraph := s1.gm.nodeGraph.erase t } } (tasks.erase t) ids)
            (fun s' => Conc s' ∧ s'.cfg = s.cfg ∧ s'.wm = s.wm ∧ s'.tm = s.tm ∧ s'.gm.graphs = s.gm.graphs ∧
            s'.abs = { s.abs with
              uses := fun x => if x ∈ t :: ids ∧ (g.tasks.get? x).map (·.state) = some .inactive then none else s.abs.uses x
              node := fun x => if x ∈ t :: ids ∧ (g.tasks.get? x).isSome then none else s.abs.node x
              out := s.abs.out ++ cancels s.abs g (t :: ids)
              mon := s.abs.mon ++ halts s.abs g (t :: ids) } ∧
            ∀ x ∈ t :: ids, ∀ i, g.tasks.get? x = some i → i.state = .running → x ∉ s.abs.waiting)
          (fun _ => ∃ x ∈ t :: ids, ∃ i, g.tasks.get? x = some i ∧ i.state = .running ∧ x ∈ s.abs.waiting) := by
        intro s1 hc1 e1 e2 e3 e4 e5 e6 e7 e8 e9
        refine rest { s1 with gm := { s1.gm with nodeGraph := s1.gm.nodeGraph.erase t } } (tasks.erase t)
          ⟨hc1.alloc, hc1.max, hc1.queue, hc1.uses, hc1.clients, hc1.running, hc1.alive⟩ e1 e2 e3 e4 (by simp [e5]) ?_ ?_ ?_ ?_ ?_ e8 ?_
        · intro x hx'
          have : ¬ t = x := by rintro rfl; exact hn.1 hx'
          simp [this]
        · intro x
          refine (e7 x).trans ?_
          simp [hx]
        · intro x
          simp only [Sched.abs, e5, Dict.get?_erase, hx]
          by_cases ex : x = t
          · simp [ex]
          · have : ¬ t = x := fun e => ex e.symm
            simp [ex, this]
        · simp [Sched.abs, e5]
        · simp [Sched.abs, e6]
        · intro i' hi' hs
          rw [hx] at hi'; cases hi'
          exact e9 hs
      cases hst : i.state with
      | inactive =>
        simp only [Py.post_bind]
        obtain ⟨f, hf⟩ := Option.isSome_iff_exists.1 (huse t List.mem_cons_self i hx hst)
        obtain ⟨uses, e, hU, hU'⟩ := doneFunction_ok hc.uses hf
        rw [e]
        simp only [Py.post_ok, Py.post_pure]
        refine fin { s with fm := { s.fm with uses } } ⟨hc.alloc, hc.max, hc.queue, hU, hc.clients, hc.running, hc.alive⟩
          rfl rfl rfl rfl rfl rfl ?_ ?_ (by simp [hst])
        · intro x
          simp only [Sched.abs, hU', upd_apply, hst]
          by_cases ex : x = t
          · simp [ex]
          · have : ¬ t = x := fun e => ex e.symm
            simp [ex, this]
        · simp [cancels, halts, hx, hst]
      | running =>
        simp only [Py.post_bind]
        unfold onTaskCancelWith
        have hmem := hc.queue.contains t
        simp only [id_eq, List.map_id_fun] at hmem
        by_cases hq : t ∈ s.tm.unassigned.contents
        · rw [if_pos (hmem.2 hq)]
          obtain ⟨e, he⟩ := hd s ⟨t, .canceled, 0, []⟩ gid (hng t List.mem_cons_self (by simp [hx])) hg
          rw [he]
          exact ⟨t, List.mem_cons_self, i, hx, hst, hq⟩
        · rw [if_neg (fun h => hq (hmem.1 h))]
          by_cases hr : t ∈ s.tm.running
          · rw [if_neg (by simpa using hr)]
            have hw := (hc.running t).1 hr
            obtain ⟨w, hw⟩ := Option.isSome_iff_exists.1 hw
            obtain ⟨k, hk, hf⟩ := hrun t (by simp [hw])
            obtain ⟨fi, hfi⟩ := Option.isSome_iff_exists.1 hf
            have e1 : s.workerCancel t = s.send w (.taskCancel t) := by
              simp [workerCancel, Alloc.assignedWorker, hw]
            rw [e1, sendMonitor_ok (s := s.send w (.taskCancel t)) (k := k) (i := fi) hk hfi]
            simp only [Py.post_ok, Py.post_pure]
            refine fin _ ((hc.send _ _).monitor _) rfl rfl rfl rfl rfl rfl ?_ ?_ (fun _ => hq)
            · intro x; simp [Sched.abs, hst]
            · simp [cancels, halts, Abs.nameOf, hx, hst, Sched.abs, hw, hk, hfi, Sched.send, Sched.monitor]
          · rw [if_pos (by simpa using hr)]
            simp only [Py.post_ok, Py.post_pure]
            refine fin s hc rfl rfl rfl rfl rfl rfl ?_ ?_ (fun _ => hq)
            · intro x; simp [hst]
            · have : s.wm.alloc.t2w.get? t = none := by
                rw [hc.running] at hr; simpa using hr
              simp [cancels, halts, hx, hst, Sched.abs, this]
      | canceled | failed | success =>
        simp only [Py.post_bind, Py.post_ok, Py.post_pure]
        refine fin s hc rfl rfl rfl rfl rfl rfl ?_ ?_ (by simp [hst])
        · intro x; simp [hst]
        · simp [cancels, halts, hx, hst]

/-- `__clean_graph` of a known graph: it raises exactly if a running node still waits for a worker. -/
theorem cleanGraph_spec {done : Sched → TaskRes → Py Sched} (hd : Fails done) (hc : Conc s) (hi : Inv h s.abs)
    (o : Order) {gid : Bytes} {g : Graph} (hg : s.abs.graphs gid = some g) :
    Py.Post (cleanGraph done s o gid)
      (fun p => p.1 = g ∧ Conc p.2 ∧ p.2.cfg = s.cfg ∧
        p.2.abs = s.abs.clean gid g (cancels s.abs g (orderBy (o gid) g.taskIds.items)) (halts s.abs g (orderBy (o gid) g.taskIds.items)) ∧
        ∀ t i, g.tasks.get? t = some i → i.state = .running → t ∉ s.abs.waiting)
      (fun _ => ∃ t i, g.tasks.get? t = some i ∧ i.state = .running ∧ t ∈ s.abs.waiting) := by
  obtain ⟨gt, hok⟩ := hi.graphs gid g hg
  have hmem : ∀ t i, g.tasks.get? t = some i → t ∈ orderBy (o gid) g.taskIds.items := by
    intro t i ht
    obtain ⟨T, hT, hTt, _⟩ := hok.node t i ht
    rw [mem_orderBy]
    exact (hok.ids t).2 (List.mem_map.2 ⟨T, hT, hTt⟩)
  obtain ⟨clients, e1, hC, hC'⟩ := clientDone_ok (s := s) hc.clients (hi.gid gid g hg).1
  unfold cleanGraph
  rw [e1]
  simp only [Py.ok_bind]
  rw [Dict.pop_of_get? hg]
  simp only [Py.ok_bind]
  rw [Py.post_bind]
  refine (cleanNodes_spec hd (gid := gid) (g := g) _ ((orderBy_perm _ _).nodup_iff.2 g.taskIds.nodup)
    ({ s with clients, gm := { s.gm with graphs := s.gm.graphs.erase gid } } : Sched) g.tasks
    ⟨hc.alloc, hc.max, hc.queue, hc.uses, hC, hc.running, hc.alive⟩ (by simp) (fun _ _ => rfl) ?_ ?_ ?_ ?_).imp ?_ ?_
  · intro t _ ht
    exact (hi.nodes t gid).2 ⟨g, hg, ht⟩
  · intro t _ i ht hs
    have := hi.link gid g t i hg ht
    simp only [Link, hs] at this
    rw [show s.fm.uses.v2k.get? t = s.abs.uses t from rfl, this.2.2]; rfl
  · intro t hw
    obtain ⟨k, hk⟩ := Option.isSome_iff_exists.1 ((hi.place t).2 (Or.inr (Or.inr hw)))
    exact ⟨k, hk, hi.known t _ (hi.pinned t k hk)⟩
  · intro t ht
    exact (hi.apart t ht).2
  · rintro s' ⟨h1, h2, h3, h4, h5, h6, h7⟩
    refine ⟨rfl, h1, h2, ?_, ?_⟩
    · show s'.abs = _
      rw [h6]
      simp only [Sched.abs, Abs.clean, hC', Dict.get?_erase_upd, Abs.mk.injEq, true_and, and_true]
      refine ⟨?_, ?_, ?_⟩
      · funext t
        by_cases ht : (g.tasks.get? t).map (·.state) = some .inactive
        · have : t ∈ orderBy (o gid) g.taskIds.items := by
            cases hx : g.tasks.get? t with
            | none => simp [hx] at ht
            | some i => exact hmem t i hx
          simp [ht, mem_orderBy.1 this]
        · simp [ht]
      · funext t
        by_cases ht : (g.tasks.get? t).isSome
        · obtain ⟨i, hx⟩ := Option.isSome_iff_exists.1 ht
          have := hmem t i hx
          simp [hx, mem_orderBy.1 this]
        · simp [ht]
      · exact ⟨rfl, rfl⟩
    · intro t i ht hs
      exact h7 t (hmem t i ht) i ht hs
  · rintro _ ⟨t, _, i, h1, h2, h3⟩
    exact ⟨t, i, h1, h2, h3⟩

/-- `__clean_graph` of an unknown graph raises. -/
theorem cleanGraph_unknown {done : Sched → TaskRes → Py Sched} (o : Order) {gid : Bytes}
    (hg : s.gm.graphs.get? gid = none) : ∃ e, cleanGraph done s o gid = .error e := by
  unfold cleanGraph
  refine bind_error fun p hp => bind_error fun q hq => ?_
  have : p.2.gm.graphs.get? gid = none := by rw [clientDone_gm hp]; exact hg
  rw [Dict.pop_ok, this] at hq
  cases hq.1

end Sched

end Verif.Sched
