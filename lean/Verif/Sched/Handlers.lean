import Verif.Sched.CheckLemmas

/-!
# The handlers, one by one
-/

namespace Verif.Sched

open Verif.Queue Verif.Util Verif.Wire

namespace Sched

variable {s : Sched} {h : History}

theorem After.refl (hc : Conc s) (hset : AllSettled s.abs) : After h s s := ⟨hc, rfl, .refl _, hset⟩

theorem After.trans {s1 s2 : Sched} (x : After h s s1) (y : After h s1 s2) : After h s s2 :=
  ⟨y.conc, y.cfg.trans x.cfg, x.steps.trans y.steps, y.settled⟩

/-- A handler that does not touch graphs. -/
theorem After.of {s' : Sched} (hset : AllSettled s.abs) (hc : Conc s') (hcfg : s'.cfg = s.cfg) (hs : ASteps h s.abs s'.abs)
    (hg : s'.abs.graphs = s.abs.graphs) : After h s s' :=
  ⟨hc, hcfg, hs, fun gid g e => hset gid g (by rw [← hg]; exact e)⟩

/-- The locator is out of date for some worker. -/
def Stale (s : Sched) : Prop := ∃ w, s.wm.alloc.queue.stale w ≠ none

/-! ### Results and cancellation -/

/-- Why a result makes the scheduler fail. -/
def ResultTrouble (s : Sched) (r : TaskRes) : Prop :=
  (∃ w, s.abs.worker r.taskId = some w ∧ s.wm.alloc.Lost w) ∨ (s.abs.worker r.taskId).isSome ∧ NodeTrouble s.abs r

theorem onTaskResult_spec (hc : Conc s) (hi : Inv h s.abs) (hset : AllSettled s.abs) (o : Order) (now : Int)
    {w0 : Bytes} {r : TaskRes} (hh : (w0, r.msg) ∈ h) :
    Py.Post (s.onTaskResult o now r)
      (fun s' => After h s s' ∧ (s.abs.worker r.taskId = none → s' = s) ∧
        ((s.abs.worker r.taskId).isSome → Ended s.abs r s'.abs) ∧ ¬ ResultTrouble s r)
      (fun _ => ResultTrouble s r) := by
  unfold onTaskResult
  cases hw : s.abs.worker r.taskId with
  | none =>
    rw [Alloc.removeTask_unknown hw]
    refine ⟨.refl hc hset, fun _ => rfl, (fun hx => by cases hx), ?_⟩
    rintro (⟨w, hx, _⟩ | ⟨hx, _⟩) <;> rw [hw] at hx <;> cases hx
  | some w =>
    obtain ⟨ws, hws, htw, ⟨a', e, hI, hm, e1, e2, -, -, hnl, -⟩ | ⟨hst, e⟩⟩ := Alloc.removeTask_known hc.alloc hw
    · rw [e]
      simp only [Py.ok_bind]
      have he : Ends h s.abs r :=
        ⟨(hi.place _).2 (Or.inr (Or.inr (by simp [hw]))), Or.inl ⟨⟨w0, hh⟩, by simp [hw]⟩⟩
      refine (taskDone_spec hc hi hset he hI hm ?_ ?_ o now (s.gm.graphs.size + 1)).imp
        (fun s' hs' => ⟨hs'.1, (fun hx => by cases hx), (fun _ => hs'.2.1), by
          rintro (⟨w', hx, hl⟩ | ⟨_, hx⟩)
          · rw [hw] at hx; cases hx; exact hnl hl
          · exact hs'.2.2 hx⟩) (fun _ hx => Or.inr ⟨by simp [hw], hx⟩)
      · intro w'
        rw [e1, Dict.get?_set]
        by_cases ew : w = w'
        · subst ew; simp [hws]
        · simp [ew]
      · rw [e2, Dict.get?_erase_upd]
    · rw [e]
      exact Or.inl ⟨w, hw, hst⟩

theorem onTaskCancel_spec (hc : Conc s) (hi : Inv h s.abs) (hset : AllSettled s.abs) (o : Order) (now : Int) {source : Bytes} (t : Bytes)
    (hh : (source, .taskCancel t) ∈ h) :
    Py.Post (s.onTaskCancel o now t)
      (fun s' => After h s s' ∧
        (t ∉ s.abs.waiting → s.abs.worker t = none → s' = s) ∧
        (∀ w, s.abs.worker t = some w → s'.abs = { s.abs with
          out := s.abs.out ++ [(w, .taskCancel t)], mon := s.abs.mon ++ [.taskState t (s.abs.nameOf t) .canceling] }) ∧
        (t ∈ s.abs.waiting → Ended s.abs ⟨t, .canceled, 0, []⟩ s'.abs) ∧
        ¬ (t ∈ s.abs.waiting ∧ NodeTrouble s.abs ⟨t, .canceled, 0, []⟩))
      (fun _ => t ∈ s.abs.waiting ∧ NodeTrouble s.abs ⟨t, .canceled, 0, []⟩) := by
  have hmem := hc.queue.contains t
  simp only [id_eq, List.map_id_fun] at hmem
  unfold onTaskCancel onTaskCancelWith
  by_cases hq : t ∈ s.tm.unassigned.contents
  · rw [if_pos (hmem.2 hq)]
    have hnw : s.abs.worker t = none := (hi.apart t hq).2
    have he : Ends h s.abs ⟨t, .canceled, 0, []⟩ := ⟨(hi.place t).2 (Or.inl hq), Or.inr ⟨rfl, hq, source, hh⟩⟩
    refine (taskDone_spec (alloc := s.wm.alloc) hc hi hset he hc.alloc rfl (fun _ => Iff.rfl) ?_ o now (s.gm.graphs.size + 1)).imp
      ?_ (fun _ hx => ⟨hq, hx⟩)
    · funext x
      simp only [upd_apply]
      split
      · next e => rw [← e]; exact hnw
      · rfl
    · intro s' hs'
      exact ⟨hs'.1, fun hn => absurd hq hn, (fun w hw => by rw [hnw] at hw; cases hw), (fun _ => hs'.2.1), fun hx => hs'.2.2 hx.2⟩
  · rw [if_neg (fun hh => hq (hmem.1 hh))]
    by_cases hr : t ∈ s.tm.running
    · rw [if_neg (by simpa using hr)]
      obtain ⟨w, hw⟩ := Option.isSome_iff_exists.1 ((hc.running t).1 hr)
      obtain ⟨k, hk⟩ := Option.isSome_iff_exists.1 ((hi.place t).2 (Or.inr (Or.inr (by exact (hc.running t).1 hr))))
      obtain ⟨fi, hfi⟩ := Option.isSome_iff_exists.1 (hi.known t _ (hi.pinned t k hk))
      have e1 : s.workerCancel t = s.send w (.taskCancel t) := by
        simp [workerCancel, Alloc.assignedWorker, hw]
      rw [e1, sendMonitor_ok (s := s.send w (.taskCancel t)) (k := k) (i := fi) hk hfi]
      have hnm : fi.name = s.abs.nameOf t := by
        simp only [Abs.nameOf, show s.abs.tasks t = some k from hk, Option.bind_some,
          show s.abs.funcs k.functionId = some fi from hfi, Option.map_some, Option.getD_some]
      rw [hnm]
      refine ⟨.of hset ((hc.send _ _).monitor _) rfl (AStep.halt (a := s.abs) t w hw ⟨_, hh⟩).steps rfl, ?_, ?_, (fun hx => absurd hx hq), fun hx => absurd hx.1 hq⟩
      · intro _ hn
        rw [show s.abs.worker t = some w from hw] at hn; cases hn
      · intro w' hw'
        rw [show s.abs.worker t = some w from hw] at hw'; cases hw'; rfl
    · rw [if_pos (by simpa using hr)]
      refine ⟨.refl hc hset, fun _ _ => rfl, ?_, (fun hx => absurd hx hq), fun hx => absurd hx.1 hq⟩
      intro w hw
      exact absurd ((hc.running t).2 (by rw [show s.wm.alloc.t2w.get? t = some w from hw]; rfl)) hr

theorem onGraphTaskCancel_spec (hc : Conc s) (hi : Inv h s.abs) (hset : AllSettled s.abs) (o : Order) (now : Int) {source : Bytes}
    (gid : Bytes) (hh : (source, .graphTaskCancel gid) ∈ h) :
    Py.Post (s.onGraphTaskCancel o now gid)
      (fun s' => After h s s' ∧ ∃ g, s.abs.graphs gid = some g ∧
        s'.abs = s.abs.clean gid g (cancels s.abs g (orderBy (o gid) g.taskIds.items)) (halts s.abs g (orderBy (o gid) g.taskIds.items)) ∧
        ∀ t i, g.tasks.get? t = some i → i.state = .running → t ∉ s.abs.waiting)
      (fun _ => s.abs.graphs gid = none ∨
        ∃ g t i, s.abs.graphs gid = some g ∧ g.tasks.get? t = some i ∧ i.state = .running ∧ t ∈ s.abs.waiting) := by
  unfold onGraphTaskCancel
  cases hg : s.abs.graphs gid with
  | none =>
    obtain ⟨e, he⟩ := cleanGraph_unknown (s := s) (done := taskDone o now s.depth) o hg
    rw [he]
    exact Or.inl rfl
  | some g =>
    rw [Py.post_bind]
    refine (cleanGraph_spec (taskDone_fails o now s.depth) hc hi o hg).imp ?_ ?_
    · rintro ⟨g', s'⟩ ⟨h1, hc', hcfg, habs, hrun⟩
      simp only at h1 hc' hcfg habs
      subst h1
      simp only [Py.post_pure]
      refine ⟨⟨hc', hcfg, ?_, ?_⟩, g', rfl, habs, hrun⟩
      · have := (AStep.clean (h := h) gid g' (orderBy (o gid) g'.taskIds.items) _ hg (fun t => by rw [mem_orderBy]; rfl)
          ((orderBy_perm _ _).nodup_iff.2 g'.taskIds.nodup) hrun GraphAnswer.none (fun _ => ⟨source, hh⟩)).steps
        rw [habs]
        simpa using this
      · intro gid' g2 hg2
        rw [habs] at hg2
        simp only [Abs.clean, upd_apply] at hg2
        split at hg2
        · cases hg2
        · exact hset gid' g2 hg2
    · rintro _ ⟨t, i, h1, h2, h3⟩
      exact Or.inr ⟨g, t, i, rfl, h1, h2, h3⟩

/-! ### Tasks that go back to the queue -/

theorem rerouteTasks_ok : ∀ (ts : List Bytes) (s : Sched), ts.Nodup → s.tm.unassigned.WF id →
    (∀ t ∈ ts, t ∈ s.tm.running ∧ t ∉ s.tm.unassigned.contents ∧ (s.clients.v2k.get? t).isSome ∧
      ∃ k, s.tm.tasks.get? t = some k ∧ (s.fm.funcs.get? k.functionId).isSome) →
    ∃ s', s.rerouteTasks ts = .ok s' ∧ s'.tm.unassigned.WF id ∧ s'.tm.unassigned.contents = s.tm.unassigned.contents ++ ts ∧
      (∀ t, t ∈ s'.tm.running ↔ t ∈ s.tm.running ∧ t ∉ ts) ∧
      s'.cfg = s.cfg ∧ s'.clients = s.clients ∧ s'.fm = s.fm ∧ s'.wm = s.wm ∧
      s'.abs = { s.abs with waiting := s.abs.waiting ++ ts, mon := s.abs.mon ++ s.abs.backs ts } := by
  intro ts
  induction ts with
  | nil =>
    intro s _ hq _
    exact ⟨s, rfl, hq, by simp, by simp, rfl, rfl, rfl, rfl, by simp [Abs.backs]⟩
  | cons t ts ih =>
    intro s hn hq ht
    rw [List.nodup_cons] at hn
    obtain ⟨hrun, hnw, hcl, k, hk, hf⟩ := ht t List.mem_cons_self
    obtain ⟨c, hcl⟩ := Option.isSome_iff_exists.1 hcl
    obtain ⟨fi, hfi⟩ := Option.isSome_iff_exists.1 hf
    obtain ⟨q, e1, hQ, hQ'⟩ := hq.put_new (a := t) (by simpa using hnw)
    have e2 : s.onTaskReroute t = .ok (({ s with tm := { s.tm with running := s.tm.running.discard t, unassigned := q } } : Sched).monitor
        (.taskState t fi.name .inactive)) := by
      unfold onTaskReroute
      rw [OneToMany.getKey_ok hcl, PySet.remove_of_mem hrun, e1]
      simp only [Py.ok_bind]
      exact sendMonitor_ok (k := k) (i := fi) hk hfi
    obtain ⟨s', e3, h1, h2, h3, h4, h5, h6, h7, h8⟩ := ih
      (({ s with tm := { s.tm with running := s.tm.running.discard t, unassigned := q } } : Sched).monitor
        (.taskState t fi.name .inactive)) hn.2 hQ (by
          intro x hx
          obtain ⟨a1, a2, a3, a4⟩ := ht x (List.mem_cons_of_mem _ hx)
          have hne : x ≠ t := by rintro rfl; exact hn.1 hx
          refine ⟨?_, ?_, a3, a4⟩
          · show x ∈ s.tm.running.discard t
            simp [a1, hne]
          · show x ∉ q.contents
            rw [hQ']; simp [a2, hne])
    refine ⟨s', ?_, h1, ?_, ?_, h4, h5, h6, h7, ?_⟩
    · simp [rerouteTasks, e2, e3]
    · rw [h2]
      show q.contents ++ ts = _
      rw [hQ']; simp
    · intro x
      rw [h3]
      show x ∈ s.tm.running.discard t ∧ _ ↔ _
      simp only [PySet.mem_discard, List.mem_cons, not_or, and_assoc, ne_eq]
    · rw [h8]
      simp [Sched.abs, hQ', Abs.backs, Abs.nameOf, hk, hfi, Sched.monitor]

/-- Giving tasks back: `alloc` no longer has them. -/
theorem requeue_ok (hc : Conc s) (hi : Inv h s.abs) (hset : AllSettled s.abs) {ts : List Bytes} (hn : ts.Nodup)
    (ht : ∀ t ∈ ts, (s.abs.worker t).isSome) {alloc : Alloc} {alive : Dict Bytes (Int × Heartbeat)} (ha : alloc.Inv)
    (hm : alloc.max = s.wm.alloc.max) (ht2w : ∀ t, alloc.t2w.get? t = if t ∈ ts then none else s.wm.alloc.t2w.get? t)
    (halive : ∀ w, alive.has w = true ↔ (alloc.w2t.get? w).isSome) (hd : ∀ w, alive.has w = true → s.abs.up w = true)
    (hy : ∀ t ∈ ts, (∃ x ids, h.sub = some (x, .balanceResponse ids) ∧ t ∈ ids) ∨
      (∀ x b, h.sub ≠ some (x, .heartbeat b)) ∧ ∃ w, s.abs.worker t = some w ∧ alive.has w = false) :
    ∃ s', rerouteTasks { s with wm := { s.wm with alloc, alive } } ts = .ok s' ∧ After h s s' ∧
      s'.wm = { s.wm with alloc, alive } ∧
      s'.abs = { s.abs with
        up := alive.has
        worker := fun t => if t ∈ ts then none else s.abs.worker t
        waiting := s.abs.waiting ++ ts
        mon := s.abs.mon ++ s.abs.backs ts } := by
  obtain ⟨s', e, h1, h2, h3, h4, h5, h6, h7, h8⟩ := rerouteTasks_ok ts
    { s with wm := { s.wm with alloc, alive } } hn hc.queue (by
      intro t htm
      have hw := ht t htm
      have hts := (hi.place t).2 (Or.inr (Or.inr hw))
      obtain ⟨k, hk⟩ := Option.isSome_iff_exists.1 hts
      refine ⟨(hc.running t).2 hw, ?_, hi.owned t hts, k, hk, hi.known t _ (hi.pinned t k hk)⟩
      intro hmem
      rw [(hi.apart t hmem).2] at hw; cases hw)
  have habs : s'.abs = { s.abs with
        up := alive.has
        worker := fun t => if t ∈ ts then none else s.abs.worker t
        waiting := s.abs.waiting ++ ts
        mon := s.abs.mon ++ s.abs.backs ts } := by
    rw [h8]
    simp only [Sched.abs, Abs.mk.injEq, true_and, and_true]
    exact ⟨funext ht2w, rfl⟩
  refine ⟨s', e, .of hset ?_ h4 ?_ ?_, h7, habs⟩
  · refine ⟨by rw [h7]; exact ha, by rw [h7, h4]; exact hm.trans hc.max, h1, by rw [h6]; exact hc.uses,
      by rw [h5]; exact hc.clients, ?_, by rw [h7]; exact halive⟩
    intro t
    rw [h3, h7]
    simp only [ht2w]
    rw [hc.running]
    by_cases e : t ∈ ts <;> simp [e]
  · rw [habs]
    refine (AStep.requeue ts alive.has hn ht ?_ hd hy).steps
    intro t w htn hw
    rw [halive]
    have : alloc.t2w.get? t = some w := by rw [ht2w, if_neg htn]; exact hw
    obtain ⟨ws, hws, _⟩ := (ha.agree t w).1 this
    simp [hws]
  · rw [habs]

/-- Giving back these tasks makes the allocator fail: a locator has another value than the queue, or is out of
date and its worker gives back two tasks. -/
def Jam (a : Alloc) (ids : List Bytes) : Prop :=
  ∃ t ∈ ids, ∃ w, a.t2w.get? t = some w ∧
    (a.Lost w ∨ a.queue.stale w ≠ none ∧ ∃ t' ∈ ids, t' ≠ t ∧ a.t2w.get? t' = some w)

theorem jam_unknown {a : Alloc} {t : Bytes} {ids : List Bytes} (ht : a.t2w.get? t = none) : Jam a (t :: ids) ↔ Jam a ids := by
  have hne : ∀ x w, x ∈ t :: ids → a.t2w.get? x = some w → x ∈ ids := by
    intro x w hx hw
    rcases List.mem_cons.1 hx with rfl | hx
    · rw [ht] at hw; cases hw
    · exact hx
  constructor
  · rintro ⟨x, hx, w, hw, hl | ⟨hs, x', hx', hne', hw'⟩⟩
    · exact ⟨x, hne x w hx hw, w, hw, Or.inl hl⟩
    · exact ⟨x, hne x w hx hw, w, hw, Or.inr ⟨hs, x', hne x' w hx' hw', hne', hw'⟩⟩
  · rintro ⟨x, hx, w, hw, hl | ⟨hs, x', hx', hne', hw'⟩⟩
    · exact ⟨x, List.mem_cons_of_mem _ hx, w, hw, Or.inl hl⟩
    · exact ⟨x, List.mem_cons_of_mem _ hx, w, hw, Or.inr ⟨hs, x', List.mem_cons_of_mem _ hx', hne', hw'⟩⟩

theorem jam_known {a a1 : Alloc} {t w : Bytes} {ids : List Bytes} (ht : a.t2w.get? t = some w) (e2 : a1.t2w = a.t2w.erase t)
    (hst : ∀ w', a1.queue.stale w' ≠ none ↔ a.queue.stale w' ≠ none) (hnl : ¬ a.Lost w) (hl1 : a1.Lost w ↔ a.queue.stale w ≠ none)
    (hl2 : ∀ w', w ≠ w' → (a1.Lost w' ↔ a.Lost w')) : Jam a (t :: ids) ↔ Jam a1 ids := by
  have hback : ∀ x w', a1.t2w.get? x = some w' ↔ x ≠ t ∧ a.t2w.get? x = some w' := by
    intro x w'
    rw [e2, Dict.get?_erase]
    by_cases e : t = x
    · simp [e]
    · rw [if_neg e]; exact ⟨fun h => ⟨fun e' => e e'.symm, h⟩, fun h => h.2⟩
  constructor
  · rintro ⟨x, hx, w', hw, hd⟩
    rcases hd with hl | ⟨hs, x', hx', hne', hw'⟩
    · have hww : w ≠ w' := by rintro rfl; exact hnl hl
      have hxt : x ≠ t := by rintro rfl; rw [ht] at hw; cases hw; exact hww rfl
      exact ⟨x, (List.mem_cons.1 hx).resolve_left hxt, w', (hback x w').2 ⟨hxt, hw⟩, Or.inl ((hl2 w' hww).2 hl)⟩
    · by_cases hww : w = w'
      · subst hww
        by_cases hxt : x = t
        · have hx't : x' ≠ t := by rw [← hxt]; exact hne'
          exact ⟨x', (List.mem_cons.1 hx').resolve_left hx't, w, (hback x' w).2 ⟨hx't, hw'⟩, Or.inl (hl1.2 hs)⟩
        · exact ⟨x, (List.mem_cons.1 hx).resolve_left hxt, w, (hback x w).2 ⟨hxt, hw⟩, Or.inl (hl1.2 hs)⟩
      · have hxt : ∀ y, a.t2w.get? y = some w' → y ≠ t := by
          rintro y hy rfl; rw [ht] at hy; cases hy; exact hww rfl
        exact ⟨x, (List.mem_cons.1 hx).resolve_left (hxt x hw), w', (hback x w').2 ⟨hxt x hw, hw⟩, Or.inr ⟨(hst w').2 hs,
          x', (List.mem_cons.1 hx').resolve_left (hxt x' hw'), hne', (hback x' w').2 ⟨hxt x' hw', hw'⟩⟩⟩
  · rintro ⟨x, hx, w', hw, hd⟩
    obtain ⟨hxt, hw⟩ := (hback x w').1 hw
    rcases hd with hl | ⟨hs, x', hx', hne', hw'⟩
    · by_cases hww : w = w'
      · subst hww
        exact ⟨x, List.mem_cons_of_mem _ hx, w, hw, Or.inr ⟨hl1.1 hl, t, List.mem_cons_self, fun e => hxt e.symm, ht⟩⟩
      · exact ⟨x, List.mem_cons_of_mem _ hx, w', hw, Or.inl ((hl2 w' hww).1 hl)⟩
    · exact ⟨x, List.mem_cons_of_mem _ hx, w', hw, Or.inr ⟨(hst w').1 hs, x', List.mem_cons_of_mem _ hx', hne', ((hback x' w').1 hw').2⟩⟩

theorem takeBack_spec : ∀ (ids : List Bytes) (a : Alloc), a.Inv →
    Py.Post (takeBack a ids)
      (fun p => p.1.Nodup ∧ (∀ t, t ∈ p.1 ↔ t ∈ ids ∧ (a.t2w.get? t).isSome) ∧ p.2.Inv ∧ p.2.max = a.max ∧
        (∀ w, (p.2.w2t.get? w).isSome ↔ (a.w2t.get? w).isSome) ∧
        (∀ t, p.2.t2w.get? t = if t ∈ ids then none else a.t2w.get? t) ∧ ¬ Jam a ids)
      (fun _ => Jam a ids) := by
  intro ids
  induction ids with
  | nil => intro a ha; simp [takeBack, ha, Jam]
  | cons t ids ih =>
    intro a ha
    unfold takeBack
    cases hw : a.t2w.get? t with
    | none =>
      rw [Alloc.removeTask_unknown hw]
      simp only [Py.ok_bind]
      rw [Py.post_bind]
      refine (ih a ha).imp ?_ ?_
      · rintro ⟨ts, a'⟩ ⟨h1, h2, h3, h4, h5, h6, h7⟩
        simp only [Py.post_pure, Option.isSome_none, Bool.false_eq_true, if_false]
        refine ⟨h1, ?_, h3, h4, h5, ?_, fun hx => h7 ((jam_unknown hw).1 hx)⟩
        · intro x
          rw [h2]
          simp only [List.mem_cons]
          constructor
          · rintro ⟨a1, a2⟩; exact ⟨Or.inr a1, a2⟩
          · rintro ⟨rfl | a1, a2⟩
            · rw [hw] at a2; cases a2
            · exact ⟨a1, a2⟩
        · intro x
          rw [h6]
          simp only [List.mem_cons]
          by_cases ex : x = t
          · subst ex; simp [hw]
          · simp [ex]
      · exact fun _ hx => (jam_unknown hw).2 hx
    | some w =>
      obtain ⟨ws, hws, htw, ⟨a1, e, hI, hm, e1, e2, hst1, hst2, hl0, hl1, hl2⟩ | ⟨hst, e⟩⟩ := Alloc.removeTask_known ha hw
      · have hjam := jam_known (ids := ids) hw e2 (by
          intro w'
          by_cases hsw : a.queue.stale w = none
          · rw [(hst1 hsw).2]
          · by_cases hww : w = w'
            · subst hww; exact ⟨fun _ => hsw, fun _ => (hst2 hsw).2.1⟩
            · rw [(hst2 hsw).2.2 w' hww]) hl0 hl1 hl2
        rw [e]
        simp only [Py.ok_bind]
        rw [Py.post_bind]
        have hne : ∀ x, (a1.t2w.get? x).isSome ↔ (a.t2w.get? x).isSome ∧ x ≠ t := by
          intro x
          rw [e2, Dict.get?_erase]
          by_cases ex : x = t
          · simp [ex]
          · have : ¬ t = x := fun e => ex e.symm
            simp [ex, this]
        refine (ih a1 hI).imp ?_ ?_
        · rintro ⟨ts, a'⟩ ⟨h1, h2, h3, h4, h5, h6, h7⟩
          simp only [Py.post_pure, Option.isSome_some, if_true]
          refine ⟨?_, ?_, h3, h4.trans hm, ?_, ?_, fun hx => h7 (hjam.1 hx)⟩
          · rw [List.nodup_cons]
            exact ⟨fun hx => ((hne t).1 ((h2 t).1 hx).2).2 rfl, h1⟩
          · intro x
            rw [List.mem_cons, List.mem_cons, h2, hne]
            constructor
            · rintro (rfl | ⟨a1, a2, _⟩)
              · exact ⟨Or.inl rfl, by simp [hw]⟩
              · exact ⟨Or.inr a1, a2⟩
            · rintro ⟨h7, h8⟩
              by_cases ex : x = t
              · exact Or.inl ex
              · exact Or.inr ⟨h7.resolve_left ex, h8, ex⟩
          · intro w'
            rw [h5, e1, Dict.get?_set]
            by_cases ew : w = w'
            · subst ew; simp [hws]
            · simp [ew]
          · intro x
            rw [h6, e2, Dict.get?_erase]
            simp only [List.mem_cons]
            by_cases ex : x = t
            · simp [ex]
            · have : ¬ t = x := fun e => ex e.symm
              simp [ex, this]
        · exact fun _ hx => hjam.2 hx
      · rw [e]
        exact ⟨t, List.mem_cons_self, w, hw, Or.inl hst⟩

theorem onBalanceResponse_spec (hc : Conc s) (hi : Inv h s.abs) (hset : AllSettled s.abs) (ids : List Bytes)
    (hsub : ∃ x, h.sub = some (x, .balanceResponse ids)) :
    Py.Post (s.onBalanceResponse ids)
      (fun s' => After h s s' ∧ ∃ ts : List Bytes, ts.Nodup ∧ (∀ t, t ∈ ts ↔ t ∈ ids ∧ (s.abs.worker t).isSome) ∧
        s'.abs = { s.abs with
          worker := fun t => if t ∈ ids then none else s.abs.worker t
          waiting := s.abs.waiting ++ ts
          mon := s.abs.mon ++ s.abs.backs ts } ∧ ¬ Jam s.wm.alloc ids)
      (fun _ => Jam s.wm.alloc ids) := by
  unfold onBalanceResponse
  rw [Py.post_bind]
  refine (takeBack_spec ids s.wm.alloc hc.alloc).imp ?_ (fun _ hx => hx)
  · rintro ⟨ts, a⟩ ⟨h1, h2, h3, h4, h5, h6, h7⟩
    simp only at h1 h2 h3 h4 h5 h6
    have h6' : ∀ t, a.t2w.get? t = if t ∈ ts then none else s.wm.alloc.t2w.get? t := by
      intro t
      rw [h6]
      by_cases e1 : t ∈ ids
      · rw [if_pos e1]
        by_cases e2 : t ∈ ts
        · rw [if_pos e2]
        · rw [if_neg e2]
          rw [h2] at e2
          cases hx : s.wm.alloc.t2w.get? t with
          | none => rfl
          | some w => exact absurd ⟨e1, by rw [hx]; rfl⟩ e2
      · rw [if_neg e1, if_neg (fun hx => e1 ((h2 t).1 hx).1)]
    obtain ⟨s', e, hA, _, habs⟩ := requeue_ok (alloc := a) (alive := s.wm.alive) hc hi hset h1
      (fun t ht => ((h2 t).1 ht).2) h3 h4 h6' (fun w => by rw [h5]; exact hc.alive w) (fun _ x => x)
      (fun t ht => by obtain ⟨x, hx⟩ := hsub; exact .inl ⟨x, ids, hx, ((h2 t).1 ht).1⟩)
    have hup : s.wm.alive.has = s.abs.up := rfl
    have e' : rerouteTasks { s with wm := { s.wm with alloc := a } } ts = .ok s' := e
    simp only
    rw [e']
    refine ⟨hA, ts, h1, h2, ?_, h7⟩
    rw [habs, hup]
    simp only [Abs.mk.injEq, true_and, and_true]
    funext t
    have := h6' t
    rw [h6] at this
    exact this.symm

theorem disconnectWorker_spec (hc : Conc s) (hi : Inv h s.abs) (hset : AllSettled s.abs) (o : Order) (w : Bytes)
    (hno : ∀ x b, h.sub ≠ some (x, .heartbeat b)) :
    Py.Post (s.disconnectWorker o w)
      (fun p => After h s p.2 ∧ p.1 = s.abs.up w ∧ (¬ (s.abs.up w = true ∧ s.wm.alloc.queue.stale w ≠ none) ∧
        ∀ w', w' ≠ w → p.2.abs.up w' = s.abs.up w' ∧ p.2.wm.alloc.queue.stale w' = s.wm.alloc.queue.stale w') ∧
        (s.abs.up w = false → p.2 = s) ∧
        (s.abs.up w = true → ∃ ts : List Bytes, ts.Nodup ∧ (∀ t, t ∈ ts ↔ s.abs.worker t = some w) ∧
          p.2.abs = { s.abs with
            up := upd s.abs.up w false
            worker := fun t => if s.abs.worker t = some w then none else s.abs.worker t
            waiting := s.abs.waiting ++ ts
            mon := s.abs.mon ++ s.abs.backs ts }))
      (fun _ => s.abs.up w = true ∧ s.wm.alloc.queue.stale w ≠ none) := by
  unfold disconnectWorker
  cases hal : s.wm.alive.has w with
  | false =>
    simp only [Bool.not_false, if_true, Py.post_ok]
    have : s.abs.up w = false := hal
    simp [this, After.refl hc hset]
  | true =>
    simp only [Bool.not_true, Bool.false_eq_true, if_false]
    obtain ⟨al, hal'⟩ := Option.isSome_iff_exists.1 (show (s.wm.alive.get? w).isSome from hal)
    obtain ⟨ws, hws⟩ := Option.isSome_iff_exists.1 ((hc.alive w).1 hal)
    rw [Dict.pop_of_get? hal']
    simp only [Py.ok_bind]
    rcases Alloc.removeWorker_known hc.alloc (o w) hws with ⟨hst, a, e, hI, hm, e1, e2, e3, e4⟩ | ⟨hst, e, he⟩
    · rw [e]
      simp only [Py.ok_bind]
      have hmem : ∀ t, t ∈ orderBy (o w) ws.items ↔ s.abs.worker t = some w := by
        intro t
        rw [mem_orderBy]
        constructor
        · intro htw; exact (hc.alloc.agree t w).2 ⟨ws, hws, htw⟩
        · intro htw
          obtain ⟨ws', hws', htw'⟩ := (hc.alloc.agree t w).1 htw
          rw [hws] at hws'; cases hws'; exact htw'
      have hnd : (orderBy (o w) ws.items).Nodup := (orderBy_perm _ _).nodup_iff.2 ws.nodup
      obtain ⟨s', er, hA, hwm, habs⟩ := requeue_ok (alloc := a) (alive := s.wm.alive.erase w) hc hi hset hnd
        (fun t ht => by rw [(hmem t).1 ht]; rfl) hI hm (by
          intro t
          rw [e2]
          have := hmem t
          by_cases e : s.abs.worker t = some w
          · rw [if_pos (this.2 e), if_pos (by exact e)]
          · rw [if_neg (fun hx => e (this.1 hx)), if_neg (by exact e)])
        (by
          intro w'
          rw [e1, Dict.get?_erase]
          show ((s.wm.alive.erase w).get? w').isSome = true ↔ _
          rw [Dict.get?_erase]
          by_cases ew : w = w'
          · simp [ew]
          · simp only [ew, if_false]; exact hc.alive w')
        (by
          intro w' hx
          have hx : ((s.wm.alive.erase w).get? w').isSome = true := hx
          rw [Dict.get?_erase] at hx
          split at hx
          · cases hx
          · exact hx)
        (fun t ht => .inr ⟨hno, w, (hmem t).1 ht, by
          show ((s.wm.alive.erase w).get? w).isSome = false
          rw [Dict.get?_erase]
          simp⟩)
      have hup : (s.wm.alive.erase w).has = upd s.abs.up w false := by
        funext x
        show ((s.wm.alive.erase w).get? x).isSome = _
        rw [Dict.get?_erase]
        by_cases ex : w = x
        · simp [ex]
        · simp only [ex, if_false, upd_apply]; rfl
      have hfinal : After h s s' ∧ true = s.abs.up w ∧ (¬ (s.abs.up w = true ∧ s.wm.alloc.queue.stale w ≠ none) ∧
          ∀ w', w' ≠ w → s'.abs.up w' = s.abs.up w' ∧ s'.wm.alloc.queue.stale w' = s.wm.alloc.queue.stale w') ∧
          (s.abs.up w = false → s' = s) ∧
          (s.abs.up w = true → ∃ ts : List Bytes, ts.Nodup ∧ (∀ t, t ∈ ts ↔ s.abs.worker t = some w) ∧
          s'.abs = { s.abs with
            up := upd s.abs.up w false
            worker := fun t => if s.abs.worker t = some w then none else s.abs.worker t
            waiting := s.abs.waiting ++ ts
            mon := s.abs.mon ++ s.abs.backs ts }) := by
        have hupw : s.abs.up w = true := hal
        refine ⟨hA, hupw.symm, ⟨fun hx => hx.2 hst, ?_⟩, (fun hx => by rw [hupw] at hx; cases hx), fun _ => ⟨_, hnd, hmem, ?_⟩⟩
        · intro w' hne
          have hne' : ¬ w = w' := fun e => hne e.symm
          refine ⟨?_, ?_⟩
          · rw [habs, hup]; simp only [upd_apply, if_neg hne']
          · rw [hwm]
            simp only
            rw [e4, if_neg hne']
        · rw [habs, hup]
          simp only [Abs.mk.injEq, true_and, and_true]
          funext t
          have := hmem t
          by_cases e : s.abs.worker t = some w
          · rw [if_pos (this.2 e), if_pos e]
          · rw [if_neg (fun hx => e (this.1 hx)), if_neg e]
      split
      · next hemp =>
        rw [List.isEmpty_iff] at hemp
        rw [hemp] at er
        simp only [rerouteTasks, Except.ok.injEq] at er
        simp only [Py.post_pure]
        subst er
        exact hfinal
      · rw [er]
        exact hfinal
    · rw [he]
      exact ⟨hal, hst⟩

theorem onDisconnect_spec (hc : Conc s) (hi : Inv h s.abs) (hset : AllSettled s.abs) (o : Order) (source w : Bytes)
    (hh : (source, .disconnectRequest w) ∈ h) (hno : ∀ x b, h.sub ≠ some (x, .heartbeat b)) :
    Py.Post (s.onDisconnect o source w) (fun s' => After h s s' ∧ ¬ (s.abs.up w = true ∧ s.wm.alloc.queue.stale w ≠ none))
      (fun _ => s.abs.up w = true ∧ s.wm.alloc.queue.stale w ≠ none) := by
  unfold onDisconnect
  rw [Py.post_bind]
  refine (disconnectWorker_spec hc hi hset o w hno).imp ?_ (fun _ hx => hx)
  rintro ⟨b, s'⟩ ⟨hA, hb, hst, _⟩
  simp only at hA
  cases b with
  | false => exact ⟨hA, hst.1⟩
  | true =>
    refine ⟨⟨hA.conc.send _ _, hA.cfg, hA.steps.tail ?_, hA.settled⟩, hst.1⟩
    exact AStep.say source (.disconnectResponse w) hh

/-- One of the workers is connected and its locator is out of date. -/
def Stuck (s : Sched) (ws : List Bytes) : Prop := ∃ w ∈ ws, s.abs.up w = true ∧ s.wm.alloc.queue.stale w ≠ none

theorem disconnectAll_spec (o : Order) (hno : ∀ x b, h.sub ≠ some (x, .heartbeat b)) : ∀ (ws : List Bytes) (s : Sched), ws.Nodup → Conc s → Inv h s.abs → AllSettled s.abs →
    Py.Post (s.disconnectAll o ws) (fun s' => After h s s' ∧ ¬ s.Stuck ws) (fun _ => s.Stuck ws) := by
  intro ws
  induction ws with
  | nil => intro s _ hc hi hset; exact ⟨.refl hc hset, by simp [Stuck]⟩
  | cons w ws ih =>
    intro s hn hc hi hset
    rw [List.nodup_cons] at hn
    unfold disconnectAll
    rw [Py.post_bind]
    refine (disconnectWorker_spec hc hi hset o w hno).imp ?_ (fun _ hx => ⟨w, List.mem_cons_self, hx⟩)
    rintro ⟨b, s'⟩ ⟨hA, _, ⟨hno', hst⟩, _⟩
    simp only at hA hst
    have hmv : s.Stuck (w :: ws) ↔ s'.Stuck ws := by
      constructor
      · rintro ⟨w', h1, h2⟩
        rcases List.mem_cons.1 h1 with rfl | h3
        · exact absurd h2 hno'
        · have := hst w' (by rintro rfl; exact hn.1 h3)
          exact ⟨w', h3, by rw [this.1, this.2]; exact h2⟩
      · rintro ⟨w', h1, h2⟩
        have := hst w' (by rintro rfl; exact hn.1 h1)
        exact ⟨w', List.mem_cons_of_mem _ h1, by rw [this.1, this.2] at h2; exact h2⟩
    rw [hmv]
    exact (ih s' hn.2 hA.conc (hA.steps.inv hi) hA.settled).imp (fun _ hB => ⟨hA.trans hB.1, hB.2⟩) (fun _ hx => hx)

theorem _root_.Verif.Sched.Talk.out {a : Abs} {c : Bytes} {m : Message} {l : List (Bytes × Message)} (ht : Talk h a c m) :
    Talk h { a with out := l } c m := by
  cases m <;> exact ht

/-- Several messages outside the task traffic. -/
theorem sendAll_ok (hc : Conc s) (l : List (Bytes × Message)) (hl : ∀ p ∈ l, Talk h s.abs p.1 p.2) :
    Conc (l.foldl (fun s p => s.send p.1 p.2) s) ∧ (l.foldl (fun s p => s.send p.1 p.2) s).cfg = s.cfg ∧
    ASteps h s.abs (l.foldl (fun s p => s.send p.1 p.2) s).abs ∧
    l.foldl (fun s p => s.send p.1 p.2) s = { s with out := s.out ++ l } := by
  induction l generalizing s with
  | nil => exact ⟨hc, rfl, .refl _, by simp⟩
  | cons p l ih =>
    obtain ⟨h1, h2, h3, h4⟩ := ih (hc.send p.1 p.2) (fun q hq => (hl q (List.mem_cons_of_mem _ hq)).out)
    refine ⟨h1, h2, ASteps.head (AStep.say p.1 p.2 (hl p List.mem_cons_self)) h3, ?_⟩
    rw [List.foldl_cons, h4]
    simp [Sched.send]

theorem balanceRequest_spec (hc : Conc s) :
    Conc s.balanceRequest ∧ s.balanceRequest.cfg = s.cfg ∧ ASteps h s.abs s.balanceRequest.abs ∧
    s.balanceRequest.gm = s.gm ∧ s.balanceRequest.wm.alloc = s.wm.alloc ∧ s.balanceRequest.wm.alive = s.wm.alive ∧
    s.balanceRequest.tm = s.tm := by
  have hwm : ∀ la sc, Conc { s with wm := { s.wm with lastAdvice := la, sameCount := sc } } :=
    fun la sc => ⟨hc.alloc, hc.max, hc.queue, hc.uses, hc.clients, hc.running, hc.alive⟩
  unfold balanceRequest
  split
  · exact ⟨hc, rfl, .refl _, rfl, rfl, rfl, rfl⟩
  · simp only
    split
    · exact ⟨hwm _ _, rfl, .refl _, rfl, rfl, rfl, rfl⟩
    · split
      · exact ⟨hwm _ _, rfl, .refl _, rfl, rfl, rfl, rfl⟩
      · split
        · exact ⟨hwm _ _, rfl, .refl _, rfl, rfl, rfl, rfl⟩
        · have := sendAll_ok (h := h) (hwm (some s.wm.alloc.balance) (s.wm.sameCount + 1))
            (s.wm.alloc.balance.items.map fun p => (p.1, .balanceRequest p.2)) (by
              intro p hp
              obtain ⟨q, hq, rfl⟩ := List.mem_map.1 hp
              obtain ⟨ts, h1, h2, h3⟩ := Alloc.balance_bounds (Dict.mem_items.1 hq)
              refine ⟨(hc.alive q.1).2 (Alloc.balance_known (Dict.mem_items.1 hq)), h2, ts.items, ts.nodup,
                fun t ht => (hc.alloc.agree t q.1).2 ⟨ts, h1, ht⟩, h3, fun h0 => ?_⟩
              obtain ⟨p, hp'⟩ := hc.alloc.prio_some h1
              have h4 := hc.alloc.load _ _ _ hp' h1
              have h5 := hc.alloc.cap (by rw [hc.max]; exact h0) _ _ hp'
              rw [hc.max] at h5
              exact Int.le_trans h4 h5)
          rw [List.foldl_map] at this
          obtain ⟨h1, h2, h3, h4⟩ := this
          refine ⟨h1, h2, h3, ?_, ?_, ?_, ?_⟩ <;> rw [h4]

/-- A worker is timed out and its locator is out of date. -/
def Overdue (s : Sched) (now : Int) : Prop :=
  ∃ w last hb, s.wm.alive.get? w = some (last, hb) ∧ now - last > s.cfg.workerTimeout ∧ s.wm.alloc.queue.stale w ≠ none

theorem workerRoutine_spec (hc : Conc s) (hi : Inv h s.abs) (hset : AllSettled s.abs) (o : Order) (now : Int)
    (hno : ∀ x b, h.sub ≠ some (x, .heartbeat b)) :
    Py.Post (s.workerRoutine o now) (fun s' => After h s s' ∧ ¬ s.Overdue now) (fun _ => s.Overdue now) := by
  obtain ⟨h1, h2, h3, h4, h5, h6, -⟩ := balanceRequest_spec (h := h) hc
  unfold workerRoutine cleanWorkers
  have hA : After h s s.balanceRequest := .of hset h1 h2 h3 (by simp [Sched.abs, h4])
  have hst : s.balanceRequest.Stuck ((s.balanceRequest.wm.alive.items.filter fun p => decide (now - p.2.1 > s.balanceRequest.cfg.workerTimeout)).map (·.1)) ↔
      s.Overdue now := by
    unfold Stuck Overdue
    rw [h5, h6, h2, show s.balanceRequest.abs.up = s.wm.alive.has from congrArg Dict.has h6]
    constructor
    · rintro ⟨w, hw, _, hs⟩
      obtain ⟨⟨w', last, hb⟩, hp, rfl⟩ := List.mem_map.1 hw
      obtain ⟨hp, hlt⟩ := List.mem_filter.1 hp
      exact ⟨w', last, hb, Dict.mem_items.1 hp, of_decide_eq_true hlt, hs⟩
    · rintro ⟨w, last, hb, hw, hlt, hs⟩
      refine ⟨w, List.mem_map.2 ⟨(w, last, hb), List.mem_filter.2 ⟨Dict.mem_items.2 hw, decide_eq_true hlt⟩, rfl⟩, ?_, hs⟩
      rw [Dict.has_iff, Dict.mem_keys]
      exact ⟨_, hw⟩
  rw [← hst]
  refine (disconnectAll_spec o hno _ s.balanceRequest ?_ h1 (h3.inv hi) hA.settled).imp (fun _ hB => ⟨hA.trans hB.1, hB.2⟩) (fun _ hx => hx)
  exact (Dict.nodup_keys s.balanceRequest.wm.alive).sublist (List.filter_sublist.map _)

theorem onHeartbeat_spec (hc : Conc s) (hset : AllSettled s.abs) (w : Bytes) (hb : Heartbeat) (now : Int)
    (hh : (w, .heartbeat hb) ∈ h) (hsub : h.sub = some (w, .heartbeat hb)) :
    After h s (s.onHeartbeat w hb now) ∧
    (s.onHeartbeat w hb now).abs = { s.abs with up := upd s.abs.up w true, out := s.abs.out ++ [(w, .heartbeatEcho)] } := by
  obtain ⟨a, b, e, hI, hm, ht, hw⟩ : ∃ a b, s.wm.alloc.addWorker w = (b, a) ∧ a.Inv ∧ a.max = s.wm.alloc.max ∧
      a.t2w = s.wm.alloc.t2w ∧ ∀ w', (a.w2t.get? w').isSome ↔ w = w' ∨ (s.wm.alloc.w2t.get? w').isSome := by
    cases hx : s.wm.alloc.w2t.get? w with
    | some ws =>
      refine ⟨_, _, Alloc.addWorker_old hx, hc.alloc, rfl, rfl, ?_⟩
      intro w'
      by_cases ew : w = w'
      · subst ew; simp [hx]
      · simp [ew]
    | none =>
      obtain ⟨a', e, h1, h2, h3, h4, _, _⟩ := Alloc.addWorker_new hc.alloc hx
      refine ⟨a', _, e, h1, h2, h3, ?_⟩
      intro w'
      rw [h4, Dict.get?_set]
      by_cases ew : w = w' <;> simp [ew]
  have hup : (s.wm.alive.set w (now, hb)).has = upd s.wm.alive.has w true := by
    funext x
    show ((s.wm.alive.set w (now, hb)).get? x).isSome = _
    rw [Dict.get?_set]
    by_cases ex : w = x
    · simp [ex]
    · simp only [ex, if_false, upd_apply]; rfl
  have habs : (s.onHeartbeat w hb now).abs =
      { s.abs with up := upd s.abs.up w true, out := s.abs.out ++ [(w, .heartbeatEcho)] } := by
    unfold onHeartbeat
    rw [e]
    simp [Sched.abs, ht, hup]
  refine ⟨.of hset ?_ ?_ ?_ ?_, habs⟩
  · unfold onHeartbeat
    rw [e]
    refine Conc.send (s := { s with wm := { s.wm with alloc := a, alive := s.wm.alive.set w (now, hb) } })
      ⟨hI, hm.trans hc.max, hc.queue, hc.uses, hc.clients, ?_, ?_⟩ _ _
    · simpa [ht] using hc.running
    · intro w'
      simp only [hup, hw, upd_apply]
      by_cases ew : w = w'
      · simp [ew]
      · simp only [ew, if_false, false_or]; exact hc.alive w'
  · unfold onHeartbeat; rw [e]; rfl
  · rw [habs]
    exact ASteps.head (AStep.up w ⟨hb, hh⟩ ⟨hb, hsub⟩) (AStep.say (a := { s.abs with up := upd s.abs.up w true }) w .heartbeatEcho ⟨hb, hh⟩).steps
  · rw [habs]

/-! ### The task routine -/

/-- The task routine with a task at hand. -/
theorem assignTask_ok (hc : Conc s) (hi : Inv h s.abs) (hset : AllSettled s.abs) {k : Task} (hp : s.abs.pending = some k)
    (hw0 : ¬ s.wm.alloc.queue.len = 0) :
    ∃ s', ({ s with tm := { s.tm with pending := none } } : Sched).assignTask k = .ok s' ∧ After h s s' ∧
      ((s'.abs = { s.abs with pending := none, waiting := s.abs.waiting ++ [k.taskId] } ∧
          (∀ w p, s.wm.alloc.queue.prio w = some p → s.cfg.queueSize ≤ p) ∧
          ∀ w, s'.wm.alloc.queue.prio w = s.wm.alloc.queue.prio w) ∨
       (∃ w p, s.wm.alloc.queue.prio w = some p ∧ p ≠ s.cfg.queueSize ∧
          (∀ w' p', s.wm.alloc.queue.prio w' = some p' → p ≤ p') ∧
          s'.abs = { s.abs with
            pending := none, worker := upd s.abs.worker k.taskId (some w), out := s.abs.out ++ [(w, .task k)]
            mon := s.abs.mon ++ [.taskState k.taskId (s.abs.nameOf k.taskId) .running] })) := by
  rw [Alloc.queue_empty_iff hc.alloc] at hw0
  simp only [Classical.not_forall] at hw0
  obtain ⟨w0, hw0⟩ := hw0
  obtain ⟨s0, hs0⟩ := Option.ne_none_iff_exists'.1 hw0
  have hkt := hi.pend k hp
  have hpn : s.abs.pendId = some k.taskId := by simp [Abs.pendId, hp]
  have hnw : s.wm.alloc.t2w.get? k.taskId = none := hi.apart' _ hpn
  have hnq : k.taskId ∉ s.tm.unassigned.contents := fun hm => (hi.apart _ hm).1 hpn
  obtain ⟨fi, hfi⟩ := Option.isSome_iff_exists.1 (hi.known _ _ (hi.pinned _ k hkt))
  obtain ⟨p, w, ws, hpr, hws, hmin, h1 | h1 | h1⟩ := Alloc.assignTask_spec hc.alloc hs0 k.taskId
  · obtain ⟨hpm, a', e, hI, hm, e1, e2, e4, -⟩ := h1
    obtain ⟨q, e3, hQ, hQ'⟩ := hc.queue.put_new (a := k.taskId) (by simpa using hnq)
    have habs : ({ s with wm := { s.wm with alloc := a' }, tm := { s.tm with pending := none, unassigned := q } } : Sched).abs =
        { s.abs with waiting := s.abs.waiting ++ [k.taskId], pending := none } := by
      simp [Sched.abs, e2, hQ']
    refine ⟨{ s with wm := { s.wm with alloc := a' }, tm := { s.tm with pending := none, unassigned := q } }, ?_, .of hset ?_ rfl ?_ rfl, Or.inl ⟨habs, ?_, e4⟩⟩
    · simp [assignTask, e, e3]
    · exact ⟨hI, hm.trans hc.max, hQ, hc.uses, hc.clients, by simpa [e2] using hc.running, by simpa [e1] using hc.alive⟩
    · rw [habs]
      exact (AStep.putBack k hp).steps
    · intro w' p' hp'
      have := hmin w' p' hp'
      rw [← hc.max]; omega
  · obtain ⟨hpm, _, a', e, hI, hm, e1, e2, -, -⟩ := h1
    have hnm : s.abs.nameOf k.taskId = fi.name := by
      simp only [Abs.nameOf, hkt, Option.bind_some, hfi, Option.map_some, Option.getD_some]
    have habs : (({ s with out := s.out ++ [(w, .task k)], wm := { s.wm with alloc := a' }, tm := { s.tm with pending := none, running := s.tm.running.add k.taskId } } : Sched).monitor
        (.taskState k.taskId fi.name .running)).abs =
        { s.abs with
          pending := none, worker := upd s.abs.worker k.taskId (some w), out := s.abs.out ++ [(w, .task k)]
          mon := s.abs.mon ++ [.taskState k.taskId (s.abs.nameOf k.taskId) .running] } := by
      rw [hnm]
      simp [Sched.abs, e2, Dict.get?_set_upd, Sched.monitor]
    refine ⟨({ s with out := s.out ++ [(w, .task k)], wm := { s.wm with alloc := a' }, tm := { s.tm with pending := none, running := s.tm.running.add k.taskId } } : Sched).monitor
      (.taskState k.taskId fi.name .running), ?_, .of hset ?_ rfl ?_ rfl, Or.inr ⟨w, p, hpr, ?_, hmin, habs⟩⟩
    · simp only [assignTask, e, Py.ok_bind]
      exact sendMonitor_ok (k := k) (i := fi) hkt hfi
    · refine Conc.monitor (s := { s with out := s.out ++ [(w, .task k)], wm := { s.wm with alloc := a' }, tm := { s.tm with pending := none, running := s.tm.running.add k.taskId } })
        ⟨hI, hm.trans hc.max, hc.queue, hc.uses, hc.clients, ?_, ?_⟩ _
      · intro t
        simp only [PySet.mem_add, e2, Dict.get?_set, hc.running]
        by_cases e : k.taskId = t
        · simp [e]
        · have : ¬ t = k.taskId := fun e' => e e'.symm
          simp [e, this]
      · intro w'
        simp only [e1, Dict.get?_set, hc.alive]
        by_cases ew : w = w'
        · subst ew; simp [hws]
        · simp [ew]
    · rw [habs]
      refine (AStep.place k w hp ?_).steps
      exact (hc.alive w).2 (by simp [hws])
    · rw [← hc.max]; exact hpm
  · obtain ⟨_, w1, hw1, _⟩ := h1
    rw [hnw] at hw1; cases hw1

/-- The next task to be placed and what remains in the queue. -/
def Next (a : Abs) (k : Task) (rest : List Bytes) : Prop :=
  (a.pending = some k ∧ a.waiting = rest) ∨ (a.pending = none ∧ a.waiting = k.taskId :: rest ∧ a.tasks k.taskId = some k)

/-- What happens to the next task. -/
inductive Placed (s : Sched) (k : Task) (rest : List Bytes) (s' : Sched) : Prop
  | nobody (hw : ∀ w, s.wm.alloc.queue.prio w = none) (hb : s'.abs = { s.abs with pending := some k, waiting := rest })
  | full (hw : ∃ w p, s.wm.alloc.queue.prio w = some p) (hf : ∀ w p, s.wm.alloc.queue.prio w = some p → s.cfg.queueSize ≤ p)
      (hs : ∀ w, s'.wm.alloc.queue.prio w = s.wm.alloc.queue.prio w)
      (hb : s'.abs = { s.abs with pending := none, waiting := rest ++ [k.taskId] })
  | sent (w p) (hp : s.wm.alloc.queue.prio w = some p) (hn : p ≠ s.cfg.queueSize)
      (hl : ∀ w' p', s.wm.alloc.queue.prio w' = some p' → p ≤ p')
      (hb : s'.abs = { s.abs with
        pending := none, waiting := rest, worker := upd s.abs.worker k.taskId (some w), out := s.abs.out ++ [(w, .task k)]
        mon := s.abs.mon ++ [.taskState k.taskId (s.abs.nameOf k.taskId) .running] })

theorem taskRoutine_ok (hc : Conc s) (hi : Inv h s.abs) (hset : AllSettled s.abs) :
    ∃ s', s.taskRoutine = .ok s' ∧ After h s s' ∧
      ((s.abs.pending = none ∧ s.abs.waiting = [] ∧ s' = s) ∨ ∃ k rest, Next s.abs k rest ∧ Placed s k rest s') := by
  unfold taskRoutine
  have hsome : ¬ s.wm.alloc.queue.len = 0 → ∃ w p, s.wm.alloc.queue.prio w = some p := by
    intro hl
    rw [PQueue.len_zero hc.alloc.pq] at hl
    simp only [Classical.not_forall] at hl
    obtain ⟨w, hw⟩ := hl
    obtain ⟨p, hp⟩ := Option.ne_none_iff_exists'.1 hw
    exact ⟨w, p, hp⟩
  cases hp : s.tm.pending with
  | some k =>
    simp only
    split
    · next hl =>
      refine ⟨s, rfl, .refl hc hset, Or.inr ⟨k, s.abs.waiting, Or.inl ⟨hp, rfl⟩, .nobody ?_ ?_⟩⟩
      · exact (PQueue.len_zero hc.alloc.pq).1 hl
      · simp [Sched.abs, hp]
    · next hl =>
      obtain ⟨s', e, hA, hx⟩ := assignTask_ok hc hi hset (k := k) hp hl
      refine ⟨s', e, hA, Or.inr ⟨k, s.abs.waiting, Or.inl ⟨hp, rfl⟩, ?_⟩⟩
      rcases hx with ⟨h1, h2, h5⟩ | ⟨w, p, h1, h2, h3, h4⟩
      · exact .full (hsome hl) h2 h5 h1
      · exact .sent w p h1 h2 h3 h4
  | none =>
    simp only
    split
    · next hl =>
      rw [hc.queue.len] at hl
      exact ⟨s, rfl, .refl hc hset, Or.inl ⟨hp, List.length_eq_zero_iff.1 (Int.ofNat_eq_zero.1 hl), rfl⟩⟩
    · next hl =>
      rw [hc.queue.len] at hl
      obtain ⟨t, ts, hcons⟩ := List.exists_cons_of_ne_nil (l := s.tm.unassigned.contents) (by intro e; rw [e] at hl; exact hl rfl)
      obtain ⟨q, e1, hQ, hQ'⟩ := hc.queue.get_cons hcons
      obtain ⟨k, hk⟩ := Option.isSome_iff_exists.1 ((hi.place t).2 (Or.inl (by
        show t ∈ s.tm.unassigned.contents
        rw [hcons]; exact List.mem_cons_self)))
      have hkt : k.taskId = t := hi.key t k hk
      rw [e1]
      simp only [Py.ok_bind]
      rw [Dict.getPy_of_get? hk]
      simp only [Py.ok_bind]
      have habs : ({ s with tm := { s.tm with unassigned := q, pending := some k } } : Sched).abs =
          { s.abs with waiting := ts, pending := some k } := by
        simp [Sched.abs, hQ']
      have hstep : ASteps h s.abs ({ s with tm := { s.tm with unassigned := q, pending := some k } } : Sched).abs := by
        rw [habs]
        exact (AStep.take t ts k hcons hk hp).steps
      have hA : After h s { s with tm := { s.tm with unassigned := q, pending := some k } } :=
        .of hset ⟨hc.alloc, hc.max, hQ, hc.uses, hc.clients, hc.running, hc.alive⟩ rfl hstep rfl
      have hN : Next s.abs k ts := Or.inr ⟨hp, by rw [hkt]; exact hcons, by rw [hkt]; exact hk⟩
      split
      · next hl2 =>
        refine ⟨_, rfl, hA, Or.inr ⟨k, ts, hN, .nobody ((PQueue.len_zero hc.alloc.pq).1 hl2) ?_⟩⟩
        rw [habs]
      · next hl2 =>
        obtain ⟨s', e, hB, hx⟩ := assignTask_ok hA.conc (hstep.inv hi) hA.settled (k := k) rfl (by exact hl2)
        refine ⟨s', ?_, hA.trans hB, Or.inr ⟨k, ts, hN, ?_⟩⟩
        · rw [← e]
          simp only [← hp]
        · rw [habs] at hx
          rcases hx with ⟨h1, h2, h5⟩ | ⟨w, p, h1, h2, h3, h4⟩
          · exact .full (hsome hl2) h2 h5 h1
          · exact .sent w p h1 h2 h3 h4

/-! ### Functions -/

theorem functionAdd_spec (hc : Conc s) (client fid name content : Bytes) (now : Int) :
    ∃ i m, s.functionAdd client fid name content now =
        { s with fm := { s.fm with funcs := s.fm.funcs.set fid i }, out := s.out ++ [(client, m)] } ∧
      (∃ st, m = .functionResponse st fid [] []) ∧
      (∀ j, s.fm.funcs.get? fid = some j → i.name = j.name ∧ i.content = j.content) ∧
      (s.fm.funcs.get? fid = none → i.name = name ∧ i.content = content) ∧
      Conc (s.functionAdd client fid name content now) := by
  unfold functionAdd
  cases hf : s.fm.funcs.get? fid with
  | none =>
    exact ⟨_, _, rfl, ⟨_, rfl⟩, by simp, fun _ => ⟨rfl, rfl⟩,
      ⟨hc.alloc, hc.max, hc.queue, hc.uses, hc.clients, hc.running, hc.alive⟩⟩
  | some j =>
    refine ⟨{ j with aliveSince := now }, _, rfl, ⟨_, rfl⟩, ?_, (fun hx => by cases hx),
      ⟨hc.alloc, hc.max, hc.queue, hc.uses, hc.clients, hc.running, hc.alive⟩⟩
    intro j' e; cases e; exact ⟨rfl, rfl⟩

theorem functionAdd_after (hc : Conc s) (hset : AllSettled s.abs) (client fid name content : Bytes) (now : Int)
    (hh : Asked h client fid) (hsup : Supplied h fid name content) : After h s (s.functionAdd client fid name content now) := by
  obtain ⟨i, m, e, ⟨st, hm⟩, hi, hnew, hC⟩ := functionAdd_spec hc client fid name content now
  refine .of hset hC (by rw [e]) ?_ (by rw [e]; rfl)
  rw [e]
  refine ASteps.head (AStep.func fid i hi (fun hx => by rw [(hnew hx).1, (hnew hx).2]; exact hsup)) ?_
  have : ({ s with fm := { s.fm with funcs := s.fm.funcs.set fid i }, out := s.out ++ [(client, m)] } : Sched).abs =
      { ({ s.abs with funcs := upd s.abs.funcs fid (some i) } : Abs) with out := s.abs.out ++ [(client, m)] } := by
    simp [Sched.abs, Dict.get?_set_upd]
  rw [this]
  exact (AStep.say (a := { s.abs with funcs := upd s.abs.funcs fid (some i) }) client m (by subst hm; exact hh)).steps

theorem functionDelete_spec (hc : Conc s) (hset : AllSettled s.abs) (client fid : Bytes) (hh : Asked h client fid) :
    Py.Post (s.functionDelete client fid)
      (fun s' => After h s s' ∧ (∃ m, Neutral m ∧ s' = s.send client m) ∧ ¬ ((s.abs.funcs fid).isSome ∧ ∀ t, s.abs.uses t ≠ some fid))
      (fun _ => (s.abs.funcs fid).isSome ∧ ∀ t, s.abs.uses t ≠ some fid) := by
  have hsay : ∀ st n ct, After h s (s.send client (.functionResponse st fid n ct)) := fun st n ct =>
    .of hset (hc.send _ _) rfl (AStep.say client (.functionResponse st fid n ct) (show Asked h client fid from hh)).steps rfl
  unfold functionDelete
  cases hf : s.fm.funcs.has fid with
  | false =>
    simp only [Bool.not_false, if_true, Py.post_ok]
    refine ⟨hsay _ _ _, ⟨.functionResponse .notExists fid [] [], trivial, rfl⟩, fun hx => ?_⟩
    have : s.fm.funcs.has fid = true := hx.1
    rw [hf] at this; cases this
  | true =>
    simp only [Bool.not_true, Bool.false_eq_true, if_false]
    by_cases hu : ∃ t, s.fm.uses.v2k.get? t = some fid
    · obtain ⟨t, hu⟩ := hu
      obtain ⟨vs, e, hv⟩ := OneToMany.getValues_ok hc.uses hu
      rw [e]
      simp only [Py.ok_bind]
      have : vs.size > 0 := by
        have hm : t ∈ vs := (hv t).2 hu
        have : t ∈ vs.items := hm
        simpa [PySet.size] using List.length_pos_of_mem this
      rw [if_pos this]
      exact ⟨hsay _ _ _, ⟨.functionResponse .stillHaveTask fid [] [], trivial, rfl⟩, fun hx => hx.2 t hu⟩
    · rw [OneToMany.getValues_err hc.uses (by simpa using hu)]
      exact ⟨hf, fun t ht => hu ⟨t, ht⟩⟩

theorem onFunction_spec (hc : Conc s) (hset : AllSettled s.abs) (source : Bytes) (type : FunctionRequestType)
    (fid name content : Bytes) (now : Int) (hh : (source, .functionRequest type fid name content) ∈ h) :
    Py.Post (s.onFunction source type fid name content now)
      (fun s' => After h s s' ∧ ¬ (type = .delete ∧ (s.abs.funcs fid).isSome ∧ ∀ t, s.abs.uses t ≠ some fid))
      (fun _ => type = .delete ∧ (s.abs.funcs fid).isSome ∧ ∀ t, s.abs.uses t ≠ some fid) := by
  have ha : Asked h source fid := .inl ⟨_, _, _, hh⟩
  have hsay : ∀ st n ct, After h s (s.send source (.functionResponse st fid n ct)) := fun st n ct =>
    .of hset (hc.send _ _) rfl (AStep.say source (.functionResponse st fid n ct) (show Asked h source fid from ha)).steps rfl
  cases type with
  | check =>
    refine ⟨?_, fun hx => by cases hx.1⟩
    show After h s (s.functionCheck source fid)
    unfold functionCheck functionResponse
    split <;> exact hsay _ _ _
  | add => exact ⟨functionAdd_after hc hset source fid name content now ha (.inl ⟨source, hh⟩), fun hx => by cases hx.1⟩
  | request =>
    refine ⟨?_, fun hx => by cases hx.1⟩
    show After h s (s.functionRequest source fid)
    unfold functionRequest
    split <;> exact hsay _ _ _
  | delete => exact (functionDelete_spec hc hset source fid ha).imp (fun _ hx => ⟨hx.1, fun hy => hx.2.2 hy.2⟩) (fun _ hx => ⟨rfl, hx⟩)

theorem onDeleteFunction_eq (hc : Conc s) (o : Order) (fid : Bytes) :
    ∃ l, (∀ p ∈ l, p.2 = .functionRequest .delete fid [] []) ∧ (∀ w, (∃ m, (w, m) ∈ l) ↔ s.abs.up w = true) ∧
      s.onDeleteFunction o fid = { s with out := s.out ++ l } ∧ Conc (s.onDeleteFunction o fid) ∧
      ASteps h s.abs (s.onDeleteFunction o fid).abs := by
  have := sendAll_ok (h := h) hc ((orderBy (o fid) s.wm.alloc.workerIds.items).map fun w => (w, .functionRequest .delete fid [] []))
    (by
      intro p hp
      obtain ⟨q, hq, rfl⟩ := List.mem_map.1 hp
      simp only [mem_orderBy, Alloc.workerIds, PySet.mem_items, PySet.mem_ofList, Dict.mem_keys] at hq
      obtain ⟨v, hv⟩ := hq
      exact ⟨rfl, (hc.alive q).2 (by rw [hv]; rfl)⟩)
  rw [List.foldl_map] at this
  obtain ⟨h1, h2, h3, h4⟩ := this
  refine ⟨_, ?_, ?_, h4, h1, h3⟩
  · intro p hp
    obtain ⟨q, _, rfl⟩ := List.mem_map.1 hp
    rfl
  · intro w
    simp only [List.mem_map, mem_orderBy, Prod.mk.injEq, Alloc.workerIds, PySet.mem_items, PySet.mem_ofList, Dict.mem_keys]
    rw [show s.abs.up w = s.wm.alive.has w from rfl, hc.alive]
    constructor
    · rintro ⟨m, w', ⟨v, hv⟩, rfl, _⟩; simp [hv]
    · intro hw
      obtain ⟨v, hv⟩ := Option.isSome_iff_exists.1 hw
      exact ⟨_, w, ⟨v, hv⟩, rfl, rfl⟩

theorem dropFunctions_ok (o : Order) : ∀ (fids : List Bytes) (s : Sched), fids.Nodup → Conc s → AllSettled s.abs →
    (∀ f ∈ fids, (s.abs.funcs f).isSome ∧ ∀ t, s.abs.uses t ≠ some f) →
    ∃ s', s.dropFunctions o fids = .ok s' ∧ After h s s' ∧ s'.fm.uses = s.fm.uses ∧
      s'.abs.funcs = (fun f => if f ∈ fids then none else s.abs.funcs f) ∧
      ∃ l, s'.out = s.out ++ l ∧ (∀ p, p ∈ l ↔ ∃ f ∈ fids, s.abs.up p.1 = true ∧ p.2 = .functionRequest .delete f [] []) := by
  intro fids
  induction fids with
  | nil =>
    intro s _ hc hset _
    exact ⟨s, rfl, .refl hc hset, rfl, by simp, [], by simp, by simp⟩
  | cons f fids ih =>
    intro s hn hc hset hf
    rw [List.nodup_cons] at hn
    obtain ⟨i, hfi⟩ := Option.isSome_iff_exists.1 (hf f List.mem_cons_self).1
    have hc1 : Conc { s with fm := { s.fm with funcs := s.fm.funcs.erase f } } :=
      ⟨hc.alloc, hc.max, hc.queue, hc.uses, hc.clients, hc.running, hc.alive⟩
    obtain ⟨l, hl1, hl2, e1, hc2, hs2⟩ := onDeleteFunction_eq (h := h) hc1 o f
    have habs1 : ({ s with fm := { s.fm with funcs := s.fm.funcs.erase f } } : Sched).abs =
        { s.abs with funcs := upd s.abs.funcs f none } := by
      simp [Sched.abs, Dict.get?_erase_upd]
    have hA : After h s (onDeleteFunction { s with fm := { s.fm with funcs := s.fm.funcs.erase f } } o f) := by
      refine .of hset hc2 (by rw [e1]) ?_ (by rw [e1]; rfl)
      refine ASteps.head (AStep.drop f (hf f List.mem_cons_self).2) ?_
      rw [habs1] at hs2
      exact hs2
    have hab2 : (onDeleteFunction { s with fm := { s.fm with funcs := s.fm.funcs.erase f } } o f).abs.funcs = upd s.abs.funcs f none := by
      rw [e1]; simp [Sched.abs, Dict.get?_erase_upd]
    obtain ⟨s', e2, hB, hu, hfun, l2, hl3, hl4⟩ := ih _ hn.2 hc2 hA.settled (by
      intro x hx
      have hne : ¬ f = x := by rintro rfl; exact hn.1 hx
      rw [hab2]
      refine ⟨?_, ?_⟩
      · simp only [upd_apply, hne, if_false]
        exact (hf x (List.mem_cons_of_mem _ hx)).1
      · rw [e1]
        exact (hf x (List.mem_cons_of_mem _ hx)).2)
    refine ⟨s', ?_, hA.trans hB, ?_, ?_, l ++ l2, ?_, ?_⟩
    · unfold dropFunctions
      rw [Dict.pop_of_get? hfi]
      exact e2
    · rw [hu, e1]
    · rw [hfun, hab2]
      funext x
      simp only [List.mem_cons, upd_apply]
      by_cases ex : x = f
      · simp [ex]
      · have : ¬ f = x := fun e => ex e.symm
        simp [ex, this]
    · rw [hl3, e1]; simp
    · have hup : (onDeleteFunction { s with fm := { s.fm with funcs := s.fm.funcs.erase f } } o f).abs.up = s.abs.up := by
        rw [e1]; rfl
      rw [hup] at hl4
      have hup1 : ({ s with fm := { s.fm with funcs := s.fm.funcs.erase f } } : Sched).abs.up = s.abs.up := rfl
      rw [hup1] at hl2
      rintro ⟨w, m⟩
      rw [List.mem_append, hl4]
      constructor
      · rintro (hp | ⟨x, hx, e⟩)
        · exact ⟨f, List.mem_cons_self, (hl2 w).1 ⟨m, hp⟩, hl1 _ hp⟩
        · exact ⟨x, List.mem_cons_of_mem _ hx, e⟩
      · rintro ⟨x, hx, h1, h2⟩
        rcases List.mem_cons.1 hx with rfl | hx
        · obtain ⟨m', hm'⟩ := (hl2 w).2 h1
          have := hl1 _ hm'
          simp only at this h2
          left
          rw [h2, ← this]; exact hm'
        · exact Or.inr ⟨x, hx, h1, h2⟩

theorem functionRoutine_ok (hc : Conc s) (hset : AllSettled s.abs) (o : Order) (now : Int) :
    ∃ s', s.functionRoutine o now = .ok s' ∧ After h s s' ∧ s'.abs.uses = s.abs.uses ∧
      (∀ f, (∃ i, s.abs.funcs f = some i ∧ now - i.aliveSince > s.cfg.functionRetention) ∧ (∀ t, s.abs.uses t ≠ some f) →
        s'.abs.funcs f = none) ∧
      (∀ f, ¬ ((∃ i, s.abs.funcs f = some i ∧ now - i.aliveSince > s.cfg.functionRetention) ∧ (∀ t, s.abs.uses t ≠ some f)) →
        s'.abs.funcs f = s.abs.funcs f) ∧
      ∃ l, s'.out = s.out ++ l ∧ ∀ p, p ∈ l ↔ ∃ f, ((∃ i, s.abs.funcs f = some i ∧ now - i.aliveSince > s.cfg.functionRetention) ∧
        (∀ t, s.abs.uses t ≠ some f)) ∧ s.abs.up p.1 = true ∧ p.2 = .functionRequest .delete f [] [] := by
  have hmem : ∀ f, f ∈ (s.fm.funcs.items.filter fun p =>
      decide (now - p.2.aliveSince > s.cfg.functionRetention) && !s.fm.uses.hasKey p.1).map (·.1) ↔
      (∃ i, s.abs.funcs f = some i ∧ now - i.aliveSince > s.cfg.functionRetention) ∧ (∀ t, s.abs.uses t ≠ some f) := by
    intro f
    have hk := OneToMany.hasKey_iff hc.uses f
    simp only [List.mem_map, List.mem_filter, Bool.and_eq_true, decide_eq_true_eq, Bool.not_eq_true', Bool.eq_false_iff]
    constructor
    · rintro ⟨⟨f', i⟩, ⟨h1, h2, h3⟩, rfl⟩
      refine ⟨⟨i, Dict.mem_items.1 h1, h2⟩, ?_⟩
      intro t ht
      exact h3 (hk.2 ⟨t, ht⟩)
    · rintro ⟨⟨i, h1, h2⟩, h3⟩
      refine ⟨(f, i), ⟨Dict.mem_items.2 h1, h2, ?_⟩, rfl⟩
      intro hx
      obtain ⟨t, ht⟩ := hk.1 hx
      exact h3 t ht
  obtain ⟨s', e, hA, hu, hf, l, hl1, hl2⟩ := dropFunctions_ok (h := h) o ((s.fm.funcs.items.filter fun p =>
      decide (now - p.2.aliveSince > s.cfg.functionRetention) && !s.fm.uses.hasKey p.1).map (·.1)) s
    (List.Nodup.sublist (List.Sublist.map (fun p : Bytes × FuncInfo => p.1) List.filter_sublist) s.fm.funcs.nodup_keys) hc hset (by
      intro f hf
      obtain ⟨⟨i, h1, _⟩, h2⟩ := (hmem f).1 hf
      exact ⟨by simp [h1], h2⟩)
  refine ⟨s', e, hA, by simp [Sched.abs, hu], ?_, ?_, l, hl1, ?_⟩
  · intro f hx
    rw [hf]
    exact if_pos ((hmem f).2 hx)
  · intro f hx
    rw [hf]
    exact if_neg (fun hy => hx ((hmem f).1 hy))
  · intro p
    rw [hl2]
    constructor
    · rintro ⟨f, h1, h2⟩; exact ⟨f, (hmem f).1 h1, h2⟩
    · rintro ⟨f, h1, h2⟩; exact ⟨f, (hmem f).2 h1, h2⟩

/-! ### New work -/

theorem onTaskNew_after (hc : Conc s) (hi : Inv h s.abs) (hset : AllSettled s.abs) {client : Bytes} {k : Task} {now : Int}
    (hsub : h.sub = some (client, .task k)) (hm : (client, .task k) ∈ h) (hf : Fresh s.abs k.taskId) :
    ∃ s', s.onTaskNew client k now = .ok s' ∧ After h s s' := by
  have htn := hi.unused_tasks hf.1
  obtain ⟨s', e, hc', ⟨hcfg, -⟩, hcase⟩ := onTaskNew_spec (now := now) hc (client := client) (k := k) htn hf.1.2.1 (Or.inl hf.1.1) (by
    intro hm
    have := (hi.place _).2 (Or.inl hm)
    rw [htn] at this; cases this)
  refine ⟨s', e, ?_⟩
  rcases hcase with ⟨_, e⟩ | ⟨i, _, hl, e⟩ | ⟨i, hfi, _, e⟩
  · exact .of hset hc' hcfg (by rw [e]; exact (AStep.refuse client k _ hsub (by simp) hf (by simp)).steps) (by rw [e])
  · exact .of hset hc' hcfg (by
      rw [e]; exact (AStep.refuse client k _ hsub (by simp) hf (fun _ => by simpa [Sched.abs, Config.limited] using hl.2.1)).steps) (by rw [e])
  · refine .of hset hc' hcfg ?_ (by rw [e]; rfl)
    rw [e]
    refine ASteps.head (AStep.func k.functionId { i with aliveSince := now } ?_ ?_) ?_
    · intro j hj
      rw [show s.abs.funcs k.functionId = some i from hfi] at hj
      cases hj; exact ⟨rfl, rfl⟩
    · intro hj
      rw [show s.abs.funcs k.functionId = some i from hfi] at hj; cases hj
    · exact (AStep.accept (a := { s.abs with funcs := upd s.abs.funcs k.functionId (some { i with aliveSince := now }) })
        client k hsub hm hf (by simp)).steps

theorem onGraphTask_after (hc : Conc s) (hset : AllSettled s.abs) {client : Bytes} {gt : GraphTask}
    (hsub : h.sub = some (client, .graphTask gt)) (hm : (client, .graphTask gt) ∈ h) (hn : (allIds gt).Nodup)
    (hf : ∀ t ∈ allIds gt, Fresh s.abs t) :
    After h s (s.onGraphTask client gt) :=
  .of hset ⟨hc.alloc, hc.max, hc.queue, hc.uses, hc.clients, hc.running, hc.alive⟩ rfl
    (AStep.queueGraph client gt hsub hm hn hf).steps rfl

end Sched

end Verif.Sched
