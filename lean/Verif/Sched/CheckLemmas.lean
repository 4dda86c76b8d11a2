import Verif.Sched.StartLemmas
import Verif.Sched.Placed

/-!
# Progress and end of a graph
-/

namespace Verif.Sched

open Verif.Queue Verif.Util Verif.Wire

/-- Every graph is settled. -/
def AllSettled (a : Abs) : Prop := ∀ gid g, a.graphs gid = some g → Settled g

/-- A graph that cannot be taken further: every node is done and a target is no node, or a node that is ready
to start names an input twice. -/
def BadGraph (g : Graph) : Prop :=
  (g.sorter.isActive = false ∧ ∃ t ∈ g.targets, t ∉ g.taskIds) ∨
  (g.sorter.isActive = true ∧ ∃ t ∈ g.sorter.ready, ∃ i, g.tasks.get? t = some i ∧ ¬ (refs i.task.args).Nodup)

namespace Sched

variable {s : Sched} {h : History}

/-- What every handler guarantees. -/
structure After (h : History) (s s' : Sched) : Prop where
  conc : Conc s'
  cfg : s'.cfg = s.cfg
  steps : ASteps h s.abs s'.abs
  settled : AllSettled s'.abs

theorem targetResults_spec {g : Graph} (hs : ∀ t i, g.tasks.get? t = some i → ∃ r, i.result = some r) :
    ∀ ts : List Bytes, Py.Post (targetResults g ts)
      (fun rs => ts.map (fun t => (g.tasks.get? t).bind (·.result)) = rs.map some)
      (fun _ => ∃ t ∈ ts, g.tasks.get? t = none) := by
  intro ts
  induction ts with
  | nil => simp [targetResults]
  | cons t ts ih =>
    unfold targetResults
    cases hx : g.tasks.get? t with
    | none =>
      rw [Dict.getPy_none hx]
      exact ⟨t, List.mem_cons_self, hx⟩
    | some i =>
      obtain ⟨r, hr⟩ := hs t i hx
      rw [Dict.getPy_of_get? hx]
      simp only [Py.ok_bind, hr, orRaise]
      rw [Py.post_bind]
      refine ih.imp ?_ ?_
      · intro rs hrs
        simp only [Py.post_pure, List.map_cons, hrs, hx, Option.bind_some, hr]
      · rintro _ ⟨x, hx1, hx2⟩
        exact ⟨x, List.mem_cons_of_mem _ hx1, hx2⟩

/-- `__finish_one_graph` of a graph with nothing left to do. -/
theorem finishGraph_spec {done : Sched → TaskRes → Py Sched} (hd : Fails done) (hc : Conc s) (hi : Inv h s.abs)
    (o : Order) {gid : Bytes} {g : Graph} (hg : s.abs.graphs gid = some g) (ha : Alive g)
    (hin : g.sorter.isActive = false) :
    Py.Post (finishGraph done s o gid)
      (fun s' => (∀ t ∈ g.targets, t ∈ g.taskIds) ∧ Conc s' ∧ s'.cfg = s.cfg ∧ ASteps h s.abs s'.abs ∧
        s'.abs.graphs = upd s.abs.graphs gid none)
      (fun _ => ∃ t ∈ g.targets, t ∉ g.taskIds) := by
  obtain ⟨gt, hok⟩ := hi.graphs gid g hg
  have hdone := Sorter.inactive_done hok.sorter hin
  have hsucc : ∀ t i, g.tasks.get? t = some i → i.state = .success := by
    intro t i ht
    obtain ⟨T, hT, hTt, _, _, hN⟩ := hok.node t i ht
    have hd' := hdone T.taskId (List.mem_map.2 ⟨T, hT, rfl⟩)
    rcases ha t i ht with e | e | e
    · simp only [e] at hN; rw [hd'] at hN; cases hN.2.2
    · simp only [e] at hN
      obtain ⟨n1, h1, h2⟩ := Sorter.isOut_iff.1 hN.2.1
      obtain ⟨n2, h3, h4⟩ := Sorter.isDone_iff.1 hd'
      rw [h1] at h3; cases h3; omega
    · exact e
  have hres : ∀ t i, g.tasks.get? t = some i → ∃ r, i.result = some r := by
    intro t i ht
    obtain ⟨T, _, _, _, _, hN⟩ := hok.node t i ht
    simp only [hsucc t i ht] at hN
    obtain ⟨_, _, r, hr, _⟩ := hN
    exact ⟨r, hr⟩
  unfold finishGraph
  rw [Dict.getPy_of_get? hg]
  simp only [Py.ok_bind]
  rw [Py.post_bind]
  refine (targetResults_spec hres g.targets).imp ?_ ?_
  · intro rs hrs
    rw [Py.post_bind]
    refine (cleanGraph_spec hd hc hi o hg).imp ?_ ?_
    · rintro ⟨g', s'⟩ ⟨rfl, hc', hcfg, habs, hrun⟩
      simp only [Py.post_pure]
      refine ⟨?_, hc'.send _ _, hcfg, ?_, ?_⟩
      · intro t ht
        have hm : (g'.tasks.get? t).bind (·.result) ∈ rs.map some := by
          rw [← hrs]; exact List.mem_map.2 ⟨t, ht, rfl⟩
        obtain ⟨r, _, hr⟩ := List.mem_map.1 hm
        cases hx : g'.tasks.get? t with
        | none => rw [hx] at hr; cases hr
        | some i =>
          obtain ⟨T, hT, hTt, _⟩ := hok.node t i hx
          exact (hok.ids t).2 (List.mem_map.2 ⟨T, hT, hTt⟩)
      · have := (AStep.clean (h := h) gid g' (orderBy (o gid) g'.taskIds.items) _ hg (fun t => by rw [mem_orderBy]; rfl)
          ((orderBy_perm _ _).nodup_iff.2 g'.taskIds.nodup) hrun (GraphAnswer.success hsucc hrs) (by simp)).steps
        simp only at habs
        rw [send_abs, habs]
        simpa [Abs.clean] using this
      · simp only at habs
        rw [send_abs, habs]; rfl
    · rintro _ ⟨t, i, ht, hs', _⟩
      rw [hsucc t i ht] at hs'; cases hs'
  · rintro _ ⟨t, ht, hx⟩
    refine ⟨t, ht, fun hm => ?_⟩
    exact (hok.gone t ((hok.ids t).1 hm) hx).2.1 ht

/-- `__check_one_graph` -/
theorem checkGraph_spec {done : Sched → TaskRes → Py Sched} (hd : Fails done) (hc : Conc s) (hi : Inv h s.abs)
    (o : Order) (now : Int) {gid : Bytes} {g : Graph} (hg : s.abs.graphs gid = some g) (ha : Alive g)
    (hst : ∀ t i, g.tasks.get? t = some i → i.state = .inactive → g.sorter.isOut t = false) :
    Py.Post (checkGraph done s o now gid)
      (fun s' => ¬ BadGraph g ∧ Conc s' ∧ s'.cfg = s.cfg ∧ ASteps h s.abs s'.abs ∧
        ∃ og, s'.abs.graphs = upd s.abs.graphs gid og ∧ ∀ g', og = some g' → Settled g')
      (fun _ => BadGraph g) := by
  obtain ⟨gt, hok⟩ := hi.graphs gid g hg
  unfold checkGraph
  rw [Dict.getPy_of_get? hg]
  simp only [Py.ok_bind]
  cases hact : g.sorter.isActive with
  | false =>
    simp only [Bool.not_false, if_true]
    refine (finishGraph_spec hd hc hi o hg ha hact).imp ?_ (fun _ x => Or.inl ⟨hact, x⟩)
    rintro s' ⟨h0, h1, h2, h3, h4⟩
    refine ⟨?_, h1, h2, h3, none, h4, by simp⟩
    rintro (⟨_, t, ht, hn⟩ | ⟨hx, _⟩)
    · exact hn (h0 t ht)
    · rw [hact] at hx; cases hx
  | true =>
    simp only [Bool.not_true, Bool.false_eq_true, if_false]
    obtain ⟨r1, r2, r3, r4, r5⟩ := Sorter.getReady_spec hok.sorter
    have hstep : AStep h s.abs { s.abs with graphs := upd s.abs.graphs gid (some { g with sorter := g.sorter.getReady.2 }) } :=
      .getReady gid g hg
    have habs : (s.setGraph gid { g with sorter := g.sorter.getReady.2 }).abs =
        { s.abs with graphs := upd s.abs.graphs gid (some { g with sorter := g.sorter.getReady.2 }) } := by
      simp [Sched.abs, setGraph, Dict.get?_set_upd]
    have hi2 := hstep.inv hi
    rw [← habs] at hi2
    have hstart : Starting { g with sorter := g.sorter.getReady.2 } g.sorter.ready := by
      refine ⟨r3, ha, ?_, ?_⟩
      · intro t ht
        obtain ⟨n, hn, hz⟩ := (hok.sorter.ready t).1 ht
        have hnt : t ∈ nodeIds gt := (hok.sorter.dom t).1 (by simp [hn])
        cases hx : g.tasks.get? t with
        | none =>
          obtain ⟨n2, h3, h4⟩ := Sorter.isDone_iff.1 (hok.gone t hnt hx).1
          rw [hn] at h3; cases h3; omega
        | some i =>
          refine ⟨i, rfl, ?_, (r5 t).2 (Or.inr ht)⟩
          obtain ⟨T, hT, hTt, _, _, hN⟩ := hok.node t i hx
          rcases ha t i hx with e | e | e
          · exact e
          · simp only [e, hTt] at hN
            obtain ⟨n2, h3, h4⟩ := Sorter.isOut_iff.1 hN.2.1
            rw [hn] at h3; cases h3; omega
          · simp only [e, hTt] at hN
            obtain ⟨n2, h3, h4⟩ := Sorter.isDone_iff.1 hN.1
            rw [hn] at h3; cases h3; omega
      · intro t i ht e ho
        rcases (r5 t).1 ho with h1 | h1
        · rw [hst t i ht e] at h1; cases h1
        · exact h1
    rw [r1]
    refine (startNodes_spec (h := h) (gid := gid) now g.sorter.ready hok.sorter.readyNodup
      (s.setGraph gid { g with sorter := g.sorter.getReady.2 })
      ⟨hc.alloc, hc.max, hc.queue, hc.uses, hc.clients, hc.running, hc.alive⟩ hi2 _
      (by rw [habs]; simp) hstart).imp ?_ (fun _ x => Or.inr ⟨hact, x⟩)
    rintro s' ⟨h0, h1, h2, h3, g', h4, h5, h6⟩
    refine ⟨?_, h1, h2, ?_, some g', ?_, ?_⟩
    · rintro (⟨hx, _⟩ | ⟨_, t, ht, i, hi, hn⟩)
      · rw [hact] at hx; cases hx
      · exact hn (h0 t ht i hi)
    · rw [habs] at h3
      exact ASteps.head hstep h3
    · rw [h4, habs]
      funext x; simp only [upd_apply]; split <;> rfl
    · rintro _ ⟨⟩
      refine ⟨h5.ready, ?_, h5.alive, ?_⟩
      · intro t i ht e
        rw [Bool.eq_false_iff]; intro ho
        cases h5.only t i ht e ho
      · rw [h6]
        rcases (Sorter.isActive_iff hok.sorter).1 hact with ⟨n, hn⟩ | hne
        · exact ⟨n, (r5 n).2 (Or.inl hn)⟩
        · obtain ⟨x, l, e⟩ := List.exists_cons_of_ne_nil hne
          exact ⟨x, (r5 x).2 (Or.inr (by rw [e]; exact List.mem_cons_self))⟩

/-- Why a result for a node of a graph can make the scheduler fail. -/
def NodeTrouble (a : Abs) (r : TaskRes) : Prop :=
  ∃ gid g, a.node r.taskId = some gid ∧ a.graphs gid = some g ∧
    ((r.status ≠ .success ∧ r.status ≠ .canceled ∧ r.status ≠ .failed) ∨
     (r.status = .success ∧ ∃ i so, g.tasks.get? r.taskId = some i ∧ g.sorter.done r.taskId = .ok so ∧
        BadGraph { g with tasks := g.tasks.set r.taskId { i with state := .success, result := some r.result }, sorter := so }) ∨
     ((r.status = .canceled ∨ r.status = .failed) ∧
        ∃ t i, t ≠ r.taskId ∧ g.tasks.get? t = some i ∧ i.state = .running ∧ t ∈ a.waiting))

/-- What the end of a task does: a single task is answered; a node that did not succeed ends its graph. -/
structure Ended (a : Abs) (r : TaskRes) (b : Abs) : Prop where
  single : a.node r.taskId = none → ∃ c, a.owner r.taskId = some c ∧
    b = { a.retire r.taskId r.status with out := a.out ++ [(c, r.msg)] }
  node : ∀ gid, a.node r.taskId = some gid → r.status ≠ .success → ∃ g g2 i j ids, a.graphs gid = some g ∧
    g.tasks.get? r.taskId = some i ∧ i.state = .running ∧ (j.state ≠ .running ∧ j.state ≠ .inactive) ∧
    (g2.tasks = g.tasks.set r.taskId j ∧ g2.client = g.client) ∧ ids.Nodup ∧ (∀ t, t ∈ ids ↔ t ∈ g.taskIds) ∧
    b = ({ a.retire r.taskId r.status with graphs := upd a.graphs gid (some g2) } : Abs).clean gid g2
      (cancels (a.retire r.taskId r.status) g2 ids ++ [(g.client, .graphTaskResult gid r.status [r.result])])
      (halts (a.retire r.taskId r.status) g2 ids)
  again : ∀ w, b.worker r.taskId = some w → ∃ k, (w, Message.task k) ∈ b.out.drop a.out.length

/-- `on_task_done` -/
theorem taskDone_spec (hc : Conc s) (hi : Inv h s.abs) (hset : AllSettled s.abs) {alloc : Alloc} {r : TaskRes}
    (he : Ends h s.abs r) (ha : alloc.Inv) (hm : alloc.max = s.wm.alloc.max)
    (hw : ∀ w, (alloc.w2t.get? w).isSome ↔ (s.wm.alloc.w2t.get? w).isSome)
    (ht2w : alloc.t2w.get? = upd s.wm.alloc.t2w.get? r.taskId none) (o : Order) (now : Int) (n : Nat) :
    Py.Post (taskDone o now (n + 1) { s with wm := { s.wm with alloc } } r)
      (fun s' => After h s s' ∧ Ended s.abs r s'.abs ∧ ¬ NodeTrouble s.abs r)
      (fun _ => NodeTrouble s.abs r) := by
  obtain ⟨c, s1, hown, hc1, hcfg1, habs1, hgm1, hwm1, hrun⟩ :=
    done_front hc hi he.1 (he.notPending hi) ha hm hw ht2w
  unfold taskDone
  rw [hrun]
  have hgraphs1 : s1.abs.graphs = s.abs.graphs := by simp [Sched.abs, hgm1]
  cases hn : s.abs.node r.taskId with
  | none =>
    have : s1.gm.nodeGraph.get? r.taskId = none := by rw [hgm1]; exact hn
    unfold graphTaskDone
    rw [this]
    simp only [Py.ok_bind, Bool.false_eq_true, if_false, Py.post_ok]
    have hout : (s.abs.retire r.taskId r.status).out = s.abs.out := by
      cases r.status <;> rfl
    refine ⟨⟨hc1.send _ _, hcfg1, ?_, ?_⟩, ⟨fun _ => ⟨c, hown, by rw [send_abs, habs1, hout]⟩, fun gid hx => (by rw [hn] at hx; cases hx),
        fun w hx => (by rw [send_abs, habs1] at hx; simp [Abs.retire] at hx)⟩,
      by rintro ⟨gid, _, hx, _⟩; rw [hn] at hx; cases hx⟩
    · rw [send_abs, habs1]
      rw [hout]
      exact (AStep.answer r c he hown hn).steps
    · intro gid g hg
      rw [send_abs] at hg
      exact hset gid g (by rw [← hgraphs1]; exact hg)
  | some gid =>
    obtain ⟨g, hg, hix⟩ := (hi.nodes r.taskId gid).1 hn
    obtain ⟨i, hix⟩ := Option.isSome_iff_exists.1 hix
    obtain ⟨hst, -, -⟩ := hi.held_running hg hix he.1
    obtain ⟨gt, hok⟩ := hi.graphs gid g hg
    have hset' := hset gid g hg
    have hout : g.sorter.isOut r.taskId = true := by
      obtain ⟨T, _, hTt, _, _, hN⟩ := hok.node _ i hix
      simp only [hst, hTt] at hN
      exact hN.2.1
    obtain ⟨so, hso, hsoOK, hsd, hsout⟩ := Sorter.done_spec hok.sorter hout
    -- after the node is marked
    have key : ∀ st, NodeEnd r.status st →
        ∃ g2, g2 = { g with tasks := g.tasks.set r.taskId { i with state := st, result := some r.result }, sorter := so } ∧
        ASteps h s.abs (s1.setGraph gid g2).abs ∧
        (s1.setGraph gid g2).abs.graphs = upd s.abs.graphs gid (some g2) ∧
        (s1.setGraph gid g2).abs = { s.abs.retire r.taskId r.status with graphs := upd s.abs.graphs gid (some g2) } ∧
        (s1.setGraph gid g2).abs.waiting = s.abs.waiting.filter (· ≠ r.taskId) ∧
        Conc (s1.setGraph gid g2) ∧ (s1.setGraph gid g2).cfg = s.cfg := by
      intro st hend
      have this : (s1.setGraph gid { g with tasks := g.tasks.set r.taskId { i with state := st, result := some r.result }, sorter := so }).abs =
            { s.abs.retire r.taskId r.status with graphs := upd s.abs.graphs gid (some { g with tasks := g.tasks.set r.taskId { i with state := st, result := some r.result }, sorter := so }) } := by
        rw [← habs1, ← hgraphs1]
        simp [Sched.abs, setGraph, Dict.get?_set_upd]
      refine ⟨_, rfl, ?_, ?_, this, ?_, ?_, ?_⟩
      · rw [this]
        exact (AStep.nodeDone r gid g i st so he hn hg hix hend hso).steps
      · rw [← hgraphs1]; simp [Sched.abs, setGraph, Dict.get?_set_upd]
      · show s1.abs.waiting = _
        rw [habs1]; rfl
      · exact ⟨hc1.alloc, hc1.max, hc1.queue, hc1.uses, hc1.clients, hc1.running, hc1.alive⟩
      · exact hcfg1
    have hother : ∀ {og : Option Graph} {a' : Abs}, a'.graphs = upd s.abs.graphs gid og → (∀ g', og = some g' → Settled g') →
        AllSettled a' := by
      intro og a' e hog gid' g' hg'
      rw [e, upd_apply] at hg'
      split at hg'
      · exact hog g' hg'
      · exact hset gid' g' hg'
    unfold graphTaskDone
    rw [show s1.gm.nodeGraph.get? r.taskId = some gid by rw [hgm1]; exact hn]
    simp only
    unfold markNodeDone
    rw [show s1.gm.graphs.getPy gid = .ok g from Dict.getPy_of_get? (by rw [hgm1]; exact hg)]
    simp only [Py.ok_bind]
    rw [Dict.getPy_of_get? hix]
    simp only [Py.ok_bind]
    -- a failed or cancelled node
    have fail : ∀ st, NodeEnd r.status st → (r.status = .canceled ∨ r.status = .failed) → st ≠ .running → st ≠ .inactive →
        Py.Post (cleanGraph (taskDone o now n)
            (s1.setGraph gid { g with tasks := g.tasks.set r.taskId { i with state := st, result := some r.result }, sorter := so }) o gid >>=
            fun p => (pure (true, p.2.send p.1.client (.graphTaskResult gid r.status [r.result])) : Py (Bool × Sched)) >>=
              fun p => if p.1 then .ok p.2 else .ok (p.2.send c r.msg))
          (fun s' => After h s s' ∧ Ended s.abs r s'.abs ∧ ¬ NodeTrouble s.abs r) (fun _ => NodeTrouble s.abs r) := by
      intro st hend hs hnr hni
      obtain ⟨g2, e2, k1, k2, k2', k3, k4, k5⟩ := key st hend
      rw [← e2, Py.post_bind]
      have hg2 : (s1.setGraph gid g2).abs.graphs gid = some g2 := by rw [k2]; simp
      have ht2 : g2.tasks.get? r.taskId = some { i with state := st, result := some r.result } := by rw [e2]; simp
      refine (cleanGraph_spec (taskDone_fails o now n) k4 (k1.inv hi) o hg2).imp ?_ ?_
      · rintro ⟨g', s'⟩ ⟨h1, hc', hcfg, habs, hrun⟩
        simp only at h1 hc' hcfg habs
        subst h1
        simp only [pure, Except.pure, Py.ok_bind, if_true, Py.post_ok]
        refine ⟨⟨hc'.send _ _, hcfg.trans k5, ?_, ?_⟩, ⟨fun hx => (by rw [hn] at hx; cases hx), ?_,
          fun w hx => (by rw [send_abs, habs, k2'] at hx; simp [Abs.clean, Abs.retire] at hx)⟩, ?_⟩
        rotate_left 3
        · rintro ⟨gid1, g1, d1, d2, d3⟩
          rw [hn] at d1; cases d1
          rw [hg] at d2; cases d2
          rcases d3 with d3 | ⟨d3, _⟩ | ⟨_, t, j, d3, d4, d5, d6⟩
          · exact hs.elim d3.2.1 d3.2.2
          · rw [d3] at hs; rcases hs with hs | hs <;> cases hs
          · refine hrun t j ?_ d5 ?_
            · have : ¬ r.taskId = t := fun e => d3 e.symm
              rw [e2]; simpa [this] using d4
            · rw [k3]; exact List.mem_filter.2 ⟨d6, by simpa using d3⟩
        rotate_left 2
        · intro gid' hx _
          rw [hn] at hx; cases hx
          refine ⟨g, g', i, { i with state := st, result := some r.result }, orderBy (o gid) g.taskIds.items, hg, hix, hst, ⟨hnr, hni⟩,
            ⟨by rw [e2], by rw [e2]⟩, (orderBy_perm _ _).nodup_iff.2 g.taskIds.nodup, fun t => by rw [mem_orderBy]; rfl, ?_⟩
          have e3 : g'.taskIds = g.taskIds := by rw [e2]
          have e4 : g'.client = g.client := by rw [e2]
          rw [send_abs, habs, k2', e3, e4]
          have hout : (s.abs.retire r.taskId r.status).out = s.abs.out := by cases r.status <;> rfl
          simp [Abs.clean, cancels, halts, Abs.nameOf]
        · rw [send_abs, habs]
          have := (AStep.clean (h := h) gid g' (orderBy (o gid) g'.taskIds.items) _ hg2 (fun t => by rw [mem_orderBy]; rfl)
            ((orderBy_perm _ _).nodup_iff.2 g'.taskIds.nodup) hrun
            (GraphAnswer.failed (st := r.status) (r := r.result) ht2 (by rcases hs with e | e <;> simp [e]) hend rfl) (by simp)).steps
          refine k1.trans ?_
          simpa [Abs.clean] using this
        · rw [send_abs, habs]
          refine hother (og := none) ?_ (by simp)
          simp only [Abs.clean, k2]
          funext x; simp only [upd_apply]; split <;> rfl
      · rintro _ ⟨t, j, ht, hsj, htw⟩
        have hne : t ≠ r.taskId := by
          rintro rfl
          rw [ht2] at ht; cases ht
          exact hnr hsj
        refine ⟨gid, g, hn, hg, Or.inr (Or.inr ⟨hs, t, j, hne, ?_, hsj, ?_⟩)⟩
        · have : ¬ r.taskId = t := fun e => hne e.symm
          rw [e2] at ht
          simpa [this] using ht
        · rw [k3] at htw
          exact (List.mem_filter.1 htw).1
    cases hs : r.status with
    | success =>
      simp only [Py.ok_bind, hso]
      simp only [pure, Except.pure, Py.ok_bind, if_true]
      obtain ⟨g2, e2, k1, k2, k2', k3, k4, k5⟩ := key .success (by rw [hs]; rfl)
      rw [← e2]
      have hg2 : (s1.setGraph gid g2).abs.graphs gid = some g2 := by rw [k2]; simp
      have hback : ∀ t j, g2.tasks.get? t = some j → (t = r.taskId ∧ j.state = .success) ∨ g.tasks.get? t = some j := by
        intro t j hj
        rw [e2] at hj
        simp only [Dict.get?_set] at hj
        split at hj
        · next e => cases hj; exact Or.inl ⟨e.symm, rfl⟩
        · exact Or.inr hj
      rw [Py.post_bind, Py.post_bind]
      refine (checkGraph_spec (taskDone_fails o now n) k4 (k1.inv hi) o now hg2 ?_ ?_).imp ?_ ?_
      · intro t j hj
        rcases hback t j hj with ⟨_, e⟩ | hj'
        · exact Or.inr (Or.inr e)
        · exact hset'.alive t j hj'
      · intro t j hj e
        rcases hback t j hj with ⟨_, e'⟩ | hj'
        · rw [e] at e'; cases e'
        · have h1 := hset'.started t j hj' e
          have h2 := hsout t
          rw [h1] at h2
          rw [e2]
          simpa using h2
      · rintro s' ⟨h0, h1, h2, h3, og, h4, h5⟩
        simp only [Py.post_ok, if_true]
        refine ⟨⟨h1, h2.trans k5, k1.trans h3, hother (og := og) ?_ h5⟩, ⟨fun hx => (by rw [hn] at hx; cases hx),
          fun _ _ hx => absurd hs hx, fun w hx => ?_⟩, ?_⟩
        rotate_left
        · obtain ⟨l, e, hl⟩ := h3.placed
          have hout : (s1.setGraph gid g2).abs.out = s.abs.out := by rw [k2']; cases r.status <;> rfl
          rcases hl _ w hx with hx | ⟨k, _, hx⟩
          · rw [k2'] at hx; simp [Abs.retire] at hx
          · exact ⟨k, by rw [e, hout, List.drop_left]; exact hx⟩
        · rintro ⟨gid1, g1, d1, d2, d3⟩
          rw [hn] at d1; cases d1
          rw [hg] at d2; cases d2
          rcases d3 with d3 | ⟨_, i1, so1, d3, d4, d5⟩ | ⟨d3, _⟩
          · exact d3.1 hs
          · rw [hix] at d3; cases d3
            rw [hso] at d4; cases d4
            rw [e2] at h0
            exact h0 d5
          · rw [hs] at d3; rcases d3 with d3 | d3 <;> cases d3
        rw [h4, k2]
        funext x; simp only [upd_apply]; split <;> rfl
      · intro _ hb
        refine ⟨gid, g, hn, hg, Or.inr (Or.inl ⟨hs, ?_⟩)⟩
        exact ⟨i, so, hix, hso, by rw [e2] at hb; exact hb⟩
    | canceled =>
      have := fail .canceled (by rw [hs]; rfl) (Or.inl hs) (by simp) (by simp)
      rw [hs] at this
      simpa [hso, pyAssert, pure, Except.pure] using this
    | failed =>
      have := fail .failed (by rw [hs]; rfl) (Or.inr hs) (by simp) (by simp)
      rw [hs] at this
      simpa [hso, pyAssert, pure, Except.pure] using this
    | inactive | running | canceling | notFound =>
      exact ⟨gid, g, hn, hg, Or.inl (by simp [hs])⟩

end Sched

end Verif.Sched
