import Verif.Props.Survive

/-!
# C28: exactly when the scheduler dies
-/

namespace Verif.Props

open Verif.Queue Verif.Util Verif.Wire Verif.Sched Verif.Spec

/-- The locator of the worker is out of date and has another value than the queue. -/
def Mislaid (s : Sched) (w : Bytes) : Prop := ∃ p, s.wm.alloc.queue.stale w = some p ∧ s.wm.alloc.queue.prio w ≠ some p

/-- The node has succeeded, now that `t` has. -/
def Finished (g : Graph) (t d : Bytes) : Prop := d = t ∨ ∃ j, g.tasks.get? d = some j ∧ j.state = .success

/-- When `t` has succeeded the graph cannot be taken further: a node that was not submitted before has all its
inputs and names one of them twice, or every node has succeeded and a target is no node. -/
def CannotGoOn (g : Graph) (t : Bytes) : Prop :=
  (∃ u i, g.tasks.get? u = some i ∧ i.state = .inactive ∧ (∀ a ∈ i.task.args, a.type = .task → Finished g t a.data) ∧
    ¬ ((i.task.args.filter fun a => a.type = .task).map (·.data)).Nodup) ∨
  ((∀ u i, g.tasks.get? u = some i → u = t ∨ i.state = .success) ∧ ∃ x ∈ g.targets, x ∉ g.taskIds)

/-- The scheduler cannot start this graph: a node needs a function that is not registered and not sent along,
the nodes are cyclic, an input is no node, or there are targets and no nodes. -/
def CannotStart (s : Sched) (gt : GraphTask) : Prop :=
  (∃ T ∈ gt.graph, functionOf s T.functionId = none ∧ T.functionId ∉ gt.functions.keys) ∨
  (¬ ∃ rank : Bytes → Nat, ∀ T ∈ gt.graph, ∀ a ∈ T.args, a.type = .task → rank a.data < rank T.taskId) ∨
  (∃ T ∈ gt.graph, ∃ a ∈ T.args, a.type = .task ∧ a.data ∉ gt.graph.map (·.taskId)) ∨
  (gt.graph = [] ∧ gt.targets ≠ [])

/-- The events at which the scheduler dies. -/
def Fatal (s : Sched) (e : Event) : Prop :=
  match e.op with
  | .recv _ (.taskResult t st _ _) => ∃ w, workerOf s t = some w ∧
    (Mislaid s w ∨ ∃ gid g, s.gm.nodeGraph.get? t = some gid ∧ s.gm.graphs.get? gid = some g ∧
      (st ≠ .success ∧ st ≠ .canceled ∧ st ≠ .failed ∨
       st = .success ∧ CannotGoOn g t ∨
       (st = .canceled ∨ st = .failed) ∧ ∃ t', t' ≠ t ∧ NodeWaits s gid t'))
  | .recv _ (.taskCancel t) => ∃ gid, NodeWaits s gid t ∧ ∃ t', t' ≠ t ∧ NodeWaits s gid t'
  | .recv _ (.balanceResponse ids) => ∃ t ∈ ids, ∃ w, workerOf s t = some w ∧
    (Mislaid s w ∨ OutOfDate s w ∧ ∃ t' ∈ ids, t' ≠ t ∧ workerOf s t' = some w)
  | .recv _ (.disconnectRequest w) => Connected s w ∧ OutOfDate s w
  | .recv _ (.graphTaskCancel gid) => s.gm.graphs.get? gid = none ∨ ∃ t, NodeWaits s gid t
  | .recv _ (.functionRequest type fid _ _) => type = .delete ∧ functionOf s fid ≠ none ∧ ∀ t, claimOf s t ≠ some fid
  | .graphRoutine => ∃ c gt rest, s.gm.queue = (c, gt) :: rest ∧ CannotStart s gt
  | .workerRoutine => ∃ w last hb, s.wm.alive.get? w = some (last, hb) ∧ e.now - last > s.cfg.workerTimeout ∧ OutOfDate s w
  | .report => ¬ Readable s
  | _ => False

theorem cannotStart_iff {s : Sched} {gt : GraphTask} : CannotStart s gt ↔ BadSubmit s.abs gt := by
  have hin : ∀ (T : Task) d, d ∈ inputs T ↔ ∃ a ∈ T.args, a.type = .task ∧ a.data = d := by
    intro T d
    rw [mem_inputs]
    simp [refs, and_assoc]
  unfold CannotStart BadSubmit
  have h2 : (∃ rank : Bytes → Nat, ∀ T ∈ gt.graph, ∀ a ∈ T.args, a.type = .task → rank a.data < rank T.taskId) ↔
      ∃ rank : Bytes → Nat, ∀ T ∈ gt.graph, ∀ d ∈ inputs T, rank d < rank T.taskId := by
    constructor
    · rintro ⟨rank, hr⟩
      refine ⟨rank, fun T hT d hd => ?_⟩
      obtain ⟨a, ha, h1, rfl⟩ := (hin T d).1 hd
      exact hr T hT a ha h1
    · rintro ⟨rank, hr⟩
      exact ⟨rank, fun T hT a ha h1 => hr T hT a.data ((hin T _).2 ⟨a, ha, h1, rfl⟩)⟩
  have h3 : (∃ T ∈ gt.graph, ∃ a ∈ T.args, a.type = .task ∧ a.data ∉ gt.graph.map (·.taskId)) ↔
      ∃ T ∈ gt.graph, ∃ d ∈ inputs T, d ∉ nodeIds gt := by
    constructor
    · rintro ⟨T, hT, a, ha, h1, hn⟩
      exact ⟨T, hT, a.data, (hin T _).2 ⟨a, ha, h1, rfl⟩, hn⟩
    · rintro ⟨T, hT, d, hd, hn⟩
      obtain ⟨a, ha, h1, rfl⟩ := (hin T d).1 hd
      exact ⟨T, hT, a, ha, h1, hn⟩
  rw [h2, h3]
  rfl

theorem cannotGoOn_iff {h : History} {gid t : Bytes} {gt : GraphTask} {g : Graph} {i0 i : NodeInfo} {so : Sorter} (hok : GraphOK h gid gt g)
    (hset : Settled g) (hi0 : g.tasks.get? t = some i0) (hrun : i0.state = .running) (hso : g.sorter.done t = .ok so) :
    CannotGoOn g t ↔ BadGraph { g with tasks := g.tasks.set t i, sorter := so } := by
  have hout : g.sorter.isOut t = true := by
    obtain ⟨T, _, hTt, _, _, hN⟩ := hok.node t i0 hi0
    simp only [hrun, hTt] at hN
    exact hN.2.1
  obtain ⟨so', hso', hOK, hd, ho⟩ := Sorter.done_spec hok.sorter hout
  rw [hso] at hso'; cases hso'
  have hapart : ∀ n, so.isOut n = true → so.isDone n = true → False := by
    intro n h1 h2
    obtain ⟨n1, h3, h4⟩ := Sorter.isOut_iff.1 h1
    obtain ⟨n2, h5, h6⟩ := Sorter.isDone_iff.1 h2
    rw [h3] at h5; cases h5; omega
  -- which nodes are done
  have hdone : ∀ u j, g.tasks.get? u = some j → (so.isDone u = true ↔ u = t ∨ j.state = .success) := by
    intro u j hj
    obtain ⟨T, _, hTt, _, _, hN⟩ := hok.node u j hj
    rw [hd]
    rcases hset.alive u j hj with e | e | e
    · simp only [e, hTt] at hN
      simp [hN.2.2, e]
    · simp only [e, hTt] at hN
      have : g.sorter.isDone u ≠ true := by
        intro hx
        obtain ⟨n1, h3, h4⟩ := Sorter.isOut_iff.1 hN.2.1
        obtain ⟨n2, h5, h6⟩ := Sorter.isDone_iff.1 hx
        rw [h3] at h5; cases h5; omega
      simp [this, e]
    · simp only [e, hTt] at hN
      simp [hN.1, e]
  have hact : so.isActive = false ↔ ∀ u j, g.tasks.get? u = some j → u = t ∨ j.state = .success := by
    constructor
    · intro hx u j hj
      obtain ⟨T, hT, hTt, _⟩ := hok.node u j hj
      exact (hdone u j hj).1 (Sorter.inactive_done hOK hx u (List.mem_map.2 ⟨T, hT, hTt⟩))
    · intro hall
      have hnode : ∀ n, n ∈ nodeIds gt → so.isDone n = true := by
        intro n hn
        cases hx : g.tasks.get? n with
        | none => exact (hd n).2 (Or.inl (hok.gone n hn hx).1)
        | some j => exact (hdone n j hx).2 (hall n j hx)
      rw [Bool.eq_false_iff]
      intro hx
      rcases (Sorter.isActive_iff hOK).1 hx with ⟨n, hn⟩ | hne
      · obtain ⟨n1, h3, _⟩ := Sorter.isOut_iff.1 hn
        exact hapart n hn (hnode n ((hOK.dom n).1 (by rw [h3]; rfl)))
      · obtain ⟨x, l, e⟩ := List.exists_cons_of_ne_nil hne
        obtain ⟨n1, h3, h4⟩ := (hOK.ready x).1 (by rw [e]; exact List.mem_cons_self)
        obtain ⟨n2, h5, h6⟩ := Sorter.isDone_iff.1 (hnode x ((hOK.dom x).1 (by rw [h3]; rfl)))
        rw [h3] at h5; cases h5; omega
  have hreq : ∀ u j, g.tasks.get? u = some j → j.state = .inactive → u ∈ nodeIds gt ∧ req gt u = inputs j.task := by
    intro u j hj e
    obtain ⟨T, hT, hTt, _, _, hN⟩ := hok.node u j hj
    simp only [e] at hN
    exact ⟨List.mem_map.2 ⟨T, hT, hTt⟩, by rw [hN.1, req, ← hTt, find_node hok.nodup hT]⟩
  have hfin : ∀ u j, g.tasks.get? u = some j → j.state = .inactive →
      ((∀ a ∈ j.task.args, a.type = .task → Finished g t a.data) ↔ ∀ d ∈ req gt u, so.isDone d = true) := by
    intro u j hj e
    obtain ⟨hu, hr⟩ := hreq u j hj e
    rw [hr]
    have hone : ∀ d ∈ inputs j.task, (Finished g t d ↔ so.isDone d = true) := by
      intro d hdi
      have hdr : d ∈ req gt u := by rw [hr]; exact hdi
      have hrel := (hok.deps d u).2 ⟨hdr, j, hj, e⟩
      cases hx : g.tasks.get? d with
      | none => exact absurd hrel ((hok.gone d (hok.sorter.closed u d hu hdr) hx).2.2 u)
      | some k =>
        rw [hdone d k hx]
        unfold Finished
        rw [hx]
        simp
    have hin : ∀ d, d ∈ inputs j.task ↔ ∃ a ∈ j.task.args, a.type = .task ∧ a.data = d := by
      intro d
      rw [mem_inputs]
      simp [refs, and_assoc]
    constructor
    · intro hx d hdi
      obtain ⟨a, ha, h1, rfl⟩ := (hin d).1 hdi
      exact (hone _ hdi).1 (hx a ha h1)
    · intro hx a ha h1
      have hdi := (hin a.data).2 ⟨a, ha, h1, rfl⟩
      exact (hone _ hdi).2 (hx _ hdi)
  have hready : ∀ u j, g.tasks.get? u = some j → j.state = .inactive →
      (u ∈ so.ready ↔ ∀ a ∈ j.task.args, a.type = .task → Finished g t a.data) := by
    intro u j hj e
    obtain ⟨hu, _⟩ := hreq u j hj e
    rw [hfin u j hj e, hOK.ready]
    obtain ⟨n, hn⟩ := Option.isSome_iff_exists.1 ((hOK.dom u).2 hu)
    have h0 : 0 ≤ n.npred := by
      have hut : u ≠ t := by rintro rfl; rw [hi0] at hj; cases hj; rw [hrun] at e; cases e
      rcases hOK.range u n hn with hr | hr | hr
      · have := (hdone u j hj).1 (Sorter.isDone_iff.2 ⟨n, hn, hr⟩)
        rw [e] at this
        simp [hut] at this
      · have := ((ho u).1 (Sorter.isOut_iff.2 ⟨n, hn, hr⟩)).1
        rw [hset.started u j hj e] at this; cases this
      · exact hr
    have hw := hOK.waiting u n hn h0
    constructor
    · rintro ⟨n', h1, h2⟩ d hdr
      rw [hn] at h1; cases h1
      rw [h2] at hw
      have := List.countP_eq_zero.1 (show List.countP (fun d => !so.isDone d) (req gt u) = 0 by omega) d hdr
      simpa using this
    · intro hx
      refine ⟨n, hn, ?_⟩
      rw [hw, List.countP_eq_zero.2 (fun d hdr => by simp [hx d hdr])]
      rfl
  constructor
  · rintro (⟨u, j, hj, e, h1, h2⟩ | ⟨h1, x, h2, h3⟩)
    · have hr := (hready u j hj e).2 h1
      refine Or.inr ⟨(Sorter.isActive_iff hOK).2 (Or.inr (by intro e; rw [e] at hr; cases hr)), u, hr, j, ?_, h2⟩
      have hut : ¬ t = u := by rintro rfl; rw [hi0] at hj; cases hj; rw [hrun] at e; cases e
      rw [Dict.get?_set, if_neg hut]; exact hj
    · exact Or.inl ⟨hact.2 h1, x, h2, h3⟩
  · rintro (⟨h1, x, h2, h3⟩ | ⟨_, u, hu, j, hj, h2⟩)
    · exact Or.inr ⟨hact.1 h1, x, h2, h3⟩
    · obtain ⟨hj, e⟩ := ready_after hok hset hi0 hrun hso hu hj
      exact Or.inl ⟨u, j, hj, e, (hready u j hj e).1 hu, h2⟩

theorem fatal_iff {cfg : Config} {l : Log} {s : Sched} (hg : Good cfg l s) (e : Event) : Fatal s e ↔ Cause s e := by
  have hi := hg.inv
  have hwait : ∀ gid g, s.abs.graphs gid = some g → ∀ t, NodeWaits s gid t ↔
      ∃ i, g.tasks.get? t = some i ∧ i.state = .running ∧ t ∈ s.abs.waiting := by
    intro gid g hgr t
    constructor
    · rintro ⟨h1, h2⟩
      obtain ⟨g', h3, h4⟩ := (hi.nodes t gid).1 h1
      rw [hgr] at h3; cases h3
      obtain ⟨i, hx⟩ := Option.isSome_iff_exists.1 h4
      exact ⟨i, hx, (hi.held_running hgr hx ((hi.place t).2 (Or.inl h2))).1, h2⟩
    · rintro ⟨i, h1, _, h2⟩
      exact ⟨(hi.nodes t gid).2 ⟨g, hgr, by rw [h1]; rfl⟩, h2⟩
  have hgraph : ∀ t gid, s.gm.nodeGraph.get? t = some gid → ∃ g i, s.abs.graphs gid = some g ∧ g.tasks.get? t = some i := by
    intro t gid h1
    obtain ⟨g, h3, h4⟩ := (hi.nodes t gid).1 h1
    obtain ⟨i, hx⟩ := Option.isSome_iff_exists.1 h4
    exact ⟨g, i, h3, hx⟩
  obtain ⟨op, now, o⟩ := e
  cases op with
  | recv c m =>
    cases m with
    | taskResult t st d r =>
      have hsucc : ∀ w gid g, workerOf s t = some w → s.gm.nodeGraph.get? t = some gid → s.abs.graphs gid = some g →
          (CannotGoOn g t ↔ ∃ i so, g.tasks.get? t = some i ∧ g.sorter.done t = .ok so ∧
            BadGraph { g with tasks := g.tasks.set t { i with state := .success, result := some r }, sorter := so }) := by
        intro w gid g hw hn hgr
        obtain ⟨g', i, h1, h2⟩ := hgraph t gid hn
        rw [hgr] at h1; cases h1
        have hrun := (hi.held_running hgr h2 ((hi.place t).2 (Or.inr (Or.inr (by rw [show s.abs.worker t = some w from hw]; rfl))))).1
        obtain ⟨gt, hok⟩ := hi.graphs gid g hgr
        have hset := hg.settled gid g hgr
        constructor
        · intro hx
          have hout : g.sorter.isOut t = true := by
            obtain ⟨T, _, hTt, _, _, hN⟩ := hok.node t i h2
            simp only [hrun, hTt] at hN
            exact hN.2.1
          obtain ⟨so, hso, _⟩ := Sorter.done_spec hok.sorter hout
          exact ⟨i, so, h2, hso, (cannotGoOn_iff hok hset h2 hrun hso).1 hx⟩
        · rintro ⟨i', so, h3, hso, hb⟩
          exact (cannotGoOn_iff hok hset h2 hrun hso).2 hb
      constructor
      · rintro ⟨w, hw, h1 | ⟨gid, g, h1, h2, h3⟩⟩
        · exact Or.inl ⟨w, hw, h1⟩
        · refine Or.inr ⟨by rw [show s.abs.worker t = some w from hw]; rfl, gid, g, h1, h2, ?_⟩
          rcases h3 with h3 | ⟨h3, h4⟩ | ⟨h3, t', h4, h5⟩
          · exact Or.inl h3
          · exact Or.inr (Or.inl ⟨h3, (hsucc w gid g hw h1 h2).1 h4⟩)
          · obtain ⟨i, h6, h7, h8⟩ := (hwait gid g h2 t').1 h5
            exact Or.inr (Or.inr ⟨h3, t', i, h4, h6, h7, h8⟩)
      · rintro (⟨w, hw, h1⟩ | ⟨hw, gid, g, h1, h2, h3⟩)
        · exact ⟨w, hw, Or.inl h1⟩
        · obtain ⟨w, hw⟩ := Option.isSome_iff_exists.1 hw
          refine ⟨w, hw, Or.inr ⟨gid, g, h1, h2, ?_⟩⟩
          rcases h3 with h3 | ⟨h3, h4⟩ | ⟨h3, t', i, h4, h6, h7, h8⟩
          · exact Or.inl h3
          · exact Or.inr (Or.inl ⟨h3, (hsucc w gid g hw h1 h2).2 h4⟩)
          · exact Or.inr (Or.inr ⟨h3, t', h4, (hwait gid g h2 t').2 ⟨i, h6, h7, h8⟩⟩)
    | taskCancel t =>
      constructor
      · rintro ⟨gid, h1, t', h2, h3⟩
        obtain ⟨g, _, h4, _⟩ := hgraph t gid h1.1
        obtain ⟨i, h5, h6, h7⟩ := (hwait gid g h4 t').1 h3
        exact ⟨h1.2, gid, g, h1.1, h4, Or.inr (Or.inr ⟨Or.inl rfl, t', i, h2, h5, h6, h7⟩)⟩
      · rintro ⟨h1, gid, g, h2, h3, h4⟩
        rcases h4 with h4 | ⟨h4, _⟩ | ⟨_, t', i, h5, h6, h7, h8⟩
        · exact absurd rfl h4.2.1
        · cases h4
        · exact ⟨gid, ⟨h2, h1⟩, t', h5, (hwait gid g h3 t').2 ⟨i, h6, h7, h8⟩⟩
    | graphTaskCancel gid =>
      constructor
      · rintro (h1 | ⟨t, h1⟩)
        · exact Or.inl h1
        · obtain ⟨g, _, h4, _⟩ := hgraph t gid h1.1
          obtain ⟨i, h5, h6, h7⟩ := (hwait gid g h4 t).1 h1
          exact Or.inr ⟨g, t, i, h4, h5, h6, h7⟩
      · rintro (h1 | ⟨g, t, i, h1, h2, h3, h4⟩)
        · exact Or.inl h1
        · exact Or.inr ⟨t, (hwait gid g h1 t).2 ⟨i, h2, h3, h4⟩⟩
    | functionRequest type fid name content =>
      show type = .delete ∧ functionOf s fid ≠ none ∧ _ ↔ type = .delete ∧ (functionOf s fid).isSome ∧ _
      rw [← Option.isSome_iff_ne_none]
      rfl
    | _ => exact Iff.rfl
  | graphRoutine =>
    show (∃ c gt rest, s.gm.queue = (c, gt) :: rest ∧ CannotStart s gt) ↔ ∃ c gt rest, s.abs.queue = (c, gt) :: rest ∧ BadSubmit s.abs gt
    simp only [cannotStart_iff]
    rfl
  | _ => exact Iff.rfl

/-- **C28, exactly.** In every reachable state an event with properly chosen ids makes the scheduler raise
exactly in the situations listed in `Fatal`; every other event is handled. -/
theorem C28_exact (cfg : Config) (l : Log) (s : Sched) (hr : Reach cfg l s) (e : Event) (ha : ∀ m ∈ e.input, Allowed l s.out m) :
    ((∃ err, s.step e = .error err) ↔ Fatal s e) ∧ ((∃ s', s.step e = .ok s' ∧ Reach cfg (l ++ e.input) s') ↔ ¬ Fatal s e) := by
  have hg := hr.good
  have hp := step_exact hg e ha
  rw [← fatal_iff hg e] at hp
  cases hs : s.step e with
  | ok s' =>
    rw [hs] at hp
    exact ⟨⟨(by rintro ⟨_, h⟩; cases h), fun h => absurd h hp.2⟩, ⟨fun _ => hp.2, fun _ => ⟨s', rfl, .step e hr ha hs⟩⟩⟩
  | error err =>
    rw [hs] at hp
    exact ⟨⟨fun _ => hp, fun _ => ⟨err, rfl⟩⟩, ⟨(by rintro ⟨_, h, _⟩; cases h), fun h => absurd hp h⟩⟩

/-- The last event of each of the thirteen executions is fatal. -/
example : ∀ p ∈ deaths, ∃ l s e, p.1.getLast? = some e ∧ Reach cfg0 l s ∧ Fatal s e := by
  intro p hp
  obtain ⟨l, s, e, h1, hr, ha, h2⟩ := C28_scheduler_dies p hp
  exact ⟨l, s, e, h1, hr, ((C28_exact cfg0 l s hr e ha).1).1 ⟨_, h2⟩⟩

/-- The first of two results after a submission is not fatal although the locator is out of date, nor is a
balance response with one task: `Danger` has these cases, `Fatal` does not. -/
example : ∀ e ∈ [done [1] [7], ev (.recv wk (.balanceResponse [[1]]))], ∃ l s, Reach cfg0 l s ∧ Danger l s e ∧ ¬ Fatal s e := by
  have h : ∀ e ∈ [done [1] [7], ev (.recv wk (.balanceResponse [[1]]))],
      (runInit cfg0 [addFn, beat wk, submit [1], submit [2], turn, turn, submit [3]]).elim false (fun q =>
        e.input.all (allowedB q.1 q.2.out) && workerOf q.2 [1] == some wk && (q.2.wm.alloc.queue.stale wk).isSome &&
        match q.2.step e with | .ok _ => true | .error _ => false) = true := by decide +kernel
  intro e he
  have h := h e he
  cases hs : runInit cfg0 [addFn, beat wk, submit [1], submit [2], turn, turn, submit [3]] with
  | none => rw [hs] at h; cases h
  | some q =>
    obtain ⟨l, s⟩ := q
    rw [hs] at h
    simp only [Option.elim_some, Bool.and_eq_true, List.all_eq_true, beq_iff_eq] at h
    obtain ⟨⟨⟨h1, h2⟩, h3⟩, h4⟩ := h
    have hr := runInit_reach hs
    have ho : OutOfDate s wk := Option.isSome_iff_ne_none.1 h3
    refine ⟨l, s, hr, ?_, ?_⟩
    · simp only [List.mem_cons, List.not_mem_nil, or_false] at he
      rcases he with rfl | rfl
      · exact Or.inl ⟨wk, h2, ho⟩
      · exact ⟨wk, ho⟩
    · refine ((C28_exact cfg0 l s hr e (fun m hm => allowedB_sound (h1 m hm))).2).1 ?_
      cases hx : s.step e with
      | ok s' => exact ⟨s', rfl, .step e hr (fun m hm => allowedB_sound (h1 m hm)) hx⟩
      | error _ => rw [hx] at h4; cases h4

end Verif.Props
