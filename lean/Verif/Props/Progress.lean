import Verif.Props.Prompt
import Verif.Props.Graphs
import Verif.Sched.Progress

/-!
# Everything submitted can be finished

The scheduler cannot make a worker answer.  But from every state some way leads on to one where everything is
answered, in which the workers send nothing but results of tasks they were given.
-/

namespace Verif.Props

open Verif.Wire Verif.Sched Verif.Queue Verif.Util Verif.Spec

/-- What happens on the way: turns of the task routine and of the graph routine, and a worker sends the result of
a task it was given (`sent`: what the scheduler sends), which is `val` of the task. -/
def Regular (val : Task → Bytes) (sent : Log) (e : Event) : Prop :=
  e.op = .taskRoutine ∨ e.op = .graphRoutine ∨
  ∃ w k, (w, .task k) ∈ sent ∧ e.op = .recv w (.taskResult k.taskId .success 0 (val k))

/-- The events `add` lead on. -/
structure Way (cfg : Config) (val : Task → Bytes) (es : List Event) (l : Log) (s : Sched) (add : List Event) (l' : Log) (s' : Sched) : Prop where
  exec : Exec cfg (es ++ add) l' s'
  prompt : Prompt (es ++ add)
  regular : ∀ e ∈ add, Regular val s'.out e
  log : ∃ x, l' = l ++ x ∧ ∀ m ∈ x, ∃ t d r, m.2 = .taskResult t .success d r
  out : ∃ x, s'.out = s.out ++ x

section

variable {cfg : Config} {val : Task → Bytes} {es : List Event} {l l' l'' : Log} {s s' s'' : Sched} {add add' : List Event}

theorem Regular.mono {sent sent' : Log} {e : Event} (h : Regular val sent e) (hm : ∀ m ∈ sent, m ∈ sent') : Regular val sent' e := by
  rcases h with h | h | ⟨w, k, h1, h2⟩
  · exact .inl h
  · exact .inr (.inl h)
  · exact .inr (.inr ⟨w, k, hm _ h1, h2⟩)

theorem Way.refl (h : Exec cfg es l s) (hp : Prompt es) : Way cfg val es l s [] l s := by
  refine ⟨by simpa using h, by simpa using hp, ?_, ⟨[], ?_, ?_⟩, ⟨[], ?_⟩⟩ <;> simp

theorem Way.trans (h : Way cfg val es l s add l' s') (h' : Way cfg val (es ++ add) l' s' add' l'' s'') : Way cfg val es l s (add ++ add') l'' s'' := by
  obtain ⟨x, rfl, hx⟩ := h.log
  obtain ⟨y, rfl, hy⟩ := h'.log
  obtain ⟨u, hu⟩ := h.out
  obtain ⟨v, hv⟩ := h'.out
  refine ⟨by simpa using h'.exec, by simpa using h'.prompt, ?_, ⟨x ++ y, by simp, ?_⟩, ⟨u ++ v, by rw [hv, hu]; simp⟩⟩
  · intro e he
    rcases List.mem_append.1 he with he | he
    · refine (h.regular e he).mono fun m hm => ?_
      rw [hv]
      exact List.mem_append_left _ hm
    · exact h'.regular e he
  · intro m hm
    rcases List.mem_append.1 hm with hm | hm
    · exact hx m hm
    · exact hy m hm

/-- Somebody is connected, and the graphs received can be unpacked. -/
structure Fit (l : Log) (s : Sched) : Prop where
  up : ∃ w, Connected s w
  sound : ∀ c gt, (c, .graphTask gt) ∈ l → ¬ Defective s gt

theorem prompt_due (hp : Prompt es) : ∃ d, turnDue es = some d := Option.ne_none_iff_exists'.1 hp

/-- A regular event after which the scheduler goes on. -/
theorem one_step (h : Exec cfg es l s) (hf : Fit l s) (hm : cfg.maxWaiting ≠ 0) (e : Event) (he : Regular val s.out e)
    (hp : Prompt (es ++ [e])) : ∃ l' s', s.step e = .ok s' ∧ Way cfg val es l s [e] l' s' ∧ Fit l' s' ∧ Kept (e.registers s) (e.op = .taskRoutine) e.graphs s s' ∧
      Sched.room l' = Sched.room l := by
  have hspec : e.special = false := by
    rcases he with he | he | ⟨w, k, _, he⟩ <;> simp [Event.special, he]
  have hin : ∀ m ∈ e.input, ∃ t d r, m.2 = .taskResult t .success d r := by
    rcases he with he | he | ⟨w, k, _, he⟩ <;> simp [Event.input, he]
  have ha : ∀ m ∈ e.input, Allowed l s.out m := by
    intro m hmm
    obtain ⟨c, m⟩ := m
    obtain ⟨t, d, r, rfl⟩ := hin _ hmm
    trivial
  have ht : ¬ Trouble l s e := by
    intro ht
    obtain ⟨op, now, o⟩ := e
    rcases he with he | he | ⟨w, k, _, he⟩ <;> simp only at he <;> subst he
    · exact ht
    · obtain ⟨c, gt, rest, hq, hd⟩ := ht
      exact hf.sound c gt (h.reach.good.inv.queue c gt (by show (c, gt) ∈ s.gm.queue; rw [hq]; exact List.mem_cons_self)).1 hd
    · obtain ⟨gid, w', _, _, ht⟩ := ht
      rcases ht with ht | ⟨_, c, gt, h1, _, h3⟩ | ht
      · exact ht.1 rfl
      · exact hf.sound c gt h1 h3
      · rcases ht.1 with x | x <;> cases x
  obtain ⟨s', h1, h2⟩ := C28_prompt_partial cfg es l s h hm e hp ha ht
  have hk := Py.Post.ok (step_keeps h.reach.good.conc h.reach.good.settled e hspec) h1
  obtain ⟨x, hx, _⟩ := hk.said
  refine ⟨_, s', h1, ⟨h2, hp, ?_, ⟨e.input, rfl, hin⟩, ⟨x, hx⟩⟩, ⟨?_, ?_⟩, hk, ?_⟩
  · intro e' he'
    rw [List.mem_singleton.1 he']
    exact he.mono fun m hm => by rw [hx]; exact List.mem_append_left _ hm
  · obtain ⟨w, hw⟩ := hf.up
    exact ⟨w, by unfold Connected; rw [hk.alive]; exact hw⟩
  · intro c gt hg hd
    rcases List.mem_append.1 hg with hg | hg
    · refine hf.sound c gt hg ?_
      rcases hd with ⟨T, hT, h3, h4⟩ | hd
      · left
        refine ⟨T, hT, ?_, h4⟩
        cases hfn : functionOf s T.functionId with
        | none => rfl
        | some i =>
          obtain ⟨j, hj, _⟩ := hk.stay _ i hfn
          rw [show functionOf s' T.functionId = some j from hj] at h3
          cases h3
      · exact .inr hd
    · obtain ⟨t, d, r, h5⟩ := hin _ hg
      cases h5
  · rcases he with he | he | ⟨w, k, _, he⟩
    · simp [Event.input, he]
    · simp [Event.input, he]
    · have : e.input = [(w, .taskResult k.taskId .success 0 (val k))] := by simp [Event.input, he]
      rw [this]
      exact room_result _ _ _ _ _ _

/-- A turn of the task routine. -/
theorem a_turn (h : Exec cfg es l s) (hp : Prompt es) (hf : Fit l s) (hm : cfg.maxWaiting ≠ 0) (now : Int) (o : Order) :
    ∃ l' s', s.step ⟨.taskRoutine, now, o⟩ = .ok s' ∧ Way cfg val es l s [⟨.taskRoutine, now, o⟩] l' s' ∧ Fit l' s' ∧
      turnDue (es ++ [⟨.taskRoutine, now, o⟩]) = some false ∧
      s.tm.success ≤ s'.tm.success ∧ s'.gm.queue = s.gm.queue ∧ Sched.room l' = Sched.room l := by
  obtain ⟨d, hd⟩ := prompt_due hp
  have hdue : turnDue (es ++ [⟨.taskRoutine, now, o⟩]) = some false := by rw [turnDue_snoc, hd]; rfl
  obtain ⟨l', s', h1, h2, h3, h4, h5⟩ := one_step (val := val) h hf hm ⟨.taskRoutine, now, o⟩ (.inl rfl) (by rw [Prompt, hdue]; simp)
  refine ⟨l', s', h1, h2, h3, hdue, h4.more, h4.line.elim id ?_, h5⟩
  rintro (h | ⟨c, g, h⟩) <;> cases h

/-- The graphs are unpacked. -/
theorem unpack_all (hm : cfg.maxWaiting ≠ 0) (now : Int) (o : Order) : ∀ (q : List (Bytes × GraphTask)) {es : List Event} {l : Log} {s : Sched},
    s.gm.queue = q → Exec cfg es l s → Prompt es → Fit l s →
    ∃ add l' s', Way cfg val es l s add l' s' ∧ Fit l' s' ∧ turnDue (es ++ add) = some false ∧ s'.gm.queue = []
  | [], es, l, s, hq, h, hp, hf => by
    obtain ⟨l1, s1, _, h2, h3, h4, _, h6, _⟩ := a_turn (val := val) h hp hf hm now o
    exact ⟨_, l1, s1, h2, h3, h4, h6.trans hq⟩
  | (c, gt) :: rest, es, l, s, hq, h, hp, hf => by
    obtain ⟨d, hd⟩ := prompt_due hp
    obtain ⟨l1, s1, h1, h2, h3, _⟩ := one_step (val := val) h hf hm ⟨.graphRoutine, now, o⟩ (.inr (.inl rfl)) (by rw [Prompt, turnDue_snoc, hd]; simp [nextDue])
    obtain ⟨add, l2, s2, h5, h6, h7, h8⟩ := unpack_all hm now o rest (graphRoutine_line hq h1) h2.exec h2.prompt h3
    exact ⟨_, l2, s2, h2.trans h5, h6, by simpa using h7, h8⟩

/-- The result of a task a worker has. -/
theorem a_result (h : Exec cfg es l s) (hd : turnDue es = some false) (hf : Fit l s) (hm : cfg.maxWaiting ≠ 0) (now : Int) (o : Order)
    {t w : Bytes} (hw : workerOf s t = some w) :
    ∃ add l' s', Way cfg val es l s add l' s' ∧ Fit l' s' ∧ turnDue (es ++ add) = some false ∧
      s.tm.success + 1 ≤ s'.tm.success ∧ s'.gm.queue = s.gm.queue ∧ Sched.room l' = Sched.room l := by
  obtain ⟨k, rfl, hk⟩ := h.reach.handed t w hw
  obtain ⟨l1, s1, h1, h2, h3, h4, h5⟩ := one_step (val := val) h hf hm ⟨.recv w (.taskResult k.taskId .success 0 (val k)), now, o⟩
    (.inr (.inr ⟨w, k, hk, rfl⟩)) (by rw [Prompt, turnDue_snoc, hd]; simp [nextDue])
  have hmore : s.tm.success + 1 ≤ s1.tm.success := by
    refine result_more (t := k.taskId) ?_ h1
    intro alloc hx
    unfold Alloc.removeTask at hx
    rw [show s.wm.alloc.t2w.get? k.taskId = some w from hw] at hx
    obtain ⟨_, _, hx⟩ := Py.bind_ok.1 hx
    obtain ⟨_, _, hx⟩ := Py.bind_ok.1 hx
    obtain ⟨_, _, hx⟩ := Py.bind_ok.1 hx
    cases hx
  have hq : s1.gm.queue = s.gm.queue := h4.line.elim id (by rintro (h | ⟨c, g, h⟩) <;> cases h)
  obtain ⟨l2, s2, _, g2, g3, g4, g5, g6, g7⟩ := a_turn (val := val) h2.exec h2.prompt h3 hm now o
  exact ⟨_, l2, s2, h2.trans g2, g3, by simpa using g4, by omega, g6.trans hq, g7.trans h5⟩

/-- Nobody has a task but there is one: there is a next one, and somebody can take it. -/
theorem next_free (h : Exec cfg es l s) (hq : 1 ≤ cfg.queueSize) (hf : Fit l s) (hn : ∀ t, workerOf s t = none) {t : Bytes} (ht : Holding s t) :
    SlotFree s ∧ ∃ k rest, NextTask s k rest := by
  have hi := h.reach.good.inv
  have hc := h.reach.good.conc
  constructor
  · obtain ⟨w, hw⟩ := hf.up
    obtain ⟨ts, hts⟩ := Option.isSome_iff_exists.1 ((hc.alive w).1 hw)
    have hz : ts.size = 0 := by
      rw [PySet.size_eq_zero]
      intro t' ht'
      have := (hc.alloc.agree t' w).2 ⟨ts, hts, ht'⟩
      rw [show s.wm.alloc.t2w.get? t' = none from hn t'] at this
      cases this
    refine ⟨w, ts, hts, ?_⟩
    rw [hz, h.reach.good.cfg]
    omega
  · cases hp : s.tm.pending with
    | some k => exact ⟨k, _, hi.pend k hp, .inl ⟨by simp [beingPlaced, hp], rfl⟩⟩
    | none =>
      have hw : t ∈ waitingQueue s := by
        rcases (hi.place t).1 ht with x | x | x
        · exact x
        · simp [Abs.pendId, Sched.abs, hp] at x
        · rw [show s.abs.worker t = none from hn t] at x; cases x
      cases hq : waitingQueue s with
      | nil => rw [hq] at hw; cases hw
      | cons t0 rest =>
        have h0 : (s.abs.tasks t0).isSome := (hi.place t0).2 (.inl (by show t0 ∈ waitingQueue s; rw [hq]; exact List.mem_cons_self))
        obtain ⟨k, hk⟩ := Option.isSome_iff_exists.1 h0
        have e := hi.key t0 k hk
        subst e
        exact ⟨k, rest, hk, .inr ⟨by simp [beingPlaced, hp], hq⟩⟩

/-- All tasks are finished. -/
theorem work_off (hm : cfg.maxWaiting ≠ 0) (hq : 1 ≤ cfg.queueSize) (now : Int) (o : Order) : ∀ (n : Nat) {es : List Event} {l : Log} {s : Sched},
    Sched.room l - s.tm.success ≤ n → Exec cfg es l s → turnDue es = some false → Fit l s → s.gm.queue = [] →
    ∃ add l' s', Way cfg val es l s add l' s' ∧ s'.gm.queue = [] ∧ ∀ t, ¬ Holding s' t := by
  intro n
  induction n with
  | zero =>
    intro es l s hn h hd hf hg
    refine ⟨[], l, s, .refl h (by rw [Prompt, hd]; simp), hg, fun t ht => ?_⟩
    have h1 := h.reach.bounded
    have h2 := h.reach.room
    have h3 : s.tm.tasks.size ≠ 0 := by
      obtain ⟨k, hk⟩ := Option.isSome_iff_exists.1 ht
      have := List.length_pos_of_mem (Dict.mem_items.2 hk)
      show s.tm.tasks.items.length ≠ 0
      omega
    omega
  | succ n ih =>
    intro es l s hn h hd hf hg
    -- from a state where a worker has a task
    have hgo : ∀ {es : List Event} {l : Log} {s : Sched} {t w : Bytes}, Sched.room l - s.tm.success ≤ n + 1 → Exec cfg es l s → turnDue es = some false → Fit l s → s.gm.queue = [] →
        workerOf s t = some w → ∃ add l' s', Way cfg val es l s add l' s' ∧ s'.gm.queue = [] ∧ ∀ t, ¬ Holding s' t := by
      intro es l s t w hn h hd hf hg hw
      obtain ⟨add, l1, s1, h1, h2, h3, h4, h5, h6⟩ := a_result (val := val) h hd hf hm now o hw
      obtain ⟨add', l2, s2, g1, g2⟩ := ih (by rw [h6]; omega) h1.exec h3 h2 (h5.trans hg)
      exact ⟨_, l2, s2, h1.trans g1, g2⟩
    by_cases hn' : ∀ t, workerOf s t = none
    · by_cases hh : ∃ t, Holding s t
      · obtain ⟨t, ht⟩ := hh
        have hp : Prompt es := by rw [Prompt, hd]; simp
        obtain ⟨hslot, k, rest, hk⟩ := next_free h hq hf hn' ht
        obtain ⟨l1, s1, g0, g1, g2, g3, g4, g5, g6⟩ := a_turn (val := val) h hp hf hm now o
        obtain ⟨s1', k1, _, k3, _⟩ := C26_prompt_partial cfg es l s h hp hm ⟨.taskRoutine, now, o⟩ rfl (by omega) k rest hk
        rw [g0] at k1
        cases k1
        obtain ⟨w, ts, _, _, _, _, _, _, _, hw⟩ := k3 hslot
        obtain ⟨add, l2, s2, q1, q2⟩ := hgo (by rw [g6]; omega) g1.exec g3 g2 (g5.trans hg) hw
        exact ⟨_, l2, s2, g1.trans q1, q2⟩
      · exact ⟨[], l, s, .refl h (by rw [Prompt, hd]; simp), hg, fun t ht => hh ⟨t, ht⟩⟩
    · obtain ⟨t, ht⟩ := Classical.not_forall.1 hn'
      cases hw : workerOf s t with
      | none => exact absurd hw ht
      | some w => exact hgo hn h hd hf hg hw

end

/-- **C76.** Nothing submitted is ever lost: while a worker is connected, from every state regular events lead on
to one in which
* no task is held and no graph waits to be unpacked;
* every submission of a single task has been answered: by a refusal or by a result;
* every graph that nobody cancelled, and of which no node was refused, has been answered by a result for the graph.

Full statement: the same for all executions, and for all graphs.  Missing: executions in which other events do not
wait for the task routine, a limit of 0, and graphs that are defective or of which a node is refused; these are
answered never or kill the scheduler (`C36_stuck`, `C28_scheduler_dies`). -/
theorem C76_can_finish_partial (cfg : Config) (es : List Event) (l : Log) (s : Sched) (h : Exec cfg es l s) (hp : Prompt es) (hm : cfg.maxWaiting ≠ 0)
    (hq : 1 ≤ cfg.queueSize) (hc : ∃ w, Connected s w) (hg : ∀ c g, (c, .graphTask g) ∈ l → ¬ Defective s g)
    (val : Task → Bytes) (now : Int) (o : Order) :
    ∃ add l' s', Exec cfg (es ++ add) (l ++ l') s' ∧ Prompt (es ++ add) ∧ (∀ e ∈ add, Regular val s'.out e) ∧
      s'.gm.queue = [] ∧ (∀ t, ¬ Holding s' t) ∧
      (∀ t, ¬ InGraph l t → submits t l = refusals t s'.out + results anyone t s'.out) ∧
      (∀ c g, (c, .graphTask g) ∈ l → (∀ c', (c', .graphTaskCancel g.taskId) ∉ l) →
        (cfg.maxWaiting < 0 ∨ ∀ t ∈ nodesOf g, ∀ c', (c', .taskEcho t .noWorker) ∉ s'.out) →
        ∃ st rs, (c, .graphTaskResult g.taskId st rs) ∈ s'.out) := by
  obtain ⟨add1, l1, s1, h1, h2, h3, h4⟩ := unpack_all (val := val) hm now o _ rfl h hp ⟨hc, hg⟩
  obtain ⟨add2, l2, s2, g1, g2, g3⟩ := work_off (val := val) hm hq now o _ (Nat.le_refl _) h1.exec h3 h2 h4
  have hw := h1.trans g1
  obtain ⟨x, rfl, hx⟩ := hw.log
  have hin : ∀ t, InGraph (l ++ x) t → InGraph l t := by
    rintro t ⟨c, g, hm, ht⟩
    rcases List.mem_append.1 hm with hm | hm
    · exact ⟨c, g, hm, ht⟩
    · obtain ⟨_, _, _, e⟩ := hx _ hm; cases e
  refine ⟨_, x, s2, hw.exec, hw.prompt, hw.regular, g2, g3, ?_, ?_⟩
  · intro t ht
    obtain ⟨_, e1, e2⟩ := C16_exactly_once cfg _ s2 hw.exec.reach t (fun hi => ht (hin t hi))
    rw [submits_append] at e2
    have e3 : submits t x = 0 := by
      unfold submits
      rw [List.countP_eq_zero]
      rintro ⟨c, m⟩ hm
      obtain ⟨_, _, _, rfl⟩ := hx _ hm
      simp [isSubmit]
    rw [if_neg (g3 t)] at e1
    omega
  · intro c g hg hca hr
    refine Classical.byContradiction fun hn => ?_
    have hnot : ∀ st rs, (c, .graphTaskResult g.taskId st rs) ∉ s2.out := fun st rs hm => hn ⟨st, rs, hm⟩
    have hnc : ∀ c', (c', .graphTaskCancel g.taskId) ∉ l ++ x := by
      intro c' hm
      rcases List.mem_append.1 hm with hm | hm
      · exact hca c' hm
      · obtain ⟨_, _, _, e⟩ := hx _ hm; cases e
    rcases C36_not_stuck_partial cfg _ s2 hw.exec.reach c g (List.mem_append_left _ hg) hnc hnot hr with ⟨c', hm⟩ | ⟨t, _, ht⟩
    · rw [g2] at hm; cases hm
    · exact g3 t ht

/-- Two nodes, the second uses the first. -/
def pairGraph : GraphTask := graphMsg [50] [([51], [val [7]]), ([52], [ref [51]])] [[52]]

/-- A worker has a task, another task waits, and a graph waits to be unpacked. -/
def busyStory : List Event := [addFn, beat wk, submit [1], turn, sendGraph pairGraph, submit [2]]

theorem pairGraph_sound (s : Sched) : ¬ Defective s pairGraph := by
  rintro (⟨T, hT, _, h⟩ | h | ⟨T, hT, a, ha, h1, h2⟩ | ⟨t, ht, h⟩ | ⟨T, hT, h⟩)
  · exact h ((by decide : ∀ T ∈ pairGraph.graph, T.functionId ∈ pairGraph.functions.keys) T hT)
  · refine h ⟨fun t => if t = [52] then 1 else 0, ?_⟩
    decide
  · exact h2 ((by decide : ∀ T ∈ pairGraph.graph, ∀ a ∈ T.args, a.type = .task → a.data ∈ pairGraph.graph.map (·.taskId)) T hT a ha h1)
  · revert t; decide
  · revert T; decide

example : ∃ l s, Exec limited busyStory l s ∧ Prompt busyStory ∧ limited.maxWaiting ≠ 0 ∧ 1 ≤ limited.queueSize ∧ (∃ w, Connected s w) ∧
    (∀ c g, (c, .graphTask g) ∈ l → ¬ Defective s g) ∧
    workerOf s [1] = some wk ∧ waitingQueue s = [[2]] ∧ s.gm.queue = [(cl, pairGraph)] := by
  have h : (runInit limited busyStory).map (fun p => (decide (Connected p.2 wk), decide (p.1.filter (fun m => match m.2 with | .graphTask _ => true | _ => false) = [(cl, .graphTask pairGraph)]),
      decide (workerOf p.2 [1] = some wk), decide (waitingQueue p.2 = [[2]]), decide (p.2.gm.queue = [(cl, pairGraph)]))) =
      some (true, true, true, true, true) := by decide +kernel
  obtain ⟨⟨l, s⟩, hp, h⟩ := Option.map_eq_some_iff.1 h
  simp only [Prod.mk.injEq, decide_eq_true_eq] at h
  obtain ⟨h1, h2, h3, h4, h5⟩ := h
  refine ⟨l, s, runInit_exec hp, by decide, by decide, by decide, ⟨wk, h1⟩, ?_, h3, h4, h5⟩
  intro c g hg
  have : (c, Message.graphTask g) ∈ [(cl, Message.graphTask pairGraph)] := by rw [← h2]; simp [hg]
  cases List.mem_singleton.1 this
  exact pairGraph_sound s

end Verif.Props
