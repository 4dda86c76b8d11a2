import Verif.Props.Tasks
import Verif.Props.Graphs
import Verif.Sched.Later
import Verif.Sched.Exec

/-!
# C22–C26: submission, cancellation and dispatch of tasks
-/

namespace Verif.Props

open Verif.Queue Verif.Util Verif.Wire Verif.Sched Verif.Spec

/-- The task is sent to a worker. -/
def isDispatch (t : Bytes) : Bytes × Message → Bool
  | (_, .task k) => decide (k.taskId = t)
  | _ => false

/-- The number of times the task was sent to a worker. -/
def dispatches (t : Bytes) (l : Log) : Nat := l.countP (isDispatch t)

/-- The scheduler's record of how many tasks the worker has. -/
def recordedLoad (s : Sched) (w : Bytes) : Option Int := s.wm.alloc.queue.prio w

/-- The tasks the worker has. -/
def tasksAt (s : Sched) (w : Bytes) : Option (PySet Bytes) := s.wm.alloc.w2t.get? w

/-- Some connected worker has fewer tasks than the queue size. -/
def SlotFree (s : Sched) : Prop := ∃ w ts, tasksAt s w = some ts ∧ (ts.size : Int) < s.cfg.queueSize

/-- Some connected worker has fewer tasks than the queue size according to the record. -/
def SlotRecorded (s : Sched) : Prop := ∃ w p, recordedLoad s w = some p ∧ p < s.cfg.queueSize

/-- The records are right. -/
def RecordsRight (s : Sched) : Prop := ∀ w ts, tasksAt s w = some ts → recordedLoad s w = some (ts.size : Int)

/-- A recorded free slot is free. -/
theorem SlotRecorded.free {cfg : Config} {l : Log} {s : Sched} (hr : Reach cfg l s) (h : SlotRecorded s) : SlotFree s := by
  obtain ⟨w, p, hp, hlt⟩ := h
  have hg := hr.good
  obtain ⟨ts, hts⟩ := (hg.conc.alloc.dom w).1 ⟨p, hp⟩
  have := hg.conc.alloc.load w p ts hp hts
  exact ⟨w, ts, hts, by omega⟩

theorem SlotFree.recorded {s : Sched} (hx : RecordsRight s) (h : SlotFree s) : SlotRecorded s := by
  obtain ⟨w, ts, h1, h2⟩ := h
  exact ⟨w, _, hx w ts h1, h2⟩

/-! ### Submission -/

/-- **C24, partial.** For every reachable state and every submission: the event is handled, exactly one
message is sent, and it is the echo
* `FunctionNotExists` exactly if the function is not registered;
* `NoWorker` exactly if it is registered, no worker has a free slot according to the record, and the waiting
  queue has reached a limit that is not negative;
* `SubmitOK` otherwise; exactly then the task is held and is the last of the waiting queue.
A recorded free slot is free (`SlotRecorded.free`); if the records are right, recorded and free are the same
(`SlotFree.recorded`).

Full statement: the same with `SlotFree` for `SlotRecorded`.  Missing: states with a record that is too high;
for these it is false (`C24_idle_worker_refused`). -/
theorem C24_decision_partial (cfg : Config) (l : Log) (s : Sched) (hr : Reach cfg l s) (e : Event) (c : Bytes) (k : Task)
    (he : e.op = .recv c (.task k)) (ha : Allowed l s.out (c, .task k)) (hq : 0 ≤ cfg.queueSize) :
    ∃ s' st, s.step e = .ok s' ∧ s'.out = s.out ++ [(c, .taskEcho k.taskId st)] ∧
      (st = .functionNotExists ↔ functionOf s k.functionId = none) ∧
      (st = .noWorker ↔ functionOf s k.functionId ≠ none ∧ ¬ SlotRecorded s ∧ 0 ≤ cfg.maxWaiting ∧ cfg.maxWaiting ≤ (waitingQueue s).length) ∧
      (st = .functionNotExists ∨ st = .noWorker ∨ st = .submitOK) ∧
      (st = .submitOK → waitingQueue s' = waitingQueue s ++ [k.taskId] ∧ s'.tm.tasks.get? k.taskId = some k ∧ ownerOf s' k.taskId = some c) ∧
      (st ≠ .submitOK → waitingQueue s' = waitingQueue s ∧ ¬ Holding s' k.taskId ∧ ∀ t, s'.tm.tasks.get? t = s.tm.tasks.get? t) := by
  have hg := hr.good
  obtain ⟨op, now, o⟩ := e
  cases he
  have hf := hg.fresh_task ha
  have htn := hg.inv.unused_tasks hf.1
  obtain ⟨s', hs, _, _, hcase⟩ := Sched.onTaskNew_spec (now := now) hg.conc (client := c) (k := k) htn hf.1.2.1 (Or.inl hf.1.1) (by
    intro hm
    have := (hg.inv.place _).2 (Or.inl hm)
    rw [htn] at this; cases this)
  rw [hg.cfg] at hcase
  have hav : s.Avail ↔ SlotRecorded s := Iff.rfl
  have hnh : ∀ b : Abs, s'.abs = b → b.tasks = s.abs.tasks → ¬ Holding s' k.taskId ∧ ∀ t, s'.tm.tasks.get? t = s.tm.tasks.get? t := by
    intro b e1 e2
    have : s'.abs.tasks = s.abs.tasks := by rw [e1, e2]
    have h2 : ∀ t, s'.tm.tasks.get? t = s.tm.tasks.get? t := fun t => congrFun this t
    refine ⟨?_, h2⟩
    unfold Holding
    rw [h2, show s.tm.tasks.get? k.taskId = none from htn]
    simp
  rcases hcase with ⟨h1, h2⟩ | ⟨i, h1, h3, h2⟩ | ⟨i, h1, h3, h2⟩
  · refine ⟨s', .functionNotExists, hs, congrArg Abs.out h2, ?_, ?_, Or.inl rfl, ?_, ?_⟩
    · exact ⟨fun _ => h1, fun _ => rfl⟩
    · exact ⟨fun h => (by cases h), fun h => absurd h1 h.1⟩
    · intro h; cases h
    · exact fun _ => ⟨congrArg Abs.waiting h2, hnh _ h2 rfl⟩
  · have hne : functionOf s k.functionId ≠ none := by rw [show functionOf s k.functionId = some i from h1]; simp
    refine ⟨s', .noWorker, hs, congrArg Abs.out h2, ?_, ?_, Or.inr (Or.inl rfl), ?_, ?_⟩
    · exact ⟨fun h => (by cases h), fun h => absurd h hne⟩
    · exact ⟨fun _ => ⟨hne, fun h => h3.1 hq h, h3.2⟩, fun _ => rfl⟩
    · intro h; cases h
    · exact fun _ => ⟨congrArg Abs.waiting h2, hnh _ h2 rfl⟩
  · have hne : functionOf s k.functionId ≠ none := by rw [show functionOf s k.functionId = some i from h1]; simp
    refine ⟨s', .submitOK, hs, congrArg Abs.out h2, ?_, ?_, Or.inr (Or.inr rfl), ?_, ?_⟩
    · exact ⟨fun h => (by cases h), fun h => absurd h hne⟩
    · refine ⟨fun h => (by cases h), ?_⟩
      rintro ⟨_, h4, h5, h6⟩
      rcases h3 with h3 | h3 | h3
      · omega
      · have : (s.abs.waiting.length : Int) = (waitingQueue s).length := rfl
        omega
      · exact absurd (h3 hq) h4
    · intro _
      refine ⟨congrArg Abs.waiting h2, ?_, ?_⟩
      · have := congrFun (congrArg Abs.tasks h2) k.taskId
        simpa [Abs.accept, Sched.abs] using this
      · have := congrFun (congrArg Abs.owner h2) k.taskId
        simpa [Abs.accept, Sched.abs, ownerOf] using this
    · intro h; exact absurd rfl h

/-- one slot and no waiting -/
def tight : Config := ⟨0, 1, 100, 100, 1, 2⟩

/-- A slot is free; then it is not; then no function. -/
def decisionStory : List Event :=
  [addFn, beat wk, submit [1], turn, submit [2], ev (.recv cl (.task ⟨[3], [71], []⟩))]

example : (runInit tight decisionStory).map (fun p => p.2.out.filterMap fun m => match m with
      | (c, .taskEcho t st) => some (c, t, st)
      | _ => none) =
    some [(cl, [1], .submitOK), (cl, [2], .noWorker), (cl, [3], .functionNotExists)] := by decide +kernel

/-- The only worker finishes its task after a refused submission; the next submission is refused although the
worker is idle. -/
def refusedStory : List Event := [addFn, beat wk, submit [1], turn, submit [2], done [1] [7]]

/-- **C24 is false of the code** if "no worker is available" means that no connected worker has a free slot:
the worker has no task and one slot, and the submission is answered `NoWorker`. -/
theorem C24_idle_worker_refused : ∃ l s s', Reach tight l s ∧ Allowed l s.out (cl, .task ⟨[3], fn, [⟨.data, [9]⟩]⟩) ∧
    tasksAt s wk = some PySet.empty ∧ SlotFree s ∧ s.step (submit [3]) = .ok s' ∧ s'.out = s.out ++ [(cl, .taskEcho [3] .noWorker)] := by
  have h : (runInit tight refusedStory).map (fun p => (allowedB p.1 p.2.out (cl, .task ⟨[3], fn, [⟨.data, [9]⟩]⟩),
      decide (tasksAt p.2 wk = some PySet.empty),
      (p.2.step (submit [3])).toOption.map (fun s' => decide (s'.out = p.2.out ++ [(cl, .taskEcho [3] .noWorker)])), decide (p.2.cfg.queueSize = 1))) =
      some (true, true, some true, true) := by decide +kernel
  obtain ⟨⟨l, s⟩, hp, h⟩ := Option.map_eq_some_iff.1 h
  simp only [Prod.mk.injEq, decide_eq_true_eq] at h
  obtain ⟨h1, h2, h3, h4⟩ := h
  obtain ⟨s', h5, h6⟩ := Option.map_eq_some_iff.1 h3
  refine ⟨l, s, s', runInit_reach hp, allowedB_sound h1, h2, ⟨wk, _, h2, ?_⟩, ?_, of_decide_eq_true h6⟩
  · rw [h4]; decide
  · cases hx : s.step (submit [3]) with
    | ok x => rw [hx] at h5; cases h5; rfl
    | error _ => rw [hx] at h5; cases h5

/-- **C25.** With a limit that is not negative: a submission that comes while no connected worker has a free
slot makes the waiting queue longer only if it stays within the limit. -/
theorem C25_limit (cfg : Config) (l : Log) (s s' : Sched) (hr : Reach cfg l s) (e : Event) (c : Bytes) (k : Task)
    (he : e.op = .recv c (.task k)) (ha : Allowed l s.out (c, .task k)) (hq : 0 ≤ cfg.queueSize) (hl : 0 ≤ cfg.maxWaiting)
    (hn : ¬ SlotFree s) (hs : s.step e = .ok s') :
    waitingQueue s' = waitingQueue s ∨ ((waitingQueue s').length : Int) ≤ cfg.maxWaiting := by
  obtain ⟨s1, st, h1, _, h3, h4, h5, h6, h7⟩ := C24_decision_partial cfg l s hr e c k he ha hq
  rw [hs] at h1; cases h1
  by_cases hst : st = .submitOK
  · right
    have hw := (h6 hst).1
    have hf : functionOf s k.functionId ≠ none := fun hx => by rw [h3.2 hx] at hst; cases hst
    have : ¬ (cfg.maxWaiting ≤ (waitingQueue s).length) := fun hx => by
      rw [h4.2 ⟨hf, fun hx => hn (hx.free hr), hl, hx⟩] at hst; cases hst
    rw [hw, List.length_append, List.length_singleton]
    omega
  · exact Or.inl (h7 hst).1

/-- limit one, one slot: of four submissions one is sent, one waits -/
example : (runInit ⟨1, 1, 100, 100, 1, 2⟩ [addFn, beat wk, submit [1], turn, submit [2], submit [3], submit [4]]).map
      (fun p => (waitingQueue p.2, p.2.out.countP fun m => match m.2 with | .taskEcho _ .noWorker => true | _ => false)) =
    some ([[2]], 2) := by decide +kernel

/-! ### Cancellation -/

/-- A task that is not held and not a node of a graph is not held and not sent again unless it is submitted
again. -/
theorem gone_stays {cfg : Config} {l l' : Log} {s s' : Sched} (hr : Reach cfg l s) {t : Bytes} (hn : ¬ InGraph l' t)
    (hh : ¬ Holding s t) (hl : Later l s l' s') (hsub : submits t l' = submits t l) :
    ¬ Holding s' t ∧ dispatches t s'.out = dispatches t s.out := by
  induction hl with
  | now => exact ⟨hh, rfl⟩
  | @step l1 s1 s2 e hl ha hs ih =>
    have hn1 : ¬ InGraph l1 t := fun x => hn (x.mono fun m hm => List.mem_append_left _ hm)
    have hn0 : ¬ InGraph l t := fun x => hn1 (x.mono fun m hm => hl.mem hm)
    obtain ⟨lx, hlx⟩ := hl.log_append
    have hle : submits t l ≤ submits t l1 := by rw [hlx]; unfold submits; rw [List.countP_append]; omega
    have hle2 : submits t l1 ≤ submits t (l1 ++ e.input) := by unfold submits; rw [List.countP_append]; omega
    have hsub1 : submits t l1 = submits t l := by omega
    obtain ⟨ih1, ih2⟩ := ih hn1 hsub1
    have hr1 := hl.reach hr
    have hr2 : Reach cfg (l1 ++ e.input) s2 := .step e hr1 ha hs
    obtain ⟨m, hm, hmt⟩ := step_tasks hr1.good hs
    constructor
    · intro hh2
      obtain ⟨_, h1, h2⟩ := C16_exactly_once cfg l1 s1 hr1 t hn1
      obtain ⟨_, h3, h4⟩ := C16_exactly_once cfg _ s2 hr2 t hn
      rw [if_neg ih1] at h1
      rw [if_pos hh2] at h3
      have h5 : results anyone t s1.out ≤ results anyone t s2.out := by rw [hm]; unfold results; rw [List.countP_append]; omega
      have h6 : refusals t s1.out ≤ refusals t s2.out := by rw [hm]; unfold refusals; rw [List.countP_append]; omega
      omega
    · rw [← ih2, hm]
      unfold dispatches
      rw [List.countP_append]
      have : m.countP (isDispatch t) = 0 := by
        rw [List.countP_eq_zero]
        rintro ⟨w, x⟩ hx
        cases x with
        | task k =>
          simp only [isDispatch, decide_eq_true_eq]
          rintro rfl
          have := (hmt w k hx).2.2
          exact ih1 (by unfold Holding; rw [show s1.tm.tasks.get? k.taskId = some k from this]; rfl)
        | _ => simp [isDispatch]
      omega

/-- Nodes come from received graphs. -/
theorem inGraph_of_node {cfg : Config} {l : Log} {s : Sched} (hg : Good cfg l s) {t gid : Bytes} (h : s.abs.node t = some gid) : InGraph l t := by
  obtain ⟨g, h3, h5⟩ := (hg.inv.nodes t gid).1 h
  obtain ⟨gt, hok⟩ := hg.inv.graphs gid g h3
  obtain ⟨i, hi⟩ := Option.isSome_iff_exists.1 h5
  obtain ⟨T, hT, rfl, _⟩ := hok.node t i hi
  exact ⟨g.client, gt, hok.src, List.mem_cons_of_mem _ (List.mem_map_of_mem hT)⟩

theorem cancel_hist {e : Event} {c t : Bytes} {l : Log} (he : e.op = .recv c (.taskCancel t)) : (c, .taskCancel t) ∈ e.hist l := by
  obtain ⟨op, now, o⟩ := e
  cases he
  exact List.mem_append_right _ List.mem_cons_self

/-- **C22, partial.** For every reachable state and every cancel, if the task is not a node of a graph:
* in the waiting queue: the event is handled, the only message is one `Canceled` result to the client that
  submitted it, the task is forgotten, and until it is submitted again it is not held and not sent to a worker;
* with a worker: the only message is the cancel to this worker, and nothing else changes (but for what is shown on the monitor).
The second clause holds for nodes of graphs too.

Full statement: the first clause also for nodes of graphs.  Missing: a node is answered by a graph result if
the event is handled (`C22_waiting_node`); it is not handled if another node of the graph waits
(`C22_waiting_node_kills`), so the full statement is false. -/
theorem C22_cancel_partial (cfg : Config) (l : Log) (s : Sched) (hr : Reach cfg l s) (e : Event) (c0 t : Bytes)
    (he : e.op = .recv c0 (.taskCancel t)) :
    (t ∈ waitingQueue s → ¬ InGraph l t → ∃ s' c, s.step e = .ok s' ∧ ownerOf s t = some c ∧
      s'.out = s.out ++ [(c, .taskResult t .canceled 0 [])] ∧ ¬ Holding s' t ∧ waitingQueue s' = (waitingQueue s).filter (· ≠ t) ∧
      (∀ t', t' ≠ t → s'.tm.tasks.get? t' = s.tm.tasks.get? t' ∧ workerOf s' t' = workerOf s t') ∧
      ∀ l2 s2, Later (l ++ e.input) s' l2 s2 → submits t l2 = submits t l → ¬ Holding s2 t ∧ dispatches t s2.out = dispatches t s.out) ∧
    (∀ w, workerOf s t = some w → ∃ s', s.step e = .ok s' ∧ s'.out = s.out ++ [(w, .taskCancel t)] ∧
      s'.abs = { s.abs with out := s'.out, mon := s'.mon }) := by
  have hg := hr.good
  have hsp := Sched.onTaskCancel_spec hg.conc (hg.inv.mono (e.hist_mem l)) hg.settled e.order e.now t (cancel_hist he)
  have hstep : s.step e = s.onTaskCancel e.order e.now t := by
    obtain ⟨op, now, o⟩ := e
    cases he; rfl
  rw [← hstep] at hsp
  have hex : ¬ (t ∈ waitingQueue s ∧ InGraph l t) → ∃ s', s.step e = .ok s' := by
    intro hno
    cases hx : s.step e with
    | ok s' => exact ⟨s', rfl⟩
    | error err =>
      obtain ⟨h1, gid, g, h2, h3, _⟩ := hsp.err hx
      refine absurd ⟨h1, ?_⟩ hno
      exact inGraph_of_node hg h2
  constructor
  · intro hw hn
    obtain ⟨s', hs⟩ := hex (fun h => hn h.2)
    obtain ⟨hA, -, -, hE, -⟩ := hsp.ok hs
    obtain ⟨c, h1, h2⟩ := (hE hw).single (by
      cases hx : s.abs.node t with
      | none => rfl
      | some gid => exact absurd (inGraph_of_node hg hx) hn)
    simp only at h1 h2
    have hout : s'.out = s.out ++ [(c, .taskResult t .canceled 0 [])] := congrArg Abs.out h2
    have htasks := congrArg Abs.tasks h2
    have hnot : ¬ Holding s' t := by
      have := congrFun htasks t
      simp only [Abs.retire, upd_apply, if_true] at this
      unfold Holding
      rw [show s'.tm.tasks.get? t = none from this]; simp
    have hall : ∀ m ∈ e.input, Allowed l s.out m := by
      obtain ⟨op, now, o⟩ := e
      cases he
      intro m hm
      simp only [Event.input, List.mem_singleton] at hm
      subst hm; trivial
    have hr' : Reach cfg (l ++ e.input) s' := .step e hr hall hs
    refine ⟨s', c, hs, h1, hout, hnot, congrArg Abs.waiting h2, ?_, ?_⟩
    · intro t' ht'
      have ht' : ¬ t = t' := fun h => ht' h.symm
      constructor
      · have := congrFun htasks t'
        simpa [Abs.retire, upd_apply, ht', Sched.abs] using this
      · have := congrFun (congrArg Abs.worker h2) t'
        simpa [Abs.retire, upd_apply, ht', Sched.abs, workerOf] using this
    · intro l2 s2 hl hsub
      obtain ⟨k, hk⟩ := Option.isSome_iff_exists.1 ((hg.inv.place t).2 (Or.inl hw))
      have hkey := hg.inv.key t k hk
      subst hkey
      obtain ⟨c1, hc1⟩ := (C33_after_inputs cfg l s hr k (Or.inl hk)).2 hn
      have hn2 : ¬ InGraph l2 k.taskId := (hl.reach hr').good.apart c1 k (hl.mem (List.mem_append_left _ hc1))
      have hsub' : submits k.taskId (l ++ e.input) = submits k.taskId l := by
        obtain ⟨op, now, o⟩ := e
        cases he
        simp [submits, Event.input, isSubmit]
      obtain ⟨h3, h4⟩ := gone_stays hr' hn2 hnot hl (by rw [hsub, hsub'])
      refine ⟨h3, ?_⟩
      rw [h4, hout]
      simp [dispatches, isDispatch]
  · intro w hw
    obtain ⟨s', hs⟩ := hex (fun h => by
      have := (hg.inv.apart t h.1).2
      rw [show s.abs.worker t = some w from hw] at this; cases this)
    obtain ⟨-, -, hE, -⟩ := hsp.ok hs
    have := hE w hw
    have h2 : s'.out = s.out ++ [(w, .taskCancel t)] := congrArg Abs.out this
    have h3 : s'.mon = _ := congrArg Abs.mon this
    refine ⟨s', hs, h2, ?_⟩
    rw [this, h2, h3]; rfl

/-- Two waiting, one with a worker; the second and the third are cancelled; the cancelled one is not sent. -/
def cancelStory : List Event :=
  [addFn, beat wk, submit [1], turn, submit [2], submit [3], ev (.recv cl (.taskCancel [2])), ev (.recv cl (.taskCancel [1])), turn]

example : (runInit ⟨-1, 1, 100, 100, 1, 2⟩ cancelStory).map (fun p => (p.2.out.drop 6,
      [dispatches [1] p.2.out, dispatches [2] p.2.out], waitingQueue p.2)) =
    some ([(cl, .taskResult [2] .canceled 0 []), (wk, .taskCancel [1])], [1, 0], [[3]]) := by decide +kernel

/-- **C22 is false of the code for nodes of graphs.** Two nodes of a graph wait; the client cancels one of
them; the scheduler dies with a KeyError and sends nothing. -/
theorem C22_waiting_node_kills : ∃ l s e, Reach cfg0 l s ∧ e = ev (.recv cl (.taskCancel [51])) ∧ [51] ∈ waitingQueue s ∧
    ownerOf s [51] = some cl ∧ s.step e = .error .keyError := by
  have h : (runInit cfg0 [sendGraph (graphMsg [50] [([51], []), ([52], [])] [[51], [52]]), gturn]).map (fun p =>
      (decide ([51] ∈ waitingQueue p.2), decide (ownerOf p.2 [51] = some cl), decide (raised (p.2.step (ev (.recv cl (.taskCancel [51])))) = some .keyError))) =
      some (true, true, true) := by decide +kernel
  obtain ⟨⟨l, s⟩, hp, h⟩ := Option.map_eq_some_iff.1 h
  simp only [Prod.mk.injEq, decide_eq_true_eq] at h
  exact ⟨l, s, ev (.recv cl (.taskCancel [51])), runInit_reach hp, rfl, h.1, h.2.1, raised_sound h.2.2⟩

/-- **C22, nodes.** A cancel of a waiting node, if it is handled: the messages are cancels to workers and one
`Canceled` graph result to the client of the graph; the node is not held any more. -/
theorem C22_waiting_node (cfg : Config) (l : Log) (s s' : Sched) (hr : Reach cfg l s) (e : Event) (c0 t gid : Bytes)
    (he : e.op = .recv c0 (.taskCancel t)) (hw : t ∈ waitingQueue s) (hn : s.gm.nodeGraph.get? t = some gid) (hs : s.step e = .ok s') :
    ∃ c cs, ownerOf s gid = some c ∧ s'.out = s.out ++ cs ++ [(c, .graphTaskResult gid .canceled [[]])] ∧
      (∀ m ∈ cs, ∃ w t', m = (w, .taskCancel t') ∧ workerOf s t' = some w) ∧ ¬ Holding s' t := by
  have hg := hr.good
  have hsp := Sched.onTaskCancel_spec hg.conc (hg.inv.mono (e.hist_mem l)) hg.settled e.order e.now t (cancel_hist he)
  have hstep : s.step e = s.onTaskCancel e.order e.now t := by
    obtain ⟨op, now, o⟩ := e
    cases he; rfl
  rw [← hstep] at hsp
  obtain ⟨hA, -, -, hE, -⟩ := hsp.ok hs
  obtain ⟨g, g2, i, j, ids, h1, h2, h3, h4, h5, h6, h7, h8⟩ := (hE hw).node gid hn (by simp)
  simp only at h8
  refine ⟨g.client, cancels (s.abs.retire t .canceled) g2 ids, (hg.inv.gid gid g h1).1, ?_, ?_, ?_⟩
  · have := congrArg Abs.out h8
    simpa [Abs.clean, Abs.retire, Abs.count, Sched.abs] using this
  · rintro m hm
    obtain ⟨t', ht', hx⟩ := List.mem_filterMap.1 hm
    split at hx
    · next i' hi' =>
      split at hx
      · obtain ⟨w, h9, rfl⟩ := Option.map_eq_some_iff.1 hx
        refine ⟨w, t', rfl, ?_⟩
        simp only [Abs.retire, Abs.count, upd_apply] at h9
        split at h9
        · cases h9
        · exact h9
      · cases hx
    · cases hx
  · have := congrFun (congrArg Abs.tasks h8) t
    unfold Holding
    rw [show s'.tm.tasks.get? t = none by simpa [Abs.clean, Abs.retire, Abs.count, Sched.abs] using this]
    simp

example : (runInit cfg0 [sendGraph (graphMsg [50] [([51], []), ([52], [ref [51]])] [[52]]), gturn, ev (.recv cl (.taskCancel [51]))]).map
      (fun p => (p.2.out.getLast?, waitingQueue p.2)) = some (some (cl, .graphTaskResult [50] .canceled [[]]), []) := by decide +kernel

/-- A task arrives while nobody is connected and is taken from the queue; then it is cancelled. -/
def limboStory : List Event := [addFn, submit [1], turn]

/-- **C23 is false of the code.** The task is held and its cancel sends nothing and changes nothing; the task
is later sent to a worker. -/
theorem C23_cancel_lost : ∃ l s s1 l2 s2, Reach cfg0 l s ∧ Holding s [1] ∧ ownerOf s [1] = some cl ∧
    s.step (ev (.recv cl (.taskCancel [1]))) = .ok s1 ∧ s1.out = s.out ∧
    Later (l ++ (ev (.recv cl (.taskCancel [1]))).input) s1 l2 s2 ∧ submits [1] l2 = submits [1] l ∧ dispatches [1] s2.out = 1 := by
  have h : (runInit cfg0 limboStory).bind (fun p => (p.2.step (ev (.recv cl (.taskCancel [1])))).toOption.bind fun s1 =>
      (runFrom (p.1 ++ (ev (.recv cl (.taskCancel [1]))).input) s1 [beat wk, turn]).map fun q =>
      (decide (Holding p.2 [1]), decide (ownerOf p.2 [1] = some cl), decide (s1.out = p.2.out), decide (submits [1] q.1 = submits [1] p.1),
       decide (dispatches [1] q.2.out = 1))) =
      some (true, true, true, true, true) := by decide +kernel
  obtain ⟨⟨l, s⟩, hp, h⟩ := Option.bind_eq_some_iff.1 h
  obtain ⟨s1, h1, h⟩ := Option.bind_eq_some_iff.1 h
  obtain ⟨⟨l2, s2⟩, hq, h⟩ := Option.map_eq_some_iff.1 h
  simp only [Prod.mk.injEq, decide_eq_true_eq] at h
  refine ⟨l, s, s1, l2, s2, runInit_reach hp, h.1, h.2.1, ?_, h.2.2.1, runFrom_later _ .now hq, h.2.2.2.1, h.2.2.2.2⟩
  simp only at h1
  cases hx : s.step (ev (.recv cl (.taskCancel [1]))) with
  | ok x => rw [hx] at h1; cases h1; rfl
  | error _ => rw [hx] at h1; cases h1

/-- **C23, partial.** For every reachable state and every cancel of a held task that is not being placed, if it
is handled: it is forwarded to the worker that has the task, or answered `Canceled` (for a node of a graph by
a graph result).

Full statement: the same for every held task.  Missing: the task that was taken from the queue while nobody
was connected; for this one it is false (`C23_cancel_lost`).  An event that is not handled is one of
`C22_waiting_node_kills`. -/
theorem C23_cancel_partial (cfg : Config) (l : Log) (s s' : Sched) (hr : Reach cfg l s) (e : Event) (c0 t : Bytes)
    (he : e.op = .recv c0 (.taskCancel t)) (hh : Holding s t) (hp : beingPlaced s ≠ some t) (hs : s.step e = .ok s') :
    (∃ w, workerOf s t = some w ∧ s'.out = s.out ++ [(w, .taskCancel t)]) ∨
    (∃ c, ownerOf s t = some c ∧ s'.out = s.out ++ [(c, .taskResult t .canceled 0 [])]) ∨
    (∃ gid c cs, s.gm.nodeGraph.get? t = some gid ∧ ownerOf s gid = some c ∧ s'.out = s.out ++ cs ++ [(c, .graphTaskResult gid .canceled [[]])]) := by
  rcases ((C18_one_place cfg l s hr t).1.1 hh) with h | h | ⟨w, h⟩
  · right
    cases hn : s.gm.nodeGraph.get? t with
    | none =>
      left
      have hg := hr.good
      have hsp := Sched.onTaskCancel_spec hg.conc (hg.inv.mono (e.hist_mem l)) hg.settled e.order e.now t (cancel_hist he)
      have hstep : s.step e = s.onTaskCancel e.order e.now t := by
        obtain ⟨op, now, o⟩ := e
        cases he; rfl
      rw [← hstep] at hsp
      obtain ⟨c, h1, h2⟩ := ((hsp.ok hs).2.2.2.1 h).single hn
      exact ⟨c, h1, congrArg Abs.out h2⟩
    | some gid =>
      obtain ⟨c, cs, h1, h2, -⟩ := C22_waiting_node cfg l s s' hr e c0 t gid he h hn hs
      exact Or.inr ⟨gid, c, cs, rfl, h1, h2⟩
  · exact absurd h hp
  · obtain ⟨s1, h1, h2, -⟩ := (C22_cancel_partial cfg l s hr e c0 t he).2 w h
    rw [hs] at h1; cases h1
    exact Or.inl ⟨w, h, h2⟩

end Verif.Props
