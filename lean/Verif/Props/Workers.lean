import Verif.Props.SchedView
import Verif.Sched.Leave

/-!
# C19, C20, C21, C27: workers come and go, results and returned tasks
-/

namespace Verif.Props

open Verif.Queue Verif.Util Verif.Wire Verif.Sched Verif.Spec

/-- What both states agree on, apart from the waiting queue, the workers and what was sent. -/
structure SameTasks (s s' : Sched) : Prop where
  task : ∀ t, s'.tm.tasks.get? t = s.tm.tasks.get? t
  owner : ∀ t, ownerOf s' t = ownerOf s t
  placed : s'.tm.pending = s.tm.pending
  claim : ∀ t, claimOf s' t = claimOf s t
  function : ∀ f, functionOf s' f = functionOf s f
  graph : ∀ g, s'.gm.graphs.get? g = s.gm.graphs.get? g
  node : ∀ t, s'.gm.nodeGraph.get? t = s.gm.nodeGraph.get? t
  queue : s'.gm.queue = s.gm.queue
  counts : s'.tm.success = s.tm.success ∧ s'.tm.failed = s.tm.failed ∧ s'.tm.canceled = s.tm.canceled ∧ s'.tm.notFound = s.tm.notFound

/-- The tasks `ts` move from their worker to the end of the waiting queue. -/
structure TakenBack (s : Sched) (ts : List Bytes) (s' : Sched) : Prop where
  same : SameTasks s s'
  once : ts.Nodup
  queue : waitingQueue s' = waitingQueue s ++ ts
  worker : ∀ t, workerOf s' t = if t ∈ ts then none else workerOf s t

theorem SameTasks.of {s s' : Sched} (w : Bytes → Option Bytes) (q : List Bytes) (u : Bytes → Bool) (o : List (Bytes × Message)) (ms : List Message)
    (h : s'.abs = { s.abs with worker := w, waiting := q, up := u, out := o, mon := ms }) : SameTasks s s' := by
  have hc := h
  simp only [Sched.abs, Abs.mk.injEq] at hc
  obtain ⟨h1, h2, h3, h4, h5, h6, h7, h8, h9, h10, h11, h12, h13, h14, h15, h16, h17, h18, h19⟩ := hc
  exact ⟨fun t => congrFun h4 t, fun t => congrFun h3 t, h7, fun t => congrFun h2 t, fun t => congrFun h1 t, fun t => congrFun h11 t,
    fun t => congrFun h12 t, h10, h13, h14, h15, h16⟩

/-- **C20.** For every reachable state and every list of ids in a balance response: if the event is handled,
exactly the listed tasks that were assigned move to the waiting queue, unknown ids are ignored, nothing is
sent and nothing else changes.  It raises only if a worker's record is out of date (C08, C28). -/
theorem C20_balance_response_partial (cfg : Config) (l : Log) (s : Sched) (hr : Reach cfg l s) (e : Event) (w : Bytes) (ids : List Bytes)
    (he : e.op = .recv w (.balanceResponse ids)) :
    (∀ s', s.step e = .ok s' → ∃ ts, TakenBack s ts s' ∧ (∀ t, t ∈ ts ↔ t ∈ ids ∧ ∃ w, workerOf s t = some w) ∧
      s'.out = s.out ∧ ∀ w, Connected s' w ↔ Connected s w) ∧
    (∀ err, s.step e = .error err → ∃ w, s.wm.alloc.queue.stale w ≠ none) := by
  have hg := hr.good
  obtain ⟨op, now, o⟩ := e
  cases he
  have hsp := Sched.onBalanceResponse_spec hg.conc (hg.inv.mono (h := ⟨l, none⟩) (h' := ⟨l, some (w, .balanceResponse ids)⟩) fun m hm => hm) hg.settled ids ⟨w, rfl⟩
  constructor
  · intro s' hs
    obtain ⟨hA, ts, h1, h2, h3, -⟩ := hsp.ok hs
    refine ⟨ts, ⟨.of _ _ _ _ _ h3, h1, ?_, ?_⟩, ?_, ?_, ?_⟩
    · exact congrArg Abs.waiting h3
    · intro t
      have h4 := congrFun (congrArg Abs.worker h3) t
      change workerOf s' t = if t ∈ ids then none else workerOf s t at h4
      rw [h4]
      by_cases e1 : t ∈ ts
      · rw [if_pos e1, if_pos ((h2 t).1 e1).1]
      · rw [if_neg e1]
        by_cases e2 : t ∈ ids
        · rw [if_pos e2]
          cases hw : workerOf s t with
          | none => rfl
          | some w => exact absurd ((h2 t).2 ⟨e2, by rw [show s.abs.worker t = some w from hw]; rfl⟩) e1
        · rw [if_neg e2]
    · intro t
      rw [h2 t, Option.isSome_iff_exists]
      rfl
    · exact congrArg Abs.out h3
    · intro w
      have := congrFun (congrArg Abs.up h3) w
      change s'.wm.alive.has w = s.wm.alive.has w at this
      unfold Connected
      rw [this]
  · intro err hs
    obtain ⟨t, _, w, _, h1 | ⟨h1, _⟩⟩ := hsp.err hs
    · exact ⟨w, h1.stale⟩
    · exact ⟨w, h1⟩

/-- a worker returns a task it was asked for, one that was never known and one that is finished -/
def returnStory : List Event :=
  [addFn, beat wk, submit [1], submit [2], submit [3], turn, turn, done [1] [7], turn, ev (.recv wk (.balanceResponse [[2], [9], [1]]))]

example : (runInit cfg0 returnStory).map (fun p => (waitingQueue p.2, workerOf p.2 [2], workerOf p.2 [3])) =
    some ([[2]], none, some wk) := by decide +kernel

/-- **C20 is false of the code** when a worker returns two tasks after a submission found it full: the
scheduler ends with `ValueError` and the tasks are lost. -/
theorem C20_return_kills : ∃ l s e, Reach cfg0 l s ∧ e.op = .recv wk (.balanceResponse [[1], [2]]) ∧
    workerOf s [1] = some wk ∧ workerOf s [2] = some wk ∧ s.step e = .error .valueError := by
  have h : (runInit cfg0 [addFn, beat wk, submit [1], submit [2], turn, turn, submit [3]]).map (fun p =>
      (workerOf p.2 [1], workerOf p.2 [2], raised (p.2.step (ev (.recv wk (.balanceResponse [[1], [2]])))))) =
      some (some wk, some wk, some .valueError) := by decide +kernel
  obtain ⟨⟨l, s⟩, hp, h⟩ := Option.map_eq_some_iff.1 h
  simp only [Prod.mk.injEq] at h
  exact ⟨l, s, ev (.recv wk (.balanceResponse [[1], [2]])), runInit_reach hp, rfl, h.1, h.2.1, raised_sound h.2.2⟩

/-- **C21.** For every reachable state and every result of a task that is with no worker: the event is
handled and changes nothing at all; in particular nothing is sent. -/
theorem C21_late_result (cfg : Config) (l : Log) (s : Sched) (hr : Reach cfg l s) (e : Event) (w t r : Bytes) (st : TaskStatus) (d : UInt32)
    (he : e.op = .recv w (.taskResult t st d r)) (hw : workerOf s t = none) : s.step e = .ok s := by
  have hg := hr.good
  have hi := hg.inv.mono (e.hist_mem l)
  obtain ⟨op, now, o⟩ := e
  cases he
  have hsp := Sched.onTaskResult_spec (w0 := w) (r := ⟨t, st, d, r⟩) hg.conc hi hg.settled o now (by
    show _ ∈ l ++ [(w, Message.taskResult t st d r)]
    simp [TaskRes.msg])
  have hw' : s.abs.worker t = none := hw
  show s.onTaskResult o now ⟨t, st, d, r⟩ = .ok s
  cases hx : s.onTaskResult o now ⟨t, st, d, r⟩ with
  | ok s' => rw [(hsp.ok hx).2.1 hw']
  | error err =>
    rcases hsp.err hx with ⟨w', h1, _⟩ | ⟨h1, _⟩
    · rw [hw'] at h1; cases h1
    · rw [hw'] at h1; cases h1

/-- The worker is lost, another one gets the task; then the first result still arrives, and once more. -/
example : (runInit cfg0 [addFn, beat wk, submit [1], turn, beat wk2, ev (.recv wk (.disconnectRequest wk)), turn]).map
      (fun p => workerOf p.2 [1]) = some (some wk2) ∧
    (runInit cfg0 [addFn, beat wk, submit [1], turn, done [1] [7]]).map
      (fun p => (workerOf p.2 [1], raised (p.2.step (done [1] [8])))) = some (none, none) := by decide +kernel

/-- **C19.** For every reachable state and every worker: if a disconnect request is handled, and the worker is
connected, exactly the tasks that were with it go back to the waiting queue and nothing else about tasks
changes; only this worker is no longer connected; the sender is told.  If the worker is not connected,
nothing changes.  The same holds for the workers that time out.  From then on it is sent no task until it
sends a heartbeat.

Full statement: additionally the event never raises.  This is false (`C19_leaving_kills`); it raises only if
the record of a leaving worker is out of date. -/
theorem C19_worker_lost_partial (cfg : Config) (l : Log) (s : Sched) (hr : Reach cfg l s) (w : Bytes) :
    (∀ e c s', e.op = .recv c (.disconnectRequest w) → s.step e = .ok s' →
      (¬ Connected s w → s' = s) ∧
      (Connected s w → ∃ ts, TakenBack s ts s' ∧ (∀ t, t ∈ ts ↔ workerOf s t = some w) ∧
        (∀ w', Connected s' w' ↔ w' ≠ w ∧ Connected s w') ∧ s'.out = s.out ++ [(c, .disconnectResponse w)])) ∧
    (∀ e s', e.op = .workerRoutine → s.step e = .ok s' →
      ∃ ts, TakenBack s ts s' ∧ (∀ t, t ∈ ts ↔ ∃ w', workerOf s t = some w' ∧ ¬ Connected s' w') ∧
        (∀ w', Connected s' w' → Connected s w') ∧ ∃ m, s'.out = s.out ++ m ∧ ∀ p ∈ m, ∃ n, p.2 = .balanceRequest n) ∧
    (∀ e c err, e.op = .recv c (.disconnectRequest w) → s.step e = .error err → Connected s w ∧ s.wm.alloc.queue.stale w ≠ none) ∧
    (∀ m s', Later l s (l ++ m) s' → ¬ Connected s w → (∀ hb, (w, .heartbeat hb) ∉ m) →
      ¬ Connected s' w ∧ ∃ o, s'.out = s.out ++ o ∧ ∀ k, (w, .task k) ∉ o) := by
  have hg := hr.good
  refine ⟨?_, ?_, ?_, ?_⟩
  · intro e c s' he hs
    obtain ⟨op, now, o⟩ := e
    cases he
    obtain ⟨h1, h2⟩ := (onDisconnect_left hg.conc hg.inv hg.settled o c w (by intro x b hx; cases hx)).ok hs
    refine ⟨fun hn => h1 (Bool.eq_false_iff.2 hn), fun hn => ?_⟩
    obtain ⟨ts, b, hL, hb⟩ := h2 hn
    have hb' := hb
    rw [hL.eq] at hb'
    refine ⟨ts, ⟨.of _ _ _ _ _ hb', hL.nodup, congrArg Abs.waiting hb', fun t => congrFun (congrArg Abs.worker hb') t⟩, ?_, ?_, congrArg Abs.out hb'⟩
    · intro t
      rw [hL.mem]
      simp [workerOf, Sched.abs]
    · intro w'
      have := congrFun (congrArg Abs.up hb') w'
      simp only [List.mem_singleton] at this
      unfold Connected
      change s'.wm.alive.has w' = if w' = w then false else s.wm.alive.has w' at this
      rw [this]
      by_cases e : w' = w <;> simp [e]
  · intro e s' he hs
    obtain ⟨op, now, o⟩ := e
    cases he
    obtain ⟨ws, ts, b, h1, hL, hb⟩ := (workerRoutine_left hg.conc hg.inv hg.settled o now (by intro x b hx; cases hx)).ok hs
    have hb' := hb
    rw [hL.eq] at hb'
    have hup : ∀ w', Connected s' w' ↔ w' ∉ ws ∧ Connected s w' := by
      intro w'
      have := congrFun (congrArg Abs.up hb') w'
      simp only at this
      unfold Connected
      change s'.wm.alive.has w' = if w' ∈ ws then false else s.wm.alive.has w' at this
      rw [this]
      by_cases e : w' ∈ ws <;> simp [e]
    refine ⟨ts, ⟨.of _ _ _ _ _ hb', hL.nodup, congrArg Abs.waiting hb', fun t => congrFun (congrArg Abs.worker hb') t⟩, ?_, fun w' h => ((hup w').1 h).2, ?_⟩
    · intro t
      rw [hL.mem]
      constructor
      · rintro ⟨w', hw, ht⟩
        exact ⟨w', ht, fun h => ((hup w').1 h).1 hw⟩
      · rintro ⟨w', ht, hn⟩
        refine ⟨w', ?_, ht⟩
        apply Classical.byContradiction
        intro hw
        exact hn ((hup w').2 ⟨hw, hg.inv.up t w' ht⟩)
    · rw [((workerRoutine_only o now).ok hs).2.1]
      obtain ⟨la, ct, out, hb, ho⟩ := balanceRequest_only s
      refine ⟨out, by rw [hb], ?_⟩
      rintro p hp
      rcases ho with rfl | rfl
      · cases hp
      · obtain ⟨q, _, rfl⟩ := List.mem_map.1 hp
        exact ⟨_, rfl⟩
  · intro e c err he hs
    obtain ⟨op, now, o⟩ := e
    cases he
    have h1 := (onDisconnect_left hg.conc hg.inv hg.settled o c w (by intro x b hx; cases hx)).err hs
    refine ⟨?_, h1⟩
    apply Classical.byContradiction
    intro hn
    have hal : s.wm.alive.has w = false := Bool.eq_false_iff.2 hn
    change s.onDisconnect o c w = .error err at hs
    unfold Sched.onDisconnect Sched.disconnectWorker at hs
    rw [hal] at hs
    simp at hs
  · intro m s' hl hn hm
    suffices h : ∀ l' s', Later l s l' s' → ∀ m, l' = l ++ m → (∀ hb, (w, .heartbeat hb) ∉ m) →
        ¬ Connected s' w ∧ ∃ o, s'.out = s.out ++ o ∧ ∀ k, (w, .task k) ∉ o from h _ _ hl m rfl hm
    clear hl hm s' m
    intro l' s' hl
    induction hl with
    | now => intro m hm hb; exact ⟨hn, [], by simp, by simp⟩
    | @step l1 s1 s2 e hl ha hs ih =>
      intro m hm hb
      obtain ⟨m1, hm1⟩ := hl.log_append
      have hm' : m = m1 ++ e.input := by
        rw [hm1, List.append_assoc] at hm
        exact (List.append_cancel_left hm).symm
      subst hm'
      obtain ⟨h1, o, h2, h3⟩ := ih m1 hm1 (fun b hb' => hb b (List.mem_append_left _ hb'))
      have hg1 := (hl.reach hr).good
      constructor
      · intro hc
        rcases step_alive hg1.conc hg1.settled hs w with ⟨b, h4, _⟩ | ⟨_, h4⟩
        · refine hb b (List.mem_append_right _ ?_)
          unfold Event.beat at h4
          unfold Event.input
          split at h4
          · next he => cases h4; rw [he]; simp
          · cases h4
        · rcases h4 with h4 | h4
          · simp [Connected, Dict.has, h4] at hc
          · simp only [Connected, Dict.has, h4] at hc h1
            exact h1 hc
      · obtain ⟨o2, h5, h6⟩ := step_tasks hg1 hs
        refine ⟨o ++ o2, by rw [h5, h2, List.append_assoc], ?_⟩
        intro k hk
        rcases List.mem_append.1 hk with hk | hk
        · exact h3 k hk
        · exact h1 (h6 w k hk).2.1

/-- Three tasks; the first worker has two of them and leaves. -/
def leaveStory : List Event :=
  [addFn, beat wk, submit [1], submit [2], turn, turn, beat wk2, submit [3], turn, ev (.recv wk (.disconnectRequest wk)), turn]

example : ((List.range 3).map fun n => (runInit cfg0 (leaveStory.take (9 + n))).map fun p =>
      (waitingQueue p.2, [workerOf p.2 [1], workerOf p.2 [2], workerOf p.2 [3]])) =
    [some ([], [some wk, some wk, some wk2]), some ([[1], [2]], [none, none, some wk2]),
     some ([[2]], [some wk2, none, some wk2])] := by decide +kernel

/-- **C19 is false of the code.** A worker is connected, a task is submitted, and the worker leaves or times
out: the scheduler ends with `AssertionError`. -/
theorem C19_leaving_kills : ∃ l s e e', Reach cfg0 l s ∧ Connected s wk ∧ workerOf s [1] = some wk ∧
    e.op = .recv wk (.disconnectRequest wk) ∧ s.step e = .error .assertionError ∧
    e'.op = .workerRoutine ∧ s.step e' = .error .assertionError := by
  have h : (runInit cfg0 [addFn, beat wk, submit [1], turn, submit [2]]).map (fun p =>
      (decide (Connected p.2 wk), workerOf p.2 [1], raised (p.2.step (ev (.recv wk (.disconnectRequest wk)))),
        raised (p.2.step (evAt 200 .workerRoutine)))) =
      some (true, some wk, some .assertionError, some .assertionError) := by decide +kernel
  obtain ⟨⟨l, s⟩, hp, h⟩ := Option.map_eq_some_iff.1 h
  simp only [Prod.mk.injEq, decide_eq_true_eq] at h
  exact ⟨l, s, ev (.recv wk (.disconnectRequest wk)), evAt 200 .workerRoutine, runInit_reach hp, h.1, h.2.1, rfl,
    raised_sound h.2.2.1, rfl, raised_sound h.2.2.2⟩

/-- The time at which the last heartbeat of the worker arrived. -/
def LastHeard (w : Bytes) (t : Int) (es : List Event) : Prop :=
  ∃ before e after hb, es = before ++ e :: after ∧ e.op = .recv w (.heartbeat hb) ∧ e.now = t ∧
    ∀ e' ∈ after, ∀ hb', e'.op ≠ .recv w (.heartbeat hb')

theorem LastHeard.unique {w : Bytes} {t t' : Int} {es : List Event} (h : LastHeard w t es) (h' : LastHeard w t' es) : t = t' := by
  obtain ⟨b, e, a, hb, h1, h2, h3, h4⟩ := h
  obtain ⟨b', e', a', hb', h1', h2', h3', h4'⟩ := h'
  rw [h1] at h1'
  rcases List.append_eq_append_iff.1 h1' with ⟨c, h5, h6⟩ | ⟨c, h5, h6⟩
  · cases c with
    | nil => simp at h6; rw [← h3, ← h3', h6.1]
    | cons x c =>
      simp at h6
      exact absurd h2' (h4 e' (by rw [h6.2]; simp) hb')
  · cases c with
    | nil => simp at h6; rw [← h3, ← h3', h6.1]
    | cons x c =>
      simp at h6
      exact absurd h2 (h4' e (by rw [h6.2]; simp) hb)

theorem beat_some {e : Event} {w : Bytes} {hb : Heartbeat} : e.beat = some (w, hb) ↔ e.op = .recv w (.heartbeat hb) := by
  unfold Event.beat
  split
  · next h => rw [h]; simp
  · next h =>
    constructor
    · intro h'; cases h'
    · intro h'; exact absurd h' (h w hb)

theorem lastHeard_of {w : Bytes} {t : Int} {es : List Event} (h : lastBeat w es = some t) : LastHeard w t es := by
  suffices ∀ (r : List Event) (t : Int), lastBeat w r.reverse = some t → LastHeard w t r.reverse by
    have h' := this es.reverse t (by rw [List.reverse_reverse]; exact h)
    rwa [List.reverse_reverse] at h'
  clear h es t
  intro r
  induction r with
  | nil => intro t h; cases h
  | cons e r ih =>
    intro t h
    rw [List.reverse_cons, lastBeat_snoc] at h
    rw [List.reverse_cons]
    have keep : (∀ hb, e.op ≠ .recv w (.heartbeat hb)) → lastBeat w r.reverse = some t → LastHeard w t (r.reverse ++ [e]) := by
      intro hne hl
      obtain ⟨b, e1, a, hb, h1, h2, h3, h4⟩ := ih t hl
      refine ⟨b, e1, a ++ [e], hb, by rw [h1]; simp, h2, h3, ?_⟩
      intro e' he' hb'
      rcases List.mem_append.1 he' with he' | he'
      · exact h4 e' he' hb'
      · rw [List.mem_singleton.1 he']; exact hne hb'
    cases hb : e.beat with
    | none =>
      rw [hb] at h
      refine keep (fun b hb' => ?_) h
      rw [beat_some.2 hb'] at hb; cases hb
    | some p =>
      obtain ⟨w', b⟩ := p
      rw [hb] at h
      simp only at h
      by_cases ew : w' = w
      · subst ew
        rw [if_pos rfl] at h
        cases h
        exact ⟨r.reverse, e, [], b, rfl, beat_some.1 hb, rfl, by simp⟩
      · rw [if_neg ew] at h
        refine keep (fun b' hb' => ?_) h
        rw [beat_some.2 hb'] at hb
        cases hb
        exact ew rfl

/-- **C27.** For every execution: a heartbeat is always handled, connects the worker, is answered with
exactly one echo, and changes nothing for other workers and for tasks.  A connected worker has sent a
heartbeat, and if the cleanup routine at time `now` is handled, it drops exactly the connected workers whose
last heartbeat arrived more than `worker_timeout_seconds` before `now`; it connects none.

(That the routine can raise: `C19_leaving_kills`.) -/
theorem C27_liveness (cfg : Config) (es : List Event) (l : Log) (s : Sched) (hx : Exec cfg es l s) :
    (∀ e w hb, e.op = .recv w (.heartbeat hb) → ∃ s', s.step e = .ok s' ∧ (∀ w', Connected s' w' ↔ w' = w ∨ Connected s w') ∧
      s'.out = s.out ++ [(w, .heartbeatEcho)] ∧ TakenBack s [] s') ∧
    (∀ w, Connected s w → ∃ t, LastHeard w t es) ∧
    (∀ e s', e.op = .workerRoutine → s.step e = .ok s' → ∀ w,
      Connected s' w ↔ Connected s w ∧ ∀ t, LastHeard w t es → e.now - t ≤ cfg.workerTimeout) := by
  have hg := hx.reach.good
  have hal := hx.alive
  have hsome : ∀ w, Connected s w → ∃ x, s.wm.alive.get? w = some x ∧ LastHeard w x.1 es := by
    intro w hw
    obtain ⟨x, hx'⟩ := Option.isSome_iff_exists.1 (show (s.wm.alive.get? w).isSome from hw)
    exact ⟨x, hx', lastHeard_of (hal w x hx')⟩
  refine ⟨?_, ?_, ?_⟩
  · intro e w hb he
    obtain ⟨op, now, o⟩ := e
    cases he
    obtain ⟨-, h2⟩ := Sched.onHeartbeat_spec (h := ⟨[(w, .heartbeat hb)], some (w, .heartbeat hb)⟩) hg.conc hg.settled w hb now List.mem_cons_self rfl
    refine ⟨_, rfl, ?_, rfl, ⟨.of _ _ _ _ _ h2, by simp, ?_, ?_⟩⟩
    · intro w'
      have := congrFun (congrArg Abs.up h2) w'
      unfold Connected
      change (s.onHeartbeat w hb now).wm.alive.has w' = upd s.abs.up w true w' at this
      rw [this]
      unfold upd
      by_cases e : w' = w
      · subst e; simp
      · simp only [e, Ne.symm e, false_or, if_false]; rfl
    · have := congrArg Abs.waiting h2
      simpa [Sched.abs, waitingQueue] using this
    · intro t
      exact congrFun (congrArg Abs.worker h2) t
  · intro w hw
    obtain ⟨x, _, h⟩ := hsome w hw
    exact ⟨_, h⟩
  · intro e s' he hs w
    obtain ⟨op, now, o⟩ := e
    cases he
    have h1 := ((workerRoutine_only o now).ok hs).2.2.2.2 w
    have hcfg := hg.cfg
    constructor
    · intro hc
      obtain ⟨x', hx'⟩ := Option.isSome_iff_exists.1 (show (s'.wm.alive.get? w).isSome from hc)
      rw [hx'] at h1
      cases hy : s.wm.alive.get? w with
      | none => rw [hy] at h1; cases h1
      | some x =>
        rw [hy] at h1
        simp only at h1
        refine ⟨by simp [Connected, Dict.has, hy], ?_⟩
        intro t ht
        have := ht.unique (lastHeard_of (hal w x hy))
        subst this
        rw [hcfg] at h1
        split at h1
        · cases h1
        · show now - x.1 ≤ _
          omega
    · rintro ⟨hc, ht⟩
      obtain ⟨x, hy, hl⟩ := hsome w hc
      rw [hy] at h1
      simp only at h1
      have := ht _ hl
      change now - x.1 ≤ _ at this
      rw [hcfg, if_neg (by omega)] at h1
      simp [Connected, Dict.has, h1]

/-- Two workers, one of them silent for 101 units; then it comes back. -/
example : ((List.range 3).map fun n => (runInit cfg0 ([beat wk, beat wk2, evAt 50 (.recv wk (.heartbeat hb0)), evAt 101 .workerRoutine,
      evAt 102 (.recv wk2 (.heartbeat hb0))].take (3 + n))).map fun p => (decide (Connected p.2 wk), decide (Connected p.2 wk2))) =
    [some (true, true), some (true, false), some (true, true)] := by decide +kernel

end Verif.Props
