import Verif.Props.Admission

/-!
# C26: in which order tasks are sent to workers
-/

namespace Verif.Props

open Verif.Queue Verif.Util Verif.Wire Verif.Sched Verif.Spec

/-- The next task: the one being placed, or else the first of the waiting queue; and what waits behind it. -/
def NextTask (s : Sched) (k : Task) (rest : List Bytes) : Prop :=
  s.tm.tasks.get? k.taskId = some k ∧
  (beingPlaced s = some k.taskId ∧ waitingQueue s = rest ∨ beingPlaced s = none ∧ waitingQueue s = k.taskId :: rest)

/-- What was submitted, as a single task or as the node of a graph with its inputs filled in. -/
def Submitted (l : Log) (k : Task) : Prop :=
  (∃ c, (c, .task k) ∈ l) ∨
  ∃ c g T, (c, .graphTask g) ∈ l ∧ T ∈ g.graph ∧ k.taskId = T.taskId ∧ k.functionId = T.functionId ∧ Filled l T.args k.args

/-- **C26, partial.** A turn of the task routine, in every reachable state with a next task:
* if some worker has a free slot according to the record, exactly one message is sent: this task, as it was
  submitted, to a worker with the least recorded load; the others keep their order;
* if nobody is connected, the task waits in hand and nothing is sent;
* if workers are connected but none has a recorded free slot, nothing is sent and the task goes to the end.

Full statement: the first clause with `SlotFree` for `SlotRecorded`.  Missing: states with a record that is
too high; for these it is false (`C26_order_inverted`, `C26_idle_forever`). -/
theorem C26_turn_partial (cfg : Config) (l : Log) (s : Sched) (hr : Reach cfg l s) (e : Event) (he : e.op = .taskRoutine) (hq : 0 ≤ cfg.queueSize)
    (k : Task) (rest : List Bytes) (hn : NextTask s k rest) :
    ∃ s', s.step e = .ok s' ∧ Submitted l k ∧
      (SlotRecorded s → ∃ w p, recordedLoad s w = some p ∧ p < cfg.queueSize ∧ (∀ w' p', recordedLoad s w' = some p' → p ≤ p') ∧
        Connected s w ∧ s'.out = s.out ++ [(w, .task k)] ∧ waitingQueue s' = rest ∧ beingPlaced s' = none ∧ workerOf s' k.taskId = some w) ∧
      ((∀ w, ¬ Connected s w) → s'.out = s.out ∧ waitingQueue s' = rest ∧ beingPlaced s' = some k.taskId) ∧
      ((∃ w, Connected s w) → ¬ SlotRecorded s → s'.out = s.out ∧ waitingQueue s' = rest ++ [k.taskId] ∧ beingPlaced s' = none) := by
  have hg := hr.good
  obtain ⟨op, now, o⟩ := e
  cases he
  obtain ⟨s', hs, hA, hx⟩ := Sched.taskRoutine_ok hg.conc hg.inv hg.settled
  have hcon : ∀ w, Connected s w ↔ ∃ p, recordedLoad s w = some p := by
    intro w
    rw [show (∃ p, recordedLoad s w = some p) ↔ _ from hg.conc.alloc.dom w, ← Option.isSome_iff_exists]
    exact hg.conc.alive w
  refine ⟨s', hs, ?_, ?_⟩
  · obtain ⟨h1, h2⟩ := C33_after_inputs cfg l s hr k (Or.inl hn.1)
    by_cases hig : InGraph l k.taskId
    · exact Or.inr (h1 hig)
    · exact Or.inl (h2 hig)
  · have hk : ∃ k1 rest1, Sched.Next s.abs k1 rest1 ∧ Sched.Placed s k1 rest1 s' := by
      rcases hx with ⟨h1, h2, _⟩ | h
      · rcases hn.2 with ⟨h3, _⟩ | ⟨_, h3⟩
        · rw [beingPlaced, show s.tm.pending = none from h1] at h3; cases h3
        · rw [show waitingQueue s = [] from h2] at h3; cases h3
      · exact h
    obtain ⟨k1, rest1, hN, hP⟩ := hk
    obtain ⟨rfl, rfl⟩ : k1 = k ∧ rest1 = rest := by
      have hkk : s.tm.tasks.get? k1.taskId = some k1 := hN.elim (fun h => hg.inv.pend _ h.1) (fun h => h.2.2)
      rcases hN with ⟨h1, h2⟩ | ⟨h1, h2, h3⟩ <;> rcases hn.2 with ⟨h4, h5⟩ | ⟨h4, h5⟩
      · have e1 : k1.taskId = k.taskId := by
          rw [beingPlaced, show s.tm.pending = some k1 from h1] at h4
          simpa using h4
        rw [e1, hn.1] at hkk
        exact ⟨(Option.some.inj hkk).symm, by rw [← h2, ← h5]; rfl⟩
      · rw [beingPlaced, show s.tm.pending = some k1 from h1] at h4; cases h4
      · rw [beingPlaced, show s.tm.pending = none from h1] at h4; cases h4
      · have e0 : k.taskId :: rest = k1.taskId :: rest1 := by rw [← h5, ← h2]; rfl
        obtain ⟨e1, e2⟩ := List.cons.inj e0
        rw [← e1, hn.1] at hkk
        exact ⟨(Option.some.inj hkk).symm, e2.symm⟩
    have hplaced : ∀ b : Abs, s'.abs = b → beingPlaced s' = b.pending.map (·.taskId) := fun b e => by rw [← e]; rfl
    cases hP with
    | nobody hw hb =>
      have hno : ∀ w, ¬ Connected s w := fun w h => by
        obtain ⟨p, hp⟩ := (hcon w).1 h
        rw [show recordedLoad s w = none from hw w] at hp; cases hp
      refine ⟨?_, ?_, ?_⟩
      · rintro ⟨w, p, hp, _⟩
        exact absurd ((hcon w).2 ⟨p, hp⟩) (hno w)
      · exact fun _ => ⟨congrArg Abs.out hb, congrArg Abs.waiting hb, hplaced _ hb⟩
      · rintro ⟨w, hw⟩; exact absurd hw (hno w)
    | full hw hf _ hb =>
      obtain ⟨w, p, hp⟩ := hw
      refine ⟨?_, ?_, ?_⟩
      · rintro ⟨w, p, hp, hlt⟩
        have := hf w p hp
        omega
      · exact fun h => absurd ((hcon w).2 ⟨p, hp⟩) (h w)
      · exact fun _ _ => ⟨congrArg Abs.out hb, congrArg Abs.waiting hb, hplaced _ hb⟩
    | sent w p hp hne hl hb =>
      have hlt : p < cfg.queueSize := by
        have := hg.conc.alloc.cap (by rw [hg.conc.max, hg.cfg]; exact hq) w p hp
        rw [hg.conc.max] at this
        rw [hg.cfg] at this hne
        omega
      refine ⟨?_, ?_, ?_⟩
      · intro _
        refine ⟨w, p, hp, hlt, hl, (hcon w).2 ⟨p, hp⟩, congrArg Abs.out hb, congrArg Abs.waiting hb, hplaced _ hb, ?_⟩
        have := congrFun (congrArg Abs.worker hb) k1.taskId
        simpa [upd_apply, Sched.abs, workerOf] using this
      · exact fun h => absurd ((hcon w).2 ⟨p, hp⟩) (h w)
      · intro _ h
        exact absurd ⟨w, p, hp, by rw [hg.cfg]; exact hlt⟩ h

/-- Consecutive turns, all of which find a recorded free slot; `ms` is what they send. -/
inductive Turns : Sched → Log → Sched → Prop
  | nil (s) : Turns s [] s
  | cons {s s1 s2 : Sched} {m : Bytes × Message} {ms : Log} (e : Event) (he : e.op = .taskRoutine) (hf : SlotRecorded s) (hw : waitingQueue s ≠ [])
      (hs : s.step e = .ok s1) (hm : s1.out = s.out ++ [m]) (ht : Turns s1 ms s2) : Turns s (m :: ms) s2

/-- **C26, many turns.** Consecutive turns that find a free slot send the waiting tasks in their order, each once. -/
theorem C26_turns (cfg : Config) (l : Log) (s s' : Sched) (ms : Log) (hr : Reach cfg l s) (hq : 0 ≤ cfg.queueSize) (hp : beingPlaced s = none)
    (h : Turns s ms s') :
    ms.map (fun m => match m.2 with | .task k => some k.taskId | _ => none) = ((waitingQueue s).take ms.length).map some ∧
    waitingQueue s' = (waitingQueue s).drop ms.length := by
  induction h generalizing l with
  | nil => simp
  | @cons s s1 s2 m ms e he hf hw hs hm ht ih =>
    obtain ⟨t, rest, hc⟩ := List.exists_cons_of_ne_nil hw
    obtain ⟨k, hk⟩ := Option.isSome_iff_exists.1 ((hr.good.inv.place t).2 (Or.inl (by
      show t ∈ waitingQueue s
      rw [hc]; exact List.mem_cons_self)))
    have hkey := hr.good.inv.key t k hk
    subst hkey
    obtain ⟨s1', h1, -, h2, -⟩ := C26_turn_partial cfg l s hr e he hq k rest ⟨hk, Or.inr ⟨hp, hc⟩⟩
    rw [hs] at h1; cases h1
    obtain ⟨w, p, -, -, -, -, h3, h4, h5, -⟩ := h2 hf
    rw [h3] at hm
    have hmm : m = (w, .task k) := by simpa using hm.symm
    subst hmm
    have hr1 : Reach cfg (l ++ e.input) s1 := .step e hr (by
      obtain ⟨op, now, o⟩ := e
      cases he
      intro m hm; cases hm) hs
    obtain ⟨ih1, ih2⟩ := ih _ hr1 h5
    rw [h4] at ih1 ih2
    constructor
    · rw [hc]; simp [ih1]
    · rw [hc]; simp [ih2]

/-- three tasks, two workers -/
def orderStory : List Event := [addFn, submit [1], submit [2], submit [3], beat wk, beat wk2]

example : ∃ l s s', Reach cfg0 l s ∧ waitingQueue s = [[1], [2], [3]] ∧ beingPlaced s = none ∧
    Turns s [(wk, .task ⟨[1], fn, [val [9]]⟩), (wk2, .task ⟨[2], fn, [val [9]]⟩)] s' := by
  have h : (runInit cfg0 orderStory).bind (fun p => (p.2.step turn).toOption.bind fun s1 => (s1.step turn).toOption.map fun s2 =>
      ([decide (waitingQueue p.2 = [[1], [2], [3]]), decide (beingPlaced p.2 = none), decide (s1.out = p.2.out ++ [(wk, .task ⟨[1], fn, [val [9]]⟩)]),
        decide (s2.out = s1.out ++ [(wk2, .task ⟨[2], fn, [val [9]]⟩)]), decide (waitingQueue s1 ≠ [])],
       [decide (recordedLoad p.2 wk = some 0), decide (p.2.cfg.queueSize = 2), decide (recordedLoad s1 wk2 = some 0), decide (s1.cfg.queueSize = 2)])) =
      some ([true, true, true, true, true], [true, true, true, true]) := by decide +kernel
  obtain ⟨⟨l, s⟩, hp, h⟩ := Option.bind_eq_some_iff.1 h
  obtain ⟨s1, h1, h⟩ := Option.bind_eq_some_iff.1 h
  obtain ⟨s2, h2, h⟩ := Option.map_eq_some_iff.1 h
  simp only [Prod.mk.injEq, List.cons.injEq, decide_eq_true_eq, and_true] at h
  obtain ⟨⟨a1, a2, a3, a4, a5⟩, a6, a7, a8, a9⟩ := h
  have ok : ∀ (x : Sched) {y : Sched}, (x.step turn).toOption = some y → x.step turn = .ok y := by
    intro x y hxy
    cases hx : x.step turn with
    | ok z => rw [hx] at hxy; cases hxy; rfl
    | error _ => rw [hx] at hxy; cases hxy
  refine ⟨l, s, s2, runInit_reach hp, a1, a2, .cons turn rfl ⟨wk, 0, a6, by rw [a7]; decide⟩ (by rw [a1]; simp) (ok s h1) a3
    (.cons turn rfl ⟨wk2, 0, a8, by rw [a9]; decide⟩ a5 (ok s1 h2) a4 (.nil s2))⟩

/-! ### What goes wrong -/

def single : Config := ⟨-1, 1, 100, 100, 1, 2⟩

/-- One worker with one slot.  A task is submitted while the first one runs; the first one finishes. -/
def idleStory : List Event := [addFn, beat wk, submit [1], turn, submit [2], submit [3], done [1] [7]]

/-- **C26 is false of the code.** The worker is idle, so it has a free slot; task 2 is before task 3; task 3 is
sent first, to a worker that connects later, while task 2 still waits. -/
theorem C26_order_inverted : ∃ l s l2 s2, Reach single l s ∧ waitingQueue s = [[2], [3]] ∧ SlotFree s ∧ Later l s l2 s2 ∧
    dispatches [3] s2.out = 1 ∧ dispatches [2] s2.out = 0 ∧ waitingQueue s2 = [[2]] := by
  have h : (runInit single idleStory).bind (fun p => (runFrom p.1 p.2 [turn, beat wk2, turn]).map fun q =>
      ([decide (waitingQueue p.2 = [[2], [3]]), decide (tasksAt p.2 wk = some PySet.empty), decide (p.2.cfg.queueSize = 1)],
       [decide (dispatches [3] q.2.out = 1), decide (dispatches [2] q.2.out = 0), decide (waitingQueue q.2 = [[2]])])) =
      some ([true, true, true], [true, true, true]) := by decide +kernel
  obtain ⟨⟨l, s⟩, hp, h⟩ := Option.bind_eq_some_iff.1 h
  obtain ⟨⟨l2, s2⟩, hq, h⟩ := Option.map_eq_some_iff.1 h
  simp only [Prod.mk.injEq, List.cons.injEq, decide_eq_true_eq, and_true] at h
  obtain ⟨⟨a1, a2, a3⟩, a4, a5, a6⟩ := h
  exact ⟨l, s, l2, s2, runInit_reach hp, a1, ⟨wk, _, a2, by rw [a3]; decide⟩, runFrom_later _ .now hq, a4, a5, a6⟩

/-- Every connected worker is recorded as full, and there is one. -/
def AllFull (s : Sched) : Prop := (∃ w, Connected s w) ∧ ∀ w p, recordedLoad s w = some p → p = s.cfg.queueSize

/-- Turns of the task routine, submissions, and heartbeats of connected workers. -/
inductive Onward (l : Log) (s : Sched) : Log → Sched → Prop
  | now : Onward l s l s
  | step {l' : Log} {s' s'' : Sched} (e : Event) (hr : Onward l s l' s') (ha : ∀ m ∈ e.input, Allowed l' s'.out m)
      (he : e.op = .taskRoutine ∨ (∃ c k, e.op = .recv c (.task k)) ∨ ∃ w hb, e.op = .recv w (.heartbeat hb) ∧ Connected s' w)
      (hs : s'.step e = .ok s'') : Onward l s (l' ++ e.input) s''

theorem Onward.later {l l' : Log} {s s' : Sched} (h : Onward l s l' s') : Later l s l' s' := by
  induction h with
  | now => exact .now
  | step e _ ha _ hs ih => exact .step e ih ha hs

theorem AllFull.onward {cfg : Config} {l l' : Log} {s s' : Sched} (hr : Reach cfg l s) (hf : AllFull s)
    (h : Onward l s l' s') : AllFull s' ∧ (∀ t, workerOf s' t = workerOf s t) ∧ ∃ m, s'.out = s.out ++ m ∧ ∀ w k, (w, .task k) ∉ m := by
  induction h with
  | now => exact ⟨hf, fun _ => rfl, [], by simp, by simp⟩
  | @step l1 s1 s2 e h ha he hs ih =>
    obtain ⟨⟨⟨w0, hw0⟩, hF⟩, hW, m, hm, hmt⟩ := ih
    have hr1 := h.later.reach hr
    have hg := hr1.good
    have hcon : ∀ w, Connected s1 w → ∃ p, recordedLoad s1 w = some p := by
      intro w hw
      exact (hg.conc.alloc.dom w).2 (Option.isSome_iff_exists.1 ((hg.conc.alive w).1 hw))
    obtain ⟨op, now, o⟩ := e
    rcases he with rfl | ⟨c, k, rfl⟩ | ⟨w, hb, rfl, hw⟩
    · obtain ⟨s3, h1, hA, hx⟩ := Sched.taskRoutine_ok hg.conc hg.inv hg.settled
      have h1' : s1.taskRoutine = .ok s2 := hs
      rw [h1'] at h1; cases h1
      rcases hx with ⟨-, -, rfl⟩ | ⟨k, rest, hN, hP⟩
      · exact ⟨⟨⟨w0, hw0⟩, hF⟩, hW, m, hm, hmt⟩
      · cases hP with
        | nobody hw hb =>
          obtain ⟨p, hp⟩ := hcon w0 hw0
          rw [show recordedLoad s1 w0 = none from hw w0] at hp; cases hp
        | full _ _ hsame hb =>
          refine ⟨⟨⟨w0, ?_⟩, ?_⟩, ?_, m, ?_, hmt⟩
          · have := congrFun (congrArg Abs.up hb) w0
            change s2.wm.alive.has w0 = s1.wm.alive.has w0 at this
            unfold Connected; rw [this]; exact hw0
          · intro w p hp
            rw [recordedLoad, hsame] at hp
            rw [hA.cfg]; exact hF w p hp
          · intro t
            rw [← hW t]; exact congrFun (congrArg Abs.worker hb) t
          · rw [← hm]; exact congrArg Abs.out hb
        | sent w p hp hne _ _ => exact absurd (hF w p hp) hne
    · have hal : Allowed l1 s1.out (c, .task k) := ha _ (by simp [Event.input])
      have hf := hg.fresh_task hal
      have htn := hg.inv.unused_tasks hf.1
      obtain ⟨s3, h1, _, ⟨hcfg, hprio⟩, hcase⟩ := Sched.onTaskNew_spec (now := now) hg.conc (client := c) (k := k) htn hf.1.2.1 (Or.inl hf.1.1) (by
        intro hm
        have := (hg.inv.place _).2 (Or.inl hm)
        rw [htn] at this; cases this)
      have h1' : s1.onTaskNew c k now = .ok s2 := hs
      rw [h1'] at h1; cases h1
      have hup : s2.abs.up = s1.abs.up ∧ s2.abs.worker = s1.abs.worker ∧ ∃ st, s2.abs.out = s1.abs.out ++ [(c, .taskEcho k.taskId st)] := by
        rcases hcase with ⟨_, e⟩ | ⟨_, _, _, e⟩ | ⟨_, _, _, e⟩ <;> rw [e] <;> exact ⟨rfl, rfl, _, rfl⟩
      obtain ⟨hu, hwk, st, hout⟩ := hup
      refine ⟨⟨⟨w0, ?_⟩, ?_⟩, ?_, m ++ [(c, .taskEcho k.taskId st)], ?_, ?_⟩
      · have := congrFun hu w0
        change s2.wm.alive.has w0 = s1.wm.alive.has w0 at this
        unfold Connected; rw [this]; exact hw0
      · intro w p hp
        rw [recordedLoad, hprio] at hp
        rw [hcfg]; exact hF w p hp
      · intro t; rw [← hW t]; exact congrFun hwk t
      · rw [← List.append_assoc, ← hm]; exact hout
      · intro w k' hx
        rcases List.mem_append.1 hx with hx | hx
        · exact hmt w k' hx
        · simp at hx
    · have h1' : s1.onHeartbeat w hb now = s2 := by
        have : Except.ok (s1.onHeartbeat w hb now) = Except.ok s2 := hs
        cases this; rfl
      obtain ⟨ws, hws⟩ := Option.isSome_iff_exists.1 ((hg.conc.alive w).1 hw)
      have halloc : s2.wm.alloc = s1.wm.alloc := by
        rw [← h1']
        simp only [Sched.onHeartbeat, Alloc.addWorker_old hws]
        rfl
      obtain ⟨hA, habs⟩ := Sched.onHeartbeat_spec (h := ⟨[(w, .heartbeat hb)], some (w, .heartbeat hb)⟩) hg.conc hg.settled w hb now List.mem_cons_self rfl
      rw [h1'] at hA habs
      refine ⟨⟨⟨w, ?_⟩, ?_⟩, ?_, m ++ [(w, .heartbeatEcho)], ?_, ?_⟩
      · have := congrFun (congrArg Abs.up habs) w
        change s2.wm.alive.has w = upd s1.abs.up w true w at this
        unfold Connected; rw [this]; simp [upd_apply]
      · intro w' p hp
        rw [recordedLoad, halloc] at hp
        rw [hA.cfg]; exact hF w' p hp
      · intro t; rw [← hW t]; unfold workerOf; rw [halloc]
      · rw [← List.append_assoc, ← hm]; exact congrArg Abs.out habs
      · intro w' k' hx
        rcases List.mem_append.1 hx with hx | hx
        · exact hmt w' k' hx
        · simp at hx

/-- **The consequence for C11 and C26.** After the seven events of `idleStory` the only worker is connected and
has no task, two tasks wait, and nobody ever gets a task: whatever turns, submissions and heartbeats of this
worker follow, no task is sent. -/
theorem C26_idle_forever : ∃ l s, Reach single l s ∧ Connected s wk ∧ tasksAt s wk = some PySet.empty ∧ waitingQueue s = [[2], [3]] ∧
    ∀ l2 s2, Onward l s l2 s2 → (∀ t, dispatches t s2.out = dispatches t s.out) ∧ ∀ t, workerOf s2 t = none := by
  have h : (runInit single idleStory).map (fun p =>
      ([decide (Connected p.2 wk), decide (tasksAt p.2 wk = some PySet.empty), decide (waitingQueue p.2 = [[2], [3]])],
       [decide (p.2.wm.alloc.w2t.keys = [wk]), decide (p.2.wm.alloc.t2w.keys = []), decide (recordedLoad p.2 wk = some 1),
        decide (p.2.cfg.queueSize = 1)])) = some ([true, true, true], [true, true, true, true]) := by decide +kernel
  obtain ⟨⟨l, s⟩, hp, h⟩ := Option.map_eq_some_iff.1 h
  simp only [Prod.mk.injEq, List.cons.injEq, decide_eq_true_eq, and_true] at h
  obtain ⟨⟨a1, a2, a3⟩, a4, a5, a6, a7⟩ := h
  have hr : Reach single l s := runInit_reach hp
  refine ⟨l, s, hr, a1, a2, a3, ?_⟩
  have hf : AllFull s := by
    refine ⟨⟨wk, a1⟩, ?_⟩
    intro w p hw
    obtain ⟨ts, hts⟩ := (hr.good.conc.alloc.dom w).1 ⟨p, hw⟩
    have : w ∈ s.wm.alloc.w2t.keys := by
      rw [Dict.mem_keys_isSome, hts]; rfl
    rw [a4, List.mem_singleton] at this
    subst this
    rw [a6] at hw
    rw [a7]; exact (Option.some.inj hw).symm
  have hnone : ∀ t, workerOf s t = none := by
    intro t
    cases hx : workerOf s t with
    | none => rfl
    | some w =>
      have : t ∈ s.wm.alloc.t2w.keys := by
        rw [Dict.mem_keys_isSome, show s.wm.alloc.t2w.get? t = some w from hx]; rfl
      rw [a5] at this; cases this
  intro l2 s2 ho
  obtain ⟨-, h2, m, h3, h4⟩ := hf.onward hr ho
  refine ⟨?_, fun t => (h2 t).trans (hnone t)⟩
  intro t
  rw [h3]
  unfold dispatches
  rw [List.countP_append]
  have : m.countP (isDispatch t) = 0 := by
    rw [List.countP_eq_zero]
    rintro ⟨w, x⟩ hx
    cases x with
    | task k => exact absurd hx (h4 w k)
    | _ => simp [isDispatch]
  omega

end Verif.Props
