import Verif.Props.Dispatch
import Verif.Props.Survive
import Verif.Props.Workers
import Verif.Props.Allocator
import Verif.Sched.Timely

/-!
# C11, C19, C20, C24, C26, C28 when the task routine gets its turns

The out-of-date locator of C08 is behind many of the failures.  `has_available_worker`, called for each submission,
causes it, and the next assignment cures it.  Here it is shown that nothing goes wrong in the executions where the
task routine has its turn in between (`Spec.Prompt`), if the limit on waiting tasks is not 0.
-/

namespace Verif.Props

open Verif.Queue Verif.Util Verif.Wire Verif.Sched Verif.Spec

theorem runFrom_exec {cfg : Config} : ∀ (es' : List Event) {es : List Event} {l : Log} {s : Sched} {p : Log × Sched}, Exec cfg es l s →
    runFrom l s es' = some p → Exec cfg (es ++ es') p.1 p.2
  | [], es, l, s, p, hr, hp => by cases hp; simpa using hr
  | e :: es', es, l, s, p, hr, hp => by
    rw [runFrom] at hp
    split at hp
    · next ha =>
      split at hp
      · next s' hs =>
        have := runFrom_exec es' (.step e hr (fun m hm => allowedB_sound (List.all_eq_true.1 ha m hm)) hs) hp
        simpa using this
      · cases hp
    · cases hp

theorem runInit_exec {cfg : Config} {es : List Event} {p : Log × Sched} (hp : runInit cfg es = some p) : Exec cfg es p.1 p.2 := by
  have := runFrom_exec es Exec.init hp
  simpa using this

/-- The records are right. -/
theorem prompt_records {cfg : Config} {es : List Event} {l : Log} {s : Sched} (h : Exec cfg es l s) (hp : Prompt es) (hm : cfg.maxWaiting ≠ 0) :
    RecordsRight s := by
  obtain ⟨d, hd⟩ := Option.ne_none_iff_exists'.1 hp
  have ht := h.timely hm hd
  intro w ts hts
  obtain ⟨p, hp⟩ := h.reach.good.conc.alloc.prio_some hts
  rw [← ht.near.load w p ts hp hts]
  exact hp

/-- The event is one that waits for the turn of the task routine. -/
def Waits (e : Event) : Prop := nextDue true e = none

/-- No locator entry is out of date when such an event happens. -/
theorem prompt_fresh {cfg : Config} {es : List Event} {l : Log} {s : Sched} {e : Event} (h : Exec cfg es l s) (hp : Prompt (es ++ [e]))
    (hm : cfg.maxWaiting ≠ 0) (hw : Waits e) (w : Bytes) : s.wm.alloc.queue.stale w = none := by
  obtain ⟨d, hd⟩ := Option.ne_none_iff_exists'.1 hp.init
  have h1 : d = false := by
    cases d with
    | false => rfl
    | true =>
      refine absurd ?_ hp
      rw [turnDue_snoc, hd]
      exact hw
  exact ((h.timely hm hd).exact h1).fresh w

/-! ### Submission and dispatch -/

/-- **C24, when the task routine gets its turns.** Every submission is answered by exactly one echo:
`FunctionNotExists` exactly if the function is not registered; `NoWorker` exactly if it is registered, every
connected worker has as many tasks as its queue takes, and the waiting queue has reached a limit that is not
negative; else `SubmitOK`, and exactly then the task is held and is the last of the waiting queue.

Full statement: the same for all executions.  Missing: executions in which other events do not wait for the task
routine, and a limit of 0; for these it is false (`C24_idle_worker_refused`, `C24_prompt_limit`). -/
theorem C24_prompt_partial (cfg : Config) (es : List Event) (l : Log) (s : Sched) (h : Exec cfg es l s) (hp : Prompt es) (hm : cfg.maxWaiting ≠ 0)
    (e : Event) (c : Bytes) (k : Task) (he : e.op = .recv c (.task k)) (ha : Allowed l s.out (c, .task k)) (hq : 0 ≤ cfg.queueSize) :
    ∃ s' st, s.step e = .ok s' ∧ s'.out = s.out ++ [(c, .taskEcho k.taskId st)] ∧
      (st = .functionNotExists ↔ functionOf s k.functionId = none) ∧
      (st = .noWorker ↔ functionOf s k.functionId ≠ none ∧ ¬ SlotFree s ∧ 0 ≤ cfg.maxWaiting ∧ cfg.maxWaiting ≤ (waitingQueue s).length) ∧
      (st = .functionNotExists ∨ st = .noWorker ∨ st = .submitOK) ∧
      (st = .submitOK → waitingQueue s' = waitingQueue s ++ [k.taskId] ∧ s'.tm.tasks.get? k.taskId = some k ∧ ownerOf s' k.taskId = some c) ∧
      (st ≠ .submitOK → waitingQueue s' = waitingQueue s ∧ ¬ Holding s' k.taskId ∧ ∀ t, s'.tm.tasks.get? t = s.tm.tasks.get? t) := by
  have hslot : SlotRecorded s ↔ SlotFree s := ⟨fun x => x.free h.reach, fun x => x.recorded (prompt_records h hp hm)⟩
  rw [← hslot]
  exact C24_decision_partial cfg l s h.reach e c k he ha hq

/-- **C26, when the task routine gets its turns.** A turn of the task routine with a next task:
* if some connected worker has fewer tasks than its queue takes, exactly one message is sent: this task, as it was
  submitted, to a connected worker that has the fewest tasks; the others keep their order;
* if nobody is connected, the task waits in hand and nothing is sent;
* if all connected workers are full, nothing is sent and the task goes to the end.

Full statement: the same for all executions.  Missing: as in `C24_prompt_partial`; there it is false
(`C26_order_inverted`). -/
theorem C26_prompt_partial (cfg : Config) (es : List Event) (l : Log) (s : Sched) (h : Exec cfg es l s) (hp : Prompt es) (hm : cfg.maxWaiting ≠ 0)
    (e : Event) (he : e.op = .taskRoutine) (hq : 0 ≤ cfg.queueSize) (k : Task) (rest : List Bytes) (hn : NextTask s k rest) :
    ∃ s', s.step e = .ok s' ∧ Submitted l k ∧
      (SlotFree s → ∃ w ts, tasksAt s w = some ts ∧ (ts.size : Int) < cfg.queueSize ∧ (∀ w' ts', tasksAt s w' = some ts' → ts.size ≤ ts'.size) ∧
        Connected s w ∧ s'.out = s.out ++ [(w, .task k)] ∧ waitingQueue s' = rest ∧ beingPlaced s' = none ∧ workerOf s' k.taskId = some w) ∧
      ((∀ w, ¬ Connected s w) → s'.out = s.out ∧ waitingQueue s' = rest ∧ beingPlaced s' = some k.taskId) ∧
      ((∃ w, Connected s w) → ¬ SlotFree s → s'.out = s.out ∧ waitingQueue s' = rest ++ [k.taskId] ∧ beingPlaced s' = none) := by
  have hx := prompt_records h hp hm
  have hslot : SlotRecorded s ↔ SlotFree s := ⟨fun x => x.free h.reach, fun x => x.recorded hx⟩
  obtain ⟨s', h1, h2, h3, h4, h5⟩ := C26_turn_partial cfg l s h.reach e he hq k rest hn
  refine ⟨s', h1, h2, ?_, h4, ?_⟩
  · intro hf
    obtain ⟨w, p, g1, g2, g3, g4⟩ := h3 (hslot.2 hf)
    obtain ⟨ts, hts⟩ := (h.reach.good.conc.alloc.dom w).1 ⟨p, g1⟩
    have hpe : p = ts.size := by
      have := hx w ts hts
      rw [g1] at this
      exact Option.some.inj this
    refine ⟨w, ts, hts, by omega, ?_, g4⟩
    intro w' ts' hts'
    have := g3 w' _ (hx w' ts' hts')
    omega
  · rw [← hslot]; exact h5

/-- Two workers with one slot each; results, more submissions, and a turn after each submission. -/
def promptStory : List Event :=
  [addFn, beat wk, beat wk2, submit [1], turn, submit [2], turn, submit [3], submit [4], turn, done [1] [7], turn, done [2] [8], turn, submit [5]]

def limited : Config := ⟨2, 1, 100, 100, 1, 2⟩

example : ∃ l s, Exec limited promptStory l s ∧ Prompt promptStory ∧ limited.maxWaiting ≠ 0 ∧ ¬ SlotFree s ∧ waitingQueue s = [[5]] ∧
    s.out.filter (isDispatch [4]) = [(wk, .task ⟨[4], fn, [⟨.data, [9]⟩]⟩)] ∧ s.out.filter (isDispatch [3]) = [(wk2, .task ⟨[3], fn, [⟨.data, [9]⟩]⟩)] := by
  have h : (runInit limited promptStory).map (fun p => (decide (∀ q ∈ p.2.wm.alloc.w2t.items, ¬ (q.2.size : Int) < p.2.cfg.queueSize),
      decide (waitingQueue p.2 = [[5]]),
      decide (p.2.out.filter (isDispatch [4]) = [(wk, .task ⟨[4], fn, [⟨.data, [9]⟩]⟩)]),
      decide (p.2.out.filter (isDispatch [3]) = [(wk2, .task ⟨[3], fn, [⟨.data, [9]⟩]⟩)]))) = some (true, true, true, true) := by decide +kernel
  obtain ⟨⟨l, s⟩, hp, h⟩ := Option.map_eq_some_iff.1 h
  simp only [Prod.mk.injEq, decide_eq_true_eq] at h
  obtain ⟨h1, h2, h3, h4⟩ := h
  refine ⟨l, s, runInit_exec hp, by decide, by decide, ?_, h2, h3, h4⟩
  rintro ⟨w, ts, hts, hlt⟩
  exact h1 (w, ts) (Dict.mem_items.2 hts) hlt

/-- A refused submission and then a result, with all turns of the task routine, under a limit of 0. -/
def limitStory : List Event := [addFn, beat wk, submit [1], turn, submit [2], turn, done [1] [7], turn]

/-- **The limit must not be 0.** The refused submission leaves the locator out of date, the turn of the task
routine finds nothing to do, and the next submission is refused although the worker is idle. -/
theorem C24_prompt_limit : ∃ l s s', Exec tight limitStory l s ∧ Prompt limitStory ∧ Allowed l s.out (cl, .task ⟨[3], fn, [⟨.data, [9]⟩]⟩) ∧
    tasksAt s wk = some PySet.empty ∧ SlotFree s ∧ s.step (submit [3]) = .ok s' ∧ s'.out = s.out ++ [(cl, .taskEcho [3] .noWorker)] := by
  have h : (runInit tight limitStory).map (fun p => (allowedB p.1 p.2.out (cl, .task ⟨[3], fn, [⟨.data, [9]⟩]⟩),
      decide (tasksAt p.2 wk = some PySet.empty),
      (p.2.step (submit [3])).toOption.map (fun s' => decide (s'.out = p.2.out ++ [(cl, .taskEcho [3] .noWorker)])), decide (p.2.cfg.queueSize = 1))) =
      some (true, true, some true, true) := by decide +kernel
  obtain ⟨⟨l, s⟩, hp, h⟩ := Option.map_eq_some_iff.1 h
  simp only [Prod.mk.injEq, decide_eq_true_eq] at h
  obtain ⟨h1, h2, h3, h4⟩ := h
  obtain ⟨s', h5, h6⟩ := Option.map_eq_some_iff.1 h3
  refine ⟨l, s, s', runInit_exec hp, by decide, allowedB_sound h1, h2, ⟨wk, _, h2, ?_⟩, ?_, of_decide_eq_true h6⟩
  · rw [h4]; decide
  · cases hx : s.step (submit [3]) with
    | ok x => rw [hx] at h5; cases h5; rfl
    | error _ => rw [hx] at h5; cases h5

/-! ### Workers that leave and tasks that come back -/

/-- **C20, when the task routine gets its turns.** A balance response is handled, and exactly the listed tasks that
were assigned move to the waiting queue.

Full statement: the same for all executions.  Missing: as in `C24_prompt_partial` (`C20_return_kills`). -/
theorem C20_prompt_partial (cfg : Config) (es : List Event) (l : Log) (s : Sched) (h : Exec cfg es l s) (hm : cfg.maxWaiting ≠ 0)
    (e : Event) (hp : Prompt (es ++ [e])) (w : Bytes) (ids : List Bytes) (he : e.op = .recv w (.balanceResponse ids)) :
    ∃ s' ts, s.step e = .ok s' ∧ TakenBack s ts s' ∧ (∀ t, t ∈ ts ↔ t ∈ ids ∧ ∃ w, workerOf s t = some w) ∧ s'.out = s.out ∧
      ∀ w, Connected s' w ↔ Connected s w := by
  obtain ⟨h1, h2⟩ := C20_balance_response_partial cfg l s h.reach e w ids he
  cases hs : s.step e with
  | error err =>
    obtain ⟨w, hw⟩ := h2 err hs
    exact absurd (prompt_fresh h hp hm (by obtain ⟨op, now, o⟩ := e; cases he; rfl) w) hw
  | ok s' =>
    obtain ⟨ts, h3⟩ := h1 s' hs
    exact ⟨s', ts, rfl, h3⟩

/-- **C19, when the task routine gets its turns.** A worker that asks to leave is let go, and the removal of silent
workers is carried out; in both cases exactly the tasks of the workers that are gone move to the waiting queue.

Full statement: the same for all executions.  Missing: as in `C24_prompt_partial` (`C19_leaving_kills`). -/
theorem C19_prompt_partial (cfg : Config) (es : List Event) (l : Log) (s : Sched) (h : Exec cfg es l s) (hm : cfg.maxWaiting ≠ 0)
    (e : Event) (hp : Prompt (es ++ [e])) :
    (∀ c w, e.op = .recv c (.disconnectRequest w) → ∃ s', s.step e = .ok s' ∧
      (¬ Connected s w → s' = s) ∧
      (Connected s w → ∃ ts, TakenBack s ts s' ∧ (∀ t, t ∈ ts ↔ workerOf s t = some w) ∧
        (∀ w', Connected s' w' ↔ w' ≠ w ∧ Connected s w') ∧ s'.out = s.out ++ [(c, .disconnectResponse w)])) ∧
    (e.op = .workerRoutine → ∃ s' ts, s.step e = .ok s' ∧ TakenBack s ts s' ∧ (∀ t, t ∈ ts ↔ ∃ w', workerOf s t = some w' ∧ ¬ Connected s' w') ∧
      (∀ w', Connected s' w' → Connected s w')) := by
  constructor
  · intro c w he
    obtain ⟨h1, _, h3, _⟩ := C19_worker_lost_partial cfg l s h.reach w
    cases hs : s.step e with
    | error err => exact absurd (prompt_fresh h hp hm (by obtain ⟨op, now, o⟩ := e; cases he; rfl) w) (h3 e c err he hs).2
    | ok s' => exact ⟨s', rfl, h1 e c s' he hs⟩
  · intro he
    obtain ⟨_, h2, _⟩ := C19_worker_lost_partial cfg l s h.reach []
    cases hs : s.step e with
    | error err =>
      have hpo := step_post h.reach.good e (by obtain ⟨op, now, o⟩ := e; cases he; intro m hm; cases hm)
      rw [hs] at hpo
      obtain ⟨op, now, o⟩ := e
      cases he
      obtain ⟨w, _, _, _, _, hw⟩ : s.Overdue now := hpo
      exact absurd (prompt_fresh h hp hm rfl w) hw
    | ok s' =>
      obtain ⟨ts, h3, h4, h5, _⟩ := h2 e s' he hs
      exact ⟨s', ts, rfl, h3, h4, h5⟩

/-- Two tasks, one on its worker, the other waiting. -/
def departStory : List Event := [addFn, beat wk, submit [1], turn, submit [2], turn]

example : ∃ l s, Exec limited departStory l s ∧ Prompt (departStory ++ [ev (.recv wk (.disconnectRequest wk))]) ∧
    Prompt (departStory ++ [evAt 200 .workerRoutine]) ∧ Prompt (departStory ++ [ev (.recv wk (.balanceResponse [[1]]))]) ∧
    Connected s wk ∧ workerOf s [1] = some wk ∧ waitingQueue s = [[2]] := by
  have h : (runInit limited departStory).map (fun p => (decide (Connected p.2 wk), workerOf p.2 [1], waitingQueue p.2)) =
      some (true, some wk, [[2]]) := by decide +kernel
  obtain ⟨⟨l, s⟩, hp, h⟩ := Option.map_eq_some_iff.1 h
  simp only [Prod.mk.injEq, decide_eq_true_eq] at h
  exact ⟨l, s, runInit_exec hp, by decide, by decide, by decide, h.1, h.2.1, h.2.2⟩

/-! ### Survival -/

/-- What can still make the scheduler raise. -/
def Trouble (l : Log) (s : Sched) (e : Event) : Prop :=
  match e.op with
  -- the result of a node with an unexpected status, of a defective graph, or a failure while another node waits
  | .recv _ (.taskResult t st _ _) =>
    ∃ gid w, s.gm.nodeGraph.get? t = some gid ∧ workerOf s t = some w ∧
      (st ≠ .success ∧ st ≠ .canceled ∧ st ≠ .failed ∨
       st = .success ∧ (∃ c gt, (c, .graphTask gt) ∈ l ∧ gt.taskId = gid ∧ Defective s gt) ∨
       (st = .canceled ∨ st = .failed) ∧ ∃ t', t' ≠ t ∧ NodeWaits s gid t')
  -- a waiting node is cancelled while another node waits
  | .recv _ (.taskCancel t) => ∃ gid, NodeWaits s gid t ∧ ∃ t', t' ≠ t ∧ NodeWaits s gid t'
  -- a graph that is not held or has a waiting node is cancelled
  | .recv _ (.graphTaskCancel gid) => s.gm.graphs.get? gid = none ∨ ∃ t, NodeWaits s gid t
  -- a function that nobody uses is deleted
  | .recv _ (.functionRequest type fid _ _) => type = .delete ∧ functionOf s fid ≠ none ∧ ∀ t, claimOf s t ≠ some fid
  -- a defective graph is unpacked
  | .graphRoutine => ∃ c gt rest, s.gm.queue = (c, gt) :: rest ∧ Defective s gt
  -- a name is not text
  | .report => ¬ Readable s
  | _ => False

/-- **C28, when the task routine gets its turns.** Every event with properly chosen ids is handled without an
exception, except in the situations listed in `Trouble`.  In particular traffic with single tasks only, whose
functions are not deleted, never stops the scheduler: workers come, go and fall silent, tasks are submitted, cancelled, given
back and finished.

Full statement: the same for all executions and without `Trouble`.  Missing: executions in which other events do not
wait for the task routine, a limit of 0, and `Trouble`; there it is false (`C28_scheduler_dies`). -/
theorem C28_prompt_partial (cfg : Config) (es : List Event) (l : Log) (s : Sched) (h : Exec cfg es l s) (hm : cfg.maxWaiting ≠ 0)
    (e : Event) (hp : Prompt (es ++ [e])) (ha : ∀ m ∈ e.input, Allowed l s.out m) (ht : ¬ Trouble l s e) :
    ∃ s', s.step e = .ok s' ∧ Exec cfg (es ++ [e]) (l ++ e.input) s' := by
  have hd : ¬ Danger l s e := by
    intro hd
    have hf : Waits e → ∀ w, ¬ OutOfDate s w := fun hw w ho => ho (prompt_fresh h hp hm hw w)
    obtain ⟨op, now, o⟩ := e
    cases op with
    | recv c m =>
      cases m with
      | taskResult t st d r =>
        rcases hd with ⟨w, _, hw⟩ | hd
        · exact hf rfl w hw
        · exact ht hd
      | balanceResponse ids => obtain ⟨w, hw⟩ := hd; exact hf rfl w hw
      | disconnectRequest w => exact hf rfl w hd
      | _ => exact ht hd
    | workerRoutine => obtain ⟨w, hw⟩ := hd; exact hf rfl w hw
    | _ => exact ht hd
  obtain ⟨s', h1, _⟩ := C28_survives_partial cfg l s h.reach e ha hd
  exact ⟨s', h1, .step e h ha h1⟩

/-- A worker leaves with a task, falls silent or gives a task back, all without trouble. -/
example : ∃ l s, Exec limited promptStory l s ∧ Prompt (promptStory ++ [turn]) ∧ ¬ Trouble l s turn ∧
    Prompt (promptStory ++ [submit [6]]) ∧ ¬ Trouble l s (submit [6]) ∧ ¬ Prompt (promptStory ++ [done [3] [7]]) := by
  obtain ⟨⟨l, s⟩, hp⟩ := Option.isSome_iff_exists.1 (show (runInit limited promptStory).isSome = true by decide +kernel)
  exact ⟨l, s, runInit_exec hp, by decide, id, by decide, id, by decide⟩

/-! ### The allocator alone -/

/-- Is an assignment due after the call? -/
def nextConsult (due : Bool) : AOp → Option Bool
  | .available => some true
  | .assign _ => some false
  | .whereIs _ => some due
  | _ => if due then none else some false

/-- Between `has_available_worker` and the next `assign_task` no worker and no task comes or goes. -/
def consultDue (ops : List AOp) : Option Bool := ops.foldl (fun d op => d.bind fun d => nextConsult d op) (some false)

theorem consult_cons (op : AOp) (ops : List AOp) (d : Bool) : (op :: ops).foldl (fun d op => d.bind fun d => nextConsult d op) (some d) =
    ops.foldl (fun d op => d.bind fun d => nextConsult d op) (nextConsult d op) := rfl

theorem consult_none (ops : List AOp) : ops.foldl (fun d op => d.bind fun d => nextConsult d op) none = none := by
  induction ops with
  | nil => rfl
  | cons op ops ih => exact ih

theorem allocRun_near {ops : List AOp} {a : Alloc} (hi : a.Inv) {s : Placement} (h : Holds a s) {d d' : Bool} (hn : a.Near) (hx : d = false → a.Exact)
    (hd : ops.foldl (fun d op => d.bind fun d => nextConsult d op) (some d) = some d') :
    ∃ tr a', allocRun a ops = .ok (tr, a') ∧ a'.Near := by
  induction ops generalizing a s d with
  | nil => exact ⟨[], a, rfl, hn⟩
  | cons op ops ih =>
    rw [consult_cons] at hd
    cases hd1 : nextConsult d op with
    | none => rw [hd1, consult_none] at hd; cases hd
    | some d1 =>
      rw [hd1] at hd
      have hrest : (if d = true then none else some false) = some d1 → a.Exact ∧ d1 = false := by
        intro hh
        cases d with
        | true => cases hh
        | false => cases hh; exact ⟨hx rfl, rfl⟩
      have hstep : ∃ o a1, allocStep a op = .ok (o, a1) ∧ a1.Near ∧ (d1 = false → a1.Exact) := by
        cases op with
        | addWorker w =>
          obtain ⟨hx, -⟩ := hrest hd1
          have := Alloc.Exact.addWorker hi hx w
          exact ⟨_, _, rfl, this.near, fun _ => this⟩
        | removeWorker w hint =>
          obtain ⟨hx, -⟩ := hrest hd1
          obtain ⟨r, e, h1⟩ := Alloc.Exact.removeWorker hi hx w hint
          exact ⟨_, _, by simp only [allocStep, e, Py.ok_bind]; rfl, h1.near, fun _ => h1⟩
        | assign t =>
          by_cases hl : a.queue.len = 0
          · exact ⟨.waits, a, by simp only [allocStep, hl, if_true], hn, fun _ => hn.exact_of_empty hi hl⟩
          · have hl' := hl
            rw [Alloc.queue_empty_iff hi, Classical.not_forall] at hl'
            obtain ⟨w0, hw0⟩ := hl'
            cases hts0 : a.w2t.get? w0 with
            | none => exact absurd hts0 hw0
            | some ts0 =>
              obtain ⟨r, e⟩ : ∃ r, a.assignTask t = .ok r := by
                obtain ⟨p, w, s, _, _, _, h1 | h1 | h1⟩ := Alloc.assignTask_spec hi hts0 t
                · obtain ⟨_, a', e, _⟩ := h1; exact ⟨_, e⟩
                · obtain ⟨_, _, a', e, _⟩ := h1; exact ⟨_, e⟩
                · obtain ⟨_, _, _, a', e, _⟩ := h1; exact ⟨_, e⟩
              have h1 := Alloc.assignTask_near hi hn hts0 t e
              exact ⟨_, _, by simp only [allocStep, hl, if_false, e, Py.ok_bind]; rfl, h1.near, fun _ => h1⟩
        | removeTask t =>
          obtain ⟨hx, -⟩ := hrest hd1
          obtain ⟨r, e, h1⟩ := Alloc.Exact.removeTask hi hx t
          exact ⟨_, _, by simp only [allocStep, e, Py.ok_bind]; rfl, h1.near, fun _ => h1⟩
        | whereIs t => cases hd1; exact ⟨_, _, rfl, hn, hx⟩
        | available =>
          cases hd1
          obtain ⟨b, a', e, _⟩ := Alloc.hasAvailable_spec hi
          exact ⟨_, _, by simp only [allocStep, e, Py.ok_bind]; rfl, Alloc.hasAvailable_near hi hn e, by simp⟩
      obtain ⟨o, a1, e1, hn1, hx1⟩ := hstep
      obtain ⟨hi1, _, s1, _, h1⟩ := allocStep_spec hi h e1
      obtain ⟨tr, a2, e2, hx2⟩ := ih hi1 h1 hn1 hx1 hd
      exact ⟨(op, o) :: tr, a2, by simp only [allocRun, e1, e2, Py.ok_bind]; rfl, hx2⟩

/-- **C11, when assignments follow.** If between each `has_available_worker` and the next `assign_task` no worker
and no task comes or goes, no call raises, and: if some connected worker has fewer tasks than the queue size, a
new task is placed on a worker that has the fewest tasks, and `has_available_worker` answers true.

Full statement: the same for all sequences of calls.  Missing: the other sequences; for these it is false
(`C11_free_slot_refused`). -/
theorem C11_consult_partial (max : Int) (ops : List AOp) (hc : consultDue ops ≠ none) :
    ∃ tr a s, allocRun (Alloc.init max) ops = .ok (tr, a) ∧ Placement.empty.Steps tr s ∧
      ∀ w ∈ s.workers, ((s.tasksOf w).length : Int) < max →
        (∃ a', allocStep a .available = .ok (.bool true, a')) ∧
        ∀ t, s.workerOf t = none → ∃ w' a', allocStep a (.assign t) = .ok (.worker (some w'), a') ∧
          w' ∈ s.workers ∧ ∀ v ∈ s.workers, (s.tasksOf w').length ≤ (s.tasksOf v).length := by
  obtain ⟨d, hd⟩ := Option.ne_none_iff_exists'.1 hc
  obtain ⟨tr, a, hr, hx⟩ := allocRun_near (Alloc.inv_init max) (holds_init max) (Alloc.exact_init max).near (fun _ => Alloc.exact_init max) hd
  obtain ⟨hi, hm, s, hs, h⟩ := allocRun_spec (Alloc.inv_init max) (holds_init max) hr
  have hm' : a.max = max := hm
  refine ⟨tr, a, s, hr, hs, ?_⟩
  intro w hw hlt
  obtain ⟨ts, hts⟩ := (h.workers w).1 hw
  obtain ⟨p, hp⟩ := hi.prio_some hts
  have hpe := hx.load w p ts hp hts
  have hlen := (h.tasks hi hts).length_eq
  have hsz : ts.size = ts.items.length := rfl
  have hl : ¬ a.queue.len = 0 := by
    rw [Alloc.queue_empty_iff hi]; intro hh; rw [hh w] at hts; cases hts
  constructor
  · obtain ⟨q, v, a', e, _, _, _, _, hq, hmin, _⟩ := Alloc.hasAvailable_some hi hts
    have h2 : q ≠ a.max := by have := hmin w p hp; omega
    exact ⟨a', by simp only [allocStep, e, Py.ok_bind, Py.pure_eq]; simp [h2]⟩
  · intro t ht
    rw [h.workerOf] at ht
    obtain ⟨q, v, tv, hq, htv, hmin, hc | hc | hc⟩ := Alloc.assignTask_spec hi hts t
    · have := hmin w p hp
      have := hc.1
      omega
    · obtain ⟨_, _, a2, e, _⟩ := hc
      refine ⟨v, a2, ?_, (h.workers v).2 ⟨tv, htv⟩, ?_⟩
      · simp only [allocStep, hl, if_false, e, Py.ok_bind]; rfl
      · intro u hu
        obtain ⟨tu, htu⟩ := (h.workers u).1 hu
        obtain ⟨r, hr⟩ := hi.prio_some htu
        have h1 := hx.load v q tv hq htv
        have h2 := hx.load u r tu hr htu
        have h3 := hmin u r hr
        have h4 := (h.tasks hi htv).length_eq
        have h5 := (h.tasks hi htu).length_eq
        have h6 : tv.size = tv.items.length := rfl
        have h7 : tu.size = tu.items.length := rfl
        omega
    · obtain ⟨_, w1, hw1, _⟩ := hc
      rw [hw1] at ht; cases ht

/-- Looks before each assignment; tasks and workers come and go after it. -/
example : consultDue [.addWorker [1], .addWorker [2], .available, .available, .assign [10], .removeTask [10], .available, .whereIs [10], .assign [11],
    .removeWorker [1] [], .available] = some true ∧ consultDue [.addWorker [1], .available, .removeTask [10]] = none := by decide

end Verif.Props
