import Verif.Worker.Agent
import Verif.Spec.Worker
import Verif.Queue.IndexedLemmas
import Verif.Base.Order

/-!
# Invariants of the worker agent

`Inv`: the agent's tables agree with each other and with the history.  Every handler is described by what
it adds to the history and what it does to the tables.
-/

namespace Verif.Worker

open Verif.Wire Verif.Queue Verif.Spec.Worker

/-! ### Folds over a longer history -/

theorem current_snoc (l : Hist) (x : Int × Act) : current (l ++ [x]) = currentStep x.2 (current l) := by
  simp [current]

theorem ready_snoc (l : Hist) (x : Int × Act) : ready (l ++ [x]) = readyStep x.2 (ready l) := by
  simp [ready]

theorem busy_snoc (l : Hist) (x : Int × Act) : busy (l ++ [x]) = busyStep x.2 (busy l) := by
  simp [busy]

theorem openBeats_snoc (l : Hist) (x : Int × Act) : openBeats (l ++ [x]) = beatStep x.2 (openBeats l) := by
  simp [openBeats]

theorem times_snoc (p : Act → Bool) (l : Hist) (x : Int × Act) :
    times p (l ++ [x]) = times p l + if p x.2 then 1 else 0 := by
  simp [times, List.countP_append, List.countP_cons]

theorem returned_snoc (t : Bytes) (l : Hist) (x : Int × Act) :
    returned t (l ++ [x]) = returned t l + returns t x.2 := by
  simp [returned]

theorem always_nil (P : Hist → Act → Prop) : Always P [] := by
  intro l₁ x l₂ h
  cases l₁ <;> cases h

theorem always_snoc {P : Hist → Act → Prop} {l : Hist} {x : Int × Act} :
    Always P (l ++ [x]) ↔ Always P l ∧ P l x.2 := by
  constructor
  · intro h
    refine ⟨?_, h l x [] rfl⟩
    intro l₁ y l₂ e
    exact h l₁ y (l₂ ++ [x]) (by rw [e]; simp)
  · rintro ⟨h1, h2⟩ l₁ y l₂ e
    rcases List.eq_nil_or_concat l₂ with rfl | ⟨l₃, z, rfl⟩
    · have := List.append_inj' e rfl
      obtain ⟨rfl, h⟩ := this
      cases h
      exact h2
    · rw [List.concat_eq_append, ← List.cons_append, ← List.append_assoc] at e
      obtain ⟨rfl, h⟩ := List.append_inj' e rfl
      exact h1 _ _ _ rfl

/-! ### The tables -/

/-- The task the loop has in hand. -/
def Pos.task? : Pos → Option Task
  | .idle => none
  | .lock t => some t
  | .init t _ => some t

/-- The loop holds the lock. -/
def Pos.isInit : Pos → Bool
  | .init _ _ => true
  | _ => false

structure Inv (a : Agent) : Prop where
  wf : IQueue.WF id a.queue
  keys : ∀ t, a.tasks.has t = true ↔ t ∈ a.queue.contents
  named : ∀ t k, a.tasks.get? t = some k → k.taskId = t
  lock : a.locked = (a.task.isSome || a.pos.isInit)
  init : a.task.isSome → a.initialized = true
  wait : ∀ t w, a.pos = .init t w → a.task = none ∧ w = a.initialized
  proc : a.processor.isSome
  procs : ∀ n, a.processor = some n → n + 1 = a.procs

/-- The tables agree with the history. -/
structure Match (a : Agent) : Prop where
  current : current a.log = a.processor
  ready : ready a.log = a.initialized
  busy : busy a.log = a.task

/-- What every entry of the history satisfies: tasks go to the current processor only when it is ready and
has no task; functions only go to a processor that runs a task of that function; results and function
requests sent on come from the processor and belong to its task. -/
def Proper (l : Hist) : Act → Prop
  | .told n m => current l = some n ∧
    match m with
    | .task _ => ready l = true ∧ busy l = none
    | .functionResponse st fid _ _ => st ≠ .notExists ∧ ∃ k, busy l = some k ∧ k.functionId = fid
    | _ => True
  | .sent (.taskResult i st d r) =>
    (∃ l₀ now k, l = l₀ ++ [(now, .heard (.taskResult i st d r))] ∧ busy l₀ = some k ∧ k.taskId = i) ∨
    ((st = .canceled ∨ st = .notFound) ∧ ∃ l₀ now l₁, l = l₀ ++ (now, .recv (.taskCancel i)) :: l₁ ∧
      ∀ x ∈ l₁, ∃ n, x.2 = .killed n ∨ x.2 = .started n)
  | .sent (.functionRequest ty fid nm c) =>
    ty = .request ∧ (∃ l₀ now, l = l₀ ++ [(now, .heard (.functionRequest ty fid nm c))]) ∧
      ∃ k, busy l = some k ∧ k.functionId = fid
  | .started _ => busy l = none
  | _ => True

/-- 1 if the task is `t`. -/
def taskCount (t : Bytes) (o : Option Task) : Nat := if o.map (·.taskId) = some t then 1 else 0

@[simp] theorem taskCount_none (t : Bytes) : taskCount t none = 0 := rfl

@[simp] theorem taskCount_some (t : Bytes) (k : Task) : taskCount t (some k) = if k.taskId = t then 1 else 0 := by
  simp [taskCount]

/-- 1 if the loop has `t` in hand. -/
def Pos.count (t : Bytes) (p : Pos) : Nat := taskCount t p.task?

namespace Agent

/-- Copies of `t` that were not handed to a processor yet. -/
def pend (a : Agent) (t : Bytes) : Nat := a.queue.contents.count t + a.pos.count t

/-- 1 if `t` is with the processor. -/
def runs (a : Agent) (t : Bytes) : Nat := taskCount t a.task

end Agent

structure Good (a : Agent) : Prop where
  inv : Inv a
  mt : Match a
  ok : Always Proper a.log

/-- What an event does to the number of copies of a task. -/
structure Books (a a' : Agent) : Prop where
  held : Honest a'.log → ∀ t,
    times (isTask t) a'.log + a.pend t + a.runs t + times (isAnswer t) a.log + returned t a.log =
    times (isTask t) a.log + a'.pend t + a'.runs t + times (isAnswer t) a'.log + returned t a'.log
  told : ∀ t, times (isTold t) a'.log + returned t a'.log + a'.pend t + times (isTask t) a.log ≤
    times (isTold t) a.log + returned t a.log + a.pend t + times (isTask t) a'.log

theorem Books.rfl (a : Agent) : Books a a := ⟨fun _ _ => by omega, fun _ => by omega⟩

/-- Both, for the state after an event. -/
structure Fine (a a' : Agent) : Prop where
  good : Good a'
  books : Books a a'
  ext : ∃ l, a'.log = a.log ++ l

theorem filter_ne_eq_erase {l : List Bytes} (h : l.Nodup) (t : Bytes) :
    l.filter (fun x => id x ≠ id t) = l.erase t := by
  rw [h.erase_eq_filter]
  apply List.filter_congr
  intro x _
  by_cases e : x = t <;> simp [e]

open Agent

theorem count_erase_ite (l : List Bytes) (t u : Bytes) : (l.erase t).count u = l.count u - if t = u then 1 else 0 := by
  rw [List.count_erase]; simp

/-- `on_task_new` -/
theorem onTaskNew_fine {a a' : Agent} {now : Int} {k : Task} (g : Good a)
    (h : (a.note now (.recv (.task k))).onTaskNew k = .ok a') : Fine a a' := by
  simp only [onTaskNew, Py.bind_ok, Agent.note] at h
  obtain ⟨q, hq, h⟩ := h
  cases h
  have hn : k.taskId ∉ a.queue.contents := by
    intro hm
    rw [g.inv.wf.put_dup (by simpa using hm)] at hq
    cases hq
  obtain ⟨q', hq', hw, hc⟩ := g.inv.wf.put_new (a := k.taskId) (by simpa using hn)
  rw [hq'] at hq; cases hq
  refine ⟨⟨⟨hw, ?_, ?_, g.inv.lock, g.inv.init, g.inv.wait, g.inv.proc, g.inv.procs⟩, ?_, ?_⟩, ?_, ⟨_, rfl⟩⟩
  · intro t
    simp only [hc, List.mem_append, List.mem_singleton, ← g.inv.keys t, Dict.has, Dict.get?_set]
    by_cases e : k.taskId = t
    · simp [e]
    · simp [e, show ¬ t = k.taskId from fun x => e x.symm]
  · intro t j hj
    simp only [Dict.get?_set] at hj
    split at hj
    · next e => cases hj; exact e
    · exact g.inv.named t j hj
  · exact ⟨by rw [current_snoc]; exact g.mt.current, by rw [ready_snoc]; exact g.mt.ready,
      by rw [busy_snoc]; exact g.mt.busy⟩
  · rw [always_snoc]; exact ⟨g.ok, trivial⟩
  · constructor
    · intro _ t
      simp only [times_snoc, returned_snoc, pend, runs, hc, List.count_append, isTask, isAnswer, returns,
        List.count_singleton, decide_eq_true_eq, beq_iff_eq]
      split <;> simp <;> omega
    · intro t
      simp only [times_snoc, returned_snoc, pend, hc, List.count_append, isTask, isTold, returns,
        List.count_singleton, decide_eq_true_eq, beq_iff_eq]
      by_cases e : k.taskId = t <;> simp [e] <;> omega

/-- An entry that changes nothing else. -/
theorem note_fine {a : Agent} {now : Int} {x : Act} (g : Good a) (h1 : currentStep x (current a.log) = current a.log)
    (h2 : readyStep x (ready a.log) = ready a.log) (h3 : busyStep x (busy a.log) = busy a.log) (h4 : Proper a.log x)
    (h5 : ∀ t, isTask t x = false) (h6 : ∀ t, isAnswer t x = false) (h7 : ∀ t, returns t x = 0)
    (h8 : ∀ t, isTold t x = false) : Fine a (a.note now x) := by
  refine ⟨⟨⟨g.inv.wf, g.inv.keys, g.inv.named, g.inv.lock, g.inv.init, g.inv.wait, g.inv.proc, g.inv.procs⟩, ⟨?_, ?_, ?_⟩, ?_⟩, ⟨?_, ?_⟩, _, rfl⟩
  · simp only [Agent.note, current_snoc, h1]; exact g.mt.current
  · simp only [Agent.note, ready_snoc, h2]; exact g.mt.ready
  · simp only [Agent.note, busy_snoc, h3]; exact g.mt.busy
  · simp only [Agent.note, always_snoc]; exact ⟨g.ok, h4⟩
  · intro _ t
    simp only [Agent.note, times_snoc, returned_snoc, h5, h6, h7, pend, runs]
    simp
  · intro t
    simp only [Agent.note, times_snoc, returned_snoc, h5, h7, h8, pend]
    simp

theorem honest_left {l l' : Hist} (h : Honest (l ++ l')) : Honest l := fun x hx => h x (List.mem_append_left _ hx)

theorem Fine.trans {a b c : Agent} (h1 : Fine a b) (h2 : Fine b c) : Fine a c := by
  obtain ⟨l1, e1⟩ := h1.ext
  obtain ⟨l2, e2⟩ := h2.ext
  refine ⟨h2.good, ⟨?_, ?_⟩, l1 ++ l2, by rw [e2, e1, List.append_assoc]⟩
  · intro hh t
    have x := h1.books.held (by rw [e2] at hh; exact honest_left hh) t
    have y := h2.books.held hh t
    omega
  · intro t
    have x := h1.books.told t
    have y := h2.books.told t
    omega

theorem Fine.rfl {a : Agent} (g : Good a) : Fine a a := ⟨g, Books.rfl a, [], by simp⟩

/-- Entries about other matters. -/
def Plain (x : Act) : Prop :=
  match x with
  | .recv (.task _) => False
  | .recv _ => True
  | .heard (.taskResult ..) => False
  | .heard _ => True
  | .sent (.heartbeat _) => True
  | _ => False

theorem plain_fine {a : Agent} {now : Int} {x : Act} (g : Good a) (h : Plain x) : Fine a (a.note now x) := by
  apply note_fine g
  all_goals (
    unfold Plain at h
    split at h <;> first | exact h.elim | rfl | trivial | (intro; rfl) | skip)
  · rename_i m hm; cases m <;> first | rfl | exact (hm _ _ _ _ rfl).elim
  · rename_i m hm; cases m <;> first | rfl | exact (hm _ _ _ _ rfl).elim
  · intro t; rename_i m hm; cases m <;> first | rfl | exact (hm _ rfl).elim

/-- The tables after a change that does not concern tasks. -/
theorem table_fine {a b : Agent} {l v d : Int} (h : Fine a b) : Fine a { b with latency := l, beatAt := v, lastSeen := d } :=
  ⟨⟨⟨h.good.inv.wf, h.good.inv.keys, h.good.inv.named, h.good.inv.lock, h.good.inv.init, h.good.inv.wait, h.good.inv.proc, h.good.inv.procs⟩,
    ⟨h.good.mt.current, h.good.mt.ready, h.good.mt.busy⟩, h.good.ok⟩, ⟨h.books.held, h.books.told⟩, h.ext⟩

theorem onEcho_fine {a : Agent} {now now' : Int} (g : Good a) : Fine a ((a.note now (.recv .heartbeatEcho)).onEcho now') := by
  unfold onEcho
  split
  · exact plain_fine g trivial
  · exact table_fine (plain_fine g trivial)

theorem heartbeat_fine {a a' : Agent} {now : Int} {f : Figures} (g : Good a) (h : a.heartbeat now f = .ok a') : Fine a a' := by
  unfold heartbeat at h
  split at h
  · cases h; exact Fine.rfl g
  split at h
  · cases h; exact Fine.rfl g
  · simp only [Py.bind_ok] at h
    obtain ⟨_, _, h⟩ := h
    cases h
    exact table_fine (l := a.latency) (d := a.lastSeen) (plain_fine g trivial)

theorem onFunctionRequest_fine {a a' : Agent} {now : Int} {ty : FunctionRequestType} {fid nm c : Bytes} (g : Good a)
    (h : (a.note now (.recv (.functionRequest ty fid nm c))).onFunctionRequest now ty fid = .ok a') : Fine a a' := by
  unfold onFunctionRequest at h
  split at h
  · cases h
    have f : Fine a (a.note now (.recv (.functionRequest ty fid nm c))) := plain_fine g trivial
    refine f.trans ?_
    have hp := f.good.inv.proc
    obtain ⟨n, hn⟩ := Option.isSome_iff_exists.1 hp
    apply note_fine f.good <;> first | rfl | (intro; rfl) | skip
    refine ⟨?_, trivial⟩
    rw [f.good.mt.current, hn]; rfl
  · cases h

theorem onFunctionResponse_fine {a a' : Agent} {now : Int} {st : FunctionResponseType} {fid nm c : Bytes} (g : Good a)
    (h : (a.note now (.recv (.functionResponse st fid nm c))).onFunctionResponse now st fid nm c = .ok a') : Fine a a' := by
  have f : Fine a (a.note now (.recv (.functionResponse st fid nm c))) := plain_fine g trivial
  unfold onFunctionResponse at h
  split at h
  · cases h; exact f
  · simp only [Py.bind_ok, orRaise_ok] at h
    obtain ⟨t, ht, h⟩ := h
    split at h
    · cases h; exact f
    next hf =>
    split at h
    · cases h; exact f
    · next hs =>
      cases h
      refine f.trans ?_
      obtain ⟨n, hn⟩ := Option.isSome_iff_exists.1 f.good.inv.proc
      apply note_fine f.good <;> first | rfl | (intro; rfl) | skip
      refine ⟨?_, hs, t, ?_, ?_⟩
      · rw [f.good.mt.current, hn]; rfl
      · rw [f.good.mt.busy]; exact ht
      · exact Classical.byContradiction fun e => hf e

/-- `on_cancel_task` of a queued task -/
theorem onCancel_queued {a a' : Agent} {now : Int} {t : Bytes} (g : Good a) (hm : t ∈ a.queue.contents)
    (h : (a.note now (.recv (.taskCancel t))).onCancel now t = .ok a') :
    Fine a a' ∧ a'.log = a.log ++ [(now, .recv (.taskCancel t)), (now, .sent (.taskResult t .canceled 0 []))] ∧
      a'.queue.contents = a.queue.contents.erase t ∧ a'.pos = a.pos ∧ a'.task = a.task := by
  unfold onCancel at h
  have hh : (a.note now (.recv (.taskCancel t))).tasks.has t = true := (g.inv.keys t).2 hm
  rw [if_pos hh] at h
  simp only [Py.bind_ok, Dict.pop] at h
  obtain ⟨⟨k, ts⟩, ⟨k', hk, h1⟩, q, hq, h⟩ := h
  cases h1
  obtain ⟨q', hq', hw, hc⟩ := g.inv.wf.remove_present (a := t) (by simpa using hm)
  rw [show (a.note now (.recv (.taskCancel t))).queue = a.queue from rfl, hq'] at hq
  cases hq
  rw [filter_ne_eq_erase g.inv.wf.nodup] at hc
  cases h
  refine ⟨⟨⟨⟨hw, ?_, ?_, g.inv.lock, g.inv.init, g.inv.wait, g.inv.proc, g.inv.procs⟩, ⟨?_, ?_, ?_⟩, ?_⟩, ⟨?_, ?_⟩,
    [(now, .recv (.taskCancel t)), (now, .sent (.taskResult t .canceled 0 []))], ?_⟩, ?_, hc, rfl, rfl⟩
  · intro u
    simp only [Agent.send, Agent.note, hc, g.inv.wf.nodup.mem_erase_iff, ← g.inv.keys u, Dict.has, Dict.get?_erase]
    by_cases e : t = u
    · simp [e]
    · simp [e, show ¬ u = t from fun x => e x.symm]
  · intro u j hj
    simp only [Agent.send, Agent.note, Dict.get?_erase] at hj
    split at hj
    · cases hj
    · exact g.inv.named u j hj
  · simp only [Agent.send, Agent.note, current_snoc, currentStep]; exact g.mt.current
  · simp only [Agent.send, Agent.note, ready_snoc, readyStep]; exact g.mt.ready
  · simp only [Agent.send, Agent.note, busy_snoc, busyStep]; exact g.mt.busy
  · simp only [Agent.send, Agent.note, always_snoc]
    exact ⟨⟨g.ok, trivial⟩, Or.inr ⟨Or.inl rfl, a.log, now, [], rfl, by simp⟩⟩
  · intro _ u
    have hcnt := count_erase_ite a.queue.contents t u
    have : t = u → 0 < a.queue.contents.count u := by rintro rfl; exact List.count_pos_iff.2 hm
    simp only [Agent.send, Agent.note, times_snoc, returned_snoc, pend, runs, hc, isTask, isAnswer, returns, hcnt]
    by_cases e : t = u
    · subst e
      have h0 := this rfl
      simp
      omega
    · simp [e]
  · intro u
    have hcnt := count_erase_ite a.queue.contents t u
    simp only [Agent.send, Agent.note, times_snoc, returned_snoc, pend, hc, isTask, isTold, returns, hcnt]
    simp
  · simp [Agent.send, Agent.note]
  · simp [Agent.send, Agent.note]

theorem runs_some {a : Agent} {k : Task} (h : a.task = some k) (t : Bytes) : a.runs t = if k.taskId = t then 1 else 0 := by
  simp [runs, h]

/-- `on_cancel_task` of a task that is not queued -/
theorem onCancel_other {a a' : Agent} {now : Int} {t : Bytes} (g : Good a) (hm : t ∉ a.queue.contents)
    (h : (a.note now (.recv (.taskCancel t))).onCancel now t = .ok a') :
    Fine a a' ∧
    (((∃ k, a.task = some k ∧ k.taskId = t) ∧ a'.queue = a.queue ∧ a'.pos = a.pos ∧ a'.task = none ∧
        a'.initialized = false ∧ ∃ n, a.processor = some n ∧ a'.processor = some (n + 1) ∧
        a'.log = a.log ++ [(now, .recv (.taskCancel t)), (now, .killed n), (now, .started (n + 1)), (now, .sent (.taskResult t .canceled 0 []))]) ∨
     ((¬ ∃ k, a.task = some k ∧ k.taskId = t) ∧ a'.queue = a.queue ∧ a'.pos = a.pos ∧ a'.task = a.task ∧
        a'.log = a.log ++ [(now, .recv (.taskCancel t)), (now, .sent (.taskResult t .notFound 0 []))])) := by
  have f : Fine a (a.note now (.recv (.taskCancel t))) := plain_fine g trivial
  have miss : ∀ b, Fine a b → b = a.note now (.recv (.taskCancel t)) →
      Fine a (b.send now (.taskResult t .notFound 0 [])) := by
    intro b hb e
    refine hb.trans ?_
    apply note_fine hb.good <;> first | rfl | (intro; rfl) | skip
    · exact Or.inr ⟨Or.inr rfl, a.log, now, [], by rw [e]; rfl, by simp⟩
    · intro u; simp [isAnswer]
  unfold onCancel at h
  have hh : ¬ (a.note now (.recv (.taskCancel t))).tasks.has t = true := fun x => hm ((g.inv.keys t).1 x)
  rw [if_neg hh] at h
  unfold cancelRunning at h
  simp only [show (a.note now (.recv (.taskCancel t))).initialized = a.initialized from rfl,
    show (a.note now (.recv (.taskCancel t))).task = a.task from rfl] at h
  by_cases hi : a.initialized
  · simp only [hi, Bool.not_true, Bool.false_eq_true, if_false] at h
    cases hk : a.task with
    | none => simp [hk, orRaise] at h
    | some k =>
      simp only [hk, orRaise, Py.ok_bind] at h
      by_cases he : k.taskId = t
      · simp only [he, ne_eq, not_true, if_false, Py.pure_eq, Py.ok_bind, if_true] at h
        obtain ⟨n, hn⟩ := Option.isSome_iff_exists.1 g.inv.proc
        have hp := g.inv.procs n hn
        have hlock : a.pos.isInit = false := by
          cases hpos : a.pos with
          | idle => rfl
          | lock _ => rfl
          | init u w => have := (g.inv.wait u w hpos).1; rw [hk] at this; cases this
        have hb : (a.note now (.recv (.taskCancel t))).restart now =
            { ((a.note now (.recv (.taskCancel t))).note now (.killed n)).note now (.started (n + 1)) with
              processor := some (n + 1), procs := n + 1 + 1, initialized := false } := by
          simp [restart, kill, startProcessor, Agent.note, hn, hp]
        rw [hb] at h
        cases h
        refine ⟨⟨⟨⟨g.inv.wf, g.inv.keys, g.inv.named, ?_, ?_, ?_, rfl, ?_⟩, ⟨?_, ?_, ?_⟩, ?_⟩, ⟨?_, ?_⟩,
          [(now, .recv (.taskCancel t)), (now, .killed n), (now, .started (n + 1)),
            (now, .sent (.taskResult t .canceled 0 []))], ?_⟩, Or.inl
          ⟨⟨k, rfl, he⟩, rfl, rfl, rfl, rfl, n, hn, rfl, ?_⟩⟩
        · simp [Agent.send, Agent.note, hlock]
        · intro x; simp [Agent.send, Agent.note] at x
        · intro u w hw
          simp only [Agent.send, Agent.note] at hw
          rw [hw] at hlock; cases hlock
        · intro m hm'
          simp only [Agent.send, Agent.note] at hm' ⊢
          cases hm'; rfl
        · simp only [Agent.send, Agent.note, current_snoc, currentStep]
        · simp only [Agent.send, Agent.note, ready_snoc, readyStep]
        · simp only [Agent.send, Agent.note, busy_snoc, busyStep]
        · simp only [Agent.send, Agent.note, always_snoc]
          refine ⟨⟨⟨⟨g.ok, trivial⟩, trivial⟩, by show busy _ = none; rw [busy_snoc]; rfl⟩, Or.inr ⟨Or.inl rfl, a.log, now, [(now, .killed n), (now, .started (n + 1))], by simp, ?_⟩⟩
          intro x hx
          simp only [List.mem_cons, List.not_mem_nil, or_false] at hx
          rcases hx with rfl | rfl
          · exact ⟨n, Or.inl rfl⟩
          · exact ⟨n + 1, Or.inr rfl⟩
        · intro _ u
          rw [runs_some hk]
          simp only [Agent.send, Agent.note, times_snoc, returned_snoc, pend, runs, isTask, isAnswer, returns]
          by_cases e : t = u
          · simp [e, he]; omega
          · simp [e, he]
        · intro u
          simp only [Agent.send, Agent.note, times_snoc, returned_snoc, pend, isTask, isTold, returns]
          simp
        · simp [Agent.send, Agent.note]
        · simp [Agent.send, Agent.note]
      · simp only [ne_eq, he, not_false_eq_true, if_true, Py.pure_eq, Py.ok_bind, Bool.false_eq_true, if_false] at h
        cases h
        refine ⟨miss _ f rfl, Or.inr ⟨?_, rfl, rfl, hk, ?_⟩⟩
        · rintro ⟨k', h1, h2⟩; cases h1; exact he h2
        · simp [Agent.send, Agent.note]
  · simp only [hi, Bool.not_false, if_true, Py.ok_bind, Bool.false_eq_true, if_false] at h
    cases h
    refine ⟨miss _ f rfl, Or.inr ⟨?_, rfl, rfl, rfl, ?_⟩⟩
    · rintro ⟨k, h1, h2⟩
      exact hi (g.inv.init (by simp [h1]))
    · simp [Agent.send, Agent.note]

/-- `on_balance_request`: the oldest tasks leave both tables. -/
theorem takeOldest_ok {n : Nat} : ∀ {a : Agent}, IQueue.WF id a.queue → (∀ t, a.tasks.has t = true ↔ t ∈ a.queue.contents) →
    n ≤ a.queue.contents.length → ∃ q ts, a.takeOldest n = .ok (a.queue.contents.take n, { a with queue := q, tasks := ts }) ∧
      IQueue.WF id q ∧ q.contents = a.queue.contents.drop n ∧
      (∀ t, ts.has t = true ↔ t ∈ a.queue.contents.drop n) ∧ (∀ t k, ts.get? t = some k → a.tasks.get? t = some k) := by
  induction n with
  | zero =>
    intro a h1 h2 _
    exact ⟨a.queue, a.tasks, by simp [takeOldest], h1, by simp, by simpa using h2, fun _ _ h => h⟩
  | succ n ih =>
    intro a h1 h2 h3
    cases hc : a.queue.contents with
    | nil => rw [hc] at h3; simp at h3
    | cons t l =>
      obtain ⟨q, hq, hw, hcq⟩ := h1.get_cons hc
      have hk : a.tasks.has t = true := (h2 t).2 (by simp [hc])
      simp only [Dict.has, Option.isSome_iff_exists] at hk
      obtain ⟨k, hk⟩ := hk
      have hnd := h1.nodup
      rw [hc, List.nodup_cons] at hnd
      obtain ⟨q', ts, e, hw', hc', hh', hg'⟩ := ih (a := { a with queue := q, tasks := a.tasks.erase t }) hw (by
          intro u
          simp only [Dict.has, Dict.get?_erase, hcq]
          by_cases e : t = u
          · subst e; simp [hnd.1]
          · simp only [e, if_false]
            have := h2 u
            rw [hc, List.mem_cons] at this
            simp only [Dict.has] at this
            rw [this]
            simp [show ¬ u = t from fun x => e x.symm]) (by rw [hc] at h3; simpa [hcq] using h3)
      refine ⟨q', ts, ?_, hw', ?_, ?_, ?_⟩
      · simp only [takeOldest, hq, Py.ok_bind, Dict.pop, Dict.getPy, hk, orRaise, Py.pure_eq, e, hcq, List.take_succ_cons]
      · rw [hc', hcq, List.drop_succ_cons]
      · intro u; rw [hh' u, hcq, List.drop_succ_cons]
      · intro u j hj
        have := hg' u j hj
        simp only [Dict.get?_erase] at this
        split at this
        · cases this
        · exact this

theorem count_take_drop (l : List Bytes) (n : Nat) (t : Bytes) : l.count t = (l.take n).count t + (l.drop n).count t := by
  rw [← List.count_append, List.take_append_drop]

theorem onBalance_spec {a : Agent} {now : Int} {n : Int} (g : Good a) (hn : 0 ≤ n) :
    ∃ a', (a.note now (.recv (.balanceRequest n))).receive now (.balanceRequest n) = .ok a' ∧ Fine a a' ∧
      a'.log = a.log ++ [(now, .recv (.balanceRequest n)),
        (now, .sent (.balanceResponse (a.queue.contents.take n.toNat)))] ∧
      a'.queue.contents = a.queue.contents.drop n.toNat ∧ a'.pos = a.pos ∧ a'.task = a.task := by
  let b := a.note now (.recv (.balanceRequest n))
  have hlen := g.inv.wf.len
  have hk : (min n b.queue.len).toNat = min n.toNat a.queue.contents.length := by
    show (min n a.queue.len).toNat = _
    rw [hlen]; omega
  have hk0 : ¬ min n b.queue.len < 0 := by
    show ¬ min n a.queue.len < 0
    rw [hlen]; omega
  obtain ⟨q, ts, e, hw, hc, hh, hg⟩ := takeOldest_ok (n := min n.toNat a.queue.contents.length) (a := b) g.inv.wf g.inv.keys (Nat.min_le_right _ _)
  have htake : a.queue.contents.take (min n.toNat a.queue.contents.length) = a.queue.contents.take n.toNat := by
    rw [List.take_eq_take_iff]; omega
  have hdrop : a.queue.contents.drop (min n.toNat a.queue.contents.length) = a.queue.contents.drop n.toNat := by
    by_cases hl : n.toNat ≤ a.queue.contents.length
    · rw [Nat.min_eq_left hl]
    · rw [Nat.min_eq_right (by omega), List.drop_length, List.drop_eq_nil_of_le (by omega)]
  simp only [show b.queue = a.queue from rfl, htake, hdrop] at e hc hh
  refine ⟨{ b with queue := q, tasks := ts }.send now (.balanceResponse (a.queue.contents.take n.toNat)), ?_, ?_, ?_, hc, rfl, rfl⟩
  · show (do
      let (l, a) ← b.onBalance n
      return a.send now (.balanceResponse l)) = _
    unfold onBalance
    rw [if_neg hk0, hk, e]
    rfl
  · refine ⟨⟨⟨hw, ?_, ?_, g.inv.lock, g.inv.init, g.inv.wait, g.inv.proc, g.inv.procs⟩, ⟨?_, ?_, ?_⟩, ?_⟩, ⟨?_, ?_⟩,
      [(now, .recv (.balanceRequest n)), (now, .sent (.balanceResponse (a.queue.contents.take n.toNat)))], ?_⟩
    · intro t
      simp only [Agent.send, Agent.note, hc]
      exact hh t
    · intro t k h
      exact g.inv.named t k (hg t k h)
    · simp only [b, Agent.send, Agent.note, current_snoc, currentStep]; exact g.mt.current
    · simp only [b, Agent.send, Agent.note, ready_snoc, readyStep]; exact g.mt.ready
    · simp only [b, Agent.send, Agent.note, busy_snoc, busyStep]; exact g.mt.busy
    · simp only [b, Agent.send, Agent.note, always_snoc]
      exact ⟨⟨g.ok, trivial⟩, trivial⟩
    · intro _ u
      have := count_take_drop a.queue.contents n.toNat u
      simp only [b, Agent.send, Agent.note, times_snoc, returned_snoc, pend, runs, hc, isTask, isAnswer, returns]
      simp
      omega
    · intro u
      have := count_take_drop a.queue.contents n.toNat u
      simp only [b, Agent.send, Agent.note, times_snoc, returned_snoc, pend, hc, isTask, isTold, returns]
      simp
      omega
    · simp [b, Agent.send, Agent.note]
  · simp [b, Agent.send, Agent.note]

/-- A result from the processor. -/
theorem onResult_fine {a : Agent} {now : Int} {i : Bytes} {st : TaskStatus} {d : UInt32} {r : Bytes} (g : Good a) :
    Fine a ((a.note now (.heard (.taskResult i st d r))).onResult now i st d r) := by
  unfold onResult
  simp only [show (a.note now (.heard (.taskResult i st d r))).initialized = a.initialized from rfl,
    show (a.note now (.heard (.taskResult i st d r))).task = a.task from rfl]
  by_cases hi : a.initialized
  · simp only [hi, Bool.not_true, Bool.false_eq_true, if_false]
    have hr : ready a.log = true := by rw [g.mt.ready, hi]
    cases hk : a.task with
    | none =>
      have hb : busy a.log = none := by rw [g.mt.busy, hk]
      apply note_fine g <;> first | rfl | (intro; rfl) | trivial | skip
      · simp [readyStep, hr]
      · simp [busyStep, hb]
    | some k =>
      have hb : busy a.log = some k := by rw [g.mt.busy, hk]
      by_cases he : k.taskId = i
      · simp only [he, ne_eq, not_true, if_false]
        have hlock : a.pos.isInit = false := by
          cases hpos : a.pos with
          | idle => rfl
          | lock _ => rfl
          | init u w => have := (g.inv.wait u w hpos).1; rw [hk] at this; cases this
        refine ⟨⟨⟨g.inv.wf, g.inv.keys, g.inv.named, ?_, ?_, ?_, g.inv.proc, g.inv.procs⟩, ⟨?_, ?_, ?_⟩, ?_⟩, ⟨?_, ?_⟩,
          [(now, .heard (.taskResult i st d r)), (now, .sent (.taskResult i st d r))], ?_⟩
        · simp [Agent.send, Agent.note, hlock]
        · intro x; cases x
        · intro u w hw
          simp only [Agent.send, Agent.note] at hw
          rw [hw] at hlock; cases hlock
        · simp only [Agent.send, Agent.note, current_snoc, currentStep]; exact g.mt.current
        · simp only [Agent.send, Agent.note, ready_snoc, readyStep, hr, Bool.true_or]; exact hi.symm
        · simp only [Agent.send, Agent.note, busy_snoc, busyStep, hb]
          simp [he]
        · simp only [Agent.send, Agent.note, always_snoc]
          exact ⟨⟨g.ok, trivial⟩, Or.inl ⟨a.log, now, k, rfl, hb, he⟩⟩
        · intro hh u
          have hst : st = .success ∨ st = .failed := hh (now, .heard (.taskResult i st d r))
            (by simp [Agent.send, Agent.note]) _ rfl
          have hst : st ≠ .notFound := by rcases hst with rfl | rfl <;> simp
          simp only [Agent.send, Agent.note, times_snoc, returned_snoc, pend, runs, hk, isTask, isAnswer, returns]
          by_cases e : i = u
          · simp [e, he, hst]; omega
          · simp [e, he]
        · intro u
          simp only [Agent.send, Agent.note, times_snoc, returned_snoc, pend, isTask, isTold, returns]
          simp
        · simp [Agent.send, Agent.note]
      · simp only [ne_eq, he, not_false_eq_true, if_true]
        apply note_fine g <;> first | rfl | (intro; rfl) | trivial | skip
        · simp [readyStep, hr]
        · simp [busyStep, hb, he]
  · have hk : a.task = none := by
      cases hk : a.task with
      | none => rfl
      | some k => exact (hi (g.inv.init (by simp [hk]))).elim
    have hb : busy a.log = none := by rw [g.mt.busy, hk]
    have hr : ready a.log = false := by rw [g.mt.ready]; simpa using hi
    simp only [hi, Bool.not_false, if_true]
    unfold onInitialized
    by_cases he : i = []
    · subst he
      simp only [ne_eq, not_true, if_false, show (a.note now (.heard (.taskResult [] st d r))).task = a.task from rfl, hk]
      refine ⟨⟨⟨g.inv.wf, g.inv.keys, g.inv.named, ?_, ?_, ?_, g.inv.proc, g.inv.procs⟩, ⟨?_, ?_, ?_⟩, ?_⟩, ⟨?_, ?_⟩,
          [(now, .heard (.taskResult [] st d r))], ?_⟩
      · have := g.inv.lock
        cases hp : a.pos <;> simp only [Agent.note, hp, this, hk] <;> rfl
      · intro _; rfl
      · intro u w hw
        cases hp : a.pos <;> simp only [Agent.note, hp] at hw <;> cases hw
        exact ⟨rfl, rfl⟩
      · simp only [Agent.note, current_snoc, currentStep]; exact g.mt.current
      · simp [Agent.note, ready_snoc, readyStep]
      · simp only [Agent.note, busy_snoc, busyStep, hb, hk]; rfl
      · simp only [Agent.note, always_snoc]; exact ⟨g.ok, trivial⟩
      · intro hh u
        simp only [Agent.note, times_snoc, returned_snoc, pend, runs, hk, isTask, isAnswer, returns]
        cases hp : a.pos <;> simp [Pos.count, Pos.task?]
      · intro u
        simp only [Agent.note, times_snoc, returned_snoc, pend, isTask, isTold, returns]
        cases hp : a.pos <;> simp [Pos.count, Pos.task?]
      · simp [Agent.note]
    · simp only [ne_eq, he, not_false_eq_true, if_true]
      apply note_fine g <;> first | rfl | (intro; rfl) | trivial | skip
      · simp [readyStep, hr, he]
      · simp [busyStep, hb]

theorem onInternalFunctionRequest_fine {a a' : Agent} {now : Int} {ty : FunctionRequestType} {fid nm c : Bytes} (g : Good a)
    (h : (a.note now (.heard (.functionRequest ty fid nm c))).onInternalFunctionRequest now ty fid nm c = .ok a') : Fine a a' := by
  have f : Fine a (a.note now (.heard (.functionRequest ty fid nm c))) := plain_fine g trivial
  unfold onInternalFunctionRequest at h
  split at h
  · cases h; exact f
  split at h
  · cases h; exact f
  next k hk =>
  split at h
  · cases h; exact f
  next hf =>
  simp only [Py.bind_ok, pyAssert_ok, decide_eq_true_eq] at h
  obtain ⟨_, rfl, h⟩ := h
  cases h
  refine f.trans ?_
  apply note_fine f.good <;> first | rfl | (intro; rfl) | skip
  exact ⟨rfl, ⟨a.log, now, rfl⟩, k, by rw [f.good.mt.busy]; exact hk, Classical.byContradiction fun e => hf e⟩

/-! ### The task manager's loop -/

/-- The loop may hand over `k`: it holds the lock, the processor is ready and has no task. -/
theorem handOver_spec {a b : Agent} {now : Int} {k : Task} (g : Good a) (hq : IQueue.WF id b.queue)
    (hkeys : ∀ t, b.tasks.has t = true ↔ t ∈ b.queue.contents) (hnamed : ∀ t k, b.tasks.get? t = some k → k.taskId = t)
    (hl : b.locked = true) (ht : a.task = none) (hi : a.initialized = true)
    (hb : b = { a with queue := b.queue, tasks := b.tasks, locked := b.locked })
    (hp : ∀ t, a.pend t = b.queue.contents.count t + if k.taskId = t then 1 else 0) :
    ∃ a' n, b.handOver now k = .ok a' ∧ Fine a a' ∧ a.processor = some n ∧ a'.log = a.log ++ [(now, .told n (.task k))] ∧
      a'.task = some k ∧ a'.pos = .idle ∧ a'.queue = b.queue := by
  obtain ⟨n, hn⟩ := Option.isSome_iff_exists.1 g.inv.proc
  generalize hq' : b.queue = q at *
  generalize hts : b.tasks = ts at *
  generalize hlk : b.locked = lk at *
  clear hq' hts hlk
  subst hb
  refine ⟨({ a with queue := q, tasks := ts, locked := lk, task := some k, pos := .idle } : Agent).tell now (.task k),
    n, ?_, ?_, hn, ?_, rfl, rfl, rfl⟩
  · simp [handOver, ht, pyAssert]
  · refine ⟨⟨⟨hq, hkeys, hnamed, ?_, ?_, ?_, g.inv.proc, g.inv.procs⟩, ⟨?_, ?_, ?_⟩, ?_⟩, ⟨?_, ?_⟩,
          [(now, .told n (.task k))], ?_⟩
    · simp [tell, Agent.note, hl]
    · intro _; exact hi
    · intro u w hw; simp [tell, Agent.note] at hw
    · simp only [tell, Agent.note, current_snoc, currentStep]; exact g.mt.current
    · simp only [tell, Agent.note, ready_snoc, readyStep]; exact g.mt.ready
    · simp only [tell, Agent.note, busy_snoc, busyStep]
    · simp only [tell, Agent.note, always_snoc]
      refine ⟨g.ok, ?_, ?_, ?_⟩
      · rw [g.mt.current, hn]; rfl
      · rw [g.mt.ready, hi]
      · rw [g.mt.busy, ht]
    · intro hh u
      simp only [tell, Agent.note, times_snoc, returned_snoc, hp, runs, ht, isTask, isAnswer, returns]
      simp [pend, Pos.count, Pos.task?]
      omega
    · intro u
      simp only [tell, Agent.note, times_snoc, returned_snoc, hp, isTask, isTold, returns]
      simp [pend, Pos.count, Pos.task?]
      omega
    · simp [tell, Agent.note, hn]
  · simp [tell, Agent.note, hn]

/-- The loop waits: for the lock, or holding it for the processor. -/
theorem wait_fine {a : Agent} {k : Task} {q : IQueue Bytes Bytes} {ts : Dict Bytes Task} {lk : Bool} {p : Pos} (g : Good a)
    (hq : IQueue.WF id q) (hkeys : ∀ t, ts.has t = true ↔ t ∈ q.contents) (hnamed : ∀ t k, ts.get? t = some k → k.taskId = t)
    (hl : lk = (a.task.isSome || p.isInit)) (hw : ∀ t w, p = .init t w → a.task = none ∧ w = a.initialized)
    (hp : ∀ t, a.pend t = q.contents.count t + if k.taskId = t then 1 else 0) (hpk : p.task? = some k) :
    Fine a { a with queue := q, tasks := ts, locked := lk, pos := p } := by
  refine ⟨⟨⟨hq, hkeys, hnamed, hl, g.inv.init, hw, g.inv.proc, g.inv.procs⟩,
    ⟨g.mt.current, g.mt.ready, g.mt.busy⟩, g.ok⟩, ⟨?_, ?_⟩, [], by simp⟩
  · intro hh u
    rw [hp]
    simp [pend, runs, Pos.count, hpk]
  · intro u
    rw [hp]
    simp [pend, Pos.count, hpk]

/-- The task the loop hands over next. -/
def Agent.next? (a : Agent) : Option Task :=
  match a.pos.task? with
  | some k => some k
  | none => a.queue.contents.head?.bind a.tasks.get?

/-- `routine` never raises.  If the processor is ready and free and some task waits, the next task is handed
over; otherwise nothing is sent. -/
theorem turn_spec {a : Agent} (now : Int) (g : Good a) : ∃ a', a.turn now = .ok a' ∧ Fine a a' ∧
    ((∃ k n, a.task = none ∧ a.initialized = true ∧ a.next? = some k ∧ a.processor = some n ∧
        a'.log = a.log ++ [(now, .told n (.task k))]) ∨
      (a'.log = a.log ∧ a'.task = a.task ∧ a'.initialized = a.initialized ∧
        (a.task = none → a.initialized = true → a.next? = none))) := by
  unfold turn
  cases hpos : a.pos with
  | idle =>
    have hlock : a.locked = a.task.isSome := by rw [g.inv.lock, hpos]; simp [Pos.isInit]
    by_cases hc : a.queue.contents = []
    · have : a.queue.len = 0 := by rw [g.inv.wf.len, hc]; rfl
      simp only [this, if_true]
      exact ⟨a, rfl, Fine.rfl g, Or.inr ⟨rfl, rfl, rfl, fun _ _ => by simp [Agent.next?, hpos, Pos.task?, hc]⟩⟩
    · obtain ⟨t, l, hc⟩ := List.exists_cons_of_ne_nil hc
      have : ¬ a.queue.len = 0 := by rw [g.inv.wf.len, hc]; simp; omega
      simp only [this, if_false]
      obtain ⟨q, hq, hw, hcq⟩ := g.inv.wf.get_cons hc
      have hk : a.tasks.has t = true := (g.inv.keys t).2 (by simp [hc])
      simp only [Dict.has, Option.isSome_iff_exists] at hk
      obtain ⟨k, hk⟩ := hk
      have hkt := g.inv.named t k hk
      have hnd := g.inv.wf.nodup
      rw [hc, List.nodup_cons] at hnd
      have hkeys : ∀ u, (a.tasks.erase t).has u = true ↔ u ∈ q.contents := by
        intro u
        simp only [Dict.has, Dict.get?_erase, hcq]
        by_cases e : t = u
        · subst e; simp [hnd.1]
        · simp only [e, if_false]
          have := g.inv.keys u
          rw [hc, List.mem_cons] at this
          simp only [Dict.has] at this
          rw [this]
          simp [show ¬ u = t from fun x => e x.symm]
      have hnamed : ∀ u j, (a.tasks.erase t).get? u = some j → j.taskId = u := by
        intro u j hj
        simp only [Dict.get?_erase] at hj
        split at hj
        · cases hj
        · exact g.inv.named u j hj
      have hp : ∀ u, a.pend u = q.contents.count u + if k.taskId = u then 1 else 0 := by
        intro u
        simp [pend, hpos, Pos.count, Pos.task?, hc, hcq, hkt, List.count_cons]
      simp only [hq, Py.ok_bind, Dict.pop, Dict.getPy, hk, orRaise, Py.pure_eq]
      have hnext : a.next? = some k := by simp [Agent.next?, hpos, Pos.task?, hc, hk]
      unfold awaitLock
      by_cases hl : a.locked = true
      · rw [if_pos hl]
        refine ⟨_, rfl, wait_fine (k := k) (p := .lock k) g hw hkeys hnamed (by rw [hlock]; simp [Pos.isInit]) (by intro _ _ h; cases h) hp rfl,
          Or.inr ⟨rfl, rfl, rfl, ?_⟩⟩
        intro h; rw [hlock, h] at hl; cases hl
      · rw [if_neg hl]
        have ht : a.task = none := by
          rw [hlock] at hl; simpa using hl
        unfold awaitProcessor
        by_cases hi : a.initialized = true
        · obtain ⟨a', n, e1, e2, e3, e4, _⟩ := handOver_spec (now := now) (k := k) (b := { a with queue := q, tasks := a.tasks.erase t, locked := true })
            g hw hkeys hnamed rfl ht hi rfl hp
          rw [if_pos hi]
          exact ⟨a', e1, e2, Or.inl ⟨k, n, ht, hi, hnext, e3, e4⟩⟩
        · rw [if_neg hi]
          refine ⟨_, rfl, wait_fine (k := k) (lk := true) (p := .init k false) g hw hkeys hnamed (by simp [Pos.isInit]) ?_ hp rfl,
            Or.inr ⟨rfl, rfl, rfl, fun _ h => (hi h).elim⟩⟩
          intro u w h; cases h; exact ⟨ht, by simpa using hi⟩
  | lock k =>
    have hlock : a.locked = a.task.isSome := by rw [g.inv.lock, hpos]; simp [Pos.isInit]
    have hp : ∀ u, a.pend u = a.queue.contents.count u + if k.taskId = u then 1 else 0 := by
      intro u
      simp [pend, hpos, Pos.count, Pos.task?]
    have hnext : a.next? = some k := by simp [Agent.next?, hpos, Pos.task?]
    by_cases hl : a.locked = true
    · simp only
      rw [if_pos hl]
      refine ⟨a, rfl, Fine.rfl g, Or.inr ⟨rfl, rfl, rfl, ?_⟩⟩
      intro h; rw [hlock, h] at hl; cases hl
    · simp only
      rw [if_neg hl]
      have ht : a.task = none := by
        rw [hlock] at hl; simpa using hl
      unfold awaitProcessor
      by_cases hi : a.initialized = true
      · obtain ⟨a', n, e1, e2, e3, e4, _⟩ := handOver_spec (now := now) (k := k) (b := { a with locked := true })
          g g.inv.wf g.inv.keys g.inv.named rfl ht hi rfl hp
        rw [if_pos hi]
        exact ⟨a', e1, e2, Or.inl ⟨k, n, ht, hi, hnext, e3, e4⟩⟩
      · rw [if_neg hi]
        refine ⟨_, rfl, wait_fine (k := k) (lk := true) (p := .init k false) g g.inv.wf g.inv.keys g.inv.named (by simp [Pos.isInit]) ?_ hp rfl,
          Or.inr ⟨rfl, rfl, rfl, fun _ h => (hi h).elim⟩⟩
        intro u w h; cases h; exact ⟨ht, by simpa using hi⟩
  | init k w =>
    obtain ⟨ht, rfl⟩ := g.inv.wait k w hpos
    have hlock : a.locked = true := by rw [g.inv.lock, hpos]; simp [Pos.isInit]
    have hp : ∀ u, a.pend u = a.queue.contents.count u + if k.taskId = u then 1 else 0 := by
      intro u
      simp [pend, hpos, Pos.count, Pos.task?]
    have hnext : a.next? = some k := by simp [Agent.next?, hpos, Pos.task?]
    simp only
    by_cases hi : a.initialized = true
    · rw [if_pos hi]
      obtain ⟨a', n, e1, e2, e3, e4, _⟩ := handOver_spec (now := now) (k := k) (b := a)
        g g.inv.wf g.inv.keys g.inv.named hlock ht hi rfl hp
      exact ⟨a', e1, e2, Or.inl ⟨k, n, ht, hi, hnext, e3, e4⟩⟩
    · rw [if_neg hi]
      exact ⟨a, rfl, Fine.rfl g, Or.inr ⟨rfl, rfl, rfl, fun _ h => (hi h).elim⟩⟩

/-! ### One event -/

theorem init_good (d now : Int) : Good (Agent.init d now) := by
  refine ⟨⟨IQueue.wf_empty id, ?_, ?_, rfl, ?_, ?_, rfl, ?_⟩, ⟨rfl, rfl, rfl⟩, ?_⟩
  · intro t; simp [Agent.init, startProcessor, Agent.note, blank, Dict.has]
  · intro t k h; simp [Agent.init, startProcessor, Agent.note, blank] at h
  · intro h; cases h
  · intro t w h; cases h
  · intro n h; cases h; rfl
  · exact (always_snoc (l := [])).2 ⟨always_nil _, rfl⟩

theorem step_fine {a a' : Agent} {e : Event} (g : Good a) (h : a.step e = .ok a') : Fine a a' := by
  unfold Agent.step at h
  split at h
  · rename_i m _
    cases m with
    | heartbeatEcho => simp only [receive] at h; cases h; exact onEcho_fine g
    | task k => exact onTaskNew_fine g h
    | taskCancel t =>
      by_cases hm : t ∈ a.queue.contents
      · exact (onCancel_queued g hm h).1
      · exact (onCancel_other g hm h).1
    | balanceRequest n =>
      by_cases hn : 0 ≤ n
      · obtain ⟨b, e1, e2, _⟩ := onBalance_spec (now := e.now) g hn
        rw [e1] at h; cases h; exact e2
      · simp only [receive, onBalance] at h
        rw [if_pos (by omega)] at h
        cases h
    | functionRequest ty fid nm c => exact onFunctionRequest_fine g h
    | functionResponse st fid nm c => exact onFunctionResponse_fine g h
    | _ => simp only [receive] at h; cases h
  · rename_i m _
    cases m with
    | functionRequest ty fid nm c => exact onInternalFunctionRequest_fine g h
    | taskResult i st d r => simp only [receiveInternal] at h; cases h; exact onResult_fine g
    | _ => simp only [receiveInternal] at h; cases h
  · obtain ⟨b, e1, e2, _⟩ := turn_spec e.now g
    rw [e1] at h; cases h; exact e2
  · exact heartbeat_fine g h
  · unfold checkTimeout at h
    split at h
    · cases h; exact Fine.rfl g
    · cases h

/-- The states a worker can be in. -/
inductive Reach (d start : Int) : Agent → Prop
  | init : Reach d start (Agent.init d start)
  | step {a a' : Agent} (e : Event) (hr : Reach d start a) (hs : a.step e = .ok a') : Reach d start a'

/-- What happens to a worker later on. -/
inductive Later (a : Agent) : Agent → Prop
  | now : Later a a
  | step {b b' : Agent} (e : Event) (hl : Later a b) (hs : b.step e = .ok b') : Later a b'

theorem Reach.good {d start : Int} {a : Agent} (h : Reach d start a) : Good a := by
  induction h with
  | init => exact init_good d start
  | step e _ hs ih => exact (step_fine ih hs).good

theorem Reach.later {d start : Int} {a b : Agent} (h : Reach d start a) (hl : Later a b) : Reach d start b := by
  induction hl with
  | now => exact h
  | step e _ hs ih => exact .step e ih hs

theorem Later.fine {a b : Agent} (g : Good a) (h : Later a b) : Fine a b := by
  induction h with
  | now => exact Fine.rfl g
  | step e _ hs ih => exact ih.trans (step_fine ih.good hs)

end Verif.Worker
