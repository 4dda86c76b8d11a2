import Verif.Sched.Handlers

/-!
# What the handlers leave alone

The heartbeat table and the state of load balancing change only through heartbeats, disconnects and the
worker routine; a registered function keeps its name and content.
-/

namespace Verif.Sched

open Verif.Queue Verif.Util Verif.Wire

/-- `s'` differs from `s` in other things; functions new in `s'` satisfy `N`; tasks are sent only if `D`; graphs are
queued or unpacked only if `Q`. -/
structure Kept (N : Bytes → Bytes → Bytes → Prop) (D Q : Prop) (s s' : Sched) : Prop where
  alive : s'.wm.alive = s.wm.alive
  last : s'.wm.lastAdvice = s.wm.lastAdvice
  count : s'.wm.sameCount = s.wm.sameCount
  cfg : s'.cfg = s.cfg
  said : ∃ l, s'.out = s.out ++ l ∧ ∀ w k, (w, Message.task k) ∈ l → D
  stay : ∀ f i, s.fm.funcs.get? f = some i → ∃ j, s'.fm.funcs.get? f = some j ∧ j.name = i.name ∧ j.content = i.content
  new : ∀ f j, s'.fm.funcs.get? f = some j →
    (∃ i, s.fm.funcs.get? f = some i ∧ j.name = i.name ∧ j.content = i.content) ∨ N f j.name j.content
  pend : s'.tm.pending = s.tm.pending ∨ D
  more : s.tm.success ≤ s'.tm.success
  line : s'.gm.queue = s.gm.queue ∨ Q

variable {N : Bytes → Bytes → Bytes → Prop} {D Q : Prop} {s s' s'' : Sched}

theorem Kept.refl : Kept N D Q s s := ⟨rfl, rfl, rfl, rfl, ⟨[], by simp, by simp⟩, fun _ i h => ⟨i, h, rfl, rfl⟩, fun _ j h => Or.inl ⟨j, h, rfl, rfl⟩,
  Or.inl rfl, Nat.le_refl _, Or.inl rfl⟩

theorem Kept.trans (h : Kept N D Q s s') (h' : Kept N D Q s' s'') : Kept N D Q s s'' := by
  refine ⟨h'.alive.trans h.alive, h'.last.trans h.last, h'.count.trans h.count, h'.cfg.trans h.cfg, ?_, ?_, ?_,
    h'.pend.elim (fun e' => h.pend.imp_left e'.trans) Or.inr, Nat.le_trans h.more h'.more,
    h'.line.elim (fun e' => h.line.imp_left e'.trans) Or.inr⟩
  · obtain ⟨l, e, hl⟩ := h.said
    obtain ⟨l', e', hl'⟩ := h'.said
    refine ⟨l ++ l', by rw [e', e, List.append_assoc], ?_⟩
    intro w k hm
    exact (List.mem_append.1 hm).elim (hl w k) (hl' w k)
  · intro f i hi
    obtain ⟨j, hj, h1, h2⟩ := h.stay f i hi
    obtain ⟨k, hk, h3, h4⟩ := h'.stay f j hj
    exact ⟨k, hk, h3.trans h1, h4.trans h2⟩
  · intro f k hk
    rcases h'.new f k hk with ⟨j, hj, h1, h2⟩ | h1
    · rcases h.new f j hj with ⟨i, hi, h3, h4⟩ | h3
      · exact Or.inl ⟨i, hi, h1.trans h3, h2.trans h4⟩
      · right; rw [h1, h2]; exact h3
    · exact Or.inr h1

/-- Only parts that do not matter changed. -/
theorem Kept.of (h1 : s'.fm.funcs = s.fm.funcs) (h2 : s'.wm.alive = s.wm.alive) (h3 : s'.wm.lastAdvice = s.wm.lastAdvice)
    (h4 : s'.wm.sameCount = s.wm.sameCount) (h5 : s'.cfg = s.cfg) (h6 : s'.out = s.out)
    (h7 : s'.tm.pending = s.tm.pending ∨ D := by first | exact Or.inl rfl | exact Or.inr ‹_›)
    (h8 : s.tm.success ≤ s'.tm.success := by exact Nat.le_refl _) (h9 : s'.gm.queue = s.gm.queue ∨ Q := by exact Or.inl rfl) : Kept N D Q s s' := by
  refine ⟨h2, h3, h4, h5, ⟨[], by simp [h6], by simp⟩, ?_, ?_, h7, h8, h9⟩
  · intro f i hi; exact ⟨i, by rw [h1]; exact hi, rfl, rfl⟩
  · intro f j hj; exact Or.inl ⟨j, by rw [← h1]; exact hj, rfl, rfl⟩

/-- An entry is set. -/
theorem Kept.set {f : Bytes} {i : FuncInfo} (h1 : s'.fm.funcs = s.fm.funcs.set f i) (h2 : s'.wm = s.wm) (h3 : s'.cfg = s.cfg)
    (h4 : ∃ l, s'.out = s.out ++ l ∧ ∀ w k, (w, Message.task k) ∈ l → D) (hi : ∀ j, s.fm.funcs.get? f = some j → i.name = j.name ∧ i.content = j.content)
    (hn : s.fm.funcs.get? f = none → N f i.name i.content)
    (h5 : s'.tm.pending = s.tm.pending ∨ D := by exact Or.inl rfl)
    (h6 : s.tm.success ≤ s'.tm.success := by exact Nat.le_refl _) (h7 : s'.gm.queue = s.gm.queue ∨ Q := by exact Or.inl rfl) : Kept N D Q s s' := by
  refine ⟨by rw [h2], by rw [h2], by rw [h2], h3, h4, ?_, ?_, h5, h6, h7⟩
  · intro g j hj
    rw [h1, Dict.get?_set]
    by_cases e : f = g
    · subst e; exact ⟨i, by simp, (hi j hj).1, (hi j hj).2⟩
    · exact ⟨j, by simp [e, hj], rfl, rfl⟩
  · intro g j hj
    rw [h1, Dict.get?_set] at hj
    by_cases e : f = g
    · subst e
      simp at hj
      subst hj
      cases hx : s.fm.funcs.get? f with
      | none => exact Or.inr (hn hx)
      | some k => exact Or.inl ⟨k, rfl, (hi k hx).1, (hi k hx).2⟩
    · simp [e] at hj; exact Or.inl ⟨j, hj, rfl, rfl⟩

/-- Unless it raises. -/
def Keeps (N : Bytes → Bytes → Bytes → Prop) (D Q : Prop) (s : Sched) (x : Py Sched) : Prop := Py.Post x (Kept N D Q s) (fun _ => True)

def Keeps2 {α : Type} (N : Bytes → Bytes → Bytes → Prop) (D Q : Prop) (s : Sched) (x : Py (α × Sched)) : Prop :=
  Py.Post x (fun p => Kept N D Q s p.2) (fun _ => True)

theorem post_any {α β : Type} {x : Py α} {f : α → Py β} {Q : β → Prop} (h : ∀ a, Py.Post (f a) Q (fun _ => True)) :
    Py.Post (x >>= f) Q (fun _ => True) := by
  cases x with
  | ok a => exact h a
  | error e => trivial

theorem Keeps.ok (h : Kept N D Q s s') : Keeps N D Q s (.ok s') := h
theorem Keeps.pure (h : Kept N D Q s s') : Keeps N D Q s (Pure.pure s') := h
theorem Keeps.error {e : PyErr} : Keeps N D Q s (.error e) := trivial

theorem Keeps.any {α : Type} {x : Py α} {f : α → Py Sched} (h : ∀ a, Keeps N D Q s (f a)) : Keeps N D Q s (x >>= f) := post_any h

theorem Keeps.bind {x : Py Sched} {f : Sched → Py Sched} (h : Keeps N D Q s x) (hf : ∀ s', Kept N D Q s s' → Keeps N D Q s' (f s')) : Keeps N D Q s (x >>= f) := by
  cases x with
  | ok s' => exact Py.Post.imp (hf s' h) (fun _ k => Kept.trans h k) (fun _ k => k)
  | error e => trivial

theorem Keeps.bind2 {α : Type} {x : Py (α × Sched)} {f : α × Sched → Py Sched} (h : Keeps2 N D Q s x)
    (hf : ∀ a s', Kept N D Q s s' → Keeps N D Q s' (f (a, s'))) : Keeps N D Q s (x >>= f) := by
  cases x with
  | ok p => exact Py.Post.imp (hf p.1 p.2 h) (fun _ k => Kept.trans h k) (fun _ k => k)
  | error e => trivial

theorem Keeps2.bind {β : Type} {x : Py Sched} {f : Sched → Py (β × Sched)} (h : Keeps N D Q s x)
    (hf : ∀ s', Kept N D Q s s' → Keeps2 N D Q s' (f s')) : Keeps2 N D Q s (x >>= f) := by
  cases x with
  | ok s' => exact Py.Post.imp (hf s' h) (fun _ k => Kept.trans h k) (fun _ k => k)
  | error e => trivial

theorem Keeps2.bind2 {α β : Type} {x : Py (α × Sched)} {f : α × Sched → Py (β × Sched)} (h : Keeps2 N D Q s x)
    (hf : ∀ a s', Kept N D Q s s' → Keeps2 N D Q s' (f (a, s'))) : Keeps2 N D Q s (x >>= f) := by
  cases x with
  | ok p => exact Py.Post.imp (hf p.1 p.2 h) (fun _ k => Kept.trans h k) (fun _ k => k)
  | error e => trivial

theorem Keeps2.any {α β : Type} {x : Py α} {f : α → Py (β × Sched)} (h : ∀ a, Keeps2 N D Q s (f a)) : Keeps2 N D Q s (x >>= f) := post_any h
theorem Keeps2.pure {β : Type} {b : β} (h : Kept N D Q s s') : Keeps2 N D Q s (Pure.pure (b, s')) := h

/-- Start from another state. -/
theorem Keeps.frm {x : Py Sched} (hx : Keeps N D Q s' x) (h : Kept N D Q s s') : Keeps N D Q s x :=
  Py.Post.imp hx (fun _ k => h.trans k) (fun _ k => k)
theorem Keeps.after {x : Py Sched} (h : Kept N D Q s s') (hx : Keeps N D Q s' x) : Keeps N D Q s x :=
  Py.Post.imp hx (fun _ k => h.trans k) (fun _ k => k)
theorem Keeps2.after {β : Type} {x : Py (β × Sched)} (h : Kept N D Q s s') (hx : Keeps2 N D Q s' x) : Keeps2 N D Q s x :=
  Py.Post.imp hx (fun _ k => h.trans k) (fun _ k => k)

namespace Sched

/-- not a task -/
def Other (D : Prop) (m : Message) : Prop := ∀ k, m = .task k → D

theorem send_kept (c : Bytes) (m : Message) (hm : Other D m) : Kept N D Q s (s.send c m) := by
  refine ⟨rfl, rfl, rfl, rfl, ⟨[(c, m)], rfl, ?_⟩, fun _ i h => ⟨i, h, rfl, rfl⟩, fun _ j h => Or.inl ⟨j, h, rfl, rfl⟩, Or.inl rfl, Nat.le_refl _, Or.inl rfl⟩
  intro w k h
  simp at h
  exact hm k h.2.symm

theorem monitor_kept (m : Message) : Kept N D Q s (s.monitor m) := .of rfl rfl rfl rfl rfl rfl

theorem sendMonitor_keeps (t : Bytes) (st : TaskStatus) : Keeps N D Q s (s.sendMonitor t st) := by
  unfold sendMonitor functionName
  exact .any fun _ => .any fun _ => .pure (monitor_kept _)

theorem useFunction_keeps (t f : Bytes) (now : Int) : Keeps N D Q s (s.useFunction t f now) := by
  unfold useFunction
  cases hf : s.fm.funcs.get? f with
  | none =>
    have : s.fm.funcs.getPy f = .error .keyError := by simp [Dict.getPy, hf, orRaise]
    rw [this]; exact .error
  | some i =>
    rw [Dict.getPy_of_get? hf]
    refine Keeps.any (x := s.fm.uses.add f t) fun uses => .pure ?_
    refine .set rfl rfl rfl ⟨[], by simp, by simp⟩ ?_ ?_
    · intro j hj; rw [hf] at hj; cases hj; exact ⟨rfl, rfl⟩
    · intro hn; rw [hf] at hn; cases hn

theorem doneFunction_keeps (t : Bytes) : Keeps N D Q s (s.doneFunction t) := by
  unfold doneFunction
  exact .any fun _ => .pure (.of rfl rfl rfl rfl rfl rfl)

theorem functionAdd_kept (c f name content : Bytes) (now : Int) (hN : N f name content) : Kept N D Q s (s.functionAdd c f name content now) := by
  unfold functionAdd functionResponse
  split
  · next i hi =>
    refine .set (f := f) (i := { i with aliveSince := now }) rfl rfl rfl ⟨[_], rfl, by simp⟩ ?_ ?_
    · intro j hj; rw [hi] at hj; cases hj; exact ⟨rfl, rfl⟩
    · intro hn; rw [hi] at hn; cases hn
  · next hi =>
    refine .set (f := f) (i := ⟨name, content, now⟩) rfl rfl rfl ⟨[_], rfl, by simp⟩ ?_ ?_
    · intro j hj; rw [hi] at hj; cases hj
    · intro _; exact hN

theorem functionDelete_keeps (hc : Conc s) (hset : AllSettled s.abs) (c f : Bytes) : Keeps N D Q s (s.functionDelete c f) := by
  refine (functionDelete_spec (h := ⟨[(c, .functionRequest .delete f [] [])], none⟩) hc hset c f (.inl ⟨_, _, _, List.mem_cons_self⟩)).imp ?_ (fun _ _ => trivial)
  rintro _ ⟨_, ⟨m, hm, rfl⟩, _⟩
  exact send_kept _ _ fun _ h => by subst h; exact hm.elim

theorem clientNew_keeps (c t : Bytes) : Keeps N D Q s (s.clientNew c t) := by
  unfold clientNew
  exact .any fun _ => .pure (.of rfl rfl rfl rfl rfl rfl)

theorem clientDone_keeps (t : Bytes) : Keeps2 N D Q s (s.clientDone t) := by
  unfold clientDone
  exact .any fun _ => .pure (.of rfl rfl rfl rfl rfl rfl)

theorem hasAvailableWorker_keeps : Keeps2 N D Q s s.hasAvailableWorker := by
  unfold hasAvailableWorker
  exact .any fun _ => .pure (.of rfl rfl rfl rfl rfl rfl)

theorem onTaskNew_keeps (c : Bytes) (k : Task) (now : Int) : Keeps N D Q s (s.onTaskNew c k now) := by
  unfold onTaskNew
  split
  · exact .ok (send_kept _ _ fun _ h => by cases h)
  · refine .bind2 hasAvailableWorker_keeps fun b s' _ => ?_
    simp only
    split
    · exact .pure (send_kept _ _ fun _ h => by cases h)
    · refine .after (send_kept c (.taskEcho k.taskId .submitOK) (fun _ h => by cases h)) ?_
      refine .bind (useFunction_keeps _ _ _) fun s2 _ => ?_
      refine .bind (clientNew_keeps _ _) fun s3 _ => ?_
      refine .any fun q => ?_
      exact .frm (sendMonitor_keeps _ _) (.of rfl rfl rfl rfl rfl rfl)

theorem onTaskReroute_keeps (t : Bytes) : Keeps N D Q s (s.onTaskReroute t) := by
  unfold onTaskReroute
  exact .any fun _ => .any fun _ => .any fun _ => .frm (sendMonitor_keeps _ _) (.of rfl rfl rfl rfl rfl rfl)

theorem workerCancel_kept (t : Bytes) : Kept N D Q s (s.workerCancel t) := by
  unfold workerCancel
  split
  · exact .refl
  · exact send_kept _ _ fun _ h => by cases h

/-- `done` keeps everything. -/
def DoneKeeps (N : Bytes → Bytes → Bytes → Prop) (D Q : Prop) (done : Sched → TaskRes → Py Sched) : Prop := ∀ s r, Keeps N D Q s (done s r)

theorem onTaskCancelWith_keeps {done : Sched → TaskRes → Py Sched} (hd : DoneKeeps N D Q done) (s : Sched) (t : Bytes) : Keeps N D Q s (onTaskCancelWith done s t) := by
  unfold onTaskCancelWith
  split
  · exact hd _ _
  · split
    · exact .ok .refl
    · exact .after (workerCancel_kept t) (sendMonitor_keeps _ _)

theorem count_kept (st : TaskStatus) : Kept N D Q s (s.count st) := by
  cases st <;> exact .of rfl rfl rfl rfl rfl rfl (h8 := by simp [count])

theorem unqueue_keeps (t : Bytes) : Keeps N D Q s (s.unqueue t) := by
  unfold unqueue
  split
  · exact .any fun _ => .pure (.of rfl rfl rfl rfl rfl rfl)
  · split
    · exact .any fun _ => .pure (.of rfl rfl rfl rfl rfl rfl)
    · exact .ok .refl

/-- After the status was counted. -/
theorem onTaskDoneWith_counted {gd : Sched → TaskRes → Py (Bool × Sched)} (hd : ∀ s r, Keeps2 N D Q s (gd s r)) (s : Sched) (r : TaskRes) :
    Keeps N D Q (s.count r.status) (onTaskDoneWith gd s r) := by
  unfold onTaskDoneWith
  refine .bind (unqueue_keeps _) fun s2 _ => ?_
  refine .bind (sendMonitor_keeps _ _) fun s3 _ => ?_
  refine .any fun p => ?_
  refine .after (s' := { s3 with tm := { s3.tm with tasks := p.2 } }) (.of rfl rfl rfl rfl rfl rfl) ?_
  refine .bind (doneFunction_keeps _) fun s4 _ => ?_
  refine .bind2 (clientDone_keeps _) fun c s5 _ => ?_
  refine .bind2 (hd _ _) fun b s6 _ => ?_
  simp only
  split
  · exact .pure .refl
  · exact .pure (send_kept _ _ fun _ h => by cases h)

theorem onTaskDoneWith_keeps {gd : Sched → TaskRes → Py (Bool × Sched)} (hd : ∀ s r, Keeps2 N D Q s (gd s r)) (s : Sched) (r : TaskRes) :
    Keeps N D Q s (onTaskDoneWith gd s r) := .after (count_kept r.status) (onTaskDoneWith_counted hd s r)

theorem setGraph_kept (gid : Bytes) (g : Graph) : Kept N D Q s (s.setGraph gid g) := .of rfl rfl rfl rfl rfl rfl

theorem markNodeDone_keeps (gid : Bytes) (r : TaskRes) : Keeps N D Q s (s.markNodeDone gid r) := by
  unfold markNodeDone
  refine .any fun _ => .any fun _ => ?_
  split <;> exact .any fun _ => .any fun _ => .pure (setGraph_kept _ _)

theorem getTaskResult_keeps (gid t a : Bytes) : Keeps2 N D Q s (s.getTaskResult gid t a) := by
  unfold getTaskResult
  refine .any fun g => .any fun deps => .any fun i => .any fun res => ?_
  split
  · exact .pure (setGraph_kept _ _)
  · split
    · refine .any fun _ => .any fun _ => .pure (.of rfl rfl rfl rfl rfl rfl)
    · exact .pure (setGraph_kept _ _)

theorem getArguments_keeps (gid t : Bytes) : ∀ (as : List Argument) (s : Sched), Keeps2 N D Q s (s.getArguments gid t as)
  | [], s => Kept.refl
  | a :: as, s => by
    unfold getArguments
    split
    · exact .bind2 (getArguments_keeps gid t as s) fun _ _ _ => .pure .refl
    · refine .bind2 (getTaskResult_keeps _ _ _) fun _ s2 _ => ?_
      exact .bind2 (getArguments_keeps gid t as s2) fun _ _ _ => .pure .refl

theorem startNode_keeps (gid : Bytes) (now : Int) (t : Bytes) : Keeps N D Q s (s.startNode gid now t) := by
  unfold startNode
  refine .any fun g => .any fun i => ?_
  refine .bind2 (getArguments_keeps _ _ _ _) fun as s2 _ => ?_
  refine .any fun g2 => ?_
  exact .after (setGraph_kept _ _) (onTaskNew_keeps _ _ _)

theorem startNodes_keeps (gid : Bytes) (now : Int) : ∀ (ts : List Bytes) (s : Sched), Keeps N D Q s (s.startNodes gid now ts)
  | [], s => Kept.refl
  | t :: ts, s => by
    unfold startNodes
    exact .bind (startNode_keeps _ _ _) fun s2 _ => startNodes_keeps gid now ts s2

theorem cleanNode_keeps {done : Sched → TaskRes → Py Sched} (hd : DoneKeeps N D Q done) (s : Sched) (tasks : Dict Bytes NodeInfo) (t : Bytes) :
    Keeps2 N D Q s (cleanNode done s tasks t) := by
  unfold cleanNode
  split
  · exact Kept.refl
  · split
    · exact .bind (doneFunction_keeps _) fun _ _ => .pure (.of rfl rfl rfl rfl rfl rfl)
    · exact .bind (onTaskCancelWith_keeps hd _ _) fun _ _ => .pure (.of rfl rfl rfl rfl rfl rfl)
    · exact .bind (.ok .refl) fun _ _ => .pure (.of rfl rfl rfl rfl rfl rfl)

theorem cleanNodes_keeps {done : Sched → TaskRes → Py Sched} (hd : DoneKeeps N D Q done) : ∀ (ts : List Bytes) (s : Sched) (tasks : Dict Bytes NodeInfo),
    Keeps N D Q s (cleanNodes done s tasks ts)
  | [], _, _ => Kept.refl
  | t :: ts, s, tasks => by
    unfold cleanNodes
    exact .bind2 (cleanNode_keeps hd _ _ _) fun _ s2 _ => cleanNodes_keeps hd ts s2 _

theorem cleanGraph_keeps {done : Sched → TaskRes → Py Sched} (hd : DoneKeeps N D Q done) (s : Sched) (o : Order) (gid : Bytes) :
    Keeps2 N D Q s (cleanGraph done s o gid) := by
  unfold cleanGraph
  refine .bind2 (clientDone_keeps _) fun _ s2 _ => ?_
  refine .any fun p => ?_
  refine .after (s' := { s2 with gm := { s2.gm with graphs := p.2 } }) (.of rfl rfl rfl rfl rfl rfl) ?_
  exact .bind (cleanNodes_keeps hd _ _ _) fun _ _ => .pure .refl

theorem finishGraph_keeps {done : Sched → TaskRes → Py Sched} (hd : DoneKeeps N D Q done) (s : Sched) (o : Order) (gid : Bytes) :
    Keeps N D Q s (finishGraph done s o gid) := by
  unfold finishGraph
  refine .any fun _ => .any fun _ => ?_
  exact .bind2 (cleanGraph_keeps hd _ _ _) fun _ _ _ => .pure (send_kept _ _ fun _ h => by cases h)

theorem checkGraph_keeps {done : Sched → TaskRes → Py Sched} (hd : DoneKeeps N D Q done) (s : Sched) (o : Order) (now : Int) (gid : Bytes) :
    Keeps N D Q s (checkGraph done s o now gid) := by
  unfold checkGraph
  refine .any fun g => ?_
  split
  · exact finishGraph_keeps hd _ _ _
  · exact .after (setGraph_kept _ _) (startNodes_keeps _ _ _ _)

theorem graphTaskDone_keeps {done : Sched → TaskRes → Py Sched} (hd : DoneKeeps N D Q done) (o : Order) (now : Int) (s : Sched) (r : TaskRes) :
    Keeps2 N D Q s (graphTaskDone done o now s r) := by
  unfold graphTaskDone
  split
  · exact Kept.refl
  · refine .bind (markNodeDone_keeps _ _) fun s2 _ => ?_
    split
    · exact .bind (checkGraph_keeps hd _ _ _ _) fun _ _ => .pure .refl
    · refine .any fun _ => ?_
      exact .bind2 (cleanGraph_keeps hd _ _ _) fun _ _ _ => .pure (send_kept _ _ fun _ h => by cases h)

theorem taskDone_keeps (o : Order) (now : Int) : ∀ n, DoneKeeps N D Q (taskDone o now n)
  | 0 => fun _ _ => trivial
  | n + 1 => fun s r => onTaskDoneWith_keeps (fun s r => graphTaskDone_keeps (taskDone_keeps o now n) o now s r) s r

theorem unpackNode_keeps (o : Order) (now : Int) (gt : GraphTask) (u : Unpack) (t : Task) : Keeps2 N D Q s (s.unpackNode o now gt u t) := by
  unfold unpackNode
  refine .bind (useFunction_keeps _ _ _) fun s2 _ => ?_
  exact .pure (.of rfl rfl rfl rfl rfl rfl)

theorem unpackNodes_keeps (o : Order) (now : Int) (gt : GraphTask) : ∀ (ts : List Task) (u : Unpack) (s : Sched),
    Keeps2 N D Q s (s.unpackNodes o now gt u ts)
  | [], _, _ => Kept.refl
  | t :: ts, u, s => by
    unfold unpackNodes
    exact .bind2 (unpackNode_keeps _ _ _ _ _) fun _ s2 _ => unpackNodes_keeps o now gt ts _ s2

theorem addAll_kept (c : Bytes) (now : Int) : ∀ (l : List (Bytes × Bytes × Bytes)) (s : Sched), (∀ p ∈ l, N p.1 p.2.1 p.2.2) →
    Kept N D Q s (l.foldl (fun s p => s.functionAdd c p.1 p.2.1 p.2.2 now) s)
  | [], _, _ => .refl
  | p :: l, _, h => (functionAdd_kept c p.1 p.2.1 p.2.2 now (h p List.mem_cons_self)).trans
      (addAll_kept c now l _ fun q hq => h q (List.mem_cons_of_mem _ hq))

theorem addGraph_keeps (o : Order) (now : Int) (c : Bytes) (gt : GraphTask) (hN : ∀ p ∈ gt.functions.items, N p.1 p.2.1 p.2.2) :
    Keeps N D Q s (s.addGraph o now c gt) := by
  unfold addGraph
  refine .after (addAll_kept c now _ s hN) ?_
  refine .bind (clientNew_keeps _ _) fun s2 _ => ?_
  refine .bind2 (unpackNodes_keeps _ _ _ _ _ _) fun u s3 _ => ?_
  refine .any fun so => ?_
  exact .after (setGraph_kept _ _) (checkGraph_keeps (taskDone_keeps _ _ _) _ _ _ _)

theorem rerouteTasks_keeps : ∀ (ts : List Bytes) (s : Sched), Keeps N D Q s (s.rerouteTasks ts)
  | [], _ => Kept.refl
  | t :: ts, s => by
    unfold rerouteTasks
    exact .bind (onTaskReroute_keeps t) fun s2 _ => rerouteTasks_keeps ts s2

theorem assignTask_keeps (k : Task) (hD : D) : Keeps N D Q s (s.assignTask k) := by
  unfold assignTask
  refine .any fun p => ?_
  refine .after (s' := { s with wm := { s.wm with alloc := p.2 } }) (.of rfl rfl rfl rfl rfl rfl) ?_
  simp only
  split
  · exact .any fun _ => .pure (.of rfl rfl rfl rfl rfl rfl)
  · next w _ =>
    refine .frm (sendMonitor_keeps _ _) ?_
    exact (send_kept (s := { s with wm := { s.wm with alloc := p.2 } }) w (.task k) (fun _ _ => hD)).trans (.of rfl rfl rfl rfl rfl rfl)

theorem taskRoutine_keeps (hD : D) : Keeps N D Q s s.taskRoutine := by
  unfold taskRoutine
  split
  · split
    · exact .ok .refl
    · exact .frm (assignTask_keeps _ hD) (.of rfl rfl rfl rfl rfl rfl)
  · split
    · exact .ok .refl
    · refine .any fun p => ?_
      refine .after (s' := { s with tm := { s.tm with unassigned := p.2 } }) (.of rfl rfl rfl rfl rfl rfl) ?_
      refine .any fun k => ?_
      split
      · exact .pure (.of rfl rfl rfl rfl rfl rfl)
      · exact assignTask_keeps _ hD

/-! ### workers -/

theorem onTaskReroute_only (t : Bytes) : Py.Post (s.onTaskReroute t)
    (fun s' => s'.fm = s.fm ∧ s'.wm = s.wm ∧ s'.cfg = s.cfg ∧ s'.out = s.out) (fun _ => True) := by
  unfold onTaskReroute sendMonitor functionName
  exact post_any fun _ => post_any fun _ => post_any fun _ => post_any fun _ => post_any fun _ => ⟨rfl, rfl, rfl, rfl⟩

theorem rerouteTasks_only : ∀ (ts : List Bytes) (s : Sched), Py.Post (s.rerouteTasks ts)
    (fun s' => s'.fm = s.fm ∧ s'.wm = s.wm ∧ s'.cfg = s.cfg ∧ s'.out = s.out) (fun _ => True)
  | [], _ => ⟨rfl, rfl, rfl, rfl⟩
  | t :: ts, s => by
    unfold rerouteTasks
    rw [Py.post_bind]
    refine (onTaskReroute_only t).imp ?_ (fun _ h => h)
    rintro s1 ⟨h1, h2, h3, h4⟩
    refine (rerouteTasks_only ts s1).imp ?_ (fun _ h => h)
    rintro s2 ⟨g1, g2, g3, g4⟩
    exact ⟨g1.trans h1, g2.trans h2, g3.trans h3, g4.trans h4⟩

theorem onBalanceResponse_keeps (ids : List Bytes) : Keeps N D Q s (s.onBalanceResponse ids) := by
  unfold onBalanceResponse
  refine .any fun p => ?_
  exact .frm (rerouteTasks_keeps _ _) (.of rfl rfl rfl rfl rfl rfl)

/-- The heartbeat table without `w`. -/
theorem disconnectWorker_only (o : Order) (w : Bytes) : Py.Post (s.disconnectWorker o w)
    (fun p => p.2.fm = s.fm ∧ p.2.cfg = s.cfg ∧ p.2.out = s.out ∧ p.2.wm.lastAdvice = s.wm.lastAdvice ∧
      p.2.wm.sameCount = s.wm.sameCount ∧ ∀ w', p.2.wm.alive.get? w' = if w = w' then none else s.wm.alive.get? w') (fun _ => True) := by
  unfold disconnectWorker
  cases ha : s.wm.alive.has w with
  | false =>
    simp only [Bool.not_false, if_true, Py.post_ok, true_and]
    intro w'
    by_cases e : w = w'
    · subst e
      simpa [Dict.has] using ha
    · rw [if_neg e]
  | true =>
    simp only [Bool.not_true, Bool.false_eq_true, if_false]
    obtain ⟨x, hx⟩ := Option.isSome_iff_exists.1 (show (s.wm.alive.get? w).isSome from ha)
    rw [Dict.pop_of_get? hx, Py.post_bind, Py.post_ok]
    refine post_any fun p => ?_
    have hal : ∀ w', (s.wm.alive.erase w).get? w' = if w = w' then none else s.wm.alive.get? w' := fun w' => Dict.get?_erase ..
    split
    · exact ⟨rfl, rfl, rfl, rfl, rfl, hal⟩
    · rw [Py.post_bind]
      refine (rerouteTasks_only _ _).imp ?_ (fun _ h => h)
      rintro s2 ⟨g1, g2, g3, g4⟩
      simp only [Py.post_pure]
      rw [g1, g2, g3, g4]
      exact ⟨rfl, rfl, rfl, rfl, rfl, hal⟩

theorem disconnectAll_only (o : Order) : ∀ (ws : List Bytes) (s : Sched), Py.Post (s.disconnectAll o ws)
    (fun p => p.fm = s.fm ∧ p.cfg = s.cfg ∧ p.out = s.out ∧ p.wm.lastAdvice = s.wm.lastAdvice ∧
      p.wm.sameCount = s.wm.sameCount ∧ ∀ w', p.wm.alive.get? w' = if w' ∈ ws then none else s.wm.alive.get? w') (fun _ => True)
  | [], s => by simp [disconnectAll]
  | w :: ws, s => by
    unfold disconnectAll
    rw [Py.post_bind]
    refine (disconnectWorker_only o w).imp ?_ (fun _ h => h)
    rintro ⟨b, s1⟩ ⟨h1, h2, h3, h4, h5, h6⟩
    refine (disconnectAll_only o ws s1).imp ?_ (fun _ h => h)
    rintro s2 ⟨g1, g2, g3, g4, g5, g6⟩
    refine ⟨g1.trans h1, g2.trans h2, g3.trans h3, g4.trans h4, g5.trans h5, ?_⟩
    intro w'
    rw [g6, h6]
    by_cases e : w' ∈ ws
    · simp [e]
    · by_cases e' : w = w'
      · subst e'; simp
      · simp [e, e', Ne.symm e']

end Sched

/-- A success is counted. -/
theorem result_more {t : Bytes} (ht : ∀ alloc, s.wm.alloc.removeTask t ≠ .ok (none, alloc)) {o : Order} {now : Int} {d : UInt32} {r : Bytes}
    (hs : s.onTaskResult o now ⟨t, .success, d, r⟩ = .ok s') : s.tm.success + 1 ≤ s'.tm.success := by
  unfold Sched.onTaskResult at hs
  obtain ⟨⟨w', alloc⟩, h1, h2⟩ := Py.bind_ok.1 hs
  cases w' with
  | none => exact absurd h1 (ht alloc)
  | some w' =>
    simp only [Sched.onTaskDone, Sched.depth] at h2
    have := Py.Post.ok (Sched.onTaskDoneWith_counted (N := fun _ _ _ => False) (D := False) (Q := False)
      (fun s r => Sched.graphTaskDone_keeps (Sched.taskDone_keeps o now _) o now s r) _ _) h2
    exact this.more

/-- A graph leaves the queue. -/
theorem graphRoutine_line {c : Bytes} {gt : GraphTask} {rest : List (Bytes × GraphTask)} (hq : s.gm.queue = (c, gt) :: rest) {o : Order} {now : Int}
    (hs : s.graphRoutine o now = .ok s') : s'.gm.queue = rest := by
  unfold Sched.graphRoutine at hs
  simp only [hq] at hs
  have := Py.Post.ok (Sched.addGraph_keeps (N := fun _ _ _ => True) (D := False) (Q := False) o now c gt (fun _ _ => trivial)) hs
  exact this.line.elim id False.elim

/-- Functions the event registers. -/
def Event.registers (s : Sched) (e : Event) (f name content : Bytes) : Prop :=
  match e.op with
  | .recv _ (.functionRequest .add f' name' content') => f' = f ∧ name' = name ∧ content' = content
  | .graphRoutine => ∃ c gt rest, s.gm.queue = (c, gt) :: rest ∧ (f, name, content) ∈ gt.functions.items
  | _ => False

/-- The events that concern the queue of graphs. -/
def Event.graphs (e : Event) : Prop := e.op = .graphRoutine ∨ ∃ c g, e.op = .recv c (.graphTask g)

/-- The events that touch workers or drop functions. -/
def Event.special (e : Event) : Bool :=
  match e.op with
  | .recv _ (.heartbeat _) => true
  | .recv _ (.disconnectRequest _) => true
  | .workerRoutine => true
  | .functionRoutine => true
  | _ => false

theorem step_keeps (hc : Conc s) (hset : AllSettled s.abs) (e : Event) (he : e.special = false) : Keeps (e.registers s) (e.op = .taskRoutine) e.graphs s (s.step e) := by
  obtain ⟨op, now, o⟩ := e
  unfold Sched.step
  cases op with
  | recv source m =>
    cases m with
    | heartbeat hb => cases he
    | disconnectRequest w => cases he
    | balanceResponse ids => exact Sched.onBalanceResponse_keeps ids
    | graphTask g => exact .ok (.of rfl rfl rfl rfl rfl rfl (h9 := .inr (.inr ⟨_, _, rfl⟩)))
    | graphTaskCancel gid =>
      show Keeps _ _ _ s (s.onGraphTaskCancel o now gid)
      unfold Sched.onGraphTaskCancel
      refine Keeps.bind2 (Sched.cleanGraph_keeps (Sched.taskDone_keeps _ _ _) _ _ _) fun _ s' _ => ?_
      exact .pure .refl
    | task t => exact Sched.onTaskNew_keeps _ _ _
    | taskCancel tid => exact Sched.onTaskCancelWith_keeps (Sched.taskDone_keeps _ _ _) _ _
    | taskResult tid st d r =>
      show Keeps _ _ _ s (s.onTaskResult o now ⟨tid, st, d, r⟩)
      unfold Sched.onTaskResult
      refine .any fun p => ?_
      simp only
      split
      · exact .pure (.of rfl rfl rfl rfl rfl rfl)
      · exact .frm (Sched.taskDone_keeps _ _ _ _ _) (.of rfl rfl rfl rfl rfl rfl)
    | functionRequest type fid name content =>
      show Keeps _ _ _ s (s.onFunction source type fid name content now)
      cases type with
      | check =>
        show Kept _ _ _ s (s.functionCheck source fid)
        unfold Sched.functionCheck Sched.functionResponse
        split <;> exact Sched.send_kept _ _ fun _ h => by cases h
      | add => exact Sched.functionAdd_kept (N := Event.registers s ⟨.recv source (.functionRequest .add fid name content), now, o⟩) source fid name content now ⟨rfl, rfl, rfl⟩
      | request =>
        show Kept _ _ _ s (s.functionRequest source fid)
        unfold Sched.functionRequest
        split <;> exact Sched.send_kept _ _ fun _ h => by cases h
      | delete => exact Sched.functionDelete_keeps hc hset source fid
    | _ => exact .ok .refl
  | taskRoutine => exact Sched.taskRoutine_keeps rfl
  | graphRoutine =>
    show Keeps _ _ _ s (s.graphRoutine o now)
    unfold Sched.graphRoutine
    split
    · exact .ok .refl
    · next c gt rest hq =>
      refine .frm (Sched.addGraph_keeps _ _ _ _ ?_) (.of rfl rfl rfl rfl rfl rfl (h9 := .inr (.inl rfl)))
      intro p hp
      exact ⟨c, gt, rest, hq, hp⟩
  | functionRoutine => cases he
  | workerRoutine => cases he
  | report => exact .any fun _ => .pure .refl

end Verif.Sched
