import Verif.Sched.Exec
import Verif.Spec.Prompt

/-!
# The recorded loads when the task routine gets its turns

`has_available_worker` makes the locator out of date for the least entry of the queue of workers; the next
assignment takes this entry out and puts a new one in.  Nothing goes wrong if no other operation comes between.
-/

namespace Verif.Sched

open Verif.Queue Verif.Util Verif.Wire Verif.Spec

namespace Alloc

/-- `w` is the least entry of the queue. -/
def Least (a : Alloc) (w : Bytes) : Prop :=
  ∃ p, a.queue.prio w = some p ∧ ∀ w' p', a.queue.prio w' = some p' → entryLt (p', w') (p, w) = false

/-- The recorded loads are exact and at most the least entry is out of date. -/
structure Near (a : Alloc) : Prop where
  load : ∀ w p s, a.queue.prio w = some p → a.w2t.get? w = some s → p = s.size
  least : ∀ w, a.queue.stale w ≠ none → a.Least w

variable {a : Alloc}

theorem Exact.near (h : a.Exact) : a.Near := ⟨h.load, fun w hw => absurd (h.fresh w) hw⟩

theorem Least.unique {w w' : Bytes} (h : a.Least w) (h' : a.Least w') : w = w' := by
  obtain ⟨p, h1, h2⟩ := h
  obtain ⟨p', h1', h2'⟩ := h'
  exact (Prod.mk.inj (entryLt_total _ _ (h2' w p h1) (h2 w' p' h1'))).2

/-- A look at the first worker. -/
theorem hasAvailable_near (h : a.Inv) (hn : a.Near) {r : Bool × Alloc} (e : a.hasAvailableWorker = .ok r) : r.2.Near := by
  unfold hasAvailableWorker at e
  split at e
  · cases e; exact hn
  · next hl =>
    have hne : a.queue.heap ≠ [] := by simpa [PQueue.len] using hl
    obtain ⟨p, w, q', e', -, hp, hmin, h1, h2⟩ := PQueue.maxPriority_spec h.pq hne
    rw [e'] at e
    cases e
    have hl : ∀ w, a.Least w → Least { a with queue := q' } w := by
      rintro w ⟨p, hp, hm⟩
      exact ⟨p, by rw [h1]; exact hp, fun w' p' => by rw [h1]; exact hm w' p'⟩
    refine ⟨fun w' p' s' => by simp only [h1]; exact hn.load w' p' s', ?_⟩
    intro w' hw'
    simp only [h2] at hw'
    split at hw'
    · next ew => subst ew; exact hl w ⟨p, hp, hmin⟩
    · exact hl w' (hn.least w' hw')

/-- `assign_task` brings everything up to date. -/
theorem assignTask_near (h : a.Inv) (hn : a.Near) {w0 : Bytes} {s0 : PySet Bytes} (hw0 : a.w2t.get? w0 = some s0) (t : Bytes)
    {r : Option Bytes × Alloc} (e : a.assignTask t = .ok r) : r.2.Exact := by
  obtain ⟨p0, hp0⟩ := h.prio_some hw0
  have hne : a.queue.heap ≠ [] := by
    intro he
    have := (PQueue.len_zero h.pq).1 (by simp [PQueue.len, he]) w0
    rw [hp0] at this; cases this
  obtain ⟨p, w, q1, e1, hwf1, hp, hmin, h1, h2⟩ := PQueue.get_spec h.pq hne
  obtain ⟨s, hs⟩ := (h.dom w).1 ⟨p, hp⟩
  have hpl := hn.load w p s hp hs
  have hnone : q1.prio w = none := by rw [h1]; simp
  have hput : ∀ n, (∀ w', (q1.put (n, w)).prio w' = if w = w' then some n else a.queue.prio w') ∧ ∀ w', (q1.put (n, w)).stale w' = none := by
    intro n
    obtain ⟨_, _, h3, h4⟩ := PQueue.put_spec hwf1 n w hnone
    constructor
    · intro w'
      rw [h3, h1]
      by_cases ew : w = w' <;> simp [ew]
    · intro w'
      rw [h4, h2]
      by_cases ew : w = w'
      · simp [ew]
      · simp only [ew, if_false]
        cases hst : a.queue.stale w' with
        | none => rfl
        | some x => exact absurd (Least.unique ⟨p, hp, hmin⟩ (hn.least w' (by rw [hst]; simp))) ew
  have hsame : Exact { a with queue := q1.put (p, w) } := by
    refine ⟨?_, (hput p).2⟩
    intro w' p' s'
    simp only [(hput p).1]
    split
    · next ew => subst ew; rintro ⟨⟩ h'; rw [hs] at h'; cases h'; exact hpl
    · exact hn.load w' p' s'
  rw [assignTask, e1] at e
  simp only [Py.ok_bind] at e
  split at e
  · next hmax => cases e; exact hsame
  · split at e
    · cases e; exact hsame
    · next ht =>
      rw [Dict.getPy_of_get? hs] at e
      cases e
      have htn : t ∉ s := by
        intro hts
        rw [(h.agree t w).2 ⟨s, hs, hts⟩] at ht; cases ht
      have hsz := PySet.size_add_new htn
      refine ⟨?_, (hput (p + 1)).2⟩
      intro w' p' s'
      simp only [(hput (p + 1)).1, Dict.get?_set]
      split
      · next ew => subst ew; rintro ⟨⟩ ⟨⟩; omega
      · exact hn.load w' p' s'

end Alloc

/-! ### What the handlers do to the queue of workers -/

/-- Unless it raises, the state afterwards is related to `s`. -/
def Rel (R : Sched → Sched → Prop) (s : Sched) (x : Py Sched) : Prop := Py.Post x (R s) (fun _ => True)

def Rel2 {α : Type} (R : Sched → Sched → Prop) (s : Sched) (x : Py (α × Sched)) : Prop := Py.Post x (fun p => R s p.2) (fun _ => True)

class PreOrder (R : Sched → Sched → Prop) : Prop where
  refl : ∀ s, R s s
  trans : ∀ s s' s'', R s s' → R s' s'' → R s s''

namespace Rel
variable {R : Sched → Sched → Prop} {s s' : Sched} {α β : Type}

theorem any {x : Py α} {f : α → Py Sched} (h : ∀ a, Rel R s (f a)) : Rel R s (x >>= f) := post_any h

theorem any2 {x : Py α} {f : α → Py (β × Sched)} (h : ∀ a, Rel2 R s (f a)) : Rel2 R s (x >>= f) := post_any h

theorem bind [PreOrder R] {x : Py Sched} {f : Sched → Py Sched} (h : Rel R s x) (hf : ∀ s', R s s' → Rel R s' (f s')) : Rel R s (x >>= f) := by
  cases x with
  | ok s' => exact Py.Post.imp (hf s' h) (fun _ k => PreOrder.trans _ _ _ h k) (fun _ k => k)
  | error e => trivial

theorem bind2 [PreOrder R] {x : Py (α × Sched)} {f : α × Sched → Py Sched} (h : Rel2 R s x)
    (hf : ∀ a s', R s s' → Rel R s' (f (a, s'))) : Rel R s (x >>= f) := by
  cases x with
  | ok p => exact Py.Post.imp (hf p.1 p.2 h) (fun _ k => PreOrder.trans _ _ _ h k) (fun _ k => k)
  | error e => trivial

theorem bind12 [PreOrder R] {x : Py Sched} {f : Sched → Py (β × Sched)} (h : Rel R s x)
    (hf : ∀ s', R s s' → Rel2 R s' (f s')) : Rel2 R s (x >>= f) := by
  cases x with
  | ok s' => exact Py.Post.imp (hf s' h) (fun _ k => PreOrder.trans _ _ _ h k) (fun _ k => k)
  | error e => trivial

theorem bind22 [PreOrder R] {x : Py (α × Sched)} {f : α × Sched → Py (β × Sched)} (h : Rel2 R s x)
    (hf : ∀ a s', R s s' → Rel2 R s' (f (a, s'))) : Rel2 R s (x >>= f) := by
  cases x with
  | ok p => exact Py.Post.imp (hf p.1 p.2 h) (fun _ k => PreOrder.trans _ _ _ h k) (fun _ k => k)
  | error e => trivial

theorem after [PreOrder R] {x : Py Sched} (h : R s s') (hx : Rel R s' x) : Rel R s x :=
  Py.Post.imp hx (fun _ k => PreOrder.trans _ _ _ h k) (fun _ k => k)

theorem after2 [PreOrder R] {x : Py (β × Sched)} (h : R s s') (hx : Rel2 R s' x) : Rel2 R s x :=
  Py.Post.imp hx (fun _ k => PreOrder.trans _ _ _ h k) (fun _ k => k)

end Rel

/-- Neither the queue of workers nor the waiting queue changes. -/
structure Still (s s' : Sched) : Prop where
  cfg : s'.cfg = s.cfg
  alloc : s'.wm.alloc = s.wm.alloc
  pend : s'.tm.pending = s.tm.pending
  size : s'.tm.unassigned = s.tm.unassigned

instance : PreOrder Still where
  refl _ := ⟨rfl, rfl, rfl, rfl⟩
  trans _ _ _ h h' := ⟨h'.1.trans h.1, h'.2.trans h.2, h'.3.trans h.3, h'.4.trans h.4⟩

/-- The queue of workers does not change. -/
structure Calm (s s' : Sched) : Prop where
  cfg : s'.cfg = s.cfg
  alloc : s'.wm.alloc = s.wm.alloc

instance : PreOrder Calm where
  refl _ := ⟨rfl, rfl⟩
  trans _ _ _ h h' := ⟨h'.1.trans h.1, h'.2.trans h.2⟩

/-- The first worker may have been looked at; then a task waits. -/
structure Saw (s s' : Sched) : Prop where
  cfg : s'.cfg = s.cfg
  pend : s'.tm.pending = s.tm.pending
  size : s.tm.unassigned.size ≤ s'.tm.unassigned.size
  look : s'.wm.alloc = s.wm.alloc ∨ (s.wm.alloc.Inv → s.wm.alloc.Near → s'.wm.alloc.Inv ∧ s'.wm.alloc.Near) ∧
    (s.cfg.maxWaiting ≠ 0 → 0 ≤ s.tm.unassigned.size → 0 < s'.tm.unassigned.size)

instance : PreOrder Saw where
  refl _ := ⟨rfl, rfl, Int.le_refl _, Or.inl rfl⟩
  trans s s' s'' h h' := by
    refine ⟨h'.1.trans h.1, h'.2.trans h.2, Int.le_trans h.3 h'.3, ?_⟩
    rcases h.4 with e | ⟨e1, e2⟩ <;> rcases h'.4 with e' | ⟨e1', e2'⟩
    · exact Or.inl (e'.trans e)
    · refine Or.inr ⟨?_, ?_⟩
      · rw [← e]; exact e1'
      · intro hm h0
        exact e2' (by rw [h.cfg]; exact hm) (Int.le_trans h0 h.3)
    · refine Or.inr ⟨?_, ?_⟩
      · rw [e']; exact e1
      · intro hm h0
        exact Int.lt_of_lt_of_le (e2 hm h0) h'.3
    · refine Or.inr ⟨fun hi hn => ?_, ?_⟩
      · obtain ⟨h1, h2⟩ := e1 hi hn
        exact e1' h1 h2
      · intro hm h0
        exact Int.lt_of_lt_of_le (e2 hm h0) h'.3

theorem Still.calm {s s' : Sched} (h : Still s s') : Calm s s' := ⟨h.cfg, h.alloc⟩
theorem Still.saw {s s' : Sched} (h : Still s s') : Saw s s' := ⟨h.cfg, h.pend, by rw [h.size]; exact Int.le_refl _, Or.inl h.alloc⟩

section
variable {s : Sched} {α : Type}
theorem Rel.calm {x : Py Sched} (h : Rel Still s x) : Rel Calm s x := Py.Post.imp h (fun _ k => k.calm) (fun _ k => k)
theorem Rel.saw {x : Py Sched} (h : Rel Still s x) : Rel Saw s x := Py.Post.imp h (fun _ k => k.saw) (fun _ k => k)
theorem Rel2.calm {x : Py (α × Sched)} (h : Rel2 Still s x) : Rel2 Calm s x := Py.Post.imp h (fun _ k => k.calm) (fun _ k => k)
theorem Rel2.saw {x : Py (α × Sched)} (h : Rel2 Still s x) : Rel2 Saw s x := Py.Post.imp h (fun _ k => k.saw) (fun _ k => k)
end

namespace Sched
variable {s : Sched}

theorem still_refl (s : Sched) : Still s s := PreOrder.refl s
theorem calm_refl (s : Sched) : Calm s s := PreOrder.refl s
theorem saw_refl (s : Sched) : Saw s s := PreOrder.refl s

theorem sendMonitor_still (t : Bytes) (st : TaskStatus) : Rel Still s (s.sendMonitor t st) := by
  unfold sendMonitor functionName
  exact .any fun _ => .any fun _ => ⟨rfl, rfl, rfl, rfl⟩

theorem useFunction_still (t f : Bytes) (now : Int) : Rel Still s (s.useFunction t f now) := by
  unfold useFunction
  exact .any fun _ => .any fun _ => ⟨rfl, rfl, rfl, rfl⟩

theorem doneFunction_still (t : Bytes) : Rel Still s (s.doneFunction t) := by
  unfold doneFunction
  exact .any fun _ => ⟨rfl, rfl, rfl, rfl⟩

theorem clientNew_still (c t : Bytes) : Rel Still s (s.clientNew c t) := by
  unfold clientNew
  exact .any fun _ => ⟨rfl, rfl, rfl, rfl⟩

theorem clientDone_still (t : Bytes) : Rel2 Still s (s.clientDone t) := by
  unfold clientDone
  exact Rel.any2 fun _ => ⟨rfl, rfl, rfl, rfl⟩

theorem markNodeDone_still (gid : Bytes) (r : TaskRes) : Rel Still s (s.markNodeDone gid r) := by
  unfold markNodeDone
  refine .any fun _ => .any fun _ => ?_
  split <;> exact .any fun _ => .any fun _ => ⟨rfl, rfl, rfl, rfl⟩

theorem getTaskResult_still (gid t a : Bytes) : Rel2 Still s (s.getTaskResult gid t a) := by
  unfold getTaskResult
  refine Rel.any2 fun g => Rel.any2 fun deps => Rel.any2 fun i => Rel.any2 fun res => ?_
  split
  · exact ⟨rfl, rfl, rfl, rfl⟩
  · split
    · exact Rel.any2 fun _ => Rel.any2 fun _ => ⟨rfl, rfl, rfl, rfl⟩
    · exact ⟨rfl, rfl, rfl, rfl⟩

theorem getArguments_still (gid t : Bytes) : ∀ (as : List Argument) (s : Sched), Rel2 Still s (s.getArguments gid t as)
  | [], s => still_refl s
  | a :: as, s => by
    unfold getArguments
    split
    · exact Rel.bind22 (getArguments_still gid t as s) fun _ s' _ => still_refl s'
    · refine Rel.bind22 (getTaskResult_still _ _ _) fun _ s2 _ => ?_
      exact Rel.bind22 (getArguments_still gid t as s2) fun _ s' _ => still_refl s'

theorem functionAdd_still (c f name content : Bytes) (now : Int) : Still s (s.functionAdd c f name content now) := by
  unfold functionAdd functionResponse
  split <;> exact ⟨rfl, rfl, rfl, rfl⟩

theorem addAll_still (c : Bytes) (now : Int) : ∀ (l : List (Bytes × Bytes × Bytes)) (s : Sched),
    Still s (l.foldl (fun s p => s.functionAdd c p.1 p.2.1 p.2.2 now) s)
  | [], s => still_refl s
  | p :: l, _ => PreOrder.trans _ _ _ (functionAdd_still c p.1 p.2.1 p.2.2 now) (addAll_still c now l _)

theorem unpackNodes_still (o : Order) (now : Int) (gt : GraphTask) : ∀ (ts : List Task) (u : Unpack) (s : Sched),
    Rel2 Still s (s.unpackNodes o now gt u ts)
  | [], _, s => still_refl s
  | t :: ts, u, s => by
    unfold unpackNodes unpackNode
    refine Rel.bind22 (α := Unpack) ?_ fun _ s2 _ => unpackNodes_still o now gt ts _ s2
    exact Rel.bind12 (useFunction_still _ _ _) fun _ _ => ⟨rfl, rfl, rfl, rfl⟩

theorem workerCancel_still (t : Bytes) : Still s (s.workerCancel t) := by
  unfold workerCancel
  split
  · exact still_refl s
  · exact ⟨rfl, rfl, rfl, rfl⟩

theorem count_still (st : TaskStatus) : Still s (s.count st) := by
  cases st <;> exact ⟨rfl, rfl, rfl, rfl⟩

/-! ### Submission -/

theorem put_size {q : IQueue Bytes Bytes} (t : Bytes) : Py.Post (q.put id t) (fun q' => q'.size = q.size + 1) (fun _ => True) := by
  unfold IQueue.put IQueue.addToHead
  refine post_any fun _ => ?_
  simp only
  rw [Py.post_bind]
  refine Py.Post.imp (Q := fun q' : IQueue Bytes Bytes => q'.size = q.size + 1) (E := fun _ => True) ?_ (fun _ h => h) (fun _ h => h)
  split
  · exact rfl
  · unfold IQueue.setNext IQueue.setPrev
    rw [Py.post_bind]
    refine Py.Post.imp (Q := fun q' : IQueue Bytes Bytes => q'.size = q.size) (E := fun _ => True) (post_any fun _ => rfl) (fun q1 h1 => ?_) (fun _ h => h)
    rw [Py.post_bind]
    refine Py.Post.imp (Q := fun q' : IQueue Bytes Bytes => q'.size = q.size) (E := fun _ => True) (post_any fun _ => h1) (fun q2 h2 => ?_) (fun _ h => h)
    show q2.size + 1 = q.size + 1
    rw [h2]

theorem onTaskNew_saw (c : Bytes) (k : Task) (now : Int) : Rel Saw s (s.onTaskNew c k now) := by
  unfold onTaskNew
  split
  · exact ⟨rfl, rfl, Int.le_refl _, Or.inl rfl⟩
  · unfold hasAvailableWorker
    cases he : s.wm.alloc.hasAvailableWorker with
    | error e => trivial
    | ok p =>
      simp only [Py.ok_bind, Py.pure_eq]
      have hlook : s.wm.alloc.Inv → s.wm.alloc.Near → p.2.Inv ∧ p.2.Near := by
        intro hi hn
        refine ⟨?_, Alloc.hasAvailable_near hi hn he⟩
        obtain ⟨b, a', e, h1, _⟩ := Alloc.hasAvailable_spec hi
        rw [he] at e; cases e; exact h1
      split
      · next hc =>
        simp only [Bool.and_eq_true, decide_eq_true_eq] at hc
        refine ⟨rfl, rfl, Int.le_refl _, Or.inr ⟨hlook, ?_⟩⟩
        intro hm _
        have h1 := hc.2.1
        have h2 := hc.2.2
        simp only [IQueue.len] at h2
        show 0 < s.tm.unassigned.size
        have : s.cfg.maxWaiting ≠ 0 := hm
        omega
      · have h0 : Rel Still ({ s with wm := { s.wm with alloc := p.2 } } : Sched)
            (((({ s with wm := { s.wm with alloc := p.2 } } : Sched).send c (.taskEcho k.taskId .submitOK)).useFunction k.taskId k.functionId now) >>= fun s =>
              s.clientNew c k.taskId) :=
          .after (s' := ({ s with wm := { s.wm with alloc := p.2 } } : Sched).send c (.taskEcho k.taskId .submitOK)) ⟨rfl, rfl, rfl, rfl⟩
            (.bind (useFunction_still _ _ _) fun s2 _ => clientNew_still _ _)
        unfold Rel at h0 ⊢
        rw [Py.post_bind] at h0 ⊢
        refine Py.Post.imp h0 ?_ (fun _ h => h)
        intro s2 h2
        rw [Py.post_bind]
        refine Py.Post.imp h2 ?_ (fun _ h => h)
        intro s3 h3
        rw [Py.post_bind]
        refine Py.Post.imp (put_size _) ?_ (fun _ h => h)
        intro q hq
        refine Py.Post.imp (sendMonitor_still _ _) ?_ (fun _ h => h)
        intro s4 h4
        have hsz : s4.tm.unassigned.size = s.tm.unassigned.size + 1 := by
          rw [h4.size]
          show q.size = _
          rw [hq, h3.size]
        refine ⟨h4.cfg.trans h3.cfg, h4.pend.trans h3.pend, by omega, Or.inr ⟨?_, by omega⟩⟩
        have : s4.wm.alloc = p.2 := h4.alloc.trans h3.alloc
        rw [this]; exact hlook

theorem startNode_saw (gid : Bytes) (now : Int) (t : Bytes) : Rel Saw s (s.startNode gid now t) := by
  unfold startNode
  refine .any fun g => .any fun i => ?_
  refine .bind2 (getArguments_still _ _ _ _).saw fun as s2 _ => ?_
  refine .any fun g2 => ?_
  exact .after (s' := s2.setGraph _ _) ⟨rfl, rfl, Int.le_refl _, Or.inl rfl⟩ (onTaskNew_saw _ _ _)

theorem startNodes_saw (gid : Bytes) (now : Int) : ∀ (ts : List Bytes) (s : Sched), Rel Saw s (s.startNodes gid now ts)
  | [], s => saw_refl s
  | t :: ts, s => by
    unfold startNodes
    exact .bind (startNode_saw _ _ _) fun s2 _ => startNodes_saw gid now ts s2

/-! ### The end of a task -/

/-- A cancelled task changes nothing. -/
def CancelCalm (done : Sched → TaskRes → Py Sched) : Prop := ∀ s r, r.status ≠ .success → Rel Calm s (done s r)

theorem onTaskCancelWith_calm {done : Sched → TaskRes → Py Sched} (hd : CancelCalm done) (s : Sched) (t : Bytes) : Rel Calm s (onTaskCancelWith done s t) := by
  unfold onTaskCancelWith
  split
  · exact hd _ _ (by simp)
  · split
    · exact calm_refl s
    · exact .after (workerCancel_still t).calm (sendMonitor_still _ _).calm

theorem unqueue_calm (t : Bytes) : Rel Calm s (s.unqueue t) := by
  unfold unqueue
  split
  · exact .any fun _ => ⟨rfl, rfl⟩
  · split
    · exact .any fun _ => ⟨rfl, rfl⟩
    · exact calm_refl s

theorem cleanNode_calm {done : Sched → TaskRes → Py Sched} (hd : CancelCalm done) (s : Sched) (tasks : Dict Bytes NodeInfo) (t : Bytes) :
    Rel2 Calm s (cleanNode done s tasks t) := by
  unfold cleanNode
  split
  · exact calm_refl s
  · split
    · exact Rel.bind12 (doneFunction_still _).calm fun _ _ => ⟨rfl, rfl⟩
    · exact Rel.bind12 (onTaskCancelWith_calm hd _ _) fun _ _ => ⟨rfl, rfl⟩
    · exact Rel.bind12 (x := .ok s) (calm_refl s) fun _ _ => ⟨rfl, rfl⟩

theorem cleanNodes_calm {done : Sched → TaskRes → Py Sched} (hd : CancelCalm done) : ∀ (ts : List Bytes) (s : Sched) (tasks : Dict Bytes NodeInfo),
    Rel Calm s (cleanNodes done s tasks ts)
  | [], s, _ => calm_refl s
  | t :: ts, s, tasks => by
    unfold cleanNodes
    exact .bind2 (cleanNode_calm hd _ _ _) fun _ s2 _ => cleanNodes_calm hd ts s2 _

theorem cleanGraph_calm {done : Sched → TaskRes → Py Sched} (hd : CancelCalm done) (s : Sched) (o : Order) (gid : Bytes) :
    Rel2 Calm s (cleanGraph done s o gid) := by
  unfold cleanGraph
  refine Rel.bind22 (clientDone_still _).calm fun _ s2 _ => ?_
  refine Rel.any2 fun p => ?_
  refine Rel.after2 (s' := { s2 with gm := { s2.gm with graphs := p.2 } }) ⟨rfl, rfl⟩ ?_
  exact Rel.bind12 (cleanNodes_calm hd _ _ _) fun s' _ => calm_refl s'

theorem finishGraph_calm {done : Sched → TaskRes → Py Sched} (hd : CancelCalm done) (s : Sched) (o : Order) (gid : Bytes) :
    Rel Calm s (finishGraph done s o gid) := by
  unfold finishGraph
  refine .any fun _ => .any fun _ => ?_
  exact .bind2 (cleanGraph_calm hd _ _ _) fun _ _ _ => ⟨rfl, rfl⟩

/-- The queue of workers does not change, or at most the first worker was looked at. -/
def CalmOrSaw (s s' : Sched) : Prop := Calm s s' ∨ Saw s s'

theorem CalmOrSaw.after {s s' s'' : Sched} (h : Still s s') (h' : CalmOrSaw s' s'') : CalmOrSaw s s'' :=
  h'.imp (PreOrder.trans _ _ _ h.calm) (PreOrder.trans _ _ _ h.saw)

theorem CalmOrSaw.before {s s' s'' : Sched} (h : CalmOrSaw s s') (h' : Still s' s'') : CalmOrSaw s s'' :=
  h.imp (fun h => PreOrder.trans _ _ _ h h'.calm) (fun h => PreOrder.trans _ _ _ h h'.saw)

theorem checkGraph_cs {done : Sched → TaskRes → Py Sched} (hd : CancelCalm done) (s : Sched) (o : Order) (now : Int) (gid : Bytes) :
    Rel CalmOrSaw s (checkGraph done s o now gid) := by
  unfold checkGraph
  refine .any fun g => ?_
  split
  · exact Py.Post.imp (finishGraph_calm hd _ _ _) (fun _ h => Or.inl h) (fun _ h => h)
  · refine Py.Post.imp (startNodes_saw _ _ _ _) (fun s' h => ?_) (fun _ h => h)
    exact CalmOrSaw.after (s' := s.setGraph gid { g with sorter := g.sorter.getReady.2 }) ⟨rfl, rfl, rfl, rfl⟩ (Or.inr h)

theorem graphTaskDone_calm {done : Sched → TaskRes → Py Sched} (hd : CancelCalm done) (o : Order) (now : Int) (s : Sched) (r : TaskRes)
    (hr : r.status ≠ .success) : Rel2 Calm s (graphTaskDone done o now s r) := by
  unfold graphTaskDone
  split
  · exact calm_refl s
  · refine Rel.bind12 (markNodeDone_still _ _).calm fun s2 _ => ?_
    rw [if_neg hr]
    refine Rel.any2 fun _ => ?_
    exact Rel.bind22 (cleanGraph_calm hd _ _ _) fun _ _ _ => ⟨rfl, rfl⟩

theorem graphTaskDone_cs {done : Sched → TaskRes → Py Sched} (hd : CancelCalm done) (o : Order) (now : Int) (s : Sched) (r : TaskRes) :
    Rel2 CalmOrSaw s (graphTaskDone done o now s r) := by
  by_cases hr : r.status = .success
  · unfold graphTaskDone
    split
    · exact Or.inl (calm_refl s)
    · simp only [hr, if_true]
      unfold Rel2
      rw [Py.post_bind]
      refine Py.Post.imp (markNodeDone_still _ _) (fun s2 h2 => ?_) (fun _ h => h)
      rw [Py.post_bind]
      exact Py.Post.imp (checkGraph_cs hd _ _ _ _) (fun s3 h3 => CalmOrSaw.after h2 h3) (fun _ h => h)
  · exact Py.Post.imp (graphTaskDone_calm hd o now s r hr) (fun _ h => Or.inl h) (fun _ h => h)

theorem taskDone_calm (o : Order) (now : Int) : ∀ n, CancelCalm (taskDone o now n)
  | 0 => fun _ _ _ => trivial
  | n + 1 => fun s r hr => by
    unfold taskDone onTaskDoneWith
    refine .after (count_still r.status).calm ?_
    refine .bind (unqueue_calm _) fun s2 _ => ?_
    refine .bind (sendMonitor_still _ _).calm fun s3 _ => ?_
    refine .any fun p => ?_
    refine .after (s' := { s3 with tm := { s3.tm with tasks := p.2 } }) ⟨rfl, rfl⟩ ?_
    refine .bind (doneFunction_still _).calm fun s4 _ => ?_
    refine .bind2 (clientDone_still _).calm fun c s5 _ => ?_
    refine .bind2 (graphTaskDone_calm (taskDone_calm o now n) _ _ _ _ hr) fun b s6 _ => ?_
    simp only
    split
    · exact calm_refl s6
    · exact ⟨rfl, rfl⟩

end Sched
end Verif.Sched
