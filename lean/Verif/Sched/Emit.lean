import Verif.Sched.Frame

/-!
# What the handlers send

Function responses are sent only when a function is requested, checked, added or deleted, or when a graph is
unpacked.
-/

namespace Verif.Sched

open Verif.Queue Verif.Util Verif.Wire

set_option linter.unusedSectionVars false

/-- `s'` has sent more than `s`, and each of these messages satisfies `Q`. -/
def Emitted (Q : Bytes × Message → Prop) (s s' : Sched) : Prop := ∃ l, s'.out = s.out ++ l ∧ ∀ x ∈ l, Q x

/-- neither a function response nor a balance request -/
def NoResponse (m : Message) : Prop := (∀ st f n c, m ≠ .functionResponse st f n c) ∧
  (∀ t st, m = .taskEcho t st → st = .submitOK ∨ st = .functionNotExists ∨ st = .noWorker) ∧ ∀ n, m ≠ .balanceRequest n

/-- `Q` holds of all messages but function responses, balance requests and echoes that are never sent. -/
class Tame (Q : Bytes × Message → Prop) : Prop where
  other : ∀ c m, NoResponse m → Q (c, m)

variable {Q : Bytes × Message → Prop} {s s' s'' : Sched}

theorem Emitted.refl : Emitted Q s s := ⟨[], by simp, by simp⟩

theorem Emitted.trans (h : Emitted Q s s') (h' : Emitted Q s' s'') : Emitted Q s s'' := by
  obtain ⟨l, e, hl⟩ := h
  obtain ⟨l', e', hl'⟩ := h'
  refine ⟨l ++ l', by rw [e', e, List.append_assoc], fun x hx => ?_⟩
  exact (List.mem_append.1 hx).elim (hl x) (hl' x)

theorem Emitted.of (h : s'.out = s.out) : Emitted Q s s' := ⟨[], by simp [h], by simp⟩

/-- Unless it raises. -/
def Emits (Q : Bytes × Message → Prop) (s : Sched) (x : Py Sched) : Prop := Py.Post x (Emitted Q s) (fun _ => True)

def Emits2 {α : Type} (Q : Bytes × Message → Prop) (s : Sched) (x : Py (α × Sched)) : Prop :=
  Py.Post x (fun p => Emitted Q s p.2) (fun _ => True)

theorem Emits.ok (h : Emitted Q s s') : Emits Q s (.ok s') := h
theorem Emits.pure (h : Emitted Q s s') : Emits Q s (Pure.pure s') := h
theorem Emits.error {e : PyErr} : Emits Q s (.error e) := trivial

theorem Emits.any {α : Type} {x : Py α} {f : α → Py Sched} (h : ∀ a, Emits Q s (f a)) : Emits Q s (x >>= f) := post_any h

theorem Emits.bind {x : Py Sched} {f : Sched → Py Sched} (h : Emits Q s x) (hf : ∀ s', Emitted Q s s' → Emits Q s' (f s')) : Emits Q s (x >>= f) := by
  cases x with
  | ok s' => exact Py.Post.imp (hf s' h) (fun _ k => Emitted.trans h k) (fun _ k => k)
  | error e => trivial

theorem Emits.bind2 {α : Type} {x : Py (α × Sched)} {f : α × Sched → Py Sched} (h : Emits2 Q s x)
    (hf : ∀ a s', Emitted Q s s' → Emits Q s' (f (a, s'))) : Emits Q s (x >>= f) := by
  cases x with
  | ok p => exact Py.Post.imp (hf p.1 p.2 h) (fun _ k => Emitted.trans h k) (fun _ k => k)
  | error e => trivial

theorem Emits2.bind {β : Type} {x : Py Sched} {f : Sched → Py (β × Sched)} (h : Emits Q s x)
    (hf : ∀ s', Emitted Q s s' → Emits2 Q s' (f s')) : Emits2 Q s (x >>= f) := by
  cases x with
  | ok s' => exact Py.Post.imp (hf s' h) (fun _ k => Emitted.trans h k) (fun _ k => k)
  | error e => trivial

theorem Emits2.bind2 {α β : Type} {x : Py (α × Sched)} {f : α × Sched → Py (β × Sched)} (h : Emits2 Q s x)
    (hf : ∀ a s', Emitted Q s s' → Emits2 Q s' (f (a, s'))) : Emits2 Q s (x >>= f) := by
  cases x with
  | ok p => exact Py.Post.imp (hf p.1 p.2 h) (fun _ k => Emitted.trans h k) (fun _ k => k)
  | error e => trivial

theorem Emits2.any {α β : Type} {x : Py α} {f : α → Py (β × Sched)} (h : ∀ a, Emits2 Q s (f a)) : Emits2 Q s (x >>= f) := post_any h
theorem Emits2.pure {β : Type} {b : β} (h : Emitted Q s s') : Emits2 Q s (Pure.pure (b, s')) := h

/-- Start from another state. -/
theorem Emits.frm {x : Py Sched} (hx : Emits Q s' x) (h : Emitted Q s s') : Emits Q s x :=
  Py.Post.imp hx (fun _ k => h.trans k) (fun _ k => k)
theorem Emits.after {x : Py Sched} (h : Emitted Q s s') (hx : Emits Q s' x) : Emits Q s x :=
  Py.Post.imp hx (fun _ k => h.trans k) (fun _ k => k)
theorem Emits2.after {β : Type} {x : Py (β × Sched)} (h : Emitted Q s s') (hx : Emits2 Q s' x) : Emits2 Q s x :=
  Py.Post.imp hx (fun _ k => h.trans k) (fun _ k => k)

namespace Sched

theorem send_emitted' (c : Bytes) (m : Message) (hm : Q (c, m)) : Emitted Q s (s.send c m) :=
  ⟨[(c, m)], rfl, by simpa using hm⟩

variable [Tame Q]

theorem send_emitted (c : Bytes) (m : Message) (hm : NoResponse m) : Emitted Q s (s.send c m) := send_emitted' c m (Tame.other c m hm)

theorem monitor_emitted (m : Message) : Emitted Q s (s.monitor m) := .of rfl

theorem sendMonitor_emits (t : Bytes) (st : TaskStatus) : Emits Q s (s.sendMonitor t st) := by
  unfold sendMonitor functionName
  exact .any fun _ => .any fun _ => .pure (monitor_emitted _)

theorem useFunction_emits (t f : Bytes) (now : Int) : Emits Q s (s.useFunction t f now) := by
  unfold useFunction
  exact .any fun _ => .any fun _ => .pure (.of rfl)

theorem doneFunction_emits (t : Bytes) : Emits Q s (s.doneFunction t) := by
  unfold doneFunction
  exact .any fun _ => .pure (.of rfl)

theorem functionAdd_emitted (c f name content : Bytes) (now : Int)
    (hQ : ∀ st, st = .ok ∨ st = .duplicated → Q (c, .functionResponse st f [] [])) :
    Emitted Q s (s.functionAdd c f name content now) := by
  unfold functionAdd functionResponse
  split
  · exact ⟨[_], rfl, by simpa using hQ _ (.inr rfl)⟩
  · exact ⟨[_], rfl, by simpa using hQ _ (.inl rfl)⟩

theorem functionDelete_emits (c f : Bytes) (hQ : ∀ st, st ≠ .duplicated → Q (c, .functionResponse st f [] [])) : Emits Q s (s.functionDelete c f) := by
  unfold functionDelete functionResponse
  split
  · exact .ok (send_emitted' _ _ (hQ _ (by simp)))
  · refine .any fun vs => ?_
    split
    · exact .pure (send_emitted' _ _ (hQ _ (by simp)))
    · exact .any fun _ => .any fun _ => .pure ⟨[_], rfl, by simpa using hQ _ (by simp)⟩

theorem clientNew_emits (c t : Bytes) : Emits Q s (s.clientNew c t) := by
  unfold clientNew
  exact .any fun _ => .pure (.of rfl)

theorem clientDone_emits (t : Bytes) : Emits2 Q s (s.clientDone t) := by
  unfold clientDone
  exact .any fun _ => .pure (.of rfl)

theorem hasAvailableWorker_emits : Emits2 Q s s.hasAvailableWorker := by
  unfold hasAvailableWorker
  exact .any fun _ => .pure (.of rfl)

theorem onTaskNew_emits (c : Bytes) (k : Task) (now : Int) : Emits Q s (s.onTaskNew c k now) := by
  unfold onTaskNew
  split
  · exact .ok (send_emitted _ _ (by simp [NoResponse]))
  · refine .bind2 hasAvailableWorker_emits fun b s' _ => ?_
    simp only
    split
    · exact .pure (send_emitted _ _ (by simp [NoResponse]))
    · refine .after (send_emitted c (.taskEcho k.taskId .submitOK) (by simp [NoResponse])) ?_
      refine .bind (useFunction_emits _ _ _) fun s2 _ => ?_
      refine .bind (clientNew_emits _ _) fun s3 _ => ?_
      refine .any fun q => ?_
      exact .frm (sendMonitor_emits _ _) (.of rfl)

theorem onTaskReroute_emits (t : Bytes) : Emits Q s (s.onTaskReroute t) := by
  unfold onTaskReroute
  exact .any fun _ => .any fun _ => .any fun _ => .frm (sendMonitor_emits _ _) (.of rfl)

theorem workerCancel_emitted (t : Bytes) : Emitted Q s (s.workerCancel t) := by
  unfold workerCancel
  split
  · exact .refl
  · exact send_emitted _ _ (by simp [NoResponse])

/-- `done` keeps everything. -/
def DoneEmits (Q : Bytes × Message → Prop) (done : Sched → TaskRes → Py Sched) : Prop := ∀ s r, Emits Q s (done s r)

theorem onTaskCancelWith_emits {done : Sched → TaskRes → Py Sched} (hd : DoneEmits Q done) (s : Sched) (t : Bytes) : Emits Q s (onTaskCancelWith done s t) := by
  unfold onTaskCancelWith
  split
  · exact hd _ _
  · split
    · exact .ok .refl
    · exact .after (workerCancel_emitted t) (sendMonitor_emits _ _)

theorem count_emitted (st : TaskStatus) : Emitted Q s (s.count st) := by
  cases st <;> exact .of rfl

theorem unqueue_emits (t : Bytes) : Emits Q s (s.unqueue t) := by
  unfold unqueue
  split
  · exact .any fun _ => .pure (.of rfl)
  · split
    · exact .any fun _ => .pure (.of rfl)
    · exact .ok .refl

theorem onTaskDoneWith_emits {gd : Sched → TaskRes → Py (Bool × Sched)} (hd : ∀ s r, Emits2 Q s (gd s r)) (s : Sched) (r : TaskRes) :
    Emits Q s (onTaskDoneWith gd s r) := by
  unfold onTaskDoneWith
  refine .after (count_emitted r.status) ?_
  refine .bind (unqueue_emits _) fun s2 _ => ?_
  refine .bind (sendMonitor_emits _ _) fun s3 _ => ?_
  refine .any fun p => ?_
  refine .after (s' := { s3 with tm := { s3.tm with tasks := p.2 } }) (.of rfl) ?_
  refine .bind (doneFunction_emits _) fun s4 _ => ?_
  refine .bind2 (clientDone_emits _) fun c s5 _ => ?_
  refine .bind2 (hd _ _) fun b s6 _ => ?_
  simp only
  split
  · exact .pure .refl
  · exact .pure (send_emitted _ _ (by simp [NoResponse, TaskRes.msg]))

theorem setGraph_emitted (gid : Bytes) (g : Graph) : Emitted Q s (s.setGraph gid g) := .of rfl

theorem markNodeDone_emits (gid : Bytes) (r : TaskRes) : Emits Q s (s.markNodeDone gid r) := by
  unfold markNodeDone
  refine .any fun _ => .any fun _ => ?_
  split <;> exact .any fun _ => .any fun _ => .pure (setGraph_emitted _ _)

theorem getTaskResult_emits (gid t a : Bytes) : Emits2 Q s (s.getTaskResult gid t a) := by
  unfold getTaskResult
  refine .any fun g => .any fun deps => .any fun i => .any fun res => ?_
  split
  · exact .pure (setGraph_emitted _ _)
  · split
    · refine .any fun _ => .any fun _ => .pure (.of rfl)
    · exact .pure (setGraph_emitted _ _)

theorem getArguments_emits (gid t : Bytes) : ∀ (as : List Argument) (s : Sched), Emits2 Q s (s.getArguments gid t as)
  | [], s => Emitted.refl
  | a :: as, s => by
    unfold getArguments
    split
    · exact .bind2 (getArguments_emits gid t as s) fun _ _ _ => .pure .refl
    · refine .bind2 (getTaskResult_emits _ _ _) fun _ s2 _ => ?_
      exact .bind2 (getArguments_emits gid t as s2) fun _ _ _ => .pure .refl

theorem startNode_emits (gid : Bytes) (now : Int) (t : Bytes) : Emits Q s (s.startNode gid now t) := by
  unfold startNode
  refine .any fun g => .any fun i => ?_
  refine .bind2 (getArguments_emits _ _ _ _) fun as s2 _ => ?_
  refine .any fun g2 => ?_
  exact .after (setGraph_emitted _ _) (onTaskNew_emits _ _ _)

theorem startNodes_emits (gid : Bytes) (now : Int) : ∀ (ts : List Bytes) (s : Sched), Emits Q s (s.startNodes gid now ts)
  | [], s => Emitted.refl
  | t :: ts, s => by
    unfold startNodes
    exact .bind (startNode_emits _ _ _) fun s2 _ => startNodes_emits gid now ts s2

theorem cleanNode_emits {done : Sched → TaskRes → Py Sched} (hd : DoneEmits Q done) (s : Sched) (tasks : Dict Bytes NodeInfo) (t : Bytes) :
    Emits2 Q s (cleanNode done s tasks t) := by
  unfold cleanNode
  split
  · exact Emitted.refl
  · split
    · exact .bind (doneFunction_emits _) fun _ _ => .pure (.of rfl)
    · exact .bind (onTaskCancelWith_emits hd _ _) fun _ _ => .pure (.of rfl)
    · exact .bind (.ok .refl) fun _ _ => .pure (.of rfl)

theorem cleanNodes_emits {done : Sched → TaskRes → Py Sched} (hd : DoneEmits Q done) : ∀ (ts : List Bytes) (s : Sched) (tasks : Dict Bytes NodeInfo),
    Emits Q s (cleanNodes done s tasks ts)
  | [], _, _ => Emitted.refl
  | t :: ts, s, tasks => by
    unfold cleanNodes
    exact .bind2 (cleanNode_emits hd _ _ _) fun _ s2 _ => cleanNodes_emits hd ts s2 _

theorem cleanGraph_emits {done : Sched → TaskRes → Py Sched} (hd : DoneEmits Q done) (s : Sched) (o : Order) (gid : Bytes) :
    Emits2 Q s (cleanGraph done s o gid) := by
  unfold cleanGraph
  refine .bind2 (clientDone_emits _) fun _ s2 _ => ?_
  refine .any fun p => ?_
  refine .after (s' := { s2 with gm := { s2.gm with graphs := p.2 } }) (.of rfl) ?_
  exact .bind (cleanNodes_emits hd _ _ _) fun _ _ => .pure .refl

theorem finishGraph_emits {done : Sched → TaskRes → Py Sched} (hd : DoneEmits Q done) (s : Sched) (o : Order) (gid : Bytes) :
    Emits Q s (finishGraph done s o gid) := by
  unfold finishGraph
  refine .any fun _ => .any fun _ => ?_
  exact .bind2 (cleanGraph_emits hd _ _ _) fun _ _ _ => .pure (send_emitted _ _ (by simp [NoResponse]))

theorem checkGraph_emits {done : Sched → TaskRes → Py Sched} (hd : DoneEmits Q done) (s : Sched) (o : Order) (now : Int) (gid : Bytes) :
    Emits Q s (checkGraph done s o now gid) := by
  unfold checkGraph
  refine .any fun g => ?_
  split
  · exact finishGraph_emits hd _ _ _
  · exact .after (setGraph_emitted _ _) (startNodes_emits _ _ _ _)

theorem graphTaskDone_emits {done : Sched → TaskRes → Py Sched} (hd : DoneEmits Q done) (o : Order) (now : Int) (s : Sched) (r : TaskRes) :
    Emits2 Q s (graphTaskDone done o now s r) := by
  unfold graphTaskDone
  split
  · exact Emitted.refl
  · refine .bind (markNodeDone_emits _ _) fun s2 _ => ?_
    split
    · exact .bind (checkGraph_emits hd _ _ _ _) fun _ _ => .pure .refl
    · refine .any fun _ => ?_
      exact .bind2 (cleanGraph_emits hd _ _ _) fun _ _ _ => .pure (send_emitted _ _ (by simp [NoResponse]))

theorem taskDone_emits (o : Order) (now : Int) : ∀ n, DoneEmits Q (taskDone o now n)
  | 0 => fun _ _ => trivial
  | n + 1 => fun s r => onTaskDoneWith_emits (fun s r => graphTaskDone_emits (taskDone_emits o now n) o now s r) s r

theorem unpackNode_emits (o : Order) (now : Int) (gt : GraphTask) (u : Unpack) (t : Task) : Emits2 Q s (s.unpackNode o now gt u t) := by
  unfold unpackNode
  refine .bind (useFunction_emits _ _ _) fun s2 _ => ?_
  exact .pure (.of rfl)

theorem unpackNodes_emits (o : Order) (now : Int) (gt : GraphTask) : ∀ (ts : List Task) (u : Unpack) (s : Sched),
    Emits2 Q s (s.unpackNodes o now gt u ts)
  | [], _, _ => Emitted.refl
  | t :: ts, u, s => by
    unfold unpackNodes
    exact .bind2 (unpackNode_emits _ _ _ _ _) fun _ s2 _ => unpackNodes_emits o now gt ts _ s2

theorem addAll_emitted (c : Bytes) (now : Int) (hQ : ∀ st f, st = .ok ∨ st = .duplicated → Q (c, .functionResponse st f [] [])) : ∀ (l : List (Bytes × Bytes × Bytes)) (s : Sched),
    Emitted Q s (l.foldl (fun s p => s.functionAdd c p.1 p.2.1 p.2.2 now) s)
  | [], _ => .refl
  | p :: l, _ => (functionAdd_emitted c p.1 p.2.1 p.2.2 now (fun st => hQ st _)).trans (addAll_emitted c now hQ l _)

theorem addGraph_emits (o : Order) (now : Int) (c : Bytes) (gt : GraphTask) (hQ : ∀ st f, st = .ok ∨ st = .duplicated → Q (c, .functionResponse st f [] [])) :
    Emits Q s (s.addGraph o now c gt) := by
  unfold addGraph
  refine .after (addAll_emitted c now hQ gt.functions.items s) ?_
  refine .bind (clientNew_emits _ _) fun s2 _ => ?_
  refine .bind2 (unpackNodes_emits _ _ _ _ _ _) fun u s3 _ => ?_
  refine .any fun so => ?_
  exact .after (setGraph_emitted _ _) (checkGraph_emits (taskDone_emits _ _ _) _ _ _ _)

theorem rerouteTasks_emits : ∀ (ts : List Bytes) (s : Sched), Emits Q s (s.rerouteTasks ts)
  | [], _ => Emitted.refl
  | t :: ts, s => by
    unfold rerouteTasks
    exact .bind (onTaskReroute_emits t) fun s2 _ => rerouteTasks_emits ts s2

theorem assignTask_emits (k : Task) : Emits Q s (s.assignTask k) := by
  unfold assignTask
  refine .any fun p => ?_
  refine .after (s' := { s with wm := { s.wm with alloc := p.2 } }) (.of rfl) ?_
  simp only
  split
  · exact .any fun _ => .pure (.of rfl)
  · next w _ =>
    refine .frm (sendMonitor_emits _ _) ?_
    exact (send_emitted (s := { s with wm := { s.wm with alloc := p.2 } }) w (.task k) (by simp [NoResponse])).trans (.of rfl)

theorem taskRoutine_emits : Emits Q s s.taskRoutine := by
  unfold taskRoutine
  split
  · split
    · exact .ok .refl
    · exact .frm (assignTask_emits _) (.of rfl)
  · split
    · exact .ok .refl
    · refine .any fun p => ?_
      refine .after (s' := { s with tm := { s.tm with unassigned := p.2 } }) (.of rfl) ?_
      refine .any fun k => ?_
      split
      · exact .pure (.of rfl)
      · exact assignTask_emits _


theorem onDeleteFunction_emitted (o : Order) (f : Bytes) : Emitted Q s (s.onDeleteFunction o f) := by
  unfold onDeleteFunction
  generalize orderBy (o f) s.wm.alloc.workerIds.items = ws
  induction ws generalizing s with
  | nil => exact .refl
  | cons w ws ih => exact (send_emitted w _ (by simp [NoResponse])).trans ih

theorem dropFunctions_emits (o : Order) : ∀ (fs : List Bytes) (s : Sched), Emits Q s (s.dropFunctions o fs)
  | [], _ => Emitted.refl
  | f :: fs, s => by
    unfold dropFunctions
    refine .any fun p => ?_
    refine .after (s' := { s with fm := { s.fm with funcs := p.2 } }) (.of rfl) ?_
    exact .after (onDeleteFunction_emitted o f) (dropFunctions_emits o fs _)

theorem disconnectWorker_emits (o : Order) (w : Bytes) : Emits2 Q s (s.disconnectWorker o w) :=
  (disconnectWorker_only o w).imp (fun _ h => .of h.2.2.1) (fun _ h => h)

theorem disconnectAll_emits (o : Order) (ws : List Bytes) : Emits Q s (s.disconnectAll o ws) :=
  (disconnectAll_only o ws s).imp (fun _ h => .of h.2.2.1) (fun _ h => h)

theorem balanceRequest_emitted (hQ : ∀ w n, Q (w, .balanceRequest n)) : Emitted Q s s.balanceRequest := by
  unfold balanceRequest
  split
  · exact .refl
  · simp only
    split
    · exact .of rfl
    · split
      · exact .of rfl
      · split
        · exact .of rfl
        · have key : ∀ (l : List (Bytes × Int)) (s : Sched), Emitted Q s (l.foldl (fun s p => s.send p.1 (.balanceRequest p.2)) s) := by
            intro l
            induction l with
            | nil => exact fun _ => .refl
            | cons p l ih => exact fun s => (send_emitted' p.1 (.balanceRequest p.2) (hQ _ _)).trans (ih _)
          exact Emitted.trans (.of rfl) (key _ _)

/-- Which answer a request can get. -/
def _root_.Verif.Sched.Matches : FunctionRequestType → FunctionResponseType → Prop
  | .add, st => st = .ok ∨ st = .duplicated
  | .delete, st => st ≠ .duplicated
  | _, st => st = .ok ∨ st = .notExists

theorem onFunction_emits (source : Bytes) (type : FunctionRequestType) (f name content : Bytes) (now : Int)
    (hQ : ∀ st, Matches type st → type = .request ∧ st ≠ .notExists ∨ Q (source, .functionResponse st f [] []))
    (hR : ∀ i, type = .request → s.fm.funcs.get? f = some i → Q (source, .functionResponse .ok f i.name i.content)) :
    Emits Q s (s.onFunction source type f name content now) := by
  unfold onFunction
  cases type with
  | check =>
    show Emitted Q s (s.functionCheck source f)
    unfold functionCheck functionResponse
    split <;> exact send_emitted' _ _ ((hQ _ (by simp [Matches])).resolve_left (by simp))
  | add => exact functionAdd_emitted source f name content now fun st hst => (hQ st hst).resolve_left (by simp)
  | request =>
    show Emitted Q s (s.functionRequest source f)
    unfold functionRequest
    split
    · exact send_emitted' _ _ ((hQ _ (by simp [Matches])).resolve_left (by simp))
    · next i hi => exact send_emitted' _ _ (hR i rfl hi)
  | delete => exact functionDelete_emits source f fun st hst => (hQ st hst).resolve_left (by simp)

end Sched

/-- Why a function response is sent: it answers a request of the receiver, or the receiver's graph is unpacked.  Which
echoes are sent; who asks workers for tasks. -/
def Why (s : Sched) (e : Event) : Bytes × Message → Prop
  | (w, .functionResponse st f nm c) =>
      (∃ ty nm' c', e.op = .recv w (.functionRequest ty f nm' c') ∧ Matches ty st ∧
        (ty = .request → st = .notExists ∨ ∃ i, s.fm.funcs.get? f = some i ∧ nm = i.name ∧ c = i.content)) ∨
      (∃ gt rest, e.op = .graphRoutine ∧ s.gm.queue = (w, gt) :: rest ∧ (st = .ok ∨ st = .duplicated))
  | (_, .taskEcho _ st) => st = .submitOK ∨ st = .functionNotExists ∨ st = .noWorker
  | (_, .balanceRequest _) => e.op = .workerRoutine
  | _ => True

instance (s : Sched) (e : Event) : Tame (Why s e) where
  other c m h := by cases m <;> first | trivial | exact absurd rfl (h.1 _ _ _ _) | exact h.2.1 _ _ rfl | exact absurd rfl (h.2.2 _)

theorem step_emits (s : Sched) (e : Event) : Emits (Why s e) s (s.step e) := by
  obtain ⟨op, now, o⟩ := e
  unfold Sched.step
  cases op with
  | recv source m =>
    cases m with
    | heartbeat hb => exact Emitted.trans (s' := { s with wm := _ }) (.of rfl) (Sched.send_emitted source .heartbeatEcho (by simp [NoResponse]))
    | disconnectRequest w =>
      show Emits _ s (s.onDisconnect o source w)
      unfold Sched.onDisconnect
      refine Emits.bind2 (Sched.disconnectWorker_emits o w) fun b s' _ => ?_
      simp only
      split
      · exact .pure (Sched.send_emitted _ _ (by simp [NoResponse]))
      · exact .pure .refl
    | balanceResponse ids =>
      show Emits _ s (s.onBalanceResponse ids)
      unfold Sched.onBalanceResponse
      refine .any fun p => ?_
      exact .frm (Sched.rerouteTasks_emits _ _) (.of rfl)
    | graphTask g => exact .ok (.of rfl)
    | graphTaskCancel gid =>
      show Emits _ s (s.onGraphTaskCancel o now gid)
      unfold Sched.onGraphTaskCancel
      refine Emits.bind2 (Sched.cleanGraph_emits (Sched.taskDone_emits _ _ _) _ _ _) fun _ s' _ => ?_
      exact .pure .refl
    | task t => exact Sched.onTaskNew_emits _ _ _
    | taskCancel tid => exact Sched.onTaskCancelWith_emits (Sched.taskDone_emits _ _ _) _ _
    | taskResult tid st d r =>
      show Emits _ s (s.onTaskResult o now ⟨tid, st, d, r⟩)
      unfold Sched.onTaskResult
      refine .any fun p => ?_
      simp only
      split
      · exact .pure (.of rfl)
      · exact .frm (Sched.taskDone_emits _ _ _ _ _) (.of rfl)
    | functionRequest type fid name content =>
      refine Sched.onFunction_emits source type fid name content now (fun st hst => ?_)
        (fun i ht hi => Or.inl ⟨type, name, content, rfl, by subst ht; exact .inl rfl, fun _ => .inr ⟨i, hi, rfl, rfl⟩⟩)
      by_cases ht : type = .request
      · by_cases hs : st = .notExists
        · exact Or.inr (Or.inl ⟨type, name, content, rfl, hst, fun _ => .inl hs⟩)
        · exact Or.inl ⟨ht, hs⟩
      · exact Or.inr (Or.inl ⟨type, name, content, rfl, hst, fun h => absurd h ht⟩)
    | _ => exact .ok .refl
  | taskRoutine => exact Sched.taskRoutine_emits
  | graphRoutine =>
    show Emits _ s (s.graphRoutine o now)
    unfold Sched.graphRoutine
    split
    · exact .ok .refl
    · next c gt rest hq =>
      refine .frm (Sched.addGraph_emits _ _ _ _ fun st f hst => Or.inr ⟨gt, rest, rfl, hq, hst⟩) (.of rfl)
  | functionRoutine => exact Sched.dropFunctions_emits o _ s
  | workerRoutine => exact .after (Sched.balanceRequest_emitted fun _ _ => rfl) (Sched.disconnectAll_emits o _)
  | report => exact .any fun _ => .pure .refl

end Verif.Sched
