import Verif.Props.IndexedQueue
import Verif.Queue.IndexedObject

/-!
# C06: an operation on the queue that raises leaves the object as it was

The operations of `Queue/IndexedObject` keep what was assigned before an exception.
-/

set_option linter.unusedSectionVars false

namespace Verif.Props

open Verif.Queue Verif.Spec

variable {α η : Type} [DecidableEq α] [DecidableEq η]

theorem doing_node {q : IQueue α η} {i : Nat} {n : Node α} (h : q.node i = .ok n) :
    IQueue.Object.node i q = (.ok n, q) := by
  have h' : q.store.get? i = some n := by simpa [IQueue.node] using h
  simp [IQueue.Object.node, doing_bind, Doing.self, h', doing_pure]

theorem doing_setPrev {q q' : IQueue α η} {i : Nat} {p : Option Nat} (h : q.setPrev i p = .ok q') :
    IQueue.Object.setPrev i p q = (.ok (), q') := by
  obtain ⟨n, hn, e⟩ := Py.bind_ok.1 h
  cases e
  simp [IQueue.Object.setPrev, doing_bind, doing_node hn, Doing.assign]

theorem doing_setNext {q q' : IQueue α η} {i : Nat} {p : Option Nat} (h : q.setNext i p = .ok q') :
    IQueue.Object.setNext i p q = (.ok (), q') := by
  obtain ⟨n, hn, e⟩ := Py.bind_ok.1 h
  cases e
  simp [IQueue.Object.setNext, doing_bind, doing_node hn, Doing.assign]

theorem doing_addToHead {q q' : IQueue α η} {i : Nat} (h : q.addToHead i = .ok q') :
    IQueue.Object.addToHead i q = (.ok (), q') := by
  cases hh : q.head with
  | none =>
    simp only [IQueue.addToHead, hh] at h
    cases h
    simp [IQueue.Object.addToHead, doing_bind, Doing.self, hh, Doing.assign]
  | some x =>
    simp only [IQueue.addToHead, hh] at h
    obtain ⟨q₂, h₂, h⟩ := Py.bind_ok.1 h
    obtain ⟨q₃, h₃, h⟩ := Py.bind_ok.1 h
    cases h
    simp [IQueue.Object.addToHead, doing_bind, Doing.self, hh, Doing.assign, doing_setNext h₂, doing_setPrev h₃]

theorem doing_removeTail {q q' : IQueue α η} {t : Nat} (h : q.removeTail = .ok (t, q')) :
    IQueue.Object.removeTail q = (.ok t, q') := by
  cases ht : q.tail with
  | none => simp [IQueue.removeTail, ht] at h
  | some t' =>
    simp only [IQueue.removeTail, ht] at h
    obtain ⟨n, hn, h⟩ := Py.bind_ok.1 h
    cases hp : n.prev with
    | none =>
      simp only [hp] at h
      cases h
      simp [IQueue.Object.removeTail, doing_bind, doing_pure, Doing.self, ht, doing_node hn, hp, Doing.assign]
    | some p =>
      simp only [hp] at h
      obtain ⟨q₂, h₂, h⟩ := Py.bind_ok.1 h
      cases h
      have h₃ : ({ q with tail := some p } : IQueue α η).setNext p none = .ok { q₂ with tail := some p } := by
        obtain ⟨m, hm, e⟩ := Py.bind_ok.1 h₂
        cases e
        exact Py.bind_ok.2 ⟨m, hm, rfl⟩
      simp [IQueue.Object.removeTail, doing_bind, doing_pure, Doing.self, ht, doing_node hn, hp, Doing.assign,
        doing_setNext h₃]

theorem doing_unlink {q q' : IQueue α η} {i : Nat} (h : q.unlink i = .ok q') :
    IQueue.Object.unlink i q = (.ok (), q') := by
  obtain ⟨n, hn, h⟩ := Py.bind_ok.1 (show (q.node i >>= fun n => _) = _ from h)
  cases hp : n.prev with
  | none =>
    cases hx : n.next with
    | none =>
      simp only [hp, hx] at h
      obtain ⟨_, ha, h⟩ := Py.bind_ok.1 h
      obtain ⟨_, hb, h⟩ := Py.bind_ok.1 h
      cases h
      rw [pyAssert_ok] at ha hb
      simp only [IQueue.Object.unlink, doing_bind, doing_pure, Doing.self, doing_node hn, hp, hx, Doing.assign, Doing.check, ha,
        hb, if_true]
    | some x =>
      simp only [hp, hx] at h
      obtain ⟨_, ha, h⟩ := Py.bind_ok.1 h
      obtain ⟨q₂, h₂, h⟩ := Py.bind_ok.1 h
      cases h
      rw [pyAssert_ok] at ha
      simp only [IQueue.Object.unlink, doing_bind, doing_pure, Doing.self, doing_node hn, hp, hx, Doing.assign, Doing.check, ha,
        doing_setPrev h₂, if_true]
  | some p =>
    cases hx : n.next with
    | none =>
      simp only [hp, hx] at h
      obtain ⟨_, ha, h⟩ := Py.bind_ok.1 h
      obtain ⟨q₂, h₂, h⟩ := Py.bind_ok.1 h
      cases h
      rw [pyAssert_ok] at ha
      simp only [IQueue.Object.unlink, doing_bind, doing_pure, Doing.self, doing_node hn, hp, hx, Doing.assign, Doing.check, ha,
        doing_setNext h₂, if_true]
    | some x =>
      simp only [hp, hx] at h
      obtain ⟨q₂, h₂, h⟩ := Py.bind_ok.1 h
      obtain ⟨q₃, h₃, h⟩ := Py.bind_ok.1 h
      cases h
      simp only [IQueue.Object.unlink, doing_bind, Doing.self, doing_node hn, hp, hx, Doing.assign,
        doing_setNext h₂, doing_setPrev h₃]

/-- `put` that returns leaves the object that `IQueue.put` gives. -/
theorem doing_put {hash : α → η} {q q' : IQueue α η} {a : α} (h : q.put hash a = .ok q') :
    IQueue.Object.put hash a q = (.ok (), q') := by
  obtain ⟨_, hc, h⟩ := Py.bind_ok.1 h
  obtain ⟨q₁, h₁, h⟩ := Py.bind_ok.1 h
  cases h
  rw [raiseIf_ok] at hc
  simp only [IQueue.Object.put, doing_bind, Doing.self, hc, Doing.assign, doing_addToHead h₁, Bool.false_eq_true, if_false]

/-- `get` that returns gives the item and leaves the object that `IQueue.get` gives. -/
theorem doing_get {hash : α → η} {q q' : IQueue α η} {a : α} (h : q.get hash = .ok (a, q')) :
    IQueue.Object.get hash q = (.ok a, q') := by
  obtain ⟨⟨i, q₁⟩, h₁, h⟩ := Py.bind_ok.1 h
  obtain ⟨n, hn, h⟩ := Py.bind_ok.1 h
  obtain ⟨⟨j, m⟩, hm, h⟩ := Py.bind_ok.1 h
  cases h
  simp [IQueue.Object.get, doing_bind, doing_pure, Doing.self, doing_removeTail h₁, doing_node hn, hm, Doing.assign]

/-- `remove` that returns leaves the object that `IQueue.remove` gives. -/
theorem doing_remove {hash : α → η} {q q' : IQueue α η} {a : α} (h : q.remove hash a = .ok q') :
    IQueue.Object.remove hash a q = (.ok (), q') := by
  obtain ⟨_, hc, h⟩ := Py.bind_ok.1 h
  obtain ⟨⟨i, m⟩, hm, h⟩ := Py.bind_ok.1 h
  rw [raiseIf_ok] at hc
  have hc : q.map.has (hash a) = true := by simpa using hc
  simp only [IQueue.Object.remove, doing_bind, Doing.self, hc, hm, Doing.assign, doing_unlink h, if_true]

/-- One call on the queue object: what the caller observes, and the object afterwards. -/
def objectStep (hash : α → η) (q : IQueue α η) : QOp α → IQueue α η × QObs α
  | .put a =>
    match IQueue.Object.put hash a q with
    | (.ok _, q') => (q', .done)
    | (.error e, q') => (q', .raised e)
  | .get =>
    match IQueue.Object.get hash q with
    | (.ok a, q') => (q', .item a)
    | (.error e, q') => (q', .raised e)
  | .remove a =>
    match IQueue.Object.remove hash a q with
    | (.ok _, q') => (q', .done)
    | (.error e, q') => (q', .raised e)
  | .contains a => (q, .bool (q.contains hash a))
  | .len => (q, .num q.len)

theorem objectStep_eq {hash : α → η} {q : IQueue α η} (hw : q.WF hash) (op : QOp α) :
    objectStep hash q op = queueStep hash q op := by
  cases op with
  | put a =>
    by_cases h : hash a ∈ q.contents.map hash
    · have hc : q.map.has (hash a) = true := (hw.contains a).2 h
      simp only [objectStep, queueStep, hw.put_dup h, IQueue.Object.put, doing_bind, Doing.self, hc, Doing.fail, if_true]
    · obtain ⟨q', e, _⟩ := hw.put_new h
      simp [objectStep, queueStep, e, doing_put e]
  | get =>
    cases hc : q.contents with
    | nil =>
      have ht : q.tail = none := by
        obtain ⟨l, h⟩ := hw
        rw [IQueue.contents_eq h] at hc
        simp only [List.map_eq_nil_iff] at hc
        subst hc
        exact h.tail
      simp [objectStep, queueStep, hw.get_empty hc, IQueue.Object.get, IQueue.Object.removeTail, doing_bind, Doing.self, ht, Doing.fail]
    | cons b l =>
      obtain ⟨q', e, _⟩ := hw.get_cons hc
      simp [objectStep, queueStep, e, doing_get e]
  | remove a =>
    by_cases h : hash a ∈ q.contents.map hash
    · obtain ⟨q', e, _⟩ := hw.remove_present h
      simp [objectStep, queueStep, e, doing_remove e]
    · have hc : q.map.has (hash a) = false := Bool.eq_false_iff.2 (mt (hw.contains a).1 h)
      simp only [objectStep, queueStep, hw.remove_absent h, IQueue.Object.remove, doing_bind, Doing.self, hc, Doing.fail,
        Bool.false_eq_true, if_false]
  | contains a => rfl
  | len => rfl

theorem reachable_wf {hash : α → η} {q : IQueue α η} (hq : Reachable hash q) : q.WF hash := by
  obtain ⟨ops, hs, rfl⟩ := hq
  exact run_wf ops hs (fun op hop a ha => List.mem_flatMap.2 ⟨op, hop, ha⟩) (IQueue.wf_empty hash) (by simp)

/-- **C06 (b).** In every reachable state an operation that raises leaves the queue object as it was: every field of it,
with what was assigned before the exception kept. -/
theorem C06_unchanged (hash : α → η) (q : IQueue α η) (hq : Reachable hash q) (op : QOp α) (e : PyErr)
    (h : (objectStep hash q op).2 = .raised e) : (objectStep hash q op).1 = q := by
  rw [objectStep_eq (reachable_wf hq)] at h ⊢
  cases op with
  | put a =>
    simp only [queueStep] at h ⊢
    split at h <;> simp_all
  | get =>
    simp only [queueStep] at h ⊢
    split at h <;> simp_all
  | remove a =>
    simp only [queueStep] at h ⊢
    split at h <;> simp_all
  | contains a => rfl
  | len => rfl

/-- Observations of a sequence of calls on the queue object. -/
def objectTrace (hash : α → η) (q : IQueue α η) : List (QOp α) → List (QObs α)
  | [] => []
  | op :: ops => (objectStep hash q op).2 :: objectTrace hash (objectStep hash q op).1 ops

theorem objectTrace_eq {hash : α → η} {items : List α} (hs : Separates hash items) (ops : List (QOp α))
    (hops : ∀ op ∈ ops, ∀ a ∈ op.arg, a ∈ items) {q : IQueue α η} (hq : q.WF hash)
    (hl : ∀ a ∈ q.contents, a ∈ items) : objectTrace hash q ops = queueTrace hash q ops := by
  induction ops generalizing q with
  | nil => rfl
  | cons op ops ih =>
    have hop := hops op (by simp)
    obtain ⟨h1, h2, _⟩ := queueStep_refines hs hq hl op hop
    simp only [objectTrace, queueTrace, objectStep_eq hq]
    rw [ih (fun o ho => hops o (by simp [ho])) h1 (by rw [h2]; exact fifoStep_items op hl hop)]

/-- **C05, C06.** For every sequence of calls on a new queue object, calls that raise among them, the caller observes
what a FIFO list of unique items gives, provided the items used have pairwise different hashes. -/
theorem C06_object (hash : α → η) (ops : List (QOp α)) (hs : Separates hash (ops.flatMap QOp.arg)) :
    objectTrace hash IQueue.empty ops = fifoTrace [] ops := by
  rw [objectTrace_eq hs ops (fun op hop a ha => List.mem_flatMap.2 ⟨op, hop, ha⟩) (IQueue.wf_empty hash) (by simp)]
  exact C05_fifo hash ops hs

example : objectTrace (fun n : Nat => n) IQueue.empty sampleOps =
    [.done, .done, .done, .raised .keyError, .done, .item 1, .raised .keyError, .bool true, .done,
     .num 0, .raised .queueEmpty, .done, .item 2] := by decide

example : Reachable (fun n : Nat => n) (queueRun (fun n => n) IQueue.empty [.put 1, .put 2, .remove 1]) ∧
    (objectStep (fun n : Nat => n) (queueRun (fun n => n) IQueue.empty [.put 1, .put 2, .remove 1]) (.put 2)).2 =
      .raised .keyError :=
  ⟨⟨[.put 1, .put 2, .remove 1], fun _ _ _ _ h => h, rfl⟩, by decide⟩

end Verif.Props
