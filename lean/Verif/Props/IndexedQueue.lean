import Verif.Queue.IndexedLemmas
import Verif.Spec.Queue

/-!
# C05, C06: `IndexedQueue` is a FIFO of unique items
-/

set_option linter.unusedSectionVars false

namespace Verif.Props

open Verif.Queue Verif.Spec

variable {α η : Type} [DecidableEq α] [DecidableEq η]

/-- Perform one operation on the queue object.  When an operation raises, the object keeps the
state it had: `C06_unchanged` (Props/IndexedObject) shows that of the code with its assignments in order. -/
def queueStep (hash : α → η) (q : IQueue α η) : QOp α → IQueue α η × QObs α
  | .put a =>
    match q.put hash a with
    | .ok q' => (q', .done)
    | .error e => (q, .raised e)
  | .get =>
    match q.get hash with
    | .ok (a, q') => (q', .item a)
    | .error e => (q, .raised e)
  | .remove a =>
    match q.remove hash a with
    | .ok q' => (q', .done)
    | .error e => (q, .raised e)
  | .contains a => (q, .bool (q.contains hash a))
  | .len => (q, .num q.len)

/-- Observations of a sequence of operations on the queue object. -/
def queueTrace (hash : α → η) (q : IQueue α η) : List (QOp α) → List (QObs α)
  | [] => []
  | op :: ops => (queueStep hash q op).2 :: queueTrace hash (queueStep hash q op).1 ops

/-- The state of the queue object after a sequence of operations. -/
def queueRun (hash : α → η) (q : IQueue α η) (ops : List (QOp α)) : IQueue α η :=
  ops.foldl (fun q op => (queueStep hash q op).1) q

/-- `hash` separates the given items. -/
def Separates (hash : α → η) (items : List α) : Prop :=
  ∀ a ∈ items, ∀ b ∈ items, hash a = hash b → a = b

theorem mem_hash_iff {hash : α → η} {items l : List α} (hs : Separates hash items)
    (hl : ∀ a ∈ l, a ∈ items) {a : α} (ha : a ∈ items) : hash a ∈ l.map hash ↔ a ∈ l := by
  constructor
  · intro h
    obtain ⟨b, hb, e⟩ := List.mem_map.1 h
    exact hs b (hl b hb) a ha e ▸ hb
  · intro h; exact List.mem_map.2 ⟨a, h, rfl⟩

/-- One step of the object is one step of the FIFO. -/
theorem queueStep_refines {hash : α → η} {items : List α} (hs : Separates hash items)
    {q : IQueue α η} (hq : q.WF hash) (hl : ∀ a ∈ q.contents, a ∈ items)
    (op : QOp α) (hop : ∀ a ∈ op.arg, a ∈ items) :
    (queueStep hash q op).1.WF hash ∧
    (queueStep hash q op).1.contents = (fifoStep q.contents op).1 ∧
    (queueStep hash q op).2 = (fifoStep q.contents op).2 := by
  cases op with
  | put a =>
    have hm := mem_hash_iff hs hl (hop a (by simp [QOp.arg]))
    by_cases ha : a ∈ q.contents
    · simp [queueStep, fifoStep, hq.put_dup (hm.2 ha), ha, hq]
    · obtain ⟨q', e, hw, hc⟩ := hq.put_new (mt hm.1 ha)
      simp [queueStep, fifoStep, e, ha, hw, hc]
  | get =>
    cases hc : q.contents with
    | nil => simp [queueStep, fifoStep, hq.get_empty hc, hq, hc]
    | cons a l =>
      obtain ⟨q', e, hw, hc'⟩ := hq.get_cons hc
      simp [queueStep, fifoStep, e, hw, hc']
  | remove a =>
    have hai := hop a (by simp [QOp.arg])
    have hm := mem_hash_iff hs hl hai
    by_cases ha : a ∈ q.contents
    · obtain ⟨q', e, hw, hc⟩ := hq.remove_present (hm.2 ha)
      simp only [queueStep, fifoStep, e, ha, hw, hc, if_true, true_and, and_true]
      rw [List.Nodup.erase_eq_filter hq.nodup]
      apply List.filter_congr
      intro x hx
      have : hash x = hash a ↔ x = a := ⟨hs x (hl x hx) a hai, fun e => e ▸ rfl⟩
      by_cases hxa : x = a <;> simp [this, hxa]
    · simp [queueStep, fifoStep, hq.remove_absent (mt hm.1 ha), ha, hq]
  | contains a =>
    have hm := mem_hash_iff hs hl (hop a (by simp [QOp.arg]))
    refine ⟨hq, rfl, ?_⟩
    simp only [queueStep, fifoStep, QObs.bool.injEq]
    rw [Bool.eq_iff_iff, hq.contains, hm]
    simp
  | len => simp [queueStep, fifoStep, hq, hq.len]

theorem fifoStep_items {l items : List α} (op : QOp α) (hl : ∀ a ∈ l, a ∈ items)
    (hop : ∀ a ∈ op.arg, a ∈ items) : ∀ a ∈ (fifoStep l op).1, a ∈ items := by
  intro a ha
  cases op <;> simp only [fifoStep] at ha
  case put b =>
    split at ha
    · exact hl a ha
    · rcases List.mem_append.1 ha with h | h
      · exact hl a h
      · exact hop a (by simpa [QOp.arg] using h)
  case get =>
    cases l with
    | nil => simp at ha
    | cons b l => exact hl a (List.mem_cons_of_mem _ ha)
  case remove b =>
    split at ha
    · exact hl a (List.mem_of_mem_erase ha)
    · exact hl a ha
  all_goals exact hl a ha

theorem queueTrace_refines {hash : α → η} (ops : List (QOp α)) {items : List α}
    (hs : Separates hash items) (hops : ∀ op ∈ ops, ∀ a ∈ op.arg, a ∈ items)
    {q : IQueue α η} (hq : q.WF hash) (hl : ∀ a ∈ q.contents, a ∈ items) :
    queueTrace hash q ops = fifoTrace q.contents ops := by
  induction ops generalizing q with
  | nil => rfl
  | cons op ops ih =>
    have hop := hops op (by simp)
    obtain ⟨h1, h2, h3⟩ := queueStep_refines hs hq hl op hop
    simp only [queueTrace, fifoTrace, h3]
    rw [ih (fun o ho => hops o (by simp [ho])) h1 (by rw [h2]; exact fifoStep_items op hl hop), h2]

/-- **C05.** For every sequence of operations on a new queue, whatever the caller observes
(items returned, exceptions, membership, length) is what a FIFO list of unique items gives,
provided the items used have pairwise different hashes. -/
theorem C05_fifo (hash : α → η) (ops : List (QOp α))
    (hs : Separates hash (ops.flatMap QOp.arg)) :
    queueTrace hash IQueue.empty ops = fifoTrace [] ops := by
  have := queueTrace_refines ops hs (q := IQueue.empty)
    (fun op hop a ha => List.mem_flatMap.2 ⟨op, hop, ha⟩) (IQueue.wf_empty hash) (by simp)
  simpa using this

/-- A run with removal of the head, of a middle item, of the tail, and with misuse. -/
def sampleOps : List (QOp Nat) := [.put 1, .put 2, .put 3, .put 2, .remove 2, .get, .remove 9,
  .contains 3, .remove 3, .len, .get, .put 2, .get]

example : Separates (fun n : Nat => n) (sampleOps.flatMap QOp.arg) ∧
    queueTrace (fun n : Nat => n) IQueue.empty sampleOps =
    [.done, .done, .done, .raised .keyError, .done, .item 1, .raised .keyError, .bool true, .done,
     .num 0, .raised .queueEmpty, .done, .item 2] := by
  exact ⟨fun _ _ _ _ h => h, by decide⟩

/-- Without the hypothesis on hashes the claim is false: two different items with the same
hash are taken for one another (Python's `hash` is not injective; the code keys its index
by `hash(item)`, lines 117, 124, 138). -/
theorem C05_hash_collision :
    ∃ (hash : Nat → Nat) (ops : List (QOp Nat)),
      queueTrace hash IQueue.empty ops ≠ fifoTrace [] ops :=
  ⟨fun n => n % 2, [.put 1, .put 3], by decide⟩

/-- The states a queue object can be in. -/
def Reachable (hash : α → η) (q : IQueue α η) : Prop :=
  ∃ ops, Separates hash (ops.flatMap QOp.arg) ∧ q = queueRun hash IQueue.empty ops

theorem run_wf {hash : α → η} (ops : List (QOp α)) {items : List α}
    (hs : Separates hash items) (hops : ∀ op ∈ ops, ∀ a ∈ op.arg, a ∈ items)
    {q : IQueue α η} (hq : q.WF hash) (hl : ∀ a ∈ q.contents, a ∈ items) :
    (queueRun hash q ops).WF hash := by
  induction ops generalizing q with
  | nil => exact hq
  | cons op ops ih =>
    have hop := hops op (by simp)
    obtain ⟨h1, h2, _⟩ := queueStep_refines hs hq hl op hop
    exact ih (fun o ho => hops o (by simp [ho])) h1 (by rw [h2]; exact fifoStep_items op hl hop)

/-- **C06 (a).** In every reachable state, `put` of an item with the hash of a queued item raises
`KeyError`, `remove` of an absent one raises `KeyError`, `get` on an empty queue raises
`QueueEmpty`; and these are the only errors. -/
theorem C06_errors (hash : α → η) (q : IQueue α η) (hq : Reachable hash q) (a : α) :
    ((∃ b ∈ q.contents, hash b = hash a) ∧ q.put hash a = .error .keyError ∨
      (¬ ∃ b ∈ q.contents, hash b = hash a) ∧ ∃ q', q.put hash a = .ok q') ∧
    ((∃ b ∈ q.contents, hash b = hash a) ∧ (∃ q', q.remove hash a = .ok q') ∨
      (¬ ∃ b ∈ q.contents, hash b = hash a) ∧ q.remove hash a = .error .keyError) ∧
    (q.contents = [] ∧ q.get hash = .error .queueEmpty ∨
      ∃ b q', q.contents.head? = some b ∧ q.get hash = .ok (b, q')) := by
  obtain ⟨ops, hs, rfl⟩ := hq
  have hw := run_wf ops hs (q := IQueue.empty)
    (fun op hop a ha => List.mem_flatMap.2 ⟨op, hop, ha⟩) (IQueue.wf_empty hash) (by simp)
  generalize queueRun hash IQueue.empty ops = q at hw
  have hm : hash a ∈ q.contents.map hash ↔ ∃ b ∈ q.contents, hash b = hash a := List.mem_map
  refine ⟨?_, ?_, ?_⟩
  · by_cases h : hash a ∈ q.contents.map hash
    · exact .inl ⟨hm.1 h, hw.put_dup h⟩
    · obtain ⟨q', e, _⟩ := hw.put_new h
      exact .inr ⟨mt hm.2 h, q', e⟩
  · by_cases h : hash a ∈ q.contents.map hash
    · obtain ⟨q', e, _⟩ := hw.remove_present h
      exact .inl ⟨hm.1 h, q', e⟩
    · exact .inr ⟨mt hm.2 h, hw.remove_absent h⟩
  · cases hc : q.contents with
    | nil => exact .inl ⟨rfl, hw.get_empty hc⟩
    | cons b l =>
      obtain ⟨q', e, _⟩ := hw.get_cons hc
      exact .inr ⟨b, q', rfl, e⟩

example : Reachable (fun n : Nat => n) (queueRun (fun n => n) IQueue.empty [.put 1, .put 2, .remove 1]) ∧
    (queueRun (fun n : Nat => n) IQueue.empty [.put 1, .put 2, .remove 1]).contents = [2] :=
  ⟨⟨[.put 1, .put 2, .remove 1], fun _ _ _ _ h => h, rfl⟩, by decide⟩

end Verif.Props
