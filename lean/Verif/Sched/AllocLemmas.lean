import Verif.Sched.Alloc
import Verif.Queue.PriorityLemmas
import Verif.Util.OneToManyLemmas

/-!
# Effect of the allocator's operations
-/

namespace Verif.Sched

open Verif.Queue Verif.Util

namespace Alloc

/-- Invariant of the allocator.  The recorded load of a worker may exceed its real load. -/
structure Inv (a : Alloc) : Prop where
  pq : a.queue.WF
  dom : ∀ w, (∃ p, a.queue.prio w = some p) ↔ ∃ s, a.w2t.get? w = some s
  agree : ∀ t w, a.t2w.get? t = some w ↔ ∃ s, a.w2t.get? w = some s ∧ t ∈ s
  load : ∀ w p s, a.queue.prio w = some p → a.w2t.get? w = some s → (s.size : Int) ≤ p
  cap : 0 ≤ a.max → ∀ w p, a.queue.prio w = some p → p ≤ a.max

/-- The recorded loads are exact and no locator entry is stale. -/
structure Exact (a : Alloc) : Prop where
  load : ∀ w p s, a.queue.prio w = some p → a.w2t.get? w = some s → p = s.size
  fresh : ∀ w, a.queue.stale w = none

theorem inv_init (max : Int) : (init max).Inv := by
  have hp : ∀ w, PQueue.empty.prio w = none := fun _ => rfl
  refine ⟨PQueue.wf_empty, ?_, ?_, ?_, ?_⟩ <;> simp [init, hp]

theorem exact_init (max : Int) : (init max).Exact := by
  have hp : ∀ w, PQueue.empty.prio w = none := fun _ => rfl
  refine ⟨?_, fun _ => rfl⟩
  simp [init, hp]

variable {a : Alloc}

theorem Inv.prio_none (h : a.Inv) {w : Bytes} : a.queue.prio w = none ↔ a.w2t.get? w = none := by
  have := h.dom w
  cases hp : a.queue.prio w <;> cases hs : a.w2t.get? w <;> simp_all

theorem Inv.prio_some (h : a.Inv) {w : Bytes} {s : PySet Bytes} (hs : a.w2t.get? w = some s) :
    ∃ p, a.queue.prio w = some p := (h.dom w).2 ⟨s, hs⟩

theorem Inv.nonneg (h : a.Inv) : ∀ w p, a.queue.prio w = some p → 0 ≤ p := by
  intro w p hp
  obtain ⟨s, hs⟩ := (h.dom w).1 ⟨p, hp⟩
  have := h.load w p s hp hs
  omega

/-- `add_worker` of a known worker. -/
theorem addWorker_old {w : Bytes} {s : PySet Bytes} (hs : a.w2t.get? w = some s) :
    a.addWorker w = (false, a) := by
  simp [addWorker, Dict.has, hs]

/-- `add_worker` of a new worker. -/
theorem addWorker_new (h : a.Inv) {w : Bytes} (hw : a.w2t.get? w = none) :
    ∃ a', a.addWorker w = (true, a') ∧ a'.Inv ∧ a'.max = a.max ∧ a'.t2w = a.t2w ∧
      a'.w2t = a.w2t.set w PySet.empty ∧
      (∀ w', a'.queue.prio w' = if w = w' then some 0 else a.queue.prio w') ∧
      (∀ w', a'.queue.stale w' = if w = w' then none else a.queue.stale w') := by
  have hp := h.prio_none.2 hw
  obtain ⟨hwf, _, h1, h2⟩ := PQueue.put_spec h.pq 0 w hp
  refine ⟨{ a with w2t := a.w2t.set w PySet.empty, queue := a.queue.put (0, w) },
    by simp [addWorker, Dict.has, hw], ⟨hwf, ?_, ?_, ?_, ?_⟩, rfl, rfl, rfl, h1, h2⟩
  · intro w'
    simp only [h1, Dict.get?_set]
    by_cases e : w = w'
    · simp [e]
    · simp only [e, if_false]; exact h.dom w'
  · intro t w'
    simp only [Dict.get?_set]
    rw [h.agree]
    by_cases e : w = w'
    · subst e; simp [hw]
    · simp [e]
  · intro w' p s
    simp only [h1, Dict.get?_set]
    by_cases e : w = w'
    · simp only [e, if_true, Option.some.injEq]
      rintro rfl rfl
      simp [PySet.size, PySet.empty]
    · simp only [e, if_false]; exact h.load w' p s
  · intro h0 w' p
    simp only [h1]
    split
    · intro e; cases e; exact h0
    · exact h.cap h0 w' p

theorem Exact.addWorker (h : a.Inv) (hx : a.Exact) (w : Bytes) : (a.addWorker w).2.Exact := by
  cases hw : a.w2t.get? w with
  | some s => rw [addWorker_old hw]; exact hx
  | none =>
    obtain ⟨a', e, _, _, _, h3, h4, h5⟩ := addWorker_new h hw
    rw [e]
    constructor
    · intro w' p s
      rw [h3, h4, Dict.get?_set]
      split
      · intro h1 h2; cases h1; cases h2; rfl
      · exact hx.load w' p s
    · intro w'; rw [h5]; split
      · rfl
      · exact hx.fresh w'

/-- `remove_worker` of an unknown worker. -/
theorem removeWorker_unknown {w : Bytes} (hint : List Bytes) (hw : a.w2t.get? w = none) :
    a.removeWorker w hint = .ok ([], a) := by
  simp [removeWorker, Dict.has, hw]

/-- `remove_worker` of a known worker: succeeds iff the locator is up to date for it. -/
theorem removeWorker_known (h : a.Inv) {w : Bytes} {s : PySet Bytes} (hint : List Bytes)
    (hs : a.w2t.get? w = some s) :
    (a.queue.stale w = none ∧ ∃ a', a.removeWorker w hint = .ok (orderBy hint s.items, a') ∧ a'.Inv ∧
      a'.max = a.max ∧ a'.w2t = a.w2t.erase w ∧
      (∀ t, a'.t2w.get? t = if a.t2w.get? t = some w then none else a.t2w.get? t) ∧
      (∀ w', a'.queue.prio w' = if w = w' then none else a.queue.prio w') ∧
      (∀ w', a'.queue.stale w' = if w = w' then none else a.queue.stale w')) ∨
    (a.queue.stale w ≠ none ∧ ∃ e, a.removeWorker w hint = .error e) := by
  obtain ⟨p, hp⟩ := h.prio_some hs
  have h0 : ∀ d' p', a.queue.prio d' = some p' → 0 ≤ p' := h.nonneg
  cases hst : a.queue.stale w with
  | some l =>
    right
    refine ⟨by simp, ?_⟩
    have hh : a.w2t.has w = true := by simp [Dict.has, hs]
    rcases PQueue.remove_stale h.pq hp hst h0 with ⟨e, _⟩ | ⟨e, _⟩
    · exact ⟨_, by simp [removeWorker, hh, e]; rfl⟩
    · exact ⟨_, by simp [removeWorker, hh, e]; rfl⟩
  | none =>
    left
    refine ⟨rfl, ?_⟩
    obtain ⟨q', e, hwf, h1, h2⟩ := PQueue.remove_live h.pq hp hst h0
    have hmem : ∀ t, t ∈ s ↔ a.t2w.get? t = some w := by
      intro t; rw [h.agree, hs]; simp
    obtain ⟨d', ed, hd'⟩ := OneToMany.popAll_spec (orderBy hint s.items) a.t2w
      ((orderBy_perm hint s.items).nodup_iff.2 s.nodup)
      (fun t ht => ⟨w, (hmem t).1 (by simpa using ht)⟩)
    have hd'' : ∀ t, d'.get? t = if a.t2w.get? t = some w then none else a.t2w.get? t := by
      intro t
      rw [hd']
      simp only [mem_orderBy, PySet.mem_items, hmem]
    have hh : a.w2t.has w = true := by simp [Dict.has, hs]
    refine ⟨⟨a.max, a.w2t.erase w, d', q'⟩, ?_, ⟨hwf, ?_, ?_, ?_, ?_⟩, rfl, rfl, hd'', h1, h2⟩
    · simp [removeWorker, hh, e, Dict.pop, Dict.getPy, orRaise, hs, ed]
    · intro w'
      simp only [h1, Dict.get?_erase]
      by_cases ew : w = w'
      · simp [ew]
      · simp only [ew, if_false]; exact h.dom w'
    · intro t w'
      simp only [hd'', Dict.get?_erase]
      by_cases ew : w = w'
      · subst ew
        simp only [if_true]
        split
        · simp
        · next hne => simp [hne]
      · simp only [ew, if_false]
        rw [← h.agree]
        split
        · next he => rw [he]; simp [ew]
        · rfl
    · intro w' p' s'
      simp only [h1, Dict.get?_erase]
      by_cases ew : w = w'
      · simp [ew]
      · simp only [ew, if_false]; exact h.load w' p' s'
    · intro hm w' p'
      simp only [h1]
      split
      · intro hx; cases hx
      · exact h.cap hm w' p'

theorem Exact.removeWorker (h : a.Inv) (hx : a.Exact) (w : Bytes) (hint : List Bytes) :
    ∃ r, a.removeWorker w hint = .ok r ∧ r.2.Exact := by
  cases hw : a.w2t.get? w with
  | none => exact ⟨_, removeWorker_unknown hint hw, hx⟩
  | some s =>
    rcases removeWorker_known h hint hw with ⟨_, a', e, _, _, h3, _, h5, h6⟩ | ⟨hs, _⟩
    · refine ⟨_, e, ?_, ?_⟩
      · intro w' p s'
        simp only [h3, h5, Dict.get?_erase]
        split
        · intro hh; cases hh
        · exact hx.load w' p s'
      · intro w'
        simp only [h6]; split
        · rfl
        · exact hx.fresh w'
    · exact absurd (hx.fresh w) hs

/-- `remove_task` of a task that is not assigned. -/
theorem removeTask_unknown {t : Bytes} (ht : a.t2w.get? t = none) : a.removeTask t = .ok (none, a) := by
  simp [removeTask, ht]

/-- The locator of the worker is out of date and has another value than the queue. -/
def Lost (a : Alloc) (w : Bytes) : Prop := ∃ l, a.queue.stale w = some l ∧ a.queue.prio w ≠ some l

theorem Lost.stale {w : Bytes} (h : a.Lost w) : a.queue.stale w ≠ none := by
  obtain ⟨l, h, _⟩ := h
  rw [h]; simp

/-- `remove_task` of an assigned task: raises exactly if the locator has another value than the queue. -/
theorem removeTask_known (h : a.Inv) {t w : Bytes} (ht : a.t2w.get? t = some w) :
    ∃ s, a.w2t.get? w = some s ∧ t ∈ s ∧
    ((∃ a', a.removeTask t = .ok (some w, a') ∧ a'.Inv ∧ a'.max = a.max ∧
        a'.w2t = a.w2t.set w (s.discard t) ∧ a'.t2w = a.t2w.erase t ∧
        (a.queue.stale w = none →
          (∀ w', a'.queue.prio w' = if w = w' then (a.queue.prio w).map (· - 1) else a.queue.prio w') ∧
          (∀ w', a'.queue.stale w' = a.queue.stale w')) ∧
        (a.queue.stale w ≠ none →
          (∀ w', a'.queue.prio w' = a.queue.prio w') ∧ a'.queue.stale w ≠ none ∧
          (∀ w', w ≠ w' → a'.queue.stale w' = a.queue.stale w')) ∧
        ¬ a.Lost w ∧ (a'.Lost w ↔ a.queue.stale w ≠ none) ∧ ∀ w', w ≠ w' → (a'.Lost w' ↔ a.Lost w')) ∨
     (a.Lost w ∧ a.removeTask t = .error .valueError)) := by
  obtain ⟨s, hs, hts⟩ := (h.agree t w).1 ht
  obtain ⟨p, hp⟩ := h.prio_some hs
  refine ⟨s, hs, hts, ?_⟩
  have hsz : ((s.discard t).size : Int) = s.size - 1 := by
    have := PySet.size_discard hts; omega
  have hload := h.load w p s hp hs
  have hstep : ∀ q', a.queue.decrease w = .ok q' →
      a.removeTask t = .ok (some w, { a with t2w := a.t2w.erase t, w2t := a.w2t.set w (s.discard t), queue := q' }) := by
    intro q' e
    simp [removeTask, ht, Dict.getPy, orRaise, hs, PySet.remove, hts, e]
  have hinv : ∀ q', q'.WF → (∀ w', (∃ p, q'.prio w' = some p) ↔ ∃ p, a.queue.prio w' = some p) →
      (∀ w' p', q'.prio w' = some p' → ∃ p0, a.queue.prio w' = some p0 ∧ p' ≤ p0 ∧ (w ≠ w' → p' = p0) ∧
        (w = w' → (s.size : Int) - 1 ≤ p')) →
      Inv { a with t2w := a.t2w.erase t, w2t := a.w2t.set w (s.discard t), queue := q' } := by
    intro q' hwf hdom hpr
    refine ⟨hwf, ?_, ?_, ?_, ?_⟩
    · intro w'
      simp only [Dict.get?_set]
      rw [hdom, h.dom w']
      by_cases ew : w = w'
      · subst ew; simp [hs]
      · simp [ew]
    · intro t' w'
      simp only [Dict.get?_set, Dict.get?_erase]
      by_cases et : t = t'
      · subst et
        simp only [if_true, reduceCtorEq, false_iff, not_exists, not_and]
        intro s' hs' hm
        split at hs'
        · cases hs'; simp at hm
        · next ew =>
          have := (h.agree t w').2 ⟨s', hs', hm⟩
          rw [ht] at this; cases this; exact ew rfl
      · simp only [et, if_false]
        rw [h.agree]
        by_cases ew : w = w'
        · subst ew
          simp [hs, Ne.symm et]
        · simp [ew]
    · intro w' p' s' hp' hs'
      obtain ⟨p0, h1, h2, h3, h4⟩ := hpr w' p' hp'
      simp only [Dict.get?_set] at hs'
      split at hs'
      · next ew =>
        cases hs'
        rw [hsz]; exact h4 ew
      · next ew =>
        rw [h3 ew]
        exact h.load w' p0 s' h1 hs'
    · intro h0 w' p' hp'
      obtain ⟨p0, h1, h2, _⟩ := hpr w' p' hp'
      have := h.cap h0 w' p0 h1
      show p' ≤ a.max
      omega
  cases hst : a.queue.stale w with
  | none =>
    obtain ⟨q', e, hwf, h1, h2⟩ := PQueue.decrease_live h.pq hp hst
    left
    refine ⟨_, hstep q' e, hinv q' hwf ?_ ?_, rfl, rfl, rfl, ?_, ?_, ?_, ?_, ?_⟩
    · intro w'
      rw [h1]
      split
      · next ew => subst ew; simp [hp]
      · rfl
    · intro w' p' hp'
      rw [h1] at hp'
      split at hp'
      · next ew => subst ew; cases hp'; exact ⟨p, hp, by omega, fun h => absurd rfl h, fun _ => by omega⟩
      · next ew => exact ⟨p', hp', Int.le_refl _, fun _ => rfl, fun h => absurd h ew⟩
    · intro _
      refine ⟨?_, h2⟩
      intro w'; rw [h1, hp]; rfl
    · intro hne; exact absurd rfl hne
    · intro hx; exact hx.stale hst
    · exact ⟨fun hx => absurd ((h2 w).trans hst) hx.stale, fun hx => absurd rfl hx⟩
    · intro w' ew
      show (∃ l, q'.stale w' = some l ∧ q'.prio w' ≠ some l) ↔ _
      rw [h1, h2, if_neg ew]; rfl
  | some l =>
    rcases PQueue.decrease_stale h.pq hp hst with ⟨elp, q', e, hwf, h1, h2⟩ | ⟨elp, e⟩
    · left
      refine ⟨_, hstep q' e, hinv q' hwf ?_ ?_, rfl, rfl, rfl, ?_, ?_, ?_, ?_, ?_⟩
      · intro w'; rw [h1]
      · intro w' p' hp'
        rw [h1] at hp'
        refine ⟨p', hp', Int.le_refl _, fun _ => rfl, ?_⟩
        intro ew; subst ew
        rw [hp] at hp'; cases hp'; omega
      · intro hh; cases hh
      · intro _
        refine ⟨h1, by rw [h2]; simp, ?_⟩
        intro w' ew; rw [h2, if_neg ew]
      · rintro ⟨l', h3, h4⟩
        rw [hst] at h3; cases h3
        rw [hp, elp] at h4; exact h4 rfl
      · refine ⟨fun _ => by simp, fun _ => ⟨l - 1, by simp [h2], ?_⟩⟩
        show q'.prio w ≠ _
        rw [h1, hp, elp]
        intro hx
        have := Option.some.inj hx
        omega
      · intro w' ew
        show (∃ l, q'.stale w' = some l ∧ q'.prio w' ≠ some l) ↔ _
        rw [h1, h2, if_neg ew]; rfl
    · right
      refine ⟨⟨l, hst, by rw [hp]; intro hx; exact elp (Option.some.inj hx).symm⟩, ?_⟩
      simp [removeTask, ht, Dict.getPy, orRaise, hs, PySet.remove, hts, e]

theorem Exact.removeTask (h : a.Inv) (hx : a.Exact) (t : Bytes) :
    ∃ r, a.removeTask t = .ok r ∧ r.2.Exact := by
  cases ht : a.t2w.get? t with
  | none => exact ⟨_, removeTask_unknown ht, hx⟩
  | some w =>
    obtain ⟨s, hs, hts, h1 | h1⟩ := removeTask_known h ht
    · obtain ⟨a', e, _, _, h3, h4, h5, _⟩ := h1
      obtain ⟨h6, h7⟩ := h5 (hx.fresh w)
      refine ⟨_, e, ?_, ?_⟩
      · intro w' p s'
        simp only [h3, h6, Dict.get?_set]
        split
        · next ew =>
          subst ew
          intro hp hs'
          cases hs'
          have hsz := PySet.size_discard hts
          cases hpp : a.queue.prio w with
          | none => rw [hpp] at hp; cases hp
          | some p0 =>
            rw [hpp] at hp
            cases hp
            have := hx.load w p0 s hpp hs
            show p0 - 1 = _
            omega
        · exact hx.load w' p s'
      · intro w'; simp only [h7]; exact hx.fresh w'
    · exact absurd (hx.fresh w) h1.1.stale

/-- `assign_task` when some worker is connected.  It picks the first entry of the queue. -/
theorem assignTask_spec (h : a.Inv) {w0 : Bytes} {s0 : PySet Bytes} (hw0 : a.w2t.get? w0 = some s0) (t : Bytes) :
    ∃ p w s, a.queue.prio w = some p ∧ a.w2t.get? w = some s ∧
      (∀ w' p', a.queue.prio w' = some p' → p ≤ p') ∧
      ((p = a.max ∧ ∃ a', a.assignTask t = .ok (none, a') ∧ a'.Inv ∧ a'.max = a.max ∧ a'.w2t = a.w2t ∧
          a'.t2w = a.t2w ∧ (∀ w', a'.queue.prio w' = a.queue.prio w') ∧
          (∀ w', a'.queue.stale w' = if w = w' then none else a.queue.stale w')) ∨
       (p ≠ a.max ∧ a.t2w.get? t = none ∧ ∃ a', a.assignTask t = .ok (some w, a') ∧ a'.Inv ∧ a'.max = a.max ∧
          a'.w2t = a.w2t.set w (s.add t) ∧ a'.t2w = a.t2w.set t w ∧
          (∀ w', a'.queue.prio w' = if w = w' then some (p + 1) else a.queue.prio w') ∧
          (∀ w', a'.queue.stale w' = if w = w' then none else a.queue.stale w')) ∨
       (p ≠ a.max ∧ ∃ w1, a.t2w.get? t = some w1 ∧ ∃ a', a.assignTask t = .ok (some w1, a') ∧ a'.Inv ∧
          a'.max = a.max ∧ a'.w2t = a.w2t ∧ a'.t2w = a.t2w ∧ (∀ w', a'.queue.prio w' = a.queue.prio w') ∧
          (∀ w', a'.queue.stale w' = if w = w' then none else a.queue.stale w'))) := by
  obtain ⟨p0, hp0⟩ := h.prio_some hw0
  have hne : a.queue.heap ≠ [] := by
    intro he
    have := (PQueue.len_zero h.pq).1 (by simp [PQueue.len, he]) w0
    rw [hp0] at this; cases this
  obtain ⟨p, w, q1, e1, hwf1, hp, hmin, h1, h2⟩ := PQueue.get_spec h.pq hne
  obtain ⟨s, hs⟩ := (h.dom w).1 ⟨p, hp⟩
  have hnone : q1.prio w = none := by rw [h1]; simp
  have hle : ∀ w' p', a.queue.prio w' = some p' → p ≤ p' := by
    intro w' p' hp'
    have := hmin w' p' hp'
    simp only [entryLt, Bool.or_eq_false_iff, decide_eq_false_iff_not] at this
    omega
  refine ⟨p, w, s, hp, hs, hle, ?_⟩
  -- putting the worker back with the same priority
  obtain ⟨hwf2, _, h3, h4⟩ := PQueue.put_spec hwf1 p w hnone
  have h3' : ∀ w', (q1.put (p, w)).prio w' = a.queue.prio w' := by
    intro w'; rw [h3, h1]
    by_cases ew : w = w'
    · subst ew; simp [hp]
    · simp [ew]
  have h4' : ∀ w', (q1.put (p, w)).stale w' = if w = w' then none else a.queue.stale w' := by
    intro w'; rw [h4, h2]
    by_cases ew : w = w' <;> simp [ew]
  have hinvSame : Inv { a with queue := q1.put (p, w) } := by
    refine ⟨hwf2, ?_, h.agree, ?_, ?_⟩
    · intro w'; simp only [h3']; exact h.dom w'
    · intro w' p' s'; simp only [h3']; exact h.load w' p' s'
    · intro h0 w' p'; simp only [h3']; exact h.cap h0 w' p'
  by_cases hmax : p = a.max
  · left
    refine ⟨hmax, _, ?_, hinvSame, rfl, rfl, rfl, h3', h4'⟩
    simp [assignTask, e1, hmax]
  · right
    cases ht : a.t2w.get? t with
    | some w1 =>
      right
      refine ⟨hmax, w1, rfl, _, ?_, hinvSame, rfl, rfl, rfl, h3', h4'⟩
      simp [assignTask, e1, hmax, ht]
    | none =>
      left
      obtain ⟨hwf5, _, h5, h6⟩ := PQueue.put_spec hwf1 (p + 1) w hnone
      have h5' : ∀ w', (q1.put (p + 1, w)).prio w' = if w = w' then some (p + 1) else a.queue.prio w' := by
        intro w'; rw [h5, h1]
        by_cases ew : w = w' <;> simp [ew]
      have h6' : ∀ w', (q1.put (p + 1, w)).stale w' = if w = w' then none else a.queue.stale w' := by
        intro w'; rw [h6, h2]
        by_cases ew : w = w' <;> simp [ew]
      have htn : t ∉ s := by
        intro hts
        rw [(h.agree t w).2 ⟨s, hs, hts⟩] at ht; cases ht
      have hsz := PySet.size_add_new htn
      refine ⟨hmax, rfl, { a with queue := q1.put (p + 1, w), w2t := a.w2t.set w (s.add t), t2w := a.t2w.set t w },
        ?_, ⟨hwf5, ?_, ?_, ?_, ?_⟩, rfl, rfl, rfl, h5', h6'⟩
      · simp [assignTask, e1, hmax, ht, Dict.getPy, orRaise, hs]
      · intro w'
        simp only [h5', Dict.get?_set]
        by_cases ew : w = w'
        · simp [ew]
        · simp only [ew, if_false]; exact h.dom w'
      · intro t' w'
        simp only [Dict.get?_set]
        by_cases et : t = t'
        · subst et
          simp only [if_true, Option.some.injEq]
          by_cases ew : w = w'
          · subst ew; simp
          · simp only [ew, if_false, false_iff]
            rintro ⟨s', hs', hm⟩
            rw [(h.agree t w').2 ⟨s', hs', hm⟩] at ht; cases ht
        · simp only [et, if_false]
          rw [h.agree]
          by_cases ew : w = w'
          · subst ew; simp [hs, Ne.symm et]
          · simp [ew]
      · intro w' p' s'
        simp only [h5', Dict.get?_set]
        by_cases ew : w = w'
        · subst ew
          simp only [if_true, Option.some.injEq]
          rintro rfl rfl
          have := h.load w p s hp hs
          omega
        · simp only [ew, if_false]; exact h.load w' p' s'
      · intro h0 w' p'
        simp only [h5']
        split
        · rintro ⟨⟩
          have := h.cap h0 w p hp
          show p + 1 ≤ a.max
          omega
        · exact h.cap h0 w' p'

theorem Exact.assignTask (h : a.Inv) (hx : a.Exact) {w0 : Bytes} {s0 : PySet Bytes} (hw0 : a.w2t.get? w0 = some s0)
    (t : Bytes) : ∃ r, a.assignTask t = .ok r ∧ r.2.Exact := by
  obtain ⟨p, w, s, hp, hs, _, h1 | h1 | h1⟩ := assignTask_spec h hw0 t
  · obtain ⟨_, a', e, _, _, h3, h4, h5, h6⟩ := h1
    refine ⟨_, e, ?_, ?_⟩
    · intro w' p' s'; simp only [h3, h5]; exact hx.load w' p' s'
    · intro w'; simp only [h6]; split
      · rfl
      · exact hx.fresh w'
  · obtain ⟨_, ht, a', e, _, _, h3, h4, h5, h6⟩ := h1
    have htn : t ∉ s := by
      intro hts
      rw [(h.agree t w).2 ⟨s, hs, hts⟩] at ht; cases ht
    have hsz := PySet.size_add_new htn
    refine ⟨_, e, ?_, ?_⟩
    · intro w' p' s'; simp only [h3, h5, Dict.get?_set]
      split
      · next ew =>
        subst ew
        rintro ⟨⟩ ⟨⟩
        have := hx.load w p s hp hs
        omega
      · exact hx.load w' p' s'
    · intro w'; simp only [h6]; split
      · rfl
      · exact hx.fresh w'
  · obtain ⟨_, w1, _, a', e, _, _, h3, h4, h5, h6⟩ := h1
    refine ⟨_, e, ?_, ?_⟩
    · intro w' p' s'; simp only [h3, h5]; exact hx.load w' p' s'
    · intro w'; simp only [h6]; split
      · rfl
      · exact hx.fresh w'

theorem queue_empty_iff (h : a.Inv) : a.queue.len = 0 ↔ ∀ w, a.w2t.get? w = none := by
  rw [PQueue.len_zero h.pq]
  exact forall_congr' fun w => h.prio_none

/-- `has_available_worker` with no worker. -/
theorem hasAvailable_none (h : a.Inv) (hw : ∀ w, a.w2t.get? w = none) : a.hasAvailableWorker = .ok (false, a) := by
  simp [hasAvailableWorker, (queue_empty_iff h).2 hw]

/-- `has_available_worker` with some worker: it looks at the first entry of the queue and makes
the locator stale for it. -/
theorem hasAvailable_some (h : a.Inv) {w0 : Bytes} {s0 : PySet Bytes} (hw0 : a.w2t.get? w0 = some s0) :
    ∃ p w a', a.hasAvailableWorker = .ok (decide (p ≠ a.max), a') ∧ a'.Inv ∧ a'.max = a.max ∧ a'.w2t = a.w2t ∧
      a'.t2w = a.t2w ∧ a.queue.prio w = some p ∧ (∀ w' p', a.queue.prio w' = some p' → p ≤ p') ∧
      (∀ w', a'.queue.prio w' = a.queue.prio w') ∧
      (∀ w', a'.queue.stale w' = if w = w' then some ((a.queue.stale w).getD p) else a.queue.stale w') := by
  obtain ⟨p0, hp0⟩ := h.prio_some hw0
  have hl : ¬ a.queue.len = 0 := by
    rw [queue_empty_iff h]; intro hh; rw [hh w0] at hw0; cases hw0
  have hne : a.queue.heap ≠ [] := by simpa [PQueue.len] using hl
  obtain ⟨p, w, q', e, hwf, hp, hmin, h1, h2⟩ := PQueue.maxPriority_spec h.pq hne
  have hle : ∀ w' p', a.queue.prio w' = some p' → p ≤ p' := by
    intro w' p' hp'
    have := hmin w' p' hp'
    simp only [entryLt, Bool.or_eq_false_iff, decide_eq_false_iff_not] at this
    omega
  refine ⟨p, w, { a with queue := q' }, ?_, ⟨hwf, ?_, h.agree, ?_, ?_⟩, rfl, rfl, rfl, hp, hle, h1, h2⟩
  · simp only [hasAvailableWorker, hl, if_false, e, Py.ok_bind, Py.pure_eq]
    by_cases hm : p = a.max <;> simp [hm]
  · intro w'; simp only [h1]; exact h.dom w'
  · intro w' p' s'; simp only [h1]; exact h.load w' p' s'
  · intro h0 w' p'; simp only [h1]; exact h.cap h0 w' p'

/-- `has_available_worker` never raises and changes nothing but the locator. -/
theorem hasAvailable_spec (h : a.Inv) : ∃ b a', a.hasAvailableWorker = .ok (b, a') ∧ a'.Inv ∧ a'.max = a.max ∧
    a'.w2t = a.w2t ∧ a'.t2w = a.t2w ∧ (∀ w', a'.queue.prio w' = a.queue.prio w') := by
  by_cases hw : ∀ w, a.w2t.get? w = none
  · exact ⟨_, _, hasAvailable_none h hw, h, rfl, rfl, rfl, fun _ => rfl⟩
  · obtain ⟨w0, hw0⟩ := Classical.not_forall.1 hw
    cases hs : a.w2t.get? w0 with
    | none => exact absurd hs hw0
    | some s0 =>
      obtain ⟨p, w, a', e, h1, h2, h3, h4, _, _, h5, _⟩ := hasAvailable_some h hs
      exact ⟨_, a', e, h1, h2, h3, h4, h5⟩

/-- The number asked for brings the count to the mean, rounded down. -/
theorem ceil_arith (c S n : Int) (hn : 0 < n) (hc : S < c * n) (hS : 0 ≤ S) :
    1 ≤ ceilDiff c S n ∧ ceilDiff c S n ≤ c ∧ (c - ceilDiff c S n) * n ≤ S ∧
      S < (c - ceilDiff c S n + 1) * n := by
  unfold ceilDiff
  generalize hq : (S - c * n) / n = q
  have h1 : n * ((S - c * n) / n) ≤ S - c * n := Int.mul_ediv_self_le (by omega)
  have h2 : S - c * n < n * ((S - c * n) / n) + n := Int.lt_mul_ediv_self_add hn
  rw [hq] at h1 h2
  have e1 : (c - -q) * n = c * n + n * q := by rw [Int.sub_neg, Int.add_mul, Int.mul_comm q]
  have e2 : (c - -q + 1) * n = c * n + n * q + n := by rw [Int.add_mul, e1, Int.one_mul]
  refine ⟨?_, ?_, by omega, by omega⟩
  · have h3 : n * q < n * 0 := by omega
    have := Int.lt_of_mul_lt_mul_left h3 (by omega)
    omega
  · have h3 : n * (-c) < n * (q + 1) := by
      have e3 : n * (-c) = -(c * n) := by rw [Int.mul_neg, Int.mul_comm]
      have e4 : n * (q + 1) = n * q + n := by rw [Int.mul_add, Int.mul_one]
      omega
    have := Int.lt_of_mul_lt_mul_left h3 (by omega)
    omega

/-- A worker is asked for at least one task and for no more than it has. -/
theorem balance_bounds {a : Alloc} {w : Bytes} {n : Int} (e : a.balance.get? w = some n) :
    ∃ s, a.w2t.get? w = some s ∧ 0 < n ∧ n ≤ s.size := by
  have hm := Dict.mem_items.2 e
  unfold balance at hm
  simp only at hm
  split at hm
  · simp [Dict.empty] at hm
  · split at hm
    · simp [Dict.empty] at hm
    · rw [Dict.ofList_items] at hm
      · obtain ⟨q, hq, e⟩ := List.mem_map.1 hm
        obtain ⟨hq1, hq2⟩ := List.mem_filter.1 hq
        obtain ⟨r, hr, e'⟩ := List.mem_map.1 hq1
        have hrw : a.w2t.get? r.1 = some r.2 := Dict.mem_items.1 hr
        cases e
        rw [← e'] at hq2 ⊢
        refine ⟨r.2, hrw, ?_⟩
        have hlen : 0 < (a.w2t.items.map fun p => (p.1, (p.2.size : Int))).length :=
          List.length_pos_of_mem (List.mem_map.2 ⟨r, hr, rfl⟩)
        have hsum : ∀ l : List (Bytes × PySet Bytes), 0 ≤ ((l.map fun p => (p.1, (p.2.size : Int))).map (·.2)).sum := by
          intro l
          induction l with
          | nil => simp
          | cons p l ih => simp only [List.map_cons, List.sum_cons]; omega
        obtain ⟨h1, h2, _⟩ := ceil_arith (r.2.size : Int) _ _ (by omega) (of_decide_eq_true hq2) (hsum a.w2t.items)
        exact ⟨Int.lt_of_lt_of_le (by decide) h1, h2⟩
      · rw [List.map_map]
        have hn := a.w2t.nodup
        refine List.Nodup.sublist ?_ (show (a.w2t.items.map (·.1)).Nodup from hn)
        rw [List.filter_map, List.map_map]
        exact (List.filter_sublist).map _

theorem balance_known {a : Alloc} {w : Bytes} {n : Int} (e : a.balance.get? w = some n) : (a.w2t.get? w).isSome := by
  obtain ⟨s, h, _⟩ := balance_bounds e
  rw [h]; rfl

end Alloc

end Verif.Sched
