import Verif.Queue.PriorityLemmas
import Verif.Spec.PriorityQueue

/-!
# C07, C08: `PriorityQueue` against a plain list of entries
-/

namespace Verif.Props

open Verif.Queue Verif.Spec

/-- Perform one operation on the queue object.  Operations that raise keep the old state: in
the runs considered the only exceptions are those of the first statement of each method. -/
def pstep (q : PQueue) : POp → PQueue × PObs
  | .put p d => (q.put (p, d), .done)
  | .get =>
    if q.len = 0 then (q, .waits)
    else match q.get with
      | .ok (e, q') => (q', .item e)
      | .error e => (q, .raised e)
  | .remove d =>
    match q.remove d with
    | .ok q' => (q', .done)
    | .error e => (q, .raised e)
  | .decrease d =>
    match q.decrease d with
    | .ok q' => (q', .done)
    | .error e => (q, .raised e)
  | .maxPriority =>
    match q.maxPriority with
    | .ok (p, q') => (q', .priority p)
    | .error e => (q, .raised e)

/-- Observations of a sequence of operations on the queue object. -/
def ptrace (q : PQueue) : List POp → List PObs
  | [] => []
  | op :: ops => (pstep q op).2 :: ptrace (pstep q op).1 ops

theorem bytesLt_eq (a b : Bytes) : bytesLt a b = decide (a < b) := by
  induction a generalizing b with
  | nil => cases b <;> simp [bytesLt]
  | cons x a ih =>
    cases b with
    | nil => simp [bytesLt]
    | cons y b =>
      rw [Bool.eq_iff_iff]
      simp [bytesLt, ih, List.cons_lt_cons_iff]

theorem entryLt_eq (a b : Entry) : entryLt a b = decide (before a b) := by
  rw [Bool.eq_iff_iff, decide_eq_true_iff]
  simp [entryLt, before, bytesLt_eq]

/-- `least` is a member before which there is no other. -/
theorem least_spec (s : List Entry) :
    (least s = none ↔ s = []) ∧
    ∀ e, least s = some e → e ∈ s ∧ ∀ e' ∈ s, ¬ before e' e := by
  induction s with
  | nil => simp [least]
  | cons a s ih =>
    have hirr : ∀ e : Entry, ¬ before e e := by
      intro e h
      have := entryLt_irrefl e
      rw [entryLt_eq] at this
      simp [h] at this
    cases hl : least s with
    | none =>
      have := ih.1.1 hl
      subst this
      simp [least, hirr]
    | some m =>
      obtain ⟨hm, hall⟩ := ih.2 m hl
      constructor
      · simp only [least, hl]; split <;> simp
      · intro e he
        simp only [least, hl] at he
        split at he
        · next hb =>
          cases he
          refine ⟨List.mem_cons_of_mem _ hm, ?_⟩
          intro e' he'
          rcases List.mem_cons.1 he' with rfl | he'
          · intro h
            have := entryLt_order.asymm m e' (by rw [entryLt_eq]; simpa using hb)
            rw [entryLt_eq] at this
            simp [h] at this
          · exact hall e' he'
        · next hb =>
          cases he
          refine ⟨by simp, ?_⟩
          intro e' he'
          rcases List.mem_cons.1 he' with rfl | he'
          · exact hirr _
          · intro h
            have h1 := hall e' he'
            have := entryLt_order.trans a m e' (by rw [entryLt_eq]; simpa using hb) (by rw [entryLt_eq]; simpa using h1)
            rw [entryLt_eq] at this
            simp [h] at this

/-- The object `q` stores exactly the entries `s`. -/
structure Stores (q : PQueue) (s : List Entry) (seen : List Bytes) : Prop where
  wf : q.WF
  nodup : (s.map (·.2)).Nodup
  mem : ∀ p d, q.prio d = some p ↔ (p, d) ∈ s
  nonneg : ∀ p d, (p, d) ∈ s → 0 ≤ p
  live : ∀ d, q.stale d ≠ none → d ∈ seen

theorem Stores.none {q s seen} (h : Stores q s seen) {d : Bytes} : q.prio d = none ↔ d ∉ s.map (·.2) := by
  constructor
  · intro hn hm
    obtain ⟨⟨p, d'⟩, hm', rfl⟩ := List.mem_map.1 hm
    rw [(h.mem p d').2 hm'] at hn; cases hn
  · intro hm
    cases hp : q.prio d with
    | none => rfl
    | some p => exact absurd (List.mem_map.2 ⟨_, (h.mem p d).1 hp, rfl⟩) hm

theorem Stores.some {q s seen} (h : Stores q s seen) {d : Bytes} (hd : d ∈ s.map (·.2)) :
    ∃ p, q.prio d = some p ∧ (p, d) ∈ s := by
  obtain ⟨⟨p, d'⟩, hm, rfl⟩ := List.mem_map.1 hd
  exact ⟨p, (h.mem p d').2 hm, hm⟩

theorem Stores.uniq {q s seen} (h : Stores q s seen) {d : Bytes} {p p' : Int}
    (h1 : (p, d) ∈ s) (h2 : (p', d) ∈ s) : p = p' := by
  have := (h.mem p d).2 h1
  rw [(h.mem p' d).2 h2] at this
  cases this; rfl

theorem Stores.nil {q s seen} (h : Stores q s seen) : q.heap = [] ↔ s = [] := by
  constructor
  · intro he
    cases s with
    | nil => rfl
    | cons e s =>
      have := (h.mem e.1 e.2).2 (by simp)
      have h0 := (PQueue.len_zero h.wf).1 (by simp [PQueue.len, he]) e.2
      rw [this] at h0; cases h0
  · intro he
    subst he
    have := (PQueue.len_zero h.wf).2 (fun d => h.none.2 (by simp))
    exact List.length_eq_zero_iff.1 this

/-- The entry found by the heap is the least one. -/
theorem Stores.least {q s seen} (h : Stores q s seen) {p : Int} {d : Bytes} (hp : q.prio d = Option.some p)
    (hm : ∀ d' p', q.prio d' = Option.some p' → entryLt (p', d') (p, d) = false) :
    least s = Option.some (p, d) := by
  have hmem := (h.mem p d).1 hp
  cases hl : Spec.least s with
  | none =>
    have := (least_spec s).1.1 hl
    subst this; simp at hmem
  | some e =>
    obtain ⟨he, hall⟩ := (least_spec s).2 e hl
    have h1 := hm e.2 e.1 ((h.mem _ _).2 he)
    have h2 := hall _ hmem
    have : e = (p, d) := by
      apply entryLt_total _ _ h1
      rw [entryLt_eq]; simpa using h2
    rw [this]

theorem data_nodup_filter {s : List Entry} (h : (s.map (·.2)).Nodup) (f : Entry → Bool) :
    ((s.filter f).map (·.2)).Nodup :=
  h.sublist (List.filter_sublist.map _)

theorem mem_erase_entry {s : List Entry} (h : (s.map (·.2)).Nodup) (p p' : Int) (d d' : Bytes)
    (hm : (p, d) ∈ s) : (p', d') ∈ s.erase (p, d) ↔ d ≠ d' ∧ (p', d') ∈ s := by
  have hn : s.Nodup := (List.pairwise_map.1 h).imp (fun {a b} hne (e : a = b) => hne (by rw [e]))
  rw [List.Nodup.mem_erase_iff hn]
  constructor
  · rintro ⟨hne, hm'⟩
    refine ⟨?_, hm'⟩
    rintro rfl
    apply hne
    have := (PQueue.find_data h p d).2 hm
    rw [(PQueue.find_data h p' d).2 hm'] at this
    cases this; rfl
  · rintro ⟨hne, hm'⟩
    refine ⟨?_, hm'⟩
    intro e; cases e; exact hne rfl

/-- The bookkeeping of `pqUnseen`. -/
def seenStep (s : List Entry) (seen : List Bytes) : POp → List Bytes
  | .get => seen.filter fun d => decide ((least s).map (·.2) ≠ some d)
  | .maxPriority => seen ++ ((least s).map (·.2)).toList
  | _ => seen

/-- One step of the object is one step of the list. -/
theorem pstep_refines {q : PQueue} {s : List Entry} {seen : List Bytes} (h : Stores q s seen) (op : POp)
    (hu : usage s op) (hs : ∀ d, op = .remove d ∨ op = .decrease d → d ∉ seen) :
    Stores (pstep q op).1 (pqStep s op).1 (seenStep s seen op) ∧ (pstep q op).2 = (pqStep s op).2 := by
  cases op with
  | put p d =>
    obtain ⟨hd, hp0⟩ := hu
    obtain ⟨hw, _, h1, h2⟩ := PQueue.put_spec h.wf p d (h.none.2 hd)
    refine ⟨⟨hw, ?_, ?_, ?_, ?_⟩, rfl⟩
    · simp only [pqStep, List.map_cons, List.nodup_cons]; exact ⟨hd, h.nodup⟩
    · intro p' d'
      simp only [pstep, pqStep, h1, List.mem_cons]
      by_cases e : d = d'
      · subst e
        simp only [if_true, Option.some.injEq, Prod.mk.injEq, and_true]
        constructor
        · rintro rfl; exact .inl rfl
        · rintro (rfl | hm)
          · rfl
          · exact absurd (List.mem_map.2 ⟨_, hm, rfl⟩) hd
      · simp [e, Ne.symm e, h.mem]
    · intro p' d' hm
      simp only [pqStep, List.mem_cons] at hm
      rcases hm with hm | hm
      · cases hm; exact hp0
      · exact h.nonneg p' d' hm
    · intro d' hd'
      simp only [pstep, h2] at hd'
      split at hd'
      · exact absurd rfl hd'
      · exact h.live d' hd'
  | get =>
    by_cases hs0 : s = []
    · have hheap := h.nil.2 hs0
      have hl : q.len = 0 := by simp [PQueue.len, hheap]
      subst hs0
      simp only [pstep, hl, if_true, pqStep, least, seenStep, and_true]
      refine ⟨h.wf, h.nodup, h.mem, h.nonneg, ?_⟩
      intro d hd
      have := h.live d hd
      simpa using this
    · have hheap : q.heap ≠ [] := mt h.nil.1 hs0
      have hl : ¬ q.len = 0 := by simpa [PQueue.len] using hheap
      obtain ⟨p, d, q', e, hw, hp, hm, h1, h2⟩ := PQueue.get_spec h.wf hheap
      have hleast := h.least hp hm
      have hmem := (h.mem p d).1 hp
      simp only [pstep, hl, if_false, e, pqStep, hleast, seenStep, and_true]
      refine ⟨hw, ?_, ?_, ?_, ?_⟩
      · exact h.nodup.sublist (List.erase_sublist.map _)
      · intro p' d'
        rw [h1, mem_erase_entry h.nodup p p' d d' hmem, ← h.mem]
        by_cases ed : d = d' <;> simp [ed]
      · intro p' d' hm'
        exact h.nonneg p' d' (List.mem_of_mem_erase hm')
      · intro d' hd'
        rw [h2] at hd'
        split at hd'
        · exact absurd rfl hd'
        · next ed =>
          simp only [Option.map_some, List.mem_filter]
          exact ⟨h.live d' hd', by simpa using ed⟩
  | remove d =>
    by_cases hd : d ∈ s.map (·.2)
    · obtain ⟨p, hp, hmem⟩ := h.some hd
      have hst : q.stale d = none := by
        cases hst : q.stale d with
        | none => rfl
        | some l => exact absurd (h.live d (by simp [hst])) (hs d (.inl rfl))
      obtain ⟨q', e, hw, h1, h2⟩ := PQueue.remove_live h.wf hp hst
        (fun d' p' hp' => h.nonneg p' d' ((h.mem p' d').1 hp'))
      simp only [pstep, e, pqStep, hd, if_true, seenStep, and_true]
      refine ⟨hw, data_nodup_filter h.nodup _, ?_, ?_, ?_⟩
      · intro p' d'
        rw [h1, List.mem_filter, ← h.mem]
        by_cases ed : d = d'
        · simp [ed]
        · simp [ed, Ne.symm ed]
      · intro p' d' hm'
        exact h.nonneg p' d' (List.mem_filter.1 hm').1
      · intro d' hd'
        rw [h2] at hd'
        split at hd'
        · exact absurd rfl hd'
        · exact h.live d' hd'
    · have := PQueue.remove_unknown h.wf (h.none.2 hd)
      simp only [pstep, this, pqStep, hd, if_false, seenStep, and_true]
      exact h
  | decrease d =>
    by_cases hd : d ∈ s.map (·.2)
    · obtain ⟨p, hp, hmem⟩ := h.some hd
      have hst : q.stale d = none := by
        cases hst : q.stale d with
        | none => rfl
        | some l => exact absurd (h.live d (by simp [hst])) (hs d (.inr rfl))
      obtain ⟨q', e, hw, h1, h2⟩ := PQueue.decrease_live h.wf hp hst
      have hp1 := hu p hmem
      have hmap : (s.map fun e => if e.2 = d then (e.1 - 1, d) else e).map (·.2) = s.map (·.2) := by
        rw [List.map_map]
        apply List.map_congr_left
        intro x _
        simp only [Function.comp]
        split
        · next e => exact e.symm
        · rfl
      have hmm : ∀ p' d', (p', d') ∈ (s.map fun e => if e.2 = d then (e.1 - 1, d) else e) ↔
          if d = d' then p' = p - 1 else (p', d') ∈ s := by
        intro p' d'
        rw [List.mem_map]
        by_cases ed : d = d'
        · subst ed
          simp only [if_true]
          constructor
          · rintro ⟨⟨px, dx⟩, hx, hxe⟩
            simp only at hxe
            split at hxe
            · next edx =>
              subst edx
              cases hxe
              rw [h.uniq hx hmem]
            · next ne => cases hxe; exact absurd rfl ne
          · rintro rfl
            exact ⟨(p, d), hmem, by simp⟩
        · simp only [ed, if_false]
          constructor
          · rintro ⟨⟨px, dx⟩, hx, hxe⟩
            simp only at hxe
            split at hxe
            · cases hxe; exact absurd rfl ed
            · cases hxe; exact hx
          · intro hm
            exact ⟨(p', d'), hm, by simp [Ne.symm ed]⟩
      simp only [pstep, e, pqStep, hd, if_true, seenStep, and_true]
      refine ⟨hw, by rw [hmap]; exact h.nodup, ?_, ?_, ?_⟩
      · intro p' d'
        rw [h1, hmm]
        by_cases ed : d = d'
        · simp only [ed, if_true, Option.some.injEq]
          exact ⟨fun e => e.symm, fun e => e.symm⟩
        · simp only [ed, if_false]; exact h.mem p' d'
      · intro p' d' hm'
        rw [hmm] at hm'
        split at hm'
        · omega
        · exact h.nonneg p' d' hm'
      · intro d' hd'
        rw [h2] at hd'
        exact h.live d' hd'
    · have := PQueue.decrease_unknown h.wf (h.none.2 hd)
      simp only [pstep, this, pqStep, hd, if_false, seenStep, and_true]
      exact h
  | maxPriority =>
    by_cases hs0 : s = []
    · have hheap := h.nil.2 hs0
      subst hs0
      simp only [pstep, PQueue.maxPriority_empty hheap, pqStep, least, seenStep, Option.map_none,
        Option.toList_none, List.append_nil, and_true]
      exact h
    · have hheap : q.heap ≠ [] := mt h.nil.1 hs0
      obtain ⟨p, d, q', e, hw, hp, hm, h1, h2⟩ := PQueue.maxPriority_spec h.wf hheap
      have hleast := h.least hp hm
      simp only [pstep, e, pqStep, hleast, seenStep, and_true]
      refine ⟨hw, h.nodup, ?_, h.nonneg, ?_⟩
      · intro p' d'; rw [h1]; exact h.mem p' d'
      · intro d' hd'
        rw [h2] at hd'
        simp only [Option.map_some, Option.toList_some, List.mem_append, List.mem_singleton]
        split at hd'
        · next ed => exact .inr ed.symm
        · exact .inl (h.live d' hd')

theorem ptrace_refines (ops : List POp) {q : PQueue} {s : List Entry} {seen : List Bytes}
    (h : Stores q s seen) (hu : pqUsage s ops) (hs : pqUnseen s seen ops) :
    ptrace q ops = pqTrace s ops := by
  induction ops generalizing q s seen with
  | nil => rfl
  | cons op ops ih =>
    have hun : (∀ d, op = .remove d ∨ op = .decrease d → d ∉ seen) ∧
        pqUnseen (pqStep s op).1 (seenStep s seen op) ops := by
      cases op <;> simp only [pqUnseen] at hs <;>
        simp_all [seenStep]
    obtain ⟨h1, h2⟩ := pstep_refines h op hu.1 hun.1
    simp only [ptrace, pqTrace, h2]
    rw [ih h1 hu.2 hun.2]

theorem stores_empty : Stores PQueue.empty [] [] :=
  ⟨PQueue.wf_empty, by simp, by simp [PQueue.prio, PQueue.entries, PQueue.empty], by simp,
   by simp [PQueue.stale, PQueue.empty]⟩

/-- **C07.** For every sequence of `put`, `get`, `remove` and `decrease_priority` on a new queue
that puts only new data and keeps priorities non-negative, the caller observes exactly what
the list of entries gives; in particular `get` returns the least entry.

Full statement: this holds of every sequence of these operations.  Missing: sequences that put data which are in the queue,
or with priorities below zero; of these it is false (`C07_put_twice`, `C07_below_zero`).  The allocator does neither. -/
theorem C07_least_first_partial (ops : List POp) (hu : pqUsage [] ops) (hm : POp.maxPriority ∉ ops) :
    ptrace PQueue.empty ops = pqTrace [] ops := by
  refine ptrace_refines ops stores_empty hu ?_
  generalize ([] : List Entry) = s
  clear hu
  induction ops generalizing s with
  | nil => trivial
  | cons op ops ih =>
    simp only [List.mem_cons, not_or] at hm
    cases op <;> simp [pqUnseen, ih hm.2]
    exact absurd rfl hm.1

/-- What `least` means. -/
theorem C07_least_meaning (s : List Entry) (e : Entry) (h : least s = some e) :
    e ∈ s ∧ ∀ e' ∈ s, ¬ before e' e := (least_spec s).2 e h

/-- Four workers, removals from the middle of the heap, a changed priority. -/
def samplePOps : List POp := [.put 3 [1], .put 1 [2], .put 2 [3], .put 1 [1, 0], .decrease [1],
  .get, .remove [3], .decrease [1], .get, .remove [9], .get, .get]

example : pqUsage [] samplePOps ∧ POp.maxPriority ∉ samplePOps ∧
    ptrace PQueue.empty samplePOps =
      [.done, .done, .done, .done, .done, .item (1, [1, 0]), .done, .done, .item (1, [1]),
       .raised .keyError, .item (1, [2]), .waits] := by decide

/-- **C07 is false of data that are put twice**: the second entry takes the place of the first one in the locator, and
the second `get` raises and has lost its entry. -/
theorem C07_put_twice : ∃ ops, POp.maxPriority ∉ ops ∧ ptrace PQueue.empty ops = [.done, .done, .item (1, [7]), .raised .keyError] ∧
    pqTrace [] ops = [.done, .done, .item (1, [7]), .item (2, [7])] :=
  ⟨[.put 1 [7], .put 2 [7], .get, .get], by decide⟩

/-- **C07 is false of priorities below zero**: `remove` gives the entry priority -1 and takes the top of the heap, which is
then another one.  Also if only `decrease_priority` was called once too often. -/
theorem C07_below_zero : (∃ ops, POp.maxPriority ∉ ops ∧ ptrace PQueue.empty ops = [.done, .done, .raised .assertionError] ∧
      pqTrace [] ops = [.done, .done, .done]) ∧
    ∃ ops, POp.maxPriority ∉ ops ∧ ptrace PQueue.empty ops = [.done, .done, .done, .raised .assertionError] ∧
      pqTrace [] ops = [.done, .done, .done, .done] :=
  ⟨⟨[.put (-2) [7], .put 5 [8], .remove [8]], by decide⟩, ⟨[.put 0 [7], .put 5 [8], .decrease [7], .remove [8]], by decide⟩⟩

/-- **C08 (false of the code).** Once `max_priority()` has been consulted a later
`decrease_priority` of that entry does not lower the stored priority, a second one raises
`ValueError`, and `remove` raises. -/
theorem C08_lost_update :
    ∃ ops, pqUsage [] ops ∧ ptrace PQueue.empty ops ≠ pqTrace [] ops ∧
      ptrace PQueue.empty ops = [.done, .priority 1, .done, .item (1, [7])] ∧
      pqTrace [] ops = [.done, .priority 1, .done, .item (0, [7])] :=
  ⟨[.put 1 [7], .maxPriority, .decrease [7], .get], by decide⟩

theorem C08_second_decrease_raises :
    ∃ ops, pqUsage [] ops ∧
      ptrace PQueue.empty ops = [.done, .priority 2, .done, .raised .valueError] :=
  ⟨[.put 2 [7], .maxPriority, .decrease [7], .decrease [7]], by decide⟩

theorem C08_remove_raises :
    ∃ ops, pqUsage [] ops ∧
      ptrace PQueue.empty ops = [.done, .priority 0, .raised .assertionError] :=
  ⟨[.put 0 [7], .maxPriority, .remove [7]], by decide⟩

/-- **C08, partial.**  The full statement is
`∀ ops, pqUsage [] ops → ptrace PQueue.empty ops = pqTrace [] ops`; it is false
(`C08_lost_update`).  It holds for the sequences in which no `decrease_priority`/`remove`
touches an entry that `max_priority` has looked at and `get` has not taken out since. -/
theorem C08_no_lost_update_partial (ops : List POp) (hu : pqUsage [] ops) (hs : pqUnseen [] [] ops) :
    ptrace PQueue.empty ops = pqTrace [] ops :=
  ptrace_refines ops stores_empty hu hs

example : let ops := [.put 2 [7], .put 0 [8], .maxPriority, .decrease [7], .get, .put 1 [8],
      .decrease [8], .remove [8], .maxPriority, .get]
    pqUsage [] ops ∧ pqUnseen [] [] ops ∧
    ptrace PQueue.empty ops = [.done, .done, .priority 0, .done, .item (0, [8]), .done, .done, .done,
      .priority 1, .item (1, [7])] := by
  refine ⟨by decide, ?_, by decide⟩
  simp [pqUnseen, pqStep, least, before]

end Verif.Props
