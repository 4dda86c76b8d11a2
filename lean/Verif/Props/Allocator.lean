import Verif.Sched.AllocLemmas
import Verif.Sched.BalanceFloat
import Verif.Spec.Alloc

/-!
# C09 - C14: the allocator
-/

namespace Verif.Props

open Verif.Queue Verif.Util Verif.Sched Verif.Spec

/-- One call on the allocator. -/
def allocStep (a : Alloc) : AOp → Py (AObs × Alloc)
  | .addWorker w => .ok (.added (a.addWorker w).1, (a.addWorker w).2)
  | .removeWorker w hint => do let (ts, a) ← a.removeWorker w hint; return (.tasks ts, a)
  | .assign t =>
    if a.queue.len = 0 then .ok (.waits, a)
    else do let (w, a) ← a.assignTask t; return (.worker w, a)
  | .removeTask t => do let (w, a) ← a.removeTask t; return (.worker w, a)
  | .whereIs t => .ok (.worker (a.assignedWorker t), a)
  | .available => do let (b, a) ← a.hasAvailableWorker; return (.bool b, a)

/-- A sequence of calls and the answers. -/
def allocRun (a : Alloc) : List AOp → Py (List (AOp × AObs) × Alloc)
  | [] => .ok ([], a)
  | op :: ops => do
    let (o, a) ← allocStep a op
    let (tr, a) ← allocRun a ops
    return ((op, o) :: tr, a)

theorem allocRun_cons {a a' : Alloc} {op : AOp} {ops : List AOp} {tr : List (AOp × AObs)}
    (h : allocRun a (op :: ops) = .ok (tr, a')) :
    ∃ o a1 tr', allocStep a op = .ok (o, a1) ∧ allocRun a1 ops = .ok (tr', a') ∧ tr = (op, o) :: tr' := by
  unfold allocRun at h
  obtain ⟨⟨o, a1⟩, h1, h2⟩ := Py.bind_ok.1 h
  obtain ⟨⟨tr', a2⟩, h3, h4⟩ := Py.bind_ok.1 h2
  cases h4
  exact ⟨o, a1, tr', h1, h3, rfl⟩

/-- The allocator's tables hold the placement. -/
structure Holds (a : Alloc) (s : Placement) : Prop where
  sound : s.Sound
  workers : ∀ w, w ∈ s.workers ↔ ∃ ts, a.w2t.get? w = some ts
  assigned : ∀ t w, a.t2w.get? t = some w ↔ (t, w) ∈ s.assigned

theorem Placement.workerOf_iff {s : Placement} (h : s.Sound) (t w : Bytes) :
    s.workerOf t = some w ↔ (t, w) ∈ s.assigned := by
  have hnd := h.2.1
  unfold Placement.workerOf
  simp only [Option.map_eq_some_iff]
  constructor
  · rintro ⟨⟨t', w'⟩, hf, rfl⟩
    have h1 := List.mem_of_find?_eq_some hf
    have h2 := List.find?_some hf
    simp only [decide_eq_true_eq] at h2
    subst h2; exact h1
  · intro hm
    cases hf : s.assigned.find? fun p => decide (p.1 = t) with
    | none =>
      have := List.find?_eq_none.1 hf (t, w) hm
      simp at this
    | some p =>
      obtain ⟨t', w'⟩ := p
      have h1 := List.mem_of_find?_eq_some hf
      have h2 := List.find?_some hf
      simp only [decide_eq_true_eq] at h2
      subst h2
      refine ⟨(t', w'), rfl, ?_⟩
      have : ∀ l : List (Bytes × Bytes), (l.map (·.1)).Nodup → (t', w') ∈ l → (t', w) ∈ l → w' = w := by
        intro l
        induction l with
        | nil => simp
        | cons p l ih =>
          intro hn h1 h2
          simp only [List.map_cons, List.nodup_cons, List.mem_map, not_exists, not_and] at hn
          rcases List.mem_cons.1 h1 with e1 | h1
          · rcases List.mem_cons.1 h2 with e2 | h2
            · rw [← e1] at e2; cases e2; rfl
            · exact absurd (by rw [← e1]) (hn.1 _ h2)
          · rcases List.mem_cons.1 h2 with e2 | h2
            · exact absurd (by rw [← e2]) (hn.1 _ h1)
            · exact ih hn.2 h1 h2
      exact this _ hnd h1 hm

theorem Placement.mem_tasksOf {s : Placement} (t w : Bytes) : t ∈ s.tasksOf w ↔ (t, w) ∈ s.assigned := by
  simp only [Placement.tasksOf, List.mem_map, List.mem_filter, decide_eq_true_eq]
  constructor
  · rintro ⟨⟨t', w'⟩, ⟨hm, rfl⟩, rfl⟩; exact hm
  · intro h; exact ⟨(t, w), ⟨h, rfl⟩, rfl⟩

theorem Placement.nodup_tasksOf {s : Placement} (h : s.Sound) (w : Bytes) : (s.tasksOf w).Nodup :=
  h.2.1.sublist (List.filter_sublist.map _)

theorem Holds.workerOf {a : Alloc} {s : Placement} (h : Holds a s) (t : Bytes) : s.workerOf t = a.t2w.get? t := by
  apply Option.ext
  intro w
  rw [Placement.workerOf_iff h.sound, h.assigned]

theorem Holds.tasks {a : Alloc} {s : Placement} (hi : a.Inv) (h : Holds a s) {w : Bytes} {ts : PySet Bytes}
    (hw : a.w2t.get? w = some ts) : ts.items.Perm (s.tasksOf w) := by
  rw [List.perm_ext_iff_of_nodup ts.nodup (Placement.nodup_tasksOf h.sound w)]
  intro t
  rw [Placement.mem_tasksOf, ← h.assigned, hi.agree, hw]
  simp

theorem holds_init (max : Int) : Holds (Alloc.init max) Placement.empty :=
  ⟨⟨by simp [Placement.empty], by simp [Placement.empty], by simp [Placement.empty]⟩,
    by simp [Placement.empty, Alloc.init], by simp [Placement.empty, Alloc.init]⟩

/-- One call keeps the invariant and follows the specification. -/
theorem allocStep_spec {a a' : Alloc} {s : Placement} {op : AOp} {o : AObs} (hi : a.Inv) (h : Holds a s)
    (hs : allocStep a op = .ok (o, a')) :
    a'.Inv ∧ a'.max = a.max ∧ ∃ s', s.Step op o s' ∧ Holds a' s' := by
  cases op with
  | addWorker w =>
    simp only [allocStep, Except.ok.injEq, Prod.mk.injEq] at hs
    obtain ⟨rfl, rfl⟩ := hs
    cases hw : a.w2t.get? w with
    | some ts =>
      rw [Alloc.addWorker_old hw]
      exact ⟨hi, rfl, s, .addOld ((h.workers w).2 ⟨ts, hw⟩), h⟩
    | none =>
      obtain ⟨a', e, h1, h2, h3, h4, _, _⟩ := Alloc.addWorker_new hi hw
      rw [e]
      have hn : w ∉ s.workers := by rw [h.workers, hw]; simp
      refine ⟨h1, h2, _, .addNew hn, ⟨?_, h.sound.2.1, ?_⟩, ?_, ?_⟩
      · rw [List.nodup_append]
        refine ⟨h.sound.1, by simp, ?_⟩
        intro x hx y hy
        simp only [List.mem_singleton] at hy
        subst hy
        rintro rfl; exact hn hx
      · intro p hp
        exact List.mem_append_left _ (h.sound.2.2 p hp)
      · intro w'
        rw [h4, Dict.get?_set, List.mem_append, List.mem_singleton, h.workers]
        by_cases e : w = w'
        · simp [e]
        · simp [e, Ne.symm e]
      · intro t w'; rw [h3]; exact h.assigned t w'
  | removeWorker w hint =>
    simp only [allocStep] at hs
    obtain ⟨⟨ts, a1⟩, h1, h2⟩ := Py.bind_ok.1 hs
    cases h2
    cases hw : a.w2t.get? w with
    | none =>
      rw [Alloc.removeWorker_unknown hint hw] at h1
      cases h1
      exact ⟨hi, rfl, s, .removeUnknown (by rw [h.workers, hw]; simp), h⟩
    | some x =>
      rcases Alloc.removeWorker_known hi hint hw with ⟨_, a2, e, h3, h4, h5, h6, _, _⟩ | ⟨_, e, he⟩
      · rw [e] at h1
        cases h1
        refine ⟨h3, h4, _, .remove ((h.workers w).2 ⟨x, hw⟩) ((orderBy_perm _ _).trans (h.tasks hi hw)), ⟨?_, ?_, ?_⟩, ?_, ?_⟩
        · exact h.sound.1.filter _
        · exact h.sound.2.1.sublist (List.filter_sublist.map _)
        · intro p hp
          simp only [List.mem_filter, ne_eq, decide_not, Bool.not_eq_eq_eq_not, Bool.not_true,
            decide_eq_false_iff_not] at hp ⊢
          exact ⟨h.sound.2.2 p hp.1, hp.2⟩
        · intro w'
          rw [h5, Dict.get?_erase]
          simp only [List.mem_filter, ne_eq, decide_not, Bool.not_eq_eq_eq_not, Bool.not_true,
            decide_eq_false_iff_not, h.workers]
          by_cases e : w = w'
          · simp [e]
          · simp [e, Ne.symm e]
        · intro t w'
          rw [h6]
          simp only [List.mem_filter, ne_eq, decide_not, Bool.not_eq_eq_eq_not, Bool.not_true,
            decide_eq_false_iff_not]
          rw [← h.assigned]
          split
          · next e => simp [e]; intro e'; exact e'.symm
          · next e =>
            constructor
            · intro e'; refine ⟨e', ?_⟩; rintro rfl; exact e e'
            · exact fun e' => e'.1
      · rw [he] at h1; cases h1
  | assign t =>
    simp only [allocStep] at hs
    split at hs
    · next hl =>
      cases hs
      refine ⟨hi, rfl, s, .assignWaits ?_, h⟩
      rw [List.eq_nil_iff_forall_not_mem]
      intro w hw
      obtain ⟨ts, hts⟩ := (h.workers w).1 hw
      rw [(Alloc.queue_empty_iff hi).1 hl w] at hts; cases hts
    · next hl =>
      rw [Alloc.queue_empty_iff hi, Classical.not_forall] at hl
      obtain ⟨w0, hw0⟩ := hl
      cases hts0 : a.w2t.get? w0 with
      | none => exact absurd hts0 hw0
      | some ts0 =>
      obtain ⟨⟨r, a1⟩, h1, h2⟩ := Py.bind_ok.1 hs
      cases h2
      have hne : s.workers ≠ [] := by
        intro e
        have := (h.workers w0).2 ⟨ts0, hts0⟩
        rw [e] at this; simp at this
      obtain ⟨p, w, ts, hp, hts, _, hc | hc | hc⟩ := Alloc.assignTask_spec hi hts0 t
      · obtain ⟨_, a2, e, h3, h4, h5, h6, _⟩ := hc
        rw [e] at h1; cases h1
        refine ⟨h3, h4, s, .assignFull hne, h.sound, ?_, ?_⟩
        · rw [h5]; exact h.workers
        · rw [h6]; exact h.assigned
      · obtain ⟨_, ht, a2, e, h3, h4, h5, h6, _⟩ := hc
        rw [e] at h1; cases h1
        have hw : w ∈ s.workers := (h.workers w).2 ⟨ts, hts⟩
        have hno : s.workerOf t = none := by rw [h.workerOf, ht]
        have hnm : ∀ w', (t, w') ∉ s.assigned := by
          intro w' hm; rw [← h.assigned, ht] at hm; cases hm
        refine ⟨h3, h4, _, .assign hw hno, ⟨h.sound.1, ?_, ?_⟩, ?_, ?_⟩
        · rw [List.map_append, List.nodup_append]
          refine ⟨h.sound.2.1, by simp, ?_⟩
          intro x hx y hy
          simp only [List.map_cons, List.map_nil, List.mem_singleton] at hy
          subst hy
          rintro rfl
          obtain ⟨⟨t', w'⟩, hm, rfl⟩ := List.mem_map.1 hx
          exact hnm _ hm
        · intro p hp
          rcases List.mem_append.1 hp with hp | hp
          · exact h.sound.2.2 p hp
          · rw [List.mem_singleton] at hp; rw [hp]; exact hw
        · intro w'
          rw [h5, Dict.get?_set]
          by_cases e : w = w'
          · subst e; simp [hw]
          · simp only [e, if_false]; exact h.workers w'
        · intro t' w'
          rw [h6, Dict.get?_set, List.mem_append, List.mem_singleton]
          by_cases e : t = t'
          · subst e
            simp only [if_true, Option.some.injEq, Prod.mk.injEq, true_and]
            constructor
            · intro e; exact .inr e.symm
            · rintro (hm | e)
              · exact absurd hm (hnm _)
              · exact e.symm
          · simp [e, Ne.symm e, h.assigned]
      · obtain ⟨_, w1, ht, a2, e, h3, h4, h5, h6, _⟩ := hc
        rw [e] at h1; cases h1
        refine ⟨h3, h4, s, .assignAgain hne (by rw [h.workerOf, ht]), h.sound, ?_, ?_⟩
        · rw [h5]; exact h.workers
        · rw [h6]; exact h.assigned
  | removeTask t =>
    simp only [allocStep] at hs
    obtain ⟨⟨r, a1⟩, h1, h2⟩ := Py.bind_ok.1 hs
    cases h2
    cases ht : a.t2w.get? t with
    | none =>
      rw [Alloc.removeTask_unknown ht] at h1
      cases h1
      have hno : s.workerOf t = none := by rw [h.workerOf, ht]
      have hst := Placement.Step.removeTask (s := s) (t := t)
      rw [hno] at hst
      have hf : (s.assigned.filter fun p => decide (p.1 ≠ t)) = s.assigned := by
        apply List.filter_eq_self.2
        rintro ⟨t', w'⟩ hm
        simp only [ne_eq, decide_not, Bool.not_eq_eq_eq_not, Bool.not_true, decide_eq_false_iff_not]
        rintro rfl
        rw [← h.assigned, ht] at hm; cases hm
      rw [hf] at hst
      exact ⟨hi, rfl, s, hst, h⟩
    | some w =>
      obtain ⟨ts, hts, _, hc | hc⟩ := Alloc.removeTask_known hi ht
      · obtain ⟨a2, e, h3, h4, h5, h6, _⟩ := hc
        rw [e] at h1; cases h1
        have hst := Placement.Step.removeTask (s := s) (t := t)
        rw [h.workerOf, ht] at hst
        refine ⟨h3, h4, _, hst, ⟨h.sound.1, ?_, ?_⟩, ?_, ?_⟩
        · exact h.sound.2.1.sublist (List.filter_sublist.map _)
        · intro p hp; exact h.sound.2.2 p (List.mem_filter.1 hp).1
        · intro w'
          rw [h5, Dict.get?_set]
          by_cases e : w = w'
          · subst e; simp [(h.workers w).2 ⟨ts, hts⟩]
          · simp only [e, if_false]; exact h.workers w'
        · intro t' w'
          rw [h6, Dict.get?_erase]
          simp only [List.mem_filter, ne_eq, decide_not, Bool.not_eq_eq_eq_not, Bool.not_true,
            decide_eq_false_iff_not]
          by_cases e : t = t'
          · simp [e]
          · simp [e, Ne.symm e, h.assigned]
      · rw [hc.2] at h1; cases h1
  | whereIs t =>
    simp only [allocStep, Except.ok.injEq, Prod.mk.injEq] at hs
    obtain ⟨rfl, rfl⟩ := hs
    refine ⟨hi, rfl, s, ?_, h⟩
    rw [Alloc.assignedWorker, ← h.workerOf]; exact .whereIs
  | available =>
    simp only [allocStep] at hs
    obtain ⟨⟨r, a1⟩, h1, h2⟩ := Py.bind_ok.1 hs
    cases h2
    obtain ⟨b, a2, e, h3, h4, h5, h6, _⟩ := Alloc.hasAvailable_spec hi
    rw [e] at h1; cases h1
    exact ⟨h3, h4, s, .available, h.sound, by rw [h5]; exact h.workers, by rw [h6]; exact h.assigned⟩

theorem allocRun_spec {ops : List AOp} {a a' : Alloc} {s : Placement} {tr : List (AOp × AObs)} (hi : a.Inv)
    (h : Holds a s) (hr : allocRun a ops = .ok (tr, a')) :
    a'.Inv ∧ a'.max = a.max ∧ ∃ s', s.Steps tr s' ∧ Holds a' s' := by
  induction ops generalizing a s tr with
  | nil => cases hr; exact ⟨hi, rfl, s, .nil, h⟩
  | cons op ops ih =>
    obtain ⟨o, a1, tr', h1, h2, rfl⟩ := allocRun_cons hr
    obtain ⟨hi1, hm1, s1, hs1, hh1⟩ := allocStep_spec hi h h1
    obtain ⟨hi2, hm2, s2, hs2, hh2⟩ := ih hi1 hh1 h2
    exact ⟨hi2, hm2.trans hm1, s2, .cons hs1 hs2, hh2⟩

/-- **C09.** After any sequence of calls on a new allocator, with the answers it gave, there is a
placement that follows from these calls and answers such that every task has exactly one worker,
that worker is connected, and both tables of the allocator hold exactly this placement. -/
theorem C09_one_worker (max : Int) (ops : List AOp) (tr : List (AOp × AObs)) (a : Alloc)
    (hr : allocRun (Alloc.init max) ops = .ok (tr, a)) :
    ∃ s, Placement.empty.Steps tr s ∧ s.Sound ∧
      (∀ w, w ∈ s.workers ↔ w ∈ a.w2t.keys) ∧
      (∀ t w, a.assignedWorker t = some w ↔ (t, w) ∈ s.assigned) ∧
      (∀ t w, (∃ ts, a.w2t.get? w = some ts ∧ t ∈ ts) ↔ (t, w) ∈ s.assigned) := by
  obtain ⟨hi, _, s, hs, h⟩ := allocRun_spec (Alloc.inv_init max) (holds_init max) hr
  refine ⟨s, hs, h.sound, ?_, h.assigned, ?_⟩
  · intro w; rw [h.workers, Dict.mem_keys]
  · intro t w; rw [← hi.agree, h.assigned]

/-- two workers, three tasks, one worker leaves, one task finishes -/
def allocHistory : List AOp :=
  [.addWorker [1], .addWorker [2], .assign [10], .assign [11], .available, .assign [12], .assign [10],
   .removeWorker [2] [], .removeTask [12], .whereIs [10], .whereIs [11]]

example : (allocRun (Alloc.init 2) allocHistory).map (·.1.map (·.2)) =
    .ok [.added true, .added true, .worker (some [1]), .worker (some [2]), .bool true, .worker (some [1]),
      .worker (some [1]), .tasks [[11]], .worker (some [1]), .worker (some [1]), .worker none] := by
  decide +kernel

/-- **C10.** No worker is ever given more tasks than the queue size. -/
theorem C10_queue_size (max : Int) (h0 : 0 ≤ max) (ops : List AOp) (tr : List (AOp × AObs)) (a : Alloc)
    (hr : allocRun (Alloc.init max) ops = .ok (tr, a)) :
    ∃ s, Placement.empty.Steps tr s ∧ ∀ w, ((s.tasksOf w).length : Int) ≤ max := by
  obtain ⟨hi, hm, s, hs, h⟩ := allocRun_spec (Alloc.inv_init max) (holds_init max) hr
  refine ⟨s, hs, ?_⟩
  intro w
  cases hw : a.w2t.get? w with
  | none =>
    have : s.tasksOf w = [] := by
      rw [List.eq_nil_iff_forall_not_mem]
      intro t ht
      rw [Placement.mem_tasksOf] at ht
      obtain ⟨ts, hts⟩ := (h.workers w).1 (h.sound.2.2 _ ht)
      rw [hw] at hts; cases hts
    rw [this]; exact h0
  | some ts =>
    rw [← (h.tasks hi hw).length_eq]
    obtain ⟨p, hp⟩ := hi.prio_some hw
    have h1 := hi.load w p ts hp hw
    have h2 := hi.cap (by rw [hm]; exact h0) w p hp
    rw [hm] at h2
    have : (ts.size : Int) = ts.items.length := rfl
    have h3 : (Alloc.init max).max = max := rfl
    omega

example : (allocRun (Alloc.init 1) [.addWorker [1], .assign [10], .assign [11]]).map (·.1.map (·.2)) =
    .ok [.added true, .worker (some [1]), .worker none] := by decide +kernel

/-- **C11 is false of the code.**  One worker with queue size 2.  `max_priority` (called by
`has_available_worker` whenever a task is submitted) makes the locator stale, a finished task is
then not counted down, and the worker is refused although it has one task and two slots. -/
theorem C11_free_slot_refused :
    (allocRun (Alloc.init 2) [.addWorker [1], .assign [10], .available, .removeTask [10], .assign [11], .available,
      .whereIs [11], .assign [12]]).map (fun r => (r.1.map (·.2), r.2.statistics)) =
    .ok ([.added true, .worker (some [1]), .bool true, .worker (some [1]), .worker (some [1]), .bool false,
      .worker (some [1]), .worker none], [([1], 1, 1)]) := by decide +kernel

/-- Calls without `has_available_worker`. -/
def noConsult (ops : List AOp) : Prop := AOp.available ∉ ops

theorem allocRun_exact {ops : List AOp} {a : Alloc} (hi : a.Inv) (hx : a.Exact) {s : Placement} (h : Holds a s)
    (hn : noConsult ops) :
    ∃ tr a', allocRun a ops = .ok (tr, a') ∧ a'.Exact := by
  induction ops generalizing a s with
  | nil => exact ⟨[], a, rfl, hx⟩
  | cons op ops ih =>
    simp only [noConsult, List.mem_cons, not_or] at hn
    have hstep : ∃ o a1, allocStep a op = .ok (o, a1) ∧ a1.Exact := by
      cases op with
      | addWorker w => exact ⟨_, _, rfl, Alloc.Exact.addWorker hi hx w⟩
      | removeWorker w hint =>
        obtain ⟨r, e, h1⟩ := Alloc.Exact.removeWorker hi hx w hint
        exact ⟨_, _, by simp only [allocStep, e, Py.ok_bind]; rfl, h1⟩
      | assign t =>
        by_cases hl : a.queue.len = 0
        · exact ⟨.waits, a, by simp only [allocStep, hl, if_true], hx⟩
        · have hl' := hl
          rw [Alloc.queue_empty_iff hi, Classical.not_forall] at hl'
          obtain ⟨w0, hw0⟩ := hl'
          cases hts0 : a.w2t.get? w0 with
          | none => exact absurd hts0 hw0
          | some ts0 =>
            obtain ⟨r, e, h1⟩ := Alloc.Exact.assignTask hi hx hts0 t
            exact ⟨_, _, by simp only [allocStep, hl, if_false, e, Py.ok_bind]; rfl, h1⟩
      | removeTask t =>
        obtain ⟨r, e, h1⟩ := Alloc.Exact.removeTask hi hx t
        exact ⟨_, _, by simp only [allocStep, e, Py.ok_bind]; rfl, h1⟩
      | whereIs t => exact ⟨_, _, rfl, hx⟩
      | available => exact absurd rfl hn.1
    obtain ⟨o, a1, e1, hx1⟩ := hstep
    obtain ⟨hi1, _, s1, _, h1⟩ := allocStep_spec hi h e1
    obtain ⟨tr, a2, e2, hx2⟩ := ih hi1 hx1 h1 hn.2
    exact ⟨(op, o) :: tr, a2, by simp only [allocRun, e1, e2, Py.ok_bind]; rfl, hx2⟩

/-- **C11, partial.** As long as `has_available_worker` was not called, no call raises, and: if some
connected worker has fewer tasks than the queue size, then a new task is placed on a worker that
has the fewest tasks, and `has_available_worker` answers true.

Full statement: the same for all sequences of calls.  Missing: sequences that contain
`has_available_worker`; for these it is false (`C11_free_slot_refused`). -/
theorem C11_free_slot_usable_partial (max : Int) (ops : List AOp) (hn : noConsult ops) :
    ∃ tr a s, allocRun (Alloc.init max) ops = .ok (tr, a) ∧ Placement.empty.Steps tr s ∧
      ∀ w ∈ s.workers, ((s.tasksOf w).length : Int) < max →
        (∃ a', allocStep a .available = .ok (.bool true, a')) ∧
        ∀ t, s.workerOf t = none → ∃ w' a', allocStep a (.assign t) = .ok (.worker (some w'), a') ∧
          w' ∈ s.workers ∧ ∀ v ∈ s.workers, (s.tasksOf w').length ≤ (s.tasksOf v).length := by
  obtain ⟨tr, a, hr, hx⟩ := allocRun_exact (Alloc.inv_init max) (Alloc.exact_init max) (holds_init max) hn
  obtain ⟨hi, hm, s, hs, h⟩ := allocRun_spec (Alloc.inv_init max) (holds_init max) hr
  have hm' : a.max = max := hm
  refine ⟨tr, a, s, hr, hs, ?_⟩
  intro w hw hlt
  obtain ⟨ts, hts⟩ := (h.workers w).1 hw
  obtain ⟨p, hp⟩ := hi.prio_some hts
  have hpe := hx.load w p ts hp hts
  have hlen := (h.tasks hi hts).length_eq
  have hsz : ts.size = ts.items.length := rfl
  have hl : ¬ a.queue.len = 0 := by
    rw [Alloc.queue_empty_iff hi]; intro hh; rw [hh w] at hts; cases hts
  constructor
  · obtain ⟨q, v, a', e, _, _, _, _, hq, hmin, _⟩ := Alloc.hasAvailable_some hi hts
    have h2 : q ≠ a.max := by have := hmin w p hp; omega
    exact ⟨a', by simp only [allocStep, e, Py.ok_bind, Py.pure_eq]; simp [h2]⟩
  · intro t ht
    rw [h.workerOf] at ht
    obtain ⟨q, v, tv, hq, htv, hmin, hc | hc | hc⟩ := Alloc.assignTask_spec hi hts t
    · have := hmin w p hp
      have := hc.1
      omega
    · obtain ⟨_, _, a2, e, _⟩ := hc
      refine ⟨v, a2, ?_, (h.workers v).2 ⟨tv, htv⟩, ?_⟩
      · simp only [allocStep, hl, if_false, e, Py.ok_bind]; rfl
      · intro u hu
        obtain ⟨tu, htu⟩ := (h.workers u).1 hu
        obtain ⟨r, hr⟩ := hi.prio_some htu
        have h1 := hx.load v q tv hq htv
        have h2 := hx.load u r tu hr htu
        have h3 := hmin u r hr
        have h4 := (h.tasks hi htv).length_eq
        have h5 := (h.tasks hi htu).length_eq
        have h6 : tv.size = tv.items.length := rfl
        have h7 : tu.size = tu.items.length := rfl
        omega
    · obtain ⟨_, w1, hw1, _⟩ := hc
      rw [ht] at hw1; cases hw1

example : noConsult [.addWorker [1], .addWorker [2], .assign [10], .assign [11], .removeTask [10]] ∧
    (allocRun (Alloc.init 1) [.addWorker [1], .addWorker [2], .assign [10], .assign [11], .removeTask [10],
      .assign [12], .available]).map (·.1.map (·.2)) =
    .ok [.added true, .added true, .worker (some [1]), .worker (some [2]), .worker (some [1]), .worker (some [1]),
      .bool false] := by
  unfold noConsult
  exact ⟨by decide, by decide +kernel⟩

/-- **C12.** In every reachable state, a task that gets a new worker gets one whose recorded load
(the priority in the queue) is least among the connected workers and not equal to the queue size;
this recorded load rises by one, the others stay. -/
theorem C12_least_recorded (max : Int) (ops : List AOp) (tr : List (AOp × AObs)) (a a' : Alloc) (t w : Bytes)
    (hr : allocRun (Alloc.init max) ops = .ok (tr, a)) (ht : a.assignedWorker t = none)
    (hs : allocStep a (.assign t) = .ok (.worker (some w), a')) :
    ∃ p, a.queue.prio w = some p ∧ p ≠ max ∧ (∀ v q, a.queue.prio v = some q → p ≤ q) ∧
      (∀ v, v ∈ a.w2t.keys ↔ ∃ q, a.queue.prio v = some q) ∧
      a'.queue.prio w = some (p + 1) ∧ (∀ v, v ≠ w → a'.queue.prio v = a.queue.prio v) := by
  obtain ⟨hi, hm, s, _, h⟩ := allocRun_spec (Alloc.inv_init max) (holds_init max) hr
  have hm' : a.max = max := hm
  simp only [allocStep] at hs
  split at hs
  · cases hs
  · next hl =>
    rw [Alloc.queue_empty_iff hi, Classical.not_forall] at hl
    obtain ⟨w0, hw0⟩ := hl
    cases hts0 : a.w2t.get? w0 with
    | none => exact absurd hts0 hw0
    | some ts0 =>
    obtain ⟨⟨r, a1⟩, h1, h2⟩ := Py.bind_ok.1 hs
    cases h2
    obtain ⟨p, v, ts, hp, hts, hmin, hc | hc | hc⟩ := Alloc.assignTask_spec hi hts0 t
    · obtain ⟨_, a2, e, _⟩ := hc
      rw [e] at h1; cases h1
    · obtain ⟨hne, _, a2, e, _, _, _, _, h7, _⟩ := hc
      rw [e] at h1; cases h1
      refine ⟨p, hp, by rw [← hm']; exact hne, hmin, ?_, by rw [h7]; simp, ?_⟩
      · intro v; rw [Dict.mem_keys, hi.dom]
      · intro v hv; rw [h7, if_neg (Ne.symm hv)]
    · obtain ⟨_, w1, hw1, _⟩ := hc
      rw [Alloc.assignedWorker] at ht
      rw [ht] at hw1; cases hw1

example : (allocRun (Alloc.init 5) [.addWorker [1], .assign [10], .addWorker [2], .assign [11]]).map
      (fun r => (r.1.map (·.2), r.2.queue.prio [1], r.2.queue.prio [2])) =
    .ok ([.added true, .worker (some [1]), .added true, .worker (some [2])], some 1, some 1) := by decide +kernel

/-- **C13.** In every reachable state, removing a worker (if the call returns) hands back exactly its
tasks, each once; afterwards none of them is assigned, the worker is gone and the tasks of the
others stay where they were. -/
theorem C13_remove_worker (max : Int) (ops : List AOp) (tr : List (AOp × AObs)) (a a' : Alloc) (w : Bytes)
    (hint ts : List Bytes) (hr : allocRun (Alloc.init max) ops = .ok (tr, a))
    (hs : allocStep a (.removeWorker w hint) = .ok (.tasks ts, a')) :
    ts.Nodup ∧ (∀ t, t ∈ ts ↔ a.assignedWorker t = some w) ∧
    (∀ t, a'.assignedWorker t = if t ∈ ts then none else a.assignedWorker t) ∧
    (∀ v, v ∈ a'.w2t.keys ↔ v ∈ a.w2t.keys ∧ v ≠ w) := by
  obtain ⟨hi, hm, s, _, h⟩ := allocRun_spec (Alloc.inv_init max) (holds_init max) hr
  simp only [allocStep] at hs
  obtain ⟨⟨ts', a1⟩, h1, h2⟩ := Py.bind_ok.1 hs
  cases h2
  cases hw : a.w2t.get? w with
  | none =>
    rw [Alloc.removeWorker_unknown hint hw] at h1
    cases h1
    have hno : ∀ t, a.t2w.get? t ≠ some w := by
      intro t ht; obtain ⟨x, hx, _⟩ := (hi.agree t w).1 ht; rw [hw] at hx; cases hx
    refine ⟨by simp, ?_, by simp, ?_⟩
    · intro t; simp [Alloc.assignedWorker, hno t]
    · intro v
      constructor
      · intro hv; refine ⟨hv, ?_⟩; rintro rfl
        obtain ⟨x, hx⟩ := Dict.mem_keys.1 hv
        rw [hw] at hx; cases hx
      · exact fun hv => hv.1
  | some x =>
    rcases Alloc.removeWorker_known hi hint hw with ⟨_, a2, e, h3, h4, h5, h6, _, _⟩ | ⟨_, e, he⟩
    · rw [e] at h1
      cases h1
      have hmem : ∀ t, t ∈ orderBy hint x.items ↔ a.t2w.get? t = some w := by
        intro t; rw [mem_orderBy, hi.agree, hw]; simp
      refine ⟨(orderBy_perm _ _).nodup_iff.2 x.nodup, hmem, ?_, ?_⟩
      · intro t
        simp only [Alloc.assignedWorker, h6, hmem]
      · intro v
        rw [h5, Dict.keys_erase]
        simp
    · rw [he] at h1; cases h1

/-- The call can raise: `has_available_worker` before `remove_worker` (see C08, C28). -/
theorem C13_remove_worker_raises :
    (allocRun (Alloc.init 2) [.addWorker [1], .assign [10], .available, .removeWorker [1] []]).map (fun _ => ()) =
      .error .assertionError := by decide +kernel

example : (allocRun (Alloc.init 2) [.addWorker [1], .assign [10], .assign [11], .removeWorker [1] [[11], [10]]]).map
      (·.1.map (·.2)) =
    .ok [.added true, .worker (some [1]), .worker (some [1]), .tasks [[11], [10]]] := by decide +kernel

/-! ### Balance -/

/-- Loads of the workers. -/
def loads (a : Alloc) : List (Bytes × Nat) := a.w2t.items.map fun p => (p.1, p.2.size)

/-- The advice as a list. -/
theorem balance_items (a : Alloc) :
    a.balance.items =
      if (∃ p ∈ loads a, p.2 = 0) ∧ (∃ p ∈ loads a, p.2 ≠ 0) then
        ((loads a).filter fun p => decide (total (loads a) < p.2 * (loads a).length)).map fun p =>
          (p.1, Alloc.ceilDiff p.2 (total (loads a)) (loads a).length)
      else [] := by
  have hc : (a.w2t.items.map fun (x : Bytes × PySet Bytes) => (x.1, (x.2.size : Int))) =
      (loads a).map fun p => (p.1, (p.2 : Int)) := by
    simp [loads]
  have hsum : (((loads a).map fun p => (p.1, (p.2 : Int))).map (·.2)).sum = (total (loads a) : Int) := by
    unfold total
    generalize loads a = l
    induction l with
    | nil => rfl
    | cons p l ih => simp only [List.map_cons, List.sum_cons, ih]; omega
  have hnd : ((loads a).map (·.1)).Nodup := by
    have := a.w2t.nodup
    simpa [loads, Dict.keys, Function.comp_def] using this
  unfold Alloc.balance
  simp only [hc]
  simp only [List.any_map, List.all_map, Function.comp_def, hsum, List.length_map]
  by_cases h1 : ∃ p ∈ loads a, p.2 ≠ 0
  · have h1' : (!(loads a).any fun x => decide ((x.2 : Int) ≠ 0)) = false := by
      rw [Bool.not_eq_false', List.any_eq_true]
      obtain ⟨p, hp, h⟩ := h1
      exact ⟨p, hp, by simpa using h⟩
    by_cases h0 : ∃ p ∈ loads a, p.2 = 0
    · have h0' : (!!(loads a).all fun x => decide ((x.2 : Int) ≠ 0)) = false := by
        rw [Bool.not_not, List.all_eq_false]
        obtain ⟨p, hp, h⟩ := h0
        exact ⟨p, hp, by simpa using h⟩
      simp only [h1', h0', Bool.false_eq_true, if_false]
      rw [if_pos ⟨h0, h1⟩, Dict.ofList_items]
      · rw [List.filter_map, List.map_map]
        congr 1
        apply List.filter_congr
        intro p _
        simp only [Function.comp, gt_iff_lt, decide_eq_decide]
        rw [← Int.natCast_mul, Int.ofNat_lt]
      · rw [List.map_map]
        refine List.Nodup.sublist ((List.filter_sublist (p := _)).map _) ?_
        rw [List.map_map]
        exact hnd
    · have h0' : (!!(loads a).all fun x => decide ((x.2 : Int) ≠ 0)) = true := by
        rw [Bool.not_not, List.all_eq_true]
        intro p hp
        simp only [ne_eq, decide_not, Bool.not_eq_eq_eq_not, Bool.not_true, decide_eq_false_iff_not]
        intro h; exact h0 ⟨p, hp, by omega⟩
      simp only [h1', h0', Bool.false_eq_true, if_false, if_true]
      rw [if_neg (fun h => h0 h.1)]; rfl
  · have h1' : (!(loads a).any fun x => decide ((x.2 : Int) ≠ 0)) = true := by
      rw [Bool.not_eq_true', List.any_eq_false]
      intro p hp
      simp only [ne_eq, decide_not, Bool.not_eq_eq_eq_not, Bool.not_true, decide_eq_false_iff_not,
        Decidable.not_not]
      apply Classical.byContradiction
      intro h; exact h1 ⟨p, hp, by omega⟩
    simp only [h1', if_true]
    rw [if_neg (fun h => h1 h.2)]; rfl

/-- If no entry exceeds the mean then every entry is the mean. -/
theorem exists_above {l : List (Bytes × Nat)} (h1 : ∃ p ∈ l, p.2 = 0) (h2 : ∃ p ∈ l, p.2 ≠ 0) :
    ∃ p ∈ l, total l < p.2 * l.length := by
  apply Classical.byContradiction
  intro hno
  have hle : ∀ p ∈ l, p.2 * l.length ≤ total l := by
    intro p hp
    exact Nat.le_of_not_lt fun h => hno ⟨p, hp, h⟩
  have key : ∀ m : List (Bytes × Nat), (∀ p ∈ m, p ∈ l) → ∀ N T, N = l.length → T = total l →
      total m * N ≤ m.length * T ∧ ((∃ p ∈ m, p.2 = 0) → 0 < T → total m * N < m.length * T) := by
    intro m hm N T hN hT
    induction m with
    | nil => simp [total]
    | cons p m ih =>
      obtain ⟨i1, i2⟩ := ih (fun q hq => hm q (List.mem_cons_of_mem _ hq))
      have hp := hle p (hm p (by simp))
      rw [← hN, ← hT] at hp
      have e1 : total (p :: m) * N = p.2 * N + total m * N := by
        simp only [total, List.map_cons, List.sum_cons, Nat.add_mul]
      have e2 : (p :: m).length * T = T + m.length * T := by
        simp only [List.length_cons, Nat.add_mul, Nat.one_mul]; omega
      rw [e1, e2]
      refine ⟨by omega, ?_⟩
      rintro ⟨q, hq, hq0⟩ hT0
      rcases List.mem_cons.1 hq with rfl | hq
      · rw [hq0, Nat.zero_mul]; omega
      · have := i2 ⟨q, hq, hq0⟩ hT0
        omega
  obtain ⟨p, hp, hp0⟩ := h2
  have hT : 0 < total l := by
    have := hle p hp
    have hlen : 0 < l.length := List.length_pos_of_mem hp
    have h3 : 0 < p.2 * l.length := Nat.mul_pos (by omega) hlen
    omega
  have := (key l (fun _ h => h) _ _ rfl rfl).2 h1 hT
  rw [Nat.mul_comm] at this
  omega

/-- Sums over the workers above and not above the mean. -/
theorem balance_sums (N T : Nat) (l : List (Bytes × Nat)) (hN : 0 < N) :
    let above := l.filter fun p => decide (T < p.2 * N)
    let below := l.filter fun p => decide (p.2 * N ≤ T)
    let adv : Int := ((above.map fun p => (p.1, Alloc.ceilDiff p.2 T N)).map (·.2)).sum
    let miss : Int := ((below.map fun p => T - p.2 * N).sum : Nat)
    miss + ((l.length : Int) * 0) ≤ adv * N + ((l.length : Int) * T - total l * N) ∧
    adv * N + ((l.length : Int) * T - total l * N) ≤ miss + above.length * N ∧
    (0 < above.length → adv * N + ((l.length : Int) * T - total l * N) < miss + above.length * N) := by
  induction l with
  | nil => simp [total]
  | cons p l ih =>
    obtain ⟨i1, i2, i3⟩ := ih
    have e1 : ((p :: l).length : Int) * T = T + l.length * T := by
      simp only [List.length_cons, Int.natCast_add, Int.add_mul]; omega
    have e2 : (total (p :: l) : Int) * N = p.2 * N + total l * N := by
      simp only [total, List.map_cons, List.sum_cons, Int.natCast_add, Int.add_mul]
    by_cases h : T < p.2 * N
    · have h' : ¬ p.2 * N ≤ T := by omega
      have hi : (T : Int) < p.2 * N := by rw [← Int.natCast_mul, Int.ofNat_lt]; exact h
      obtain ⟨_, _, h3, h4⟩ := Alloc.ceil_arith p.2 T N (by omega) hi (by omega)
      simp only [List.filter_cons, h, h', decide_true, decide_false, if_true, if_false, List.map_cons, List.sum_cons,
        List.length_cons, Bool.false_eq_true, Int.add_mul, Int.natCast_add, Int.sub_mul, Int.one_mul] at *
      rw [show ((total (p :: l) : Int)) = p.2 + total l by simp [total], Int.add_mul]
      simp only [Int.natCast_one, Int.one_mul] at *
      omega
    · have h' : p.2 * N ≤ T := by omega
      have hs : ((T - p.2 * N : Nat) : Int) = T - p.2 * N := by
        rw [Int.ofNat_sub h', Int.natCast_mul]
      simp only [List.filter_cons, h, h', decide_true, decide_false, if_true, if_false, List.map_cons, List.sum_cons,
        List.length_cons, Bool.false_eq_true, Int.add_mul, Int.natCast_add] at *
      rw [show ((total (p :: l) : Int)) = p.2 + total l by simp [total], Int.add_mul, hs]
      simp only [Int.natCast_one, Int.one_mul] at *
      omega

/-- workers with 4, 3, 2 and 0 tasks -/
def a6 : Alloc :=
  { Alloc.init 10 with w2t := Dict.ofList [([1], PySet.ofList [[1], [2], [3], [4]]), ([2], PySet.ofList [[5], [6], [7]]),
      ([3], PySet.ofList [[8], [9]]), ([4], PySet.empty)] }

/-- **C14, partial.** For all loads of any number of workers: advice is given exactly when some
worker is idle while another has tasks; it names only workers above the mean, each once, and asks
each for at least one and at most all of its tasks so that it is left with at most the mean but more
than the mean minus one; the total is at least what the workers below the mean miss and exceeds that
by less than one task per named worker.

Full statement: additionally `FitsAdvice`, that is, the total is not more than what the workers at or
below the mean can take up to `mean + 1`.  This is false (`C14_asks_for_too_much`). -/
theorem C14_balance_partial (a : Alloc) :
    GoodAdvice (loads a) a.balance.items ∧ NearlyFitsAdvice (loads a) a.balance.items := by
  have hnd : ((loads a).map (·.1)).Nodup := by
    have := a.w2t.nodup
    simpa [loads, Dict.keys, Function.comp_def] using this
  rw [balance_items]
  generalize loads a = l at *
  by_cases hc : (∃ p ∈ l, p.2 = 0) ∧ (∃ p ∈ l, p.2 ≠ 0)
  · rw [if_pos hc]
    obtain ⟨p0, hp0, _⟩ := hc.1
    have hlen : 0 < l.length := List.length_pos_of_mem hp0
    obtain ⟨p1, hp1, habove⟩ := exists_above hc.1 hc.2
    have hp1f : p1 ∈ l.filter fun p => decide (total l < p.2 * l.length) := by
      simp [List.mem_filter, hp1, habove]
    refine ⟨⟨fun _ => hc, fun _ _ => ?_, ?_, ?_⟩, fun _ => ?_⟩
    · intro e
      rw [List.map_eq_nil_iff] at e
      rw [e] at hp1f; simp at hp1f
    · rw [List.map_map]
      exact List.Nodup.sublist ((List.filter_sublist (p := _)).map _) hnd
    · intro w n hm
      obtain ⟨⟨w', c⟩, hf, e⟩ := List.mem_map.1 hm
      cases e
      simp only [List.mem_filter, decide_eq_true_eq] at hf
      obtain ⟨h1, h2, h3, h4⟩ := Alloc.ceil_arith c (total l) l.length (by omega)
        (by rw [← Int.natCast_mul, Int.ofNat_lt]; exact hf.2) (by omega)
      exact ⟨c, hf.1, hf.2, h1, h2, h3, h4⟩
    · obtain ⟨k1, k2, k3⟩ := balance_sums l.length (total l) l hlen
      have hz : ((l.length : Int) * total l - total l * l.length) = 0 := by
        rw [Int.mul_comm]; omega
      have hA : 0 < (l.filter fun p => decide (total l < p.2 * l.length)).length := List.length_pos_of_mem hp1f
      simp only [List.length_map]
      have := k3 (by omega)
      unfold missing
      omega
  · rw [if_neg hc]
    refine ⟨⟨fun h => absurd rfl h, fun h1 h2 => absurd ⟨h1, h2⟩ hc, by simp, by simp⟩, fun h => absurd rfl h⟩

example : a6.balance.items = [([1], 2), ([2], 1)] ∧ loads a6 = [([1], 4), ([2], 3), ([3], 2), ([4], 0)] := by
  decide +kernel

/-- **C14 is false of the code** in its last clause: five workers have one task each, one is idle.
All five are asked for a task although only one can be placed without exceeding `mean + 1`. -/
theorem C14_asks_for_too_much :
    ∃ a, a.balance.items = [([1], 1), ([2], 1), ([3], 1), ([4], 1), ([5], 1)] ∧
      loads a = [([1], 1), ([2], 1), ([3], 1), ([4], 1), ([5], 1), ([6], 0)] ∧
      (∃ tr, allocRun (Alloc.init 10) [.addWorker [1], .assign [11], .addWorker [2], .assign [12], .addWorker [3],
        .assign [13], .addWorker [4], .assign [14], .addWorker [5], .assign [15], .addWorker [6]] = .ok (tr, a)) ∧
      ¬ FitsAdvice (loads a) a.balance.items := by
  refine ⟨_, ?_, ?_, ⟨_, rfl⟩, ?_⟩
  · decide +kernel
  · decide +kernel
  · unfold FitsAdvice
    decide +kernel

/-- **C14.** The code computes the mean with floats.  This makes no difference: as long as the number of tasks times the number of
workers is below `2 ^ 52`, the advice is the one with exact fractions, which the other theorems are about. -/
theorem C14_floats (a : Alloc) (h : ((loads a).map (·.2)).sum * (loads a).length < 2 ^ 52) : a.balanceFloat = a.balance := by
  refine balanceFloat_eq a ?_
  unfold loads at h
  rwa [List.length_map, List.map_map] at h

/-- The mean of seven tasks on three workers is no float; the advice is right. -/
example : ∃ a, (∃ tr, allocRun (Alloc.init 10) [.addWorker [1], .assign [11], .assign [12], .assign [13], .assign [14], .addWorker [2], .assign [15],
      .assign [16], .assign [17], .addWorker [3]] = .ok (tr, a)) ∧ ((loads a).map (·.2)).sum * (loads a).length < 2 ^ 52 ∧
    (toFloat 7 3).m * 3 ≠ 7 * 2 ^ (toFloat 7 3).k ∧ a.balanceFloat.items = [([1], 2), ([2], 1)] := by
  refine ⟨_, ⟨_, rfl⟩, ?_, ?_, ?_⟩ <;> decide +kernel

end Verif.Props
