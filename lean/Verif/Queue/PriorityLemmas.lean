import Verif.Queue.Priority
import Verif.Queue.HeapLemmas

/-!
# Effect of the priority queue operations on its views

Helper lemmas, including the states in which the locator is stale.
-/

namespace Verif.Queue

theorem u8_lt_irrefl (a : UInt8) : ¬ a < a := UInt8.lt_irrefl a

theorem bytesLt_irrefl (a : Bytes) : bytesLt a a = false := by
  induction a with
  | nil => rfl
  | cons x a ih => simp [bytesLt, ih]

theorem bytesLt_asymm (a b : Bytes) (h : bytesLt a b = true) : bytesLt b a = false := by
  induction a generalizing b with
  | nil => cases b <;> simp_all [bytesLt]
  | cons x a ih =>
    cases b with
    | nil => simp [bytesLt] at h
    | cons y b =>
      simp only [bytesLt, Bool.or_eq_true, decide_eq_true_eq, Bool.and_eq_true, beq_iff_eq] at h
      simp only [bytesLt, Bool.or_eq_false_iff, decide_eq_false_iff_not, Bool.and_eq_false_imp, beq_iff_eq]
      rcases h with h | ⟨rfl, h⟩
      · constructor
        · exact UInt8.lt_asymm h
        · rintro rfl; exact absurd h (UInt8.lt_irrefl _)
      · exact ⟨UInt8.lt_irrefl _, fun _ => ih b h⟩

theorem bytesLt_total (a b : Bytes) (h : bytesLt a b = false) (h' : bytesLt b a = false) : a = b := by
  induction a generalizing b with
  | nil => cases b <;> simp_all [bytesLt]
  | cons x a ih =>
    cases b with
    | nil => simp [bytesLt] at h'
    | cons y b =>
      simp only [bytesLt, Bool.or_eq_false_iff, decide_eq_false_iff_not, Bool.and_eq_false_imp,
        beq_iff_eq] at h h'
      have hxy : x = y := UInt8.le_antisymm (UInt8.not_lt.1 h'.1) (UInt8.not_lt.1 h.1)
      subst hxy
      rw [ih b (h.2 rfl) (h'.2 rfl)]

theorem bytesLt_trans (a b c : Bytes) (h : bytesLt a b = true) (h' : bytesLt b c = true) :
    bytesLt a c = true := by
  induction a generalizing b c with
  | nil =>
    cases c with
    | nil => cases b <;> simp [bytesLt] at h'
    | cons => rfl
  | cons x a ih =>
    cases b with
    | nil => simp [bytesLt] at h
    | cons y b =>
      cases c with
      | nil => simp [bytesLt] at h'
      | cons z c =>
        simp only [bytesLt, Bool.or_eq_true, decide_eq_true_eq, Bool.and_eq_true, beq_iff_eq] at *
        rcases h with h | ⟨rfl, h⟩ <;> rcases h' with h' | ⟨rfl, h'⟩
        · exact .inl (UInt8.lt_trans h h')
        · exact .inl h
        · exact .inl h'
        · exact .inr ⟨rfl, ih _ _ h h'⟩

theorem entryLt_total (a b : Int × Bytes) (h : entryLt a b = false) (h' : entryLt b a = false) : a = b := by
  obtain ⟨p, d⟩ := a
  obtain ⟨p', d'⟩ := b
  simp only [entryLt, Bool.or_eq_false_iff, decide_eq_false_iff_not, Bool.and_eq_false_imp, beq_iff_eq] at *
  have : p = p' := by omega
  subst this
  rw [bytesLt_total d d' (h.2 rfl) (h'.2 rfl)]

theorem entryLt_trans (a b c : Int × Bytes) (h : entryLt a b = true) (h' : entryLt b c = true) :
    entryLt a c = true := by
  obtain ⟨p, d⟩ := a
  obtain ⟨p', d'⟩ := b
  obtain ⟨p'', d''⟩ := c
  simp only [entryLt, Bool.or_eq_true, decide_eq_true_eq, Bool.and_eq_true, beq_iff_eq] at *
  rcases h with h | ⟨rfl, h⟩ <;> rcases h' with h' | ⟨rfl, h'⟩
  · exact .inl (by omega)
  · exact .inl h
  · exact .inl h'
  · exact .inr ⟨rfl, bytesLt_trans _ _ _ h h'⟩

theorem entryLt_irrefl (a : Int × Bytes) : entryLt a a = false := by
  simp [entryLt, bytesLt_irrefl]

theorem entryLt_order : IsOrder entryLt where
  asymm a b h := by
    cases h' : entryLt b a with
    | false => rfl
    | true =>
      have := entryLt_trans a b a h h'
      rw [entryLt_irrefl] at this; exact this.symm
  trans a b c h h' := by
    cases hc : entryLt c a with
    | false => rfl
    | true =>
      cases hab : entryLt a b with
      | true =>
        have := entryLt_trans c a b hc hab
        rw [h'] at this; exact this.symm
      | false =>
        have := entryLt_total a b hab h
        subst this
        rw [h'] at hc; exact hc.symm

namespace PQueue

theorem lt_order (q : PQueue) : IsOrder q.lt where
  asymm _ _ h := entryLt_order.asymm _ _ h
  trans _ _ _ h h' := entryLt_order.trans _ _ _ h h'

/-- Representation invariant.  The locator may be stale. -/
structure WF (q : PQueue) : Prop where
  heap : HeapInv q.lt q.heap
  nodup : (q.entries.map (·.2)).Nodup
  alloc : ∀ r ∈ q.heap, r < q.fresh
  loc : ∀ d r, q.loc.get? d = some r → r < q.fresh ∧ (q.key r).2 = d
  dom : ∀ d, (∃ r, q.loc.get? d = some r) ↔ d ∈ q.entries.map (·.2)

theorem wf_empty : empty.WF := by
  constructor <;> simp [empty, entries, HeapInv]

theorem find_data {l : List (Int × Bytes)} (hn : (l.map (·.2)).Nodup) (p : Int) (d : Bytes) :
    ((l.find? fun e => decide (e.2 = d)).map (·.1) = some p) ↔ (p, d) ∈ l := by
  induction l with
  | nil => simp
  | cons e l ih =>
    obtain ⟨p', d'⟩ := e
    simp only [List.map_cons, List.nodup_cons] at hn
    by_cases h : d' = d
    · subst h
      simp only [List.find?_cons_of_pos, decide_true, Option.map_some, Option.some.injEq, List.mem_cons,
        Prod.mk.injEq, and_true]
      constructor
      · rintro rfl; exact .inl rfl
      · rintro (h | h)
        · exact h.symm
        · exact absurd (List.mem_map.2 ⟨_, h, rfl⟩) hn.1
    · rw [List.find?_cons_of_neg (by simpa using h), ih hn.2]
      simp [Ne.symm h]

theorem prio_iff {q : PQueue} (h : q.WF) {p : Int} {d : Bytes} : q.prio d = some p ↔ (p, d) ∈ q.entries :=
  find_data h.nodup p d

theorem prio_none {q : PQueue} (h : q.WF) {d : Bytes} : q.prio d = none ↔ d ∉ q.entries.map (·.2) := by
  constructor
  · intro hn hm
    obtain ⟨⟨p, d'⟩, hm', rfl⟩ := List.mem_map.1 hm
    rw [(prio_iff h).2 hm'] at hn; cases hn
  · intro hm
    cases hp : q.prio d with
    | none => rfl
    | some p => exact absurd (List.mem_map.2 ⟨_, (prio_iff h).1 hp, rfl⟩) hm

theorem len_zero {q : PQueue} (h : q.WF) : q.len = 0 ↔ ∀ d, q.prio d = none := by
  constructor
  · intro hl d
    rw [prio_none h]
    have : q.heap = [] := List.length_eq_zero_iff.1 hl
    simp [entries, this]
  · intro hd
    cases hh : q.heap with
    | nil => simp [len, hh]
    | cons r l =>
      have := (prio_none h).1 (hd (q.key r).2)
      simp [entries, hh] at this

/-- The heap holds each identity once. -/
theorem heap_nodup {q : PQueue} (h : q.WF) : q.heap.Nodup := by
  have := h.nodup
  simp only [entries, List.map_map] at this
  generalize q.heap = l at this
  induction l with
  | nil => simp
  | cons a l ih =>
    simp only [List.map_cons, List.nodup_cons] at this ⊢
    exact ⟨fun hm => this.1 (List.mem_map.2 ⟨a, hm, rfl⟩), ih this.2⟩

/-- Two heap entries with the same data are the same object. -/
theorem heap_inj {q : PQueue} (h : q.WF) {r r' : Nat} (hr : r ∈ q.heap) (hr' : r' ∈ q.heap)
    (e : (q.key r).2 = (q.key r').2) : r = r' := by
  have := h.nodup
  simp only [entries, List.map_map] at this
  generalize q.heap = l at this hr hr'
  induction l with
  | nil => simp at hr
  | cons a l ih =>
    simp only [List.map_cons, List.nodup_cons, List.mem_map, Function.comp] at this
    rcases List.mem_cons.1 hr with h1 | h1 <;> rcases List.mem_cons.1 hr' with h2 | h2
    · rw [h1, h2]
    · subst h1; exact absurd ⟨r', h2, e.symm⟩ this.1
    · subst h2; exact absurd ⟨r, h1, e⟩ this.1
    · exact ih this.2 h1 h2

theorem key_alloc (q : PQueue) (e : Int × Bytes) (r : Nat) :
    (q.alloc e).key r = if q.fresh = r then e else q.key r := by
  simp only [key, alloc, Dict.get?_set]
  split <;> rfl

theorem heapInv_congr {lt lt' : Nat → Nat → Bool} {h : List Nat}
    (e : ∀ a ∈ h, ∀ b ∈ h, lt a b = lt' a b) (hi : HeapInv lt h) : HeapInv lt' h := by
  intro i a b h0 ha hb
  rw [← e b (List.mem_of_getElem? hb) a (List.mem_of_getElem? ha)]
  exact hi i a b h0 ha hb

/-- Pushing a new object whose data is not in the heap: common part of `put` and
`max_priority`. -/
theorem push_spec {q : PQueue} {heap : List Nat} (hh : HeapInv q.lt heap)
    (ha : ∀ r ∈ heap, r < q.fresh) (e : Int × Bytes) :
    HeapInv (q.alloc e).lt (heappush (q.alloc e).lt heap q.fresh) ∧
    (heappush (q.alloc e).lt heap q.fresh).Perm (q.fresh :: heap) ∧
    ((heappush (q.alloc e).lt heap q.fresh).map (q.alloc e).key).Perm (e :: heap.map q.key) := by
  have hk : ∀ r ∈ heap, (q.alloc e).key r = q.key r := by
    intro r hr
    rw [key_alloc, if_neg (by have := ha r hr; omega)]
  have hh' : HeapInv (q.alloc e).lt heap := by
    refine heapInv_congr ?_ hh
    intro a haa b hb
    simp only [lt, hk a haa, hk b hb]
  obtain ⟨h1, h2⟩ := heappush_spec (lt_order _) heap q.fresh hh'
  refine ⟨h1, h2, ?_⟩
  refine (h2.map _).trans ?_
  simp only [List.map_cons, key_alloc, if_true]
  rw [List.map_congr_left (g := q.key)]
  exact hk

/-- Effect of `put` of a new data item. -/
theorem put_spec {q : PQueue} (h : q.WF) (p : Int) (d : Bytes) (hd : q.prio d = none) :
    (q.put (p, d)).WF ∧ (q.put (p, d)).entries.Perm ((p, d) :: q.entries) ∧
    (∀ d', (q.put (p, d)).prio d' = if d = d' then some p else q.prio d') ∧
    (∀ d', (q.put (p, d)).stale d' = if d = d' then none else q.stale d') := by
  obtain ⟨h1, h2, h3⟩ := push_spec h.heap h.alloc (p, d)
  have hd' := (prio_none h).1 hd
  have hent : (q.put (p, d)).entries.Perm ((p, d) :: q.entries) := h3
  have hnd : ((q.put (p, d)).entries.map (·.2)).Nodup := by
    rw [(hent.map _).nodup_iff]
    simp only [List.map_cons, List.nodup_cons]
    exact ⟨hd', h.nodup⟩
  have hmem : ∀ r, r ∈ (q.put (p, d)).heap ↔ r = q.fresh ∨ r ∈ q.heap := by
    intro r
    have := h2.mem_iff (a := r)
    rw [List.mem_cons] at this
    exact this
  have hkey : ∀ r, (q.put (p, d)).key r = if q.fresh = r then (p, d) else q.key r :=
    fun r => key_alloc q (p, d) r
  have hwf : (q.put (p, d)).WF := by
    refine ⟨h1, hnd, ?_, ?_, ?_⟩
    · intro r hr
      show r < q.fresh + 1
      rcases (hmem r).1 hr with rfl | hr
      · omega
      · have := h.alloc r hr; omega
    · intro d' r hr
      show r < q.fresh + 1 ∧ _
      have hr' : (q.loc.set d q.fresh).get? d' = some r := hr
      rw [Dict.get?_set] at hr'
      rw [hkey]
      split at hr'
      · next e => cases hr'; subst e; simp
      · have := h.loc d' r hr'
        rw [if_neg (by omega)]
        exact ⟨by omega, this.2⟩
    · intro d'
      show (∃ r, (q.loc.set d q.fresh).get? d' = some r) ↔ _
      rw [(hent.map _).mem_iff]
      simp only [Dict.get?_set, List.map_cons, List.mem_cons]
      rw [← h.dom d']
      by_cases e : d = d'
      · subst e; simp
      · simp [e, Ne.symm e]
  refine ⟨hwf, hent, ?_, ?_⟩
  · intro d'
    apply Option.ext
    intro p'
    rw [prio_iff hwf, hent.mem_iff]
    by_cases e : d = d'
    · subst e
      simp only [if_true, List.mem_cons, Prod.mk.injEq, and_true, Option.some.injEq]
      constructor
      · rintro (e | hm)
        · exact e.symm
        · exact absurd (List.mem_map.2 ⟨_, hm, rfl⟩) hd'
      · rintro rfl; exact .inl rfl
    · rw [if_neg e, prio_iff h]
      simp [Ne.symm e]
  · intro d'
    simp only [stale]
    show (match (q.loc.set d q.fresh).get? d' with
      | none => none
      | some r => if r ∈ (q.put (p, d)).heap then none else some ((q.put (p, d)).key r).1) = _
    rw [Dict.get?_set]
    by_cases e : d = d'
    · subst e
      simp [(hmem q.fresh)]
    · simp only [e, if_false]
      cases hl : q.loc.get? d' with
      | none => rfl
      | some r =>
        have := (h.loc d' r hl).1
        simp only [hmem, hkey]
        have e1 : ¬ q.fresh = r := by omega
        have e2 : ¬ r = q.fresh := by omega
        simp [e1, e2]

/-- What `heappop` gives on a well-formed non-empty queue. -/
theorem pop_spec {q : PQueue} (h : q.WF) (hne : q.heap ≠ []) :
    ∃ r heap, heappop q.lt q.heap = .ok (r, heap) ∧ r ∈ q.heap ∧ r ∉ heap ∧
      HeapInv q.lt heap ∧ (r :: heap).Perm q.heap ∧
      (∀ e ∈ q.entries, entryLt e (q.key r) = false) := by
  obtain ⟨r, heap, e, h0, hi, hp, hm⟩ := heappop_spec (lt_order q) q.heap h.heap hne
  have hnd := (hp.nodup_iff).2 (heap_nodup h)
  rw [List.nodup_cons] at hnd
  refine ⟨r, heap, e, List.mem_of_getElem? h0, hnd.1, hi, hp, ?_⟩
  intro e he
  obtain ⟨r', hr', rfl⟩ := List.mem_map.1 he
  exact hm r' hr'

/-- Effect of `get`. -/
theorem get_spec {q : PQueue} (h : q.WF) (hne : q.heap ≠ []) :
    ∃ p d q', q.get = .ok ((p, d), q') ∧ q'.WF ∧ q.prio d = some p ∧
      (∀ d' p', q.prio d' = some p' → entryLt (p', d') (p, d) = false) ∧
      (∀ d', q'.prio d' = if d = d' then none else q.prio d') ∧
      (∀ d', q'.stale d' = if d = d' then none else q.stale d') := by
  obtain ⟨r, heap, e, hr, hrn, hi, hp, hm⟩ := pop_spec h hne
  obtain ⟨p, d, hk⟩ : ∃ p d, q.key r = (p, d) := ⟨_, _, rfl⟩
  have hmem : (p, d) ∈ q.entries := hk ▸ List.mem_map.2 ⟨r, hr, rfl⟩
  have hdd : d ∈ q.entries.map (·.2) := List.mem_map.2 ⟨_, hmem, rfl⟩
  obtain ⟨rl, hrl⟩ := (h.dom d).2 hdd
  have hpe : ((p, d) :: heap.map q.key).Perm q.entries := by
    have := hp.map q.key
    rw [List.map_cons, hk] at this
    exact this
  let q' : PQueue := { q with heap, loc := q.loc.erase d }
  have hent : q'.entries = heap.map q.key := rfl
  have hnd := ((hpe.map (·.2)).nodup_iff).2 h.nodup
  simp only [List.map_cons, List.nodup_cons] at hnd
  have hwf : q'.WF := by
    refine ⟨hi, hnd.2, ?_, ?_, ?_⟩
    · intro r' hr'
      exact h.alloc r' (hp.mem_iff.1 (List.mem_cons_of_mem _ hr'))
    · intro d' r' hl
      have hl' : (q.loc.erase d).get? d' = some r' := hl
      rw [Dict.get?_erase] at hl'
      split at hl'
      · cases hl'
      · exact h.loc d' r' hl'
    · intro d'
      show (∃ r, (q.loc.erase d).get? d' = some r) ↔ _
      have h1 := h.dom d'
      have h2 := (hpe.map (·.2)).mem_iff (a := d')
      rw [Dict.get?_erase]
      simp only [List.map_cons, List.mem_cons] at h2
      by_cases ed : d = d'
      · subst ed; simp only [if_true]; simpa [hent] using hnd.1
      · simp only [ed, if_false, hent]
        rw [h1, ← h2]
        simp [Ne.symm ed]
  refine ⟨p, d, q', ?_, hwf, (prio_iff h).2 hmem, ?_, ?_, ?_⟩
  · simp only [get, e, Py.ok_bind, hk, Dict.pop, Dict.getPy, hrl, orRaise, Py.pure_eq]
    rfl
  · intro d' p' hp'
    rw [← hk]
    exact hm _ ((prio_iff h).1 hp')
  · intro d'
    apply Option.ext
    intro p'
    rw [prio_iff hwf, hent]
    by_cases ed : d = d'
    · subst ed
      simp only [if_true, reduceCtorEq, iff_false]
      intro hm
      exact hnd.1 (List.mem_map.2 ⟨_, hm, rfl⟩)
    · rw [if_neg ed, prio_iff h, ← hpe.mem_iff]
      simp [Ne.symm ed]
  · intro d'
    simp only [stale]
    show (match (q.loc.erase d).get? d' with
      | none => none
      | some r => if r ∈ heap then none else some (q.key r).1) = _
    rw [Dict.get?_erase]
    by_cases ed : d = d'
    · simp [ed]
    · simp only [ed, if_false]
      cases hl : q.loc.get? d' with
      | none => rfl
      | some r' =>
        have hne : r' ≠ r := by
          rintro rfl
          have := (h.loc d' r' hl).2
          rw [hk] at this
          exact ed this
        have := hp.mem_iff (a := r')
        simp only [List.mem_cons, hne, false_or] at this
        simp [this]

/-- `index` finds the heap object with the same value, if there is one. -/
theorem index_spec (q : PQueue) (r : Nat) :
    (∃ i r', q.index r = .ok i ∧ q.heap[i]? = some r' ∧ q.key r' = q.key r) ∨
    (q.index r = .error .valueError ∧ ∀ r' ∈ q.heap, q.key r' ≠ q.key r) := by
  unfold index
  cases hf : q.heap.findIdx? fun x => decide (q.key x = q.key r) with
  | none =>
    right
    refine ⟨rfl, ?_⟩
    rw [List.findIdx?_eq_none_iff] at hf
    intro r' hr'
    simpa using hf r' hr'
  | some i =>
    left
    rw [List.findIdx?_eq_some_iff_getElem] at hf
    obtain ⟨hi, hk, _⟩ := hf
    exact ⟨i, q.heap[i], rfl, List.getElem?_eq_getElem hi, by simpa using hk⟩

theorem key_setPriority (q : PQueue) (r : Nat) (p : Int) (r' : Nat) :
    (q.setPriority r p).key r' = if r = r' then (p, (q.key r).2) else q.key r' := by
  simp only [key, setPriority, Dict.get?_set]
  split <;> rfl

/-- Lowering the priority of the heap object at position `i` and sifting it. -/
theorem lower_spec {q : PQueue} (h : q.WF) {i r : Nat} (hi : q.heap[i]? = some r) (p : Int)
    (hp : p ≤ (q.key r).1) :
    HeapInv (q.setPriority r p).lt (siftdown (q.setPriority r p).lt q.heap i) ∧
    (siftdown (q.setPriority r p).lt q.heap i).Perm q.heap := by
  have hil := (List.getElem?_eq_some_iff.1 hi).1
  apply siftdown_spec (lt_order _) _ _ hil
  have hnd := heap_nodup h
  have huniq : ∀ (j : Nat) x, q.heap[j]? = some x → j ≠ i → x ≠ r := by
    rintro j x hj hji rfl
    obtain ⟨hj1, hj2⟩ := List.getElem?_eq_some_iff.1 hj
    obtain ⟨hi1, hi2⟩ := List.getElem?_eq_some_iff.1 hi
    exact hji ((List.getElem_inj hnd).1 (hj2.trans hi2.symm))
  have hlow : ∀ x, entryLt x (p, (q.key r).2) = true → entryLt x (q.key r) = true := by
    intro x hx
    simp only [entryLt, Bool.or_eq_true, decide_eq_true_eq, Bool.and_eq_true, beq_iff_eq] at *
    rcases hx with hx | ⟨hx, hx'⟩
    · exact .inl (by omega)
    · by_cases hpp : p = (q.key r).1
      · exact .inr ⟨by omega, hx'⟩
      · exact .inl (by omega)
  constructor
  · intro j a b hj hne ha hb
    have hbr : b ≠ r := huniq j b hb hne
    have old := h.heap j a b hj ha hb
    simp only [lt, key_setPriority] at *
    rw [if_neg (Ne.symm hbr)]
    split
    · next e =>
      subst e
      cases hx : entryLt (q.key b) (p, (q.key r).2) with
      | false => rfl
      | true => rw [hlow _ hx] at old; exact old
    · exact old
  · intro c a b h0 hc hcp ha hb
    have hbr : b ≠ r := huniq c b hb (by omega)
    have har : a ≠ r := huniq _ a ha (by omega)
    have o1 := h.heap i a r h0 ha hi
    have o2 := h.heap c r b hc (by rw [hcp]; exact hi) hb
    have := (lt_order q).trans _ _ _ o1 o2
    simp only [lt, key_setPriority] at *
    rw [if_neg (Ne.symm hbr), if_neg (Ne.symm har)]
    exact this

/-- `decrease_priority` of an unknown item. -/
theorem decrease_unknown {q : PQueue} (h : q.WF) {d : Bytes} (hd : q.prio d = none) :
    q.decrease d = .error .keyError := by
  have : q.loc.get? d = none := by
    cases hl : q.loc.get? d with
    | none => rfl
    | some r => exact absurd ((h.dom d).1 ⟨r, hl⟩) ((prio_none h).1 hd)
  simp [decrease, Dict.getPy, this, orRaise]

/-- The located object and the heap object of `d`. -/
theorem locate {q : PQueue} (h : q.WF) {d : Bytes} {p : Int} (hp : q.prio d = some p) :
    ∃ r rh, q.loc.get? d = some r ∧ (q.key r).2 = d ∧ r < q.fresh ∧ rh ∈ q.heap ∧ q.key rh = (p, d) ∧
      (q.stale d = none → r = rh) ∧ (∀ l, q.stale d = some l → r ∉ q.heap ∧ q.key r = (l, d)) := by
  have hm := (prio_iff h).1 hp
  obtain ⟨rh, hrh, hk⟩ := List.mem_map.1 hm
  obtain ⟨r, hr⟩ := (h.dom d).2 (List.mem_map.2 ⟨_, hm, rfl⟩)
  obtain ⟨hf, hkd⟩ := h.loc d r hr
  refine ⟨r, rh, hr, hkd, hf, hrh, hk, ?_, ?_⟩
  · intro hs
    simp only [stale, hr] at hs
    split at hs
    · next hrm => exact heap_inj h hrm hrh (by rw [hkd, hk])
    · cases hs
  · intro l hs
    simp only [stale, hr] at hs
    split at hs
    · cases hs
    · next hrm =>
      cases hs
      exact ⟨hrm, Prod.ext rfl hkd⟩

/-- Effect of `decrease_priority` when the locator is up to date for `d`. -/
theorem decrease_live {q : PQueue} (h : q.WF) {d : Bytes} {p : Int} (hp : q.prio d = some p)
    (hs : q.stale d = none) :
    ∃ q', q.decrease d = .ok q' ∧ q'.WF ∧
      (∀ d', q'.prio d' = if d = d' then some (p - 1) else q.prio d') ∧
      (∀ d', q'.stale d' = q.stale d') := by
  obtain ⟨r, rh, hl, hkd, hf, hrh, hk, h1, _⟩ := locate h hp
  have := h1 hs
  subst this
  obtain ⟨i, r', hix, hi, hkr⟩ : ∃ i r', q.index r = .ok i ∧ q.heap[i]? = some r' ∧ q.key r' = q.key r := by
    rcases index_spec q r with h | ⟨_, h⟩
    · exact h
    · exact absurd rfl (h r hrh)
  have : r' = r := heap_inj h (List.mem_of_getElem? hi) hrh (by rw [hkr])
  subst this
  obtain ⟨g1, g2⟩ := lower_spec h hi ((q.key r').1 - 1) (by omega)
  let q' : PQueue := { q.setPriority r' ((q.key r').1 - 1) with
    heap := siftdown (q.setPriority r' ((q.key r').1 - 1)).lt q.heap i }
  have hkey : ∀ x, q'.key x = if r' = x then (p - 1, d) else q.key x := by
    intro x
    have := key_setPriority q r' ((q.key r').1 - 1) x
    show (q.setPriority r' ((q.key r').1 - 1)).key x = _
    rw [this, hk]
  have hmem : ∀ x, x ∈ q'.heap ↔ x ∈ q.heap := fun x => g2.mem_iff
  have hdat : ∀ x, (q'.key x).2 = (q.key x).2 := by
    intro x; rw [hkey]; split
    · next e => rw [← e, hk]
    · rfl
  have hdl : (q'.entries.map (·.2)).Perm (q.entries.map (·.2)) := by
    simp only [entries, List.map_map]
    have e1 : q'.heap.map ((·.2) ∘ q'.key) = q'.heap.map ((·.2) ∘ q.key) :=
      List.map_congr_left fun x _ => hdat x
    rw [e1]
    exact g2.map _
  have hwf : q'.WF := by
    refine ⟨g1, (hdl.nodup_iff).2 h.nodup, ?_, ?_, ?_⟩
    · intro x hx; exact h.alloc x ((hmem x).1 hx)
    · intro d' x hx
      rw [hdat]; exact h.loc d' x hx
    · intro d'
      rw [hdl.mem_iff]; exact h.dom d'
  refine ⟨q', ?_, hwf, ?_, ?_⟩
  · simp only [decrease, Dict.getPy, hl, orRaise, Py.ok_bind, hix, Py.pure_eq]
    rfl
  · intro d'
    apply Option.ext
    intro p'
    rw [prio_iff hwf]
    have hiff : (p', d') ∈ q'.entries ↔ ∃ x ∈ q.heap, q'.key x = (p', d') := by
      simp only [entries, List.mem_map, hmem]
    rw [hiff]
    by_cases ed : d = d'
    · subst ed
      simp only [if_true, Option.some.injEq]
      constructor
      · rintro ⟨x, hx, hxk⟩
        rw [hkey] at hxk
        split at hxk
        · cases hxk; rfl
        · next ne =>
          have := heap_inj h hx hrh (by rw [hxk, hk])
          exact absurd this.symm ne
      · rintro rfl
        exact ⟨r', hrh, by rw [hkey]; simp⟩
    · rw [if_neg ed, prio_iff h]
      simp only [entries, List.mem_map]
      constructor
      · rintro ⟨x, hx, hxk⟩
        rw [hkey] at hxk
        split at hxk
        · cases hxk; exact absurd rfl ed
        · exact ⟨x, hx, hxk⟩
      · rintro ⟨x, hx, hxk⟩
        refine ⟨x, hx, ?_⟩
        rw [hkey, if_neg]
        · exact hxk
        · rintro rfl
          rw [hk] at hxk; cases hxk; exact ed rfl
  · intro d'
    show (match q.loc.get? d' with
      | none => none
      | some r => if r ∈ q'.heap then none else some (q'.key r).1) = _
    simp only [stale]
    cases hl' : q.loc.get? d' with
    | none => rfl
    | some x =>
      simp only [hmem]
      split
      · rfl
      · next hx =>
        have : ¬ r' = x := by rintro rfl; exact hx hrh
        rw [hkey, if_neg this]

/-- Effect of `decrease_priority` when the locator is stale for `d`: either the stale object
happens to have the same value as the heap entry, and then only the stale object changes, or
`ValueError` is raised. -/
theorem decrease_stale {q : PQueue} (h : q.WF) {d : Bytes} {p l : Int} (hp : q.prio d = some p)
    (hs : q.stale d = some l) :
    (l = p ∧ ∃ q', q.decrease d = .ok q' ∧ q'.WF ∧ (∀ d', q'.prio d' = q.prio d') ∧
      (∀ d', q'.stale d' = if d = d' then some (l - 1) else q.stale d')) ∨
    (l ≠ p ∧ q.decrease d = .error .valueError) := by
  obtain ⟨r, rh, hl, hkd, hf, hrh, hk, _, h2⟩ := locate h hp
  obtain ⟨hrn, hkr⟩ := h2 l hs
  by_cases elp : l = p
  · left
    subst elp
    refine ⟨rfl, ?_⟩
    obtain ⟨i, r', hix, hi, hkr'⟩ : ∃ i r', q.index r = .ok i ∧ q.heap[i]? = some r' ∧ q.key r' = q.key r := by
      rcases index_spec q r with h | ⟨_, h⟩
      · exact h
      · exact absurd (hk.trans hkr.symm) (h rh hrh)
    let q1 := q.setPriority r ((q.key r).1 - 1)
    have hkey : ∀ x, q1.key x = if r = x then (l - 1, d) else q.key x := by
      intro x
      have := key_setPriority q r ((q.key r).1 - 1) x
      simp only [q1]
      rw [this, hkr]
    have hsame : ∀ x ∈ q.heap, q1.key x = q.key x := by
      intro x hx
      rw [hkey, if_neg]
      rintro rfl; exact hrn hx
    have hinv : HeapInv q1.lt q.heap := by
      refine heapInv_congr ?_ h.heap
      intro a ha b hb
      simp only [lt, hsame a ha, hsame b hb]
    have hsd : siftdown q1.lt q.heap i = q.heap := siftdown_heap _ hinv i
    have hent : q1.entries = q.entries := List.map_congr_left hsame
    have hwf : q1.WF := by
      refine ⟨hinv, by rw [hent]; exact h.nodup, h.alloc, ?_, ?_⟩
      · intro d' x hx
        have := h.loc d' x hx
        refine ⟨this.1, ?_⟩
        rw [hkey]
        split
        · next e => subst e; rw [hkr] at this; exact this.2
        · exact this.2
      · intro d'; rw [hent]; exact h.dom d'
    refine ⟨q1, ?_, hwf, ?_, ?_⟩
    · simp only [decrease, Dict.getPy, hl, orRaise, Py.ok_bind, hix, Py.pure_eq]
      show Except.ok { q1 with heap := siftdown q1.lt q.heap i } = _
      rw [hsd]
      rfl
    · intro d'; simp only [prio, hent]
    · intro d'
      show (match q.loc.get? d' with
        | none => none
        | some r => if r ∈ q.heap then none else some (q1.key r).1) = _
      simp only [stale]
      by_cases ed : d = d'
      · subst ed
        simp [hl, hrn, hkey]
      · simp only [ed, if_false]
        cases hl' : q.loc.get? d' with
        | none => rfl
        | some x =>
          have : ¬ r = x := by
            rintro rfl
            have := (h.loc d' r hl').2
            rw [hkr] at this
            exact ed this
          simp [hkey, this]
  · right
    refine ⟨elp, ?_⟩
    rcases index_spec q r with ⟨i, r', _, hi, hk'⟩ | ⟨hix, _⟩
    · have hr' := List.mem_of_getElem? hi
      have := heap_inj h hr' hrh (by rw [hk', hkr, hk])
      subst this
      rw [hk, hkr] at hk'
      cases hk'
      exact absurd rfl elp
    · simp [decrease, Dict.getPy, hl, orRaise, hix]

/-- `remove` of an unknown item. -/
theorem remove_unknown {q : PQueue} (h : q.WF) {d : Bytes} (hd : q.prio d = none) :
    q.remove d = .error .keyError := by
  have : q.loc.get? d = none := by
    cases hl : q.loc.get? d with
    | none => rfl
    | some r => exact absurd ((h.dom d).1 ⟨r, hl⟩) ((prio_none h).1 hd)
  simp [remove, Dict.pop, Dict.getPy, this, orRaise]

/-- Effect of `remove` when the locator is up to date for `d` and no priority is negative. -/
theorem remove_live {q : PQueue} (h : q.WF) {d : Bytes} {p : Int} (hp : q.prio d = some p)
    (hs : q.stale d = none) (h0 : ∀ d' p', q.prio d' = some p' → 0 ≤ p') :
    ∃ q', q.remove d = .ok q' ∧ q'.WF ∧
      (∀ d', q'.prio d' = if d = d' then none else q.prio d') ∧
      (∀ d', q'.stale d' = if d = d' then none else q.stale d') := by
  obtain ⟨r, rh, hl, hkd, hf, hrh, hk, h1, _⟩ := locate h hp
  have := h1 hs
  subst this
  let q0 : PQueue := { q with loc := q.loc.erase d }
  have hk0 : ∀ x, q0.key x = q.key x := fun _ => rfl
  obtain ⟨i, r', hix, hi, hkr⟩ : ∃ i r', q.index r = .ok i ∧ q.heap[i]? = some r' ∧ q.key r' = q.key r := by
    rcases index_spec q r with h | ⟨_, h⟩
    · exact h
    · exact absurd rfl (h r hrh)
  have : r' = r := heap_inj h (List.mem_of_getElem? hi) hrh (by rw [hkr])
  subst this
  have hp0 := h0 d p hp
  obtain ⟨g1, g2⟩ := lower_spec h hi (-1) (by rw [hk]; show -1 ≤ p; omega)
  -- the queue after the sift
  let q1 : PQueue := { q0.setPriority r' (-1) with
    heap := siftdown (q0.setPriority r' (-1)).lt q.heap i }
  have hlt : q1.lt = (q.setPriority r' (-1)).lt := rfl
  have hkey : ∀ x, q1.key x = if r' = x then (-1, d) else q.key x := by
    intro x
    have := key_setPriority q r' (-1) x
    rw [hk] at this
    exact this
  have hheap1 : HeapInv q1.lt q1.heap := g1
  have hperm1 : q1.heap.Perm q.heap := g2
  obtain ⟨top, heap, hpop, _, hinv, hperm, hmin⟩ := heappop_spec (lt_order q1) q1.heap hheap1 (by
    intro he
    have := (hperm1.mem_iff (a := r')).2 hrh
    rw [he] at this; simp at this)
  have htop : top = r' := by
    have hm := hmin r' ((hperm1.mem_iff).2 hrh)
    have htm : top ∈ q.heap := hperm1.mem_iff.1 (hperm.mem_iff.1 (by simp))
    by_cases e : r' = top
    · exact e.symm
    · simp only [lt, hkey, if_true, e, if_false] at hm
      have hnn : 0 ≤ (q.key top).1 := h0 (q.key top).2 _ ((prio_iff h).2 (List.mem_map.2 ⟨top, htm, rfl⟩))
      simp only [entryLt, Bool.or_eq_false_iff, decide_eq_false_iff_not] at hm
      omega
  subst htop
  have hpq : (top :: heap).Perm q.heap := hperm.trans hperm1
  have hnd := (hpq.nodup_iff).2 (heap_nodup h)
  rw [List.nodup_cons] at hnd
  have hsame : ∀ x ∈ heap, q1.key x = q.key x := by
    intro x hx
    rw [hkey, if_neg]
    rintro rfl; exact hnd.1 hx
  let q' : PQueue := { q1 with heap }
  have hent : q'.entries = heap.map q.key := List.map_congr_left hsame
  have hpe : ((p, d) :: heap.map q.key).Perm q.entries := by
    have := hpq.map q.key
    rw [List.map_cons, hk] at this
    exact this
  have hndd := ((hpe.map (·.2)).nodup_iff).2 h.nodup
  simp only [List.map_cons, List.nodup_cons] at hndd
  have hwf : q'.WF := by
    refine ⟨hinv, by rw [hent]; exact hndd.2, ?_, ?_, ?_⟩
    · intro x hx
      exact h.alloc x (hpq.mem_iff.1 (List.mem_cons_of_mem _ hx))
    · intro d' x hx
      have hx' : (q.loc.erase d).get? d' = some x := hx
      rw [Dict.get?_erase] at hx'
      split at hx'
      · cases hx'
      · next ed =>
        have := h.loc d' x hx'
        refine ⟨this.1, ?_⟩
        show (q1.key x).2 = d'
        rw [hkey, if_neg]
        · exact this.2
        · rintro rfl
          rw [hk] at this; exact ed this.2
    · intro d'
      show (∃ r, (q.loc.erase d).get? d' = some r) ↔ _
      have h1 := h.dom d'
      have h2 := (hpe.map (·.2)).mem_iff (a := d')
      rw [Dict.get?_erase]
      simp only [List.map_cons, List.mem_cons] at h2
      by_cases ed : d = d'
      · subst ed; simp only [if_true]; simpa [hent] using hndd.1
      · simp only [ed, if_false, hent]
        rw [h1, ← h2]
        simp [Ne.symm ed]
  refine ⟨q', ?_, hwf, ?_, ?_⟩
  · have hix0 : q0.index top = .ok i := hix
    simp only [remove, Dict.pop, Dict.getPy, hl, orRaise, Py.ok_bind, Py.pure_eq]
    show (do
      let i ← q0.index top
      let q := q0.setPriority top (-1)
      let q := { q with heap := siftdown q.lt q.heap i }
      let (top', heap) ← heappop q.lt q.heap
      pyAssert (decide (q.key top' = q.key top))
      return { q with heap }) = _
    rw [hix0]
    show (do
      let (top', heap) ← heappop q1.lt q1.heap
      pyAssert (decide (q1.key top' = q1.key top))
      return { q1 with heap }) = _
    rw [hpop]
    simp [pyAssert]
    rfl
  · intro d'
    apply Option.ext
    intro p'
    rw [prio_iff hwf, hent]
    by_cases ed : d = d'
    · subst ed
      simp only [if_true, reduceCtorEq, iff_false]
      intro hm
      exact hndd.1 (List.mem_map.2 ⟨_, hm, rfl⟩)
    · rw [if_neg ed, prio_iff h, ← hpe.mem_iff]
      simp [Ne.symm ed]
  · intro d'
    show (match (q.loc.erase d).get? d' with
      | none => none
      | some r => if r ∈ heap then none else some (q1.key r).1) = _
    rw [Dict.get?_erase]
    simp only [stale]
    by_cases ed : d = d'
    · simp [ed]
    · simp only [ed, if_false]
      cases hl' : q.loc.get? d' with
      | none => rfl
      | some x =>
        have hne : ¬ top = x := by
          rintro rfl
          have := (h.loc d' top hl').2
          rw [hk] at this; exact ed this
        have := hpq.mem_iff (a := x)
        simp only [List.mem_cons, Ne.symm hne, false_or] at this
        simp [this, hkey, hne]

/-- `remove` with a stale locator always raises when no priority is negative: the assertion
fails, or the stale object is not found. -/
theorem remove_stale {q : PQueue} (h : q.WF) {d : Bytes} {p l : Int} (hp : q.prio d = some p)
    (hs : q.stale d = some l) (h0 : ∀ d' p', q.prio d' = some p' → 0 ≤ p') :
    q.remove d = .error .valueError ∧ l ≠ p ∨ q.remove d = .error .assertionError ∧ l = p := by
  obtain ⟨r, rh, hl, hkd, hf, hrh, hk, _, h2⟩ := locate h hp
  obtain ⟨hrn, hkr⟩ := h2 l hs
  let q0 : PQueue := { q with loc := q.loc.erase d }
  have hstart : q.remove d = (do
      let i ← q0.index r
      let q := q0.setPriority r (-1)
      let q := { q with heap := siftdown q.lt q.heap i }
      let (top', heap) ← heappop q.lt q.heap
      pyAssert (decide (q.key top' = q.key r))
      return { q with heap }) := by
    simp only [remove, Dict.pop, Dict.getPy, hl, orRaise, Py.ok_bind, Py.pure_eq]
    rfl
  rw [hstart]
  rcases index_spec q r with ⟨i, r', hix, hi, hkr'⟩ | ⟨hix, hno⟩
  · right
    have hix0 : q0.index r = .ok i := hix
    have hr' := List.mem_of_getElem? hi
    have := heap_inj h hr' hrh (by rw [hkr', hkr, hk])
    subst this
    have elp : l = p := by rw [hk, hkr] at hkr'; cases hkr'; rfl
    refine ⟨?_, elp⟩
    rw [hix0]
    let q1 := q0.setPriority r (-1)
    have hkey : ∀ x, q1.key x = if r = x then (-1, d) else q.key x := by
      intro x
      have := key_setPriority q r (-1) x
      rw [hkr] at this
      exact this
    have hsame : ∀ x ∈ q.heap, q1.key x = q.key x := by
      intro x hx
      rw [hkey, if_neg]
      rintro rfl; exact hrn hx
    have hinv : HeapInv q1.lt q.heap := by
      refine heapInv_congr ?_ h.heap
      intro a ha b hb
      simp only [lt, hsame a ha, hsame b hb]
    have hsd : siftdown q1.lt q.heap i = q.heap := siftdown_heap _ hinv i
    obtain ⟨top, heap, hpop, _, _, hperm, _⟩ := heappop_spec (lt_order q1) q.heap hinv (by
      intro he; rw [he] at hr'; simp at hr')
    have htm : top ∈ q.heap := hperm.mem_iff.1 (by simp)
    show (do
      let (top', heap) ← heappop ({ q1 with heap := siftdown q1.lt q.heap i } : PQueue).lt
        ({ q1 with heap := siftdown q1.lt q.heap i } : PQueue).heap
      pyAssert (decide (({ q1 with heap := siftdown q1.lt q.heap i } : PQueue).key top' =
        ({ q1 with heap := siftdown q1.lt q.heap i } : PQueue).key r))
      return { q1 with heap }) = _
    have e1 : (({ q1 with heap := siftdown q1.lt q.heap i } : PQueue).lt) = q1.lt := rfl
    have e2 : (({ q1 with heap := siftdown q1.lt q.heap i } : PQueue).heap) = q.heap := hsd
    have e3 : ∀ x, ({ q1 with heap := siftdown q1.lt q.heap i } : PQueue).key x = q1.key x := fun _ => rfl
    rw [e1, e2, hpop]
    simp only [Py.ok_bind, e3]
    have hnn : 0 ≤ (q.key top).1 := h0 (q.key top).2 _ ((prio_iff h).2 (List.mem_map.2 ⟨top, htm, rfl⟩))
    have hne : ¬ q1.key top = q1.key r := by
      rw [hsame top htm, hkey]
      simp only [if_true]
      intro e
      rw [e] at hnn
      simp at hnn
    simp [hne, pyAssert]
  · left
    have hix0 : q0.index r = .error .valueError := hix
    refine ⟨by rw [hix0]; rfl, ?_⟩
    rintro rfl
    exact hno rh hrh (hk.trans hkr.symm)

/-- `max_priority` on an empty queue. -/
theorem maxPriority_empty {q : PQueue} (he : q.heap = []) : q.maxPriority = .error .indexError := by
  simp [maxPriority, he, heappop]

/-- Effect of `max_priority`: it returns the smallest priority, keeps the heap's entries, and
makes the locator stale for the first entry. -/
theorem maxPriority_spec {q : PQueue} (h : q.WF) (hne : q.heap ≠ []) :
    ∃ p d q', q.maxPriority = .ok (p, q') ∧ q'.WF ∧ q.prio d = some p ∧
      (∀ d' p', q.prio d' = some p' → entryLt (p', d') (p, d) = false) ∧
      (∀ d', q'.prio d' = q.prio d') ∧
      (∀ d', q'.stale d' = if d = d' then some ((q.stale d).getD p) else q.stale d') := by
  obtain ⟨r, heap, e, hr, hrn, hi, hp, hm⟩ := pop_spec h hne
  obtain ⟨p, d, hk⟩ : ∃ p d, q.key r = (p, d) := ⟨_, _, rfl⟩
  have hmem : (p, d) ∈ q.entries := hk ▸ List.mem_map.2 ⟨r, hr, rfl⟩
  have hprio := (prio_iff h).2 hmem
  have hal : ∀ x ∈ heap, x < q.fresh := fun x hx =>
    h.alloc x (hp.mem_iff.1 (List.mem_cons_of_mem _ hx))
  let q0 : PQueue := { q.alloc (p, d) with heap }
  let q' : PQueue := { q0 with heap := heappush q0.lt heap q.fresh }
  obtain ⟨g1, g2, g3⟩ := push_spec (q := q) hi hal (p, d)
  have hpe : ((p, d) :: heap.map q.key).Perm q.entries := by
    have := hp.map q.key
    rw [List.map_cons, hk] at this
    exact this
  have hent : q'.entries.Perm q.entries := g3.trans hpe
  have hkey : ∀ x, q'.key x = if q.fresh = x then (p, d) else q.key x := fun x => key_alloc q (p, d) x
  have hmemh : ∀ x, x ∈ q'.heap ↔ x = q.fresh ∨ x ∈ heap := by
    intro x
    have := g2.mem_iff (a := x)
    rw [List.mem_cons] at this
    exact this
  have hwf : q'.WF := by
    refine ⟨g1, ((hent.map _).nodup_iff).2 h.nodup, ?_, ?_, ?_⟩
    · intro x hx
      show x < q.fresh + 1
      rcases (hmemh x).1 hx with rfl | hx
      · omega
      · have := hal x hx; omega
    · intro d' x hx
      show x < q.fresh + 1 ∧ _
      have := h.loc d' x hx
      rw [hkey, if_neg (by omega)]
      exact ⟨by omega, this.2⟩
    · intro d'
      rw [(hent.map _).mem_iff]; exact h.dom d'
  refine ⟨p, d, q', ?_, hwf, hprio, ?_, ?_, ?_⟩
  · simp only [maxPriority, e, Py.ok_bind, hk, Py.pure_eq]
    rfl
  · intro d' p' hp'
    rw [← hk]
    exact hm _ ((prio_iff h).1 hp')
  · intro d'
    apply Option.ext
    intro p'
    rw [prio_iff hwf, prio_iff h, hent.mem_iff]
  · intro d'
    show (match q.loc.get? d' with
      | none => none
      | some r => if r ∈ q'.heap then none else some (q'.key r).1) = _
    obtain ⟨rl, rh, hl, hkd, hf, hrh, hkh, h1, h2⟩ := locate h hprio
    have hrr : rh = r := heap_inj h hrh hr (by rw [hkh, hk])
    subst hrr
    by_cases ed : d = d'
    · subst ed
      simp only [hl, if_true]
      have hfr : ¬ q.fresh = rl := by omega
      cases hsd : q.stale d with
      | none =>
        have := h1 hsd
        subst this
        have : ¬ rl ∈ q'.heap := by
          rw [hmemh]; rintro (e | e)
          · exact hfr e.symm
          · exact hrn e
        simp only [this, if_false, hkey, hfr, hkh, Option.getD_none]
      | some l =>
        obtain ⟨h3, h4⟩ := h2 l hsd
        have : ¬ rl ∈ q'.heap := by
          rw [hmemh]; rintro (e | e)
          · exact hfr e.symm
          · exact h3 (hp.mem_iff.1 (List.mem_cons_of_mem _ e))
        simp only [this, if_false, hkey, hfr, h4, Option.getD_some]
    · simp only [ed, if_false, stale]
      cases hl' : q.loc.get? d' with
      | none => rfl
      | some x =>
        have hx := h.loc d' x hl'
        have hfx : ¬ q.fresh = x := by omega
        have hfx' : ¬ x = q.fresh := by omega
        have hne : x ≠ rh := by
          rintro rfl
          rw [hk] at hx; exact ed hx.2
        have := hp.mem_iff (a := x)
        simp only [List.mem_cons, hne, false_or] at this
        simp [hmemh, hkey, hfx, hfx', this]

end PQueue

end Verif.Queue
