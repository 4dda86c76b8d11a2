import Verif.Spec.Cost
import Verif.Queue.PriorityLemmas
import Verif.Queue.IndexedLemmas
import Verif.Props.UserGraph

/-!
# What the operations of the queues cost

`scaled/utility/queues/async_indexed_queue.py` 15-20 promises O(1), `async_priority_queue.py` 31-33 and 41-42
O(log n).  The first holds.  The second holds for what the heap functions compare and move, but the entry is looked
for with `list.index` (35 and 44), which looks at all entries before it.
-/

namespace Verif.Props
open Verif Verif.Queue Verif.Spec
variable {α η : Type}

theorem _root_.Verif.Spec.Moves.refl (l : List α) (k : Nat) : Moves k l l := ⟨[], by simp, fun _ _ => rfl⟩

theorem _root_.Verif.Spec.Moves.trans {l m n : List α} {j k : Nat} (h : Moves j l m) (h' : Moves k m n) : Moves (j + k) l n := by
  obtain ⟨ps, hl, hp⟩ := h
  obtain ⟨qs, hl', hq⟩ := h'
  refine ⟨ps ++ qs, by simp; omega, fun i hi => ?_⟩
  simp only [List.mem_append, not_or] at hi
  rw [hq i hi.2, hp i hi.1]

theorem _root_.Verif.Spec.Moves.mono {l m : List α} {j k : Nat} (h : Moves j l m) (hjk : j ≤ k) : Moves k l m := by
  obtain ⟨ps, hl, hp⟩ := h
  exact ⟨ps, by omega, hp⟩

theorem moves_set (l : List α) (i : Nat) (a : α) : Moves 1 l (l.set i a) :=
  ⟨[i], by simp, fun j hj => by
    simp only [List.mem_singleton] at hj
    rw [List.getElem?_set_ne (fun h => hj h.symm)]⟩

theorem half_log (pos : Nat) (h : pos ≠ 0) : Nat.log2 (pos + 1) = Nat.log2 ((pos - 1) / 2 + 1) + 1 := by
  have h2 : (pos - 1) / 2 + 1 = (pos + 1) / 2 := by omega
  rw [h2, Nat.log2_def (pos + 1), if_pos (by omega)]

theorem moves_siftdownLoop (lt : α → α → Bool) (x : α) : ∀ (fuel : Nat) (heap : List α) (pos : Nat),
    Moves (Nat.log2 (pos + 1) + 1) heap (siftdownLoop lt x fuel heap pos) := by
  intro fuel
  induction fuel with
  | zero => intro heap pos; exact (moves_set heap pos x).mono (by omega)
  | succ fuel ih =>
    intro heap pos
    unfold siftdownLoop
    split
    · exact (moves_set heap pos x).mono (by omega)
    · rename_i h0
      split
      · exact (moves_set heap pos x).mono (by omega)
      · rename_i parent _
        split
        · have := (moves_set heap pos parent).trans (ih (heap.set pos parent) ((pos - 1) / 2))
          exact this.mono (by rw [half_log pos h0]; omega)
        · exact (moves_set heap pos x).mono (by omega)

theorem asks_siftdownLoop (lt : α → α → Bool) (x : α) : ∀ (fuel : Nat) (heap : List α) (pos : Nat),
    Asks (Nat.log2 (pos + 1)) lt (fun lt => siftdownLoop lt x fuel heap pos) := by
  intro fuel
  induction fuel with
  | zero => intro heap pos; exact ⟨[], by simp, fun _ _ => rfl⟩
  | succ fuel ih =>
    intro heap pos
    by_cases h0 : pos = 0
    · exact ⟨[], by simp, fun _ _ => by simp [siftdownLoop, h0]⟩
    · cases hp : heap[(pos - 1) / 2]? with
      | none => exact ⟨[], by simp, fun _ _ => by simp [siftdownLoop, h0, hp]⟩
      | some parent =>
        obtain ⟨S, hl, hS⟩ := ih (heap.set pos parent) ((pos - 1) / 2)
        refine ⟨(x, parent) :: S, by rw [half_log pos h0]; simp; omega, fun lt' ha => ?_⟩
        have h1 := ha (x, parent) (by simp)
        simp only at h1
        have h2 := hS lt' (fun p hp => ha p (by simp [hp]))
        simp only at h2
        simp only [siftdownLoop, h0, hp, if_false, h1, h2]

theorem moves_siftdown (lt : α → α → Bool) (heap : List α) (pos : Nat) :
    Moves (Nat.log2 (pos + 1) + 1) heap (siftdown lt heap pos) := by
  unfold siftdown
  split
  · exact .refl _ _
  · exact moves_siftdownLoop lt _ _ _ _

theorem asks_siftdown (lt : α → α → Bool) (heap : List α) (pos : Nat) :
    Asks (Nat.log2 (pos + 1)) lt (fun lt => siftdown lt heap pos) := by
  unfold siftdown
  split
  · exact ⟨[], by simp, fun _ _ => rfl⟩
  · exact asks_siftdownLoop lt _ _ _ _

theorem siftupLoop_at (lt : α → α → Bool) : ∀ (fuel : Nat) (heap : List α) (pos : Nat), pos < heap.length →
    (siftupLoop lt fuel heap pos).2 < heap.length ∧ (siftupLoop lt fuel heap pos).1.length = heap.length := by
  intro fuel
  induction fuel with
  | zero => intro heap pos h; exact ⟨h, rfl⟩
  | succ fuel ih =>
    intro heap pos h
    unfold siftupLoop
    split
    · exact ⟨h, rfl⟩
    · rename_i child hc
      have hc := (List.getElem?_eq_some_iff.1 hc).1
      split
      · simpa using ih (heap.set pos child) (2 * pos + 1) (by simpa using hc)
      · rename_i right hr
        have hr := (List.getElem?_eq_some_iff.1 hr).1
        split
        · simpa using ih (heap.set pos child) (2 * pos + 1) (by simpa using hc)
        · simpa using ih (heap.set pos right) (2 * pos + 2) (by simpa using hr)

theorem moves_siftupLoop (lt : α → α → Bool) : ∀ (k fuel : Nat) (heap : List α) (pos : Nat),
    heap.length < (pos + 1) * 2 ^ (k + 1) → Moves k heap (siftupLoop lt fuel heap pos).1 := by
  intro k
  induction k with
  | zero =>
    intro fuel heap pos h
    cases fuel with
    | zero => exact .refl _ _
    | succ fuel =>
      have : heap[2 * pos + 1]? = none := List.getElem?_eq_none (by omega)
      simp only [siftupLoop, this]
      exact .refl _ _
  | succ k ih =>
    intro fuel heap pos h
    cases fuel with
    | zero => exact .refl _ _
    | succ fuel =>
      have e : (pos + 1) * 2 ^ (k + 1 + 1) = (2 * pos + 1 + 1) * 2 ^ (k + 1) := by
        rw [Nat.pow_succ (n := 2) (m := k + 1), ← Nat.mul_assoc, Nat.mul_right_comm]; congr 1; omega
      have e' : (2 * pos + 1 + 1) * 2 ^ (k + 1) ≤ (2 * pos + 2 + 1) * 2 ^ (k + 1) := Nat.mul_le_mul_right _ (by omega)
      have go1 : ∀ a, Moves (k + 1) heap (siftupLoop lt fuel (heap.set pos a) (2 * pos + 1)).1 := fun a => by
        have := (moves_set heap pos a).trans (ih fuel (heap.set pos a) (2 * pos + 1)
          (by simp only [List.length_set]; omega))
        exact this.mono (by omega)
      have go2 : ∀ a, Moves (k + 1) heap (siftupLoop lt fuel (heap.set pos a) (2 * pos + 2)).1 := fun a => by
        have := (moves_set heap pos a).trans (ih fuel (heap.set pos a) (2 * pos + 2)
          (by simp only [List.length_set]; omega))
        exact this.mono (by omega)
      unfold siftupLoop
      split
      · exact .refl _ _
      · split
        · exact go1 _
        · split
          · exact go1 _
          · exact go2 _

theorem asks_siftupLoop (lt : α → α → Bool) : ∀ (k fuel : Nat) (heap : List α) (pos : Nat),
    heap.length < (pos + 1) * 2 ^ (k + 1) → Asks k lt (fun lt => siftupLoop lt fuel heap pos) := by
  intro k
  induction k with
  | zero =>
    intro fuel heap pos h
    refine ⟨[], by simp, fun lt' _ => ?_⟩
    cases fuel with
    | zero => rfl
    | succ fuel =>
      have : heap[2 * pos + 1]? = none := List.getElem?_eq_none (by omega)
      simp only [siftupLoop, this]
  | succ k ih =>
    intro fuel heap pos h
    cases fuel with
    | zero => exact ⟨[], by simp, fun _ _ => rfl⟩
    | succ fuel =>
      have e : (pos + 1) * 2 ^ (k + 1 + 1) = (2 * pos + 1 + 1) * 2 ^ (k + 1) := by
        rw [Nat.pow_succ (n := 2) (m := k + 1), ← Nat.mul_assoc, Nat.mul_right_comm]; congr 1; omega
      have e' : (2 * pos + 1 + 1) * 2 ^ (k + 1) ≤ (2 * pos + 2 + 1) * 2 ^ (k + 1) := Nat.mul_le_mul_right _ (by omega)
      cases hc : heap[2 * pos + 1]? with
      | none => exact ⟨[], by simp, fun _ _ => by simp [siftupLoop, hc]⟩
      | some child =>
        obtain ⟨S, hl, hS⟩ := ih fuel (heap.set pos child) (2 * pos + 1) (by simp only [List.length_set]; omega)
        cases hr : heap[2 * pos + 2]? with
        | none =>
          refine ⟨S, by omega, fun lt' ha => ?_⟩
          have := hS lt' ha
          simp only at this
          simp only [siftupLoop, hc, hr, this]
        | some right =>
          obtain ⟨T, hl', hT⟩ := ih fuel (heap.set pos right) (2 * pos + 2) (by simp only [List.length_set]; omega)
          refine ⟨(child, right) :: (if lt child right then S else T), by split <;> simp <;> omega, fun lt' ha => ?_⟩
          have h1 := ha (child, right) (by simp)
          simp only at h1
          have h2 : AgreeOn (if lt child right then S else T) lt lt' := fun p hp => ha p (List.mem_cons_of_mem _ hp)
          simp only [siftupLoop, hc, hr, h1]
          by_cases hb : lt child right
          · simp only [hb, if_true] at h2 ⊢
            exact hS lt' h2
          · simp only [hb] at h2 ⊢
            exact hT lt' h2

theorem log_mono {m n : Nat} (h : m ≤ n) (h0 : m ≠ 0) : Nat.log2 m ≤ Nat.log2 n := by
  rw [Nat.le_log2 (by omega)]
  exact Nat.le_trans (Nat.log2_self_le h0) h

theorem moves_siftup (lt : α → α → Bool) (heap : List α) :
    Moves (2 * Nat.log2 heap.length + 2) heap (siftup lt heap) := by
  cases heap with
  | nil => simp only [siftup, List.getElem?_nil]; exact .refl _ _
  | cons x rest =>
    simp only [siftup, List.getElem?_cons_zero]
    generalize hh : x :: rest = heap
    have hl : 0 < heap.length := by simp [← hh]
    have h1 := moves_siftupLoop lt (Nat.log2 heap.length) heap.length heap 0
      (by have := Nat.lt_log2_self (n := heap.length); omega)
    have h2 := siftupLoop_at lt heap.length heap 0 hl
    have h3 := h1.trans (moves_set _ (siftupLoop lt heap.length heap 0).2 x)
    have h4 := h3.trans (moves_siftdown lt ((siftupLoop lt heap.length heap 0).1.set (siftupLoop lt heap.length heap 0).2 x)
      (siftupLoop lt heap.length heap 0).2)
    refine h4.mono ?_
    have := log_mono (m := (siftupLoop lt heap.length heap 0).2 + 1) (n := heap.length) (by omega) (by omega)
    omega

theorem asks_siftup (lt : α → α → Bool) (heap : List α) :
    Asks (2 * Nat.log2 heap.length) lt (fun lt => siftup lt heap) := by
  cases heap with
  | nil => exact ⟨[], by simp, fun _ _ => rfl⟩
  | cons x rest =>
    simp only [siftup, List.getElem?_cons_zero]
    generalize hh : x :: rest = heap
    have hl : 0 < heap.length := by simp [← hh]
    obtain ⟨S, hS, h1⟩ := asks_siftupLoop lt (Nat.log2 heap.length) heap.length heap 0
      (by have := Nat.lt_log2_self (n := heap.length); omega)
    have h2 := siftupLoop_at lt heap.length heap 0 hl
    obtain ⟨T, hT, h3⟩ := asks_siftdown lt ((siftupLoop lt heap.length heap 0).1.set (siftupLoop lt heap.length heap 0).2 x)
      (siftupLoop lt heap.length heap 0).2
    have := log_mono (m := (siftupLoop lt heap.length heap 0).2 + 1) (n := heap.length) (by omega) (by omega)
    refine ⟨S ++ T, by simp; omega, fun lt' ha => ?_⟩
    have a1 := h1 lt' (fun p hp => ha p (by simp [hp]))
    have a2 := h3 lt' (fun p hp => ha p (by simp [hp]))
    simp only at a1 a2
    simp only [a1]
    exact a2

theorem moves_heappop {lt : α → α → Bool} {heap h' : List α} {x : α} (h : heappop lt heap = .ok (x, h')) :
    Moves (2 * Nat.log2 heap.length + 3) heap.dropLast h' := by
  unfold heappop at h
  split at h
  · cases h
  · rename_i last _
    split at h
    · rename_i hd
      simp only [Except.ok.injEq, Prod.mk.injEq] at h
      rw [hd, ← h.2]
      exact .refl _ _
    · rename_i y rest hd
      simp only [Except.ok.injEq, Prod.mk.injEq] at h
      have hlen : heap.length - 1 = rest.length + 1 := by
        have := congrArg List.length hd; simpa using this
      rw [hd, ← h.2]
      have h1 : Moves 1 (y :: rest) (last :: rest) := by simpa using moves_set (y :: rest) 0 last
      refine (h1.trans (moves_siftup lt (last :: rest))).mono ?_
      have := log_mono (m := (last :: rest).length) (n := heap.length) (by simp; omega) (by simp)
      omega

theorem asks_heappop (lt : α → α → Bool) (heap : List α) :
    Asks (2 * Nat.log2 heap.length) lt (fun lt => heappop lt heap) := by
  unfold heappop
  split
  · exact ⟨[], by simp, fun _ _ => rfl⟩
  · rename_i last _
    split
    · exact ⟨[], by simp, fun _ _ => rfl⟩
    · rename_i y rest hd
      have hlen : heap.length - 1 = rest.length + 1 := by
        have := congrArg List.length hd; simpa using this
      obtain ⟨S, hS, h1⟩ := asks_siftup lt (last :: rest)
      have := log_mono (m := (last :: rest).length) (n := heap.length) (by simp; omega) (by simp)
      refine ⟨S, by omega, fun lt' ha => ?_⟩
      have := h1 lt' ha
      simp only at this
      simp only [this]

theorem moves_dropLast {l m : List α} {k : Nat} (h : Moves k l m) (hl : l.length = m.length) :
    Moves k l.dropLast m.dropLast := by
  obtain ⟨ps, hp, hm⟩ := h
  refine ⟨ps, hp, fun i hi => ?_⟩
  have := hm i hi
  simp only [List.getElem?_dropLast, hl, this]

theorem siftdown_length (lt : α → α → Bool) (heap : List α) (pos : Nat) :
    (siftdown lt heap pos).length = heap.length := (siftdown_perm lt heap pos).length_eq


/-! ## The priority queue -/

/-- **C104**: `put` compares at most `log2 (n + 1)` times and moves at most one entry more. -/
theorem C104_put (q : PQueue) (e : Int × Bytes) :
    Moves (Nat.log2 (q.len + 1) + 1) (q.heap ++ [q.fresh]) (q.put e).heap ∧
      ∀ lt : Nat → Nat → Bool, Asks (Nat.log2 (q.len + 1)) lt fun lt => heappush lt q.heap q.fresh :=
  ⟨moves_siftdown _ _ _, fun lt => asks_siftdown lt _ _⟩

/-- **C104**: `get` compares at most `2 * log2 n` times and moves at most three entries more; the last place goes. -/
theorem C104_get (q q' : PQueue) (x : Int × Bytes) (h : q.get = .ok (x, q')) :
    Moves (2 * Nat.log2 q.len + 3) q.heap.dropLast q'.heap ∧
      ∀ lt : Nat → Nat → Bool, Asks (2 * Nat.log2 q.len) lt fun lt => heappop lt q.heap := by
  refine ⟨?_, fun lt => asks_heappop lt _⟩
  unfold PQueue.get at h
  obtain ⟨⟨r, heap⟩, h1, h⟩ := Py.bind_ok.1 h
  obtain ⟨⟨_, loc⟩, _, h⟩ := Py.bind_ok.1 h
  cases h
  exact moves_heappop h1

theorem index_lt {q : PQueue} {r i : Nat} (h : q.index r = .ok i) : i < q.heap.length := by
  unfold PQueue.index at h
  cases hf : q.heap.findIdx? fun x => decide (q.key x = q.key r) with
  | none => simp [hf, orRaise] at h
  | some j =>
    simp only [hf, orRaise, Except.ok.injEq] at h
    subst h
    exact (List.findIdx?_eq_some_iff_getElem.1 hf).1

/-- **C104**, partial: apart from the search for the entry, `decrease_priority` moves at most `log2 n + 1` entries. -/
theorem C104_decrease_partial (q q' : PQueue) (d : Bytes) (h : q.decrease d = .ok q') :
    Moves (Nat.log2 q.len + 1) q.heap q'.heap := by
  unfold PQueue.decrease at h
  obtain ⟨r, _, h⟩ := Py.bind_ok.1 h
  obtain ⟨i, hi, h⟩ := Py.bind_ok.1 h
  cases h
  have := index_lt hi
  refine (moves_siftdown _ _ i).mono ?_
  have := log_mono (m := i + 1) (n := q.len) (by simp only [PQueue.len]; omega) (by omega)
  omega

/-- **C104**, partial: apart from the search for the entry, `remove` moves at most `3 * log2 n + 4` entries. -/
theorem C104_remove_partial (q q' : PQueue) (d : Bytes) (h : q.remove d = .ok q') :
    Moves (3 * Nat.log2 q.len + 4) q.heap.dropLast q'.heap := by
  unfold PQueue.remove at h
  obtain ⟨⟨r, loc⟩, _, h⟩ := Py.bind_ok.1 h
  obtain ⟨i, hi, h⟩ := Py.bind_ok.1 h
  obtain ⟨⟨top, heap⟩, hp, h⟩ := Py.bind_ok.1 h
  obtain ⟨_, _, h⟩ := Py.bind_ok.1 h
  cases h
  have hi := index_lt hi
  simp only at hi
  have h1 := moves_siftdown (PQueue.lt (PQueue.setPriority { q with loc } r (-1))) q.heap i
  have h2 := moves_dropLast h1 (siftdown_length _ _ _).symm
  have h3 := h2.trans (moves_heappop hp)
  refine h3.mono ?_
  have := log_mono (m := i + 1) (n := q.len) (by simp only [PQueue.len]; omega) (by omega)
  simp only [siftdown_length, PQueue.len] at this ⊢
  omega

/-- The queue of `n` entries of the same priority whose data are longer and longer, put in that order. -/
def lineUp : Nat → PQueue
  | 0 => PQueue.empty
  | n + 1 => (lineUp n).put (0, List.replicate n 0)

theorem bytesLt_zeros : ∀ a b : Nat, bytesLt (List.replicate a 0) (List.replicate b 0) = decide (a < b)
  | _, 0 => by cases ‹Nat› <;> simp [bytesLt, List.replicate_succ]
  | 0, b + 1 => by simp [bytesLt, List.replicate_succ]
  | a + 1, b + 1 => by simp [bytesLt, List.replicate_succ, bytesLt_zeros a b]

theorem lineUp_is (n : Nat) : (lineUp n).heap = List.range n ∧ (lineUp n).fresh = n ∧
    (∀ i, (lineUp n).store.get? i = if i < n then some (0, List.replicate i 0) else none) ∧
    ∀ i, i < n → (lineUp n).loc.get? (List.replicate i 0) = some i := by
  induction n with
  | zero => exact ⟨rfl, rfl, fun i => by simp [lineUp, PQueue.empty], fun i h => by omega⟩
  | succ n ih =>
    obtain ⟨h1, h2, h3, h4⟩ := ih
    have hs : ∀ i, ((lineUp n).alloc (0, List.replicate n 0)).store.get? i =
        if i < n + 1 then some (0, List.replicate i 0) else none := by
      intro i
      simp only [PQueue.alloc, h2, Dict.get?_set]
      split
      · rename_i h
        subst h
        rw [if_pos (by omega)]
      · rename_i h
        rw [h3 i]
        by_cases hi : i < n
        · rw [if_pos hi, if_pos (by omega)]
        · rw [if_neg hi, if_neg (by omega)]
    have hk : ∀ i, i < n + 1 → ((lineUp n).alloc (0, List.replicate n 0)).key i = (0, List.replicate i 0) := by
      intro i hi
      simp [PQueue.key, hs i, hi]
    have hset : (List.range n ++ [n]).set n n = List.range n ++ [n] := by
      rw [List.set_append_right _ _ (by simp)]
      simp
    refine ⟨?_, by simp [lineUp, PQueue.put, PQueue.alloc, h2], hs, fun i hi => ?_⟩
    · show heappush _ (lineUp n).heap (lineUp n).fresh = _
      rw [h1, h2, List.range_succ]
      unfold heappush siftdown
      have hg : (List.range n ++ [n])[(List.range n).length]? = some n := by simp
      rw [hg]
      simp only [List.length_range]
      cases n with
      | zero => rfl
      | succ m =>
        unfold siftdownLoop
        rw [if_neg (by omega)]
        have hp : (List.range (m + 1) ++ [m + 1])[(m + 1 - 1) / 2]? = some ((m + 1 - 1) / 2) := by
          rw [List.getElem?_append_left (by simp; omega), List.getElem?_range (by omega)]
        simp only [hp]
        rw [if_neg]
        · exact hset
        · simp only [PQueue.lt, hk (m + 1) (by omega), hk ((m + 1 - 1) / 2) (by omega), entryLt, bytesLt_zeros]
          simp
          omega
    · show ((lineUp n).loc.set (List.replicate n 0) (lineUp n).fresh).get? _ = _
      rw [Dict.get?_set, h2]
      split
      · rename_i h
        have := congrArg List.length h
        simp at this
        rw [this]
      · rename_i h
        have : i ≠ n := fun e => h (by rw [e])
        exact h4 i (by omega)

/-- **C104**, the other way: `list.index` (35, 44) looks at every entry before the one it finds.  For every `n` there
is a queue of `n + 1` entries, made by `put` alone, and an entry for which fewer than `n` looks do not do. -/
theorem C104_index_linear (n : Nat) : ∃ (q : PQueue) (d : Bytes) (r : Nat), q = lineUp (n + 1) ∧ q.len = n + 1 ∧
    q.loc.get? d = some r ∧ q.index r = .ok n ∧ ∀ k, k < n → ¬ Looks k q r := by
  obtain ⟨h1, h2, h3, h4⟩ := lineUp_is (n + 1)
  have hk : ∀ i, i < n + 1 → (lineUp (n + 1)).key i = (0, List.replicate i 0) := by
    intro i hi
    simp [PQueue.key, h3 i, hi]
  have hidx : (lineUp (n + 1)).index n = .ok n := by
    have : (lineUp (n + 1)).heap.findIdx? (fun x => decide ((lineUp (n + 1)).key x = (lineUp (n + 1)).key n)) =
        some n := by
      rw [List.findIdx?_eq_some_iff_getElem]
      refine ⟨by simp [h1], by simp [h1], fun j hj => ?_⟩
      simp only [h1, List.getElem_range, hk j (by omega), hk n (by omega)]
      simp
      omega
    simp only [PQueue.index, this, orRaise]
  refine ⟨_, List.replicate n 0, n, rfl, by simp [PQueue.len, h1], h4 n (by omega), hidx, fun k hkn hl => ?_⟩
  obtain ⟨ids, hlen, hids⟩ := hl
  have : ∃ j, j < n ∧ j ∉ ids := by
    by_cases hex : ∃ j, j < n ∧ j ∉ ids
    · exact hex
    · exfalso
      have := length_le_of_subset (T := List.range n) (L := ids) List.nodup_range (fun t ht => by
        have ht := List.mem_range.1 ht
        by_cases hm : t ∈ ids
        · exact hm
        · exact absurd ⟨t, ht, hm⟩ hex)
      simp at this
      omega
  obtain ⟨j, hj, hjn⟩ := this
  have h5 := hids ((lineUp (n + 1)).store.set j (0, List.replicate n 0)) (fun i hi => by
    rw [Dict.get?_set, if_neg]
    rintro rfl
    rcases List.mem_cons.1 hi with h | h
    · omega
    · exact hjn h)
  rw [hidx] at h5
  unfold PQueue.index at h5
  cases hf : List.findIdx? (fun x => decide (PQueue.key
      { lineUp (n + 1) with store := (lineUp (n + 1)).store.set j (0, List.replicate n 0) } x = PQueue.key
      { lineUp (n + 1) with store := (lineUp (n + 1)).store.set j (0, List.replicate n 0) } n)) (lineUp (n + 1)).heap with
  | none => simp [hf, orRaise] at h5
  | some m =>
    simp only [hf, orRaise, Except.ok.injEq] at h5
    subst h5
    obtain ⟨hm, _, hno⟩ := List.findIdx?_eq_some_iff_getElem.1 hf
    have := hno j hj
    simp [h1, PQueue.key, Dict.get?_set, h3] at this

/-! ## The queue with an index -/

/-- **C104**: `IndexedQueue.put` looks at and changes at most two nodes and one entry of the index. -/
theorem C104_indexed_put [DecidableEq η] (hash : α → η) (q : IQueue α η) (a : α) :
    Constant 2 q fun q => do return ((), ← q.put hash a) := by
  refine ⟨q.fresh :: q.head.toList, hash a, by cases q.head <;> simp, fun r h => ?_, fun p hp => ?_⟩
  · cases hm : q.map.get? (hash a) <;> cases hh : q.head with
    | none =>
      simp [IQueue.put, IQueue.addToHead, raiseIf, Dict.has, hm, hh] at h
      try (subst h; simp [Far]; grind)
    | some i =>
      by_cases hi : q.fresh = i
      · simp [IQueue.put, IQueue.addToHead, IQueue.setNext, IQueue.setPrev, IQueue.node, raiseIf, orRaise, Dict.has, hm,
          hh, hi] at h
        try (subst h; simp [Far]; grind)
      · cases hn : q.store.get? i <;>
        simp [IQueue.put, IQueue.addToHead, IQueue.setNext, IQueue.setPrev, IQueue.node, raiseIf, orRaise, Dict.has, hm,
          hh, hi, hn] at h
        all_goals try (subst h; simp [Far]; grind)
  · obtain ⟨h1, h2, h3, h4, h5, h6⟩ := hp
    cases hm : q.map.get? (hash a) <;> cases hh : q.head with
    | none =>
      rw [hm] at h5
      rw [hh] at h1 h6
      simp [IQueue.put, IQueue.addToHead, raiseIf, Dict.has, hm, hh, h1, h5, Alike, Near]
      try grind
    | some i =>
      rw [hm] at h5
      rw [hh] at h1 h6
      have h7 := h6 i (by simp)
      by_cases hi : q.fresh = i
      · simp [IQueue.put, IQueue.addToHead, IQueue.setNext, IQueue.setPrev, IQueue.node, raiseIf, orRaise, Dict.has, hm,
          hh, hi, h1, h4, h5, Alike, Near]
        try grind
      · cases hn : q.store.get? i <;> rw [hn] at h7 <;>
        simp [IQueue.put, IQueue.addToHead, IQueue.setNext, IQueue.setPrev, IQueue.node, raiseIf, orRaise, Dict.has, hm,
          hh, hi, hn, h1, h4, h5, h7, Alike, Near]
        all_goals try grind

/-- **C104**: `IndexedQueue.get` looks at and changes at most two nodes and one entry of the index. -/
theorem C104_indexed_get [DecidableEq η] [Inhabited η] (hash : α → η) (q : IQueue α η) :
    Constant 2 q fun q => q.get hash := by
  cases ht : q.tail with
  | none =>
    refine ⟨[], default, by simp, fun r h => ?_, fun p hp => ?_⟩
    · simp [IQueue.get, IQueue.removeTail, ht] at h
    · obtain ⟨h1, h2, h3, h4, h5, h6⟩ := hp
      simp [IQueue.get, IQueue.removeTail, ht, h2, Alike]
  | some t =>
    cases hn : q.store.get? t with
    | none =>
      refine ⟨[t], default, by simp, fun r h => ?_, fun p hp => ?_⟩
      · simp [IQueue.get, IQueue.removeTail, IQueue.node, orRaise, ht, hn] at h
      · obtain ⟨h1, h2, h3, h4, h5, h6⟩ := hp
        simp [IQueue.get, IQueue.removeTail, IQueue.node, orRaise, ht, hn, h2, h6, Alike]
    | some n =>
      refine ⟨t :: n.prev.toList, hash n.value, by cases n.prev <;> simp, fun r h => ?_, fun p hp => ?_⟩
      · cases hp : n.prev with
        | none =>
          cases hm : q.map.get? (hash n.value) <;>
          simp [IQueue.get, IQueue.removeTail, IQueue.node, orRaise, ht, hn, hp, Dict.pop, Dict.getPy, hm] at h
          subst h
          simp [Far]
          grind
        | some p =>
          cases hq : q.store.get? p with
          | none => simp [IQueue.get, IQueue.removeTail, IQueue.setNext, IQueue.node, orRaise, ht, hn, hp, hq] at h
          | some m =>
            by_cases hpt : p = t
            · subst hpt
              rw [hn] at hq
              cases hq
              cases hm : q.map.get? (hash n.value) <;>
              simp [IQueue.get, IQueue.removeTail, IQueue.setNext, IQueue.node, orRaise, ht, hn, hp, Dict.pop,
                Dict.getPy, hm] at h
              subst h
              simp [Far]
              grind
            · cases hm : q.map.get? (hash n.value) <;>
              simp [IQueue.get, IQueue.removeTail, IQueue.setNext, IQueue.node, orRaise, ht, hn, hp, hq, hpt, Dict.pop,
                Dict.getPy, hm] at h
              subst h
              simp [Far]
              grind
      · obtain ⟨h1, h2, h3, h4, h5, h6⟩ := hp
        have h7 := h6 t (by simp)
        rw [hn] at h7
        rw [ht] at h2
        cases hp : n.prev with
        | none =>
          rw [hp] at h6
          cases hm : q.map.get? (hash n.value) <;> rw [hm] at h5 <;>
          simp [IQueue.get, IQueue.removeTail, IQueue.node, orRaise, ht, hn, hp, Dict.pop, Dict.getPy, hm, h2, h3, h4,
            h5, h7, Alike, Near]
        | some x =>
          rw [hp] at h6
          have h8 := h6 x (by simp)
          cases hq : q.store.get? x with
          | none =>
            rw [hq] at h8
            simp [IQueue.get, IQueue.removeTail, IQueue.setNext, IQueue.node, orRaise, ht, hn, hp, hq, h2, h7, h8, Alike]
          | some m =>
            rw [hq] at h8
            by_cases hpt : x = t
            · subst hpt
              rw [hn] at hq
              cases hq
              cases hm : q.map.get? (hash n.value) <;> rw [hm] at h5 <;>
              simp [IQueue.get, IQueue.removeTail, IQueue.setNext, IQueue.node, orRaise, ht, hn, hp, Dict.pop,
                Dict.getPy, hm, h1, h2, h3, h4, h5, h7, Alike, Near]
            · cases hm : q.map.get? (hash n.value) <;> rw [hm] at h5 <;>
              simp [IQueue.get, IQueue.removeTail, IQueue.setNext, IQueue.node, orRaise, ht, hn, hp, hq, hpt, Dict.pop,
                Dict.getPy, hm, h1, h2, h3, h4, h5, h7, h8, Alike, Near]

/-- **C104**: `IndexedQueue.remove` looks at and changes at most three nodes and one entry of the index. -/
theorem C104_indexed_remove [DecidableEq η] (hash : α → η) (q : IQueue α η) (a : α) :
    Constant 3 q fun q => do return ((), ← q.remove hash a) := by
  cases hm : q.map.get? (hash a) with
  | none =>
    refine ⟨[], hash a, by simp, fun r h => ?_, fun p hp => ?_⟩
    · simp [IQueue.remove, raiseIf, Dict.has, hm] at h
    · obtain ⟨h1, h2, h3, h4, h5, h6⟩ := hp
      simp [IQueue.remove, raiseIf, Dict.has, hm, h5, Alike]
  | some i =>
    cases hn : q.store.get? i with
    | none =>
      refine ⟨[i], hash a, by simp, fun r h => ?_, fun p hp => ?_⟩
      · simp [IQueue.remove, IQueue.unlink, IQueue.node, orRaise, raiseIf, Dict.has, Dict.pop, Dict.getPy, hm, hn] at h
      · obtain ⟨h1, h2, h3, h4, h5, h6⟩ := hp
        simp [IQueue.remove, IQueue.unlink, IQueue.node, orRaise, raiseIf, Dict.has, Dict.pop, Dict.getPy, hm, hn, h5, h6,
          Alike]
    | some n =>
      obtain ⟨v, pr, nx⟩ := n
      refine ⟨i :: (pr.toList ++ nx.toList), hash a, by cases pr <;> cases nx <;> simp, fun r h => ?_, fun p hp => ?_⟩
      · cases pr with
        | none =>
          cases nx with
          | none =>
            by_cases c1 : q.head = some i <;> by_cases c2 : q.tail = some i <;>
            simp [IQueue.remove, IQueue.unlink, IQueue.setNext, IQueue.setPrev, IQueue.node, pyAssert, raiseIf, orRaise, Dict.has,
                Dict.pop, Dict.getPy, hm, hn, c1, c2] at h
            subst h
            simp [Far]
            grind
          | some x =>
            by_cases c1 : q.head = some i <;> cases hx : q.store.get? x <;>
            simp [IQueue.remove, IQueue.unlink, IQueue.setNext, IQueue.setPrev, IQueue.node, pyAssert, raiseIf, orRaise, Dict.has,
                Dict.pop, Dict.getPy, hm, hn, c1, hx] at h
            subst h
            simp [Far]
            grind
        | some y =>
          cases nx with
          | none =>
            by_cases c1 : q.tail = some i <;> cases hy : q.store.get? y <;>
            simp [IQueue.remove, IQueue.unlink, IQueue.setNext, IQueue.setPrev, IQueue.node, pyAssert, raiseIf, orRaise, Dict.has,
                Dict.pop, Dict.getPy, hm, hn, c1, hy] at h
            subst h
            simp [Far]
            grind
          | some x =>
            by_cases hxy : y = x
            · subst hxy
              cases hy : q.store.get? y <;>
              simp [IQueue.remove, IQueue.unlink, IQueue.setNext, IQueue.setPrev, IQueue.node, pyAssert, raiseIf, orRaise, Dict.has,
                Dict.pop, Dict.getPy, hm, hn, hy] at h
              subst h
              simp [Far]
              grind
            · cases hy : q.store.get? y <;> cases hx : q.store.get? x <;>
              simp [IQueue.remove, IQueue.unlink, IQueue.setNext, IQueue.setPrev, IQueue.node, pyAssert, raiseIf, orRaise, Dict.has,
                Dict.pop, Dict.getPy, hm, hn, hy, hx, hxy] at h
              subst h
              simp [Far]
              grind
      · obtain ⟨h1, h2, h3, h4, h5, h6⟩ := hp
        rw [hm] at h5
        have h7 := h6 i (by simp)
        rw [hn] at h7
        cases pr with
        | none =>
          cases nx with
          | none =>
            by_cases c1 : q.head = some i <;> by_cases c2 : q.tail = some i <;>
            simp [IQueue.remove, IQueue.unlink, IQueue.setNext, IQueue.setPrev, IQueue.node, pyAssert, raiseIf, orRaise, Dict.has,
                Dict.pop, Dict.getPy, hm, hn, c1, c2, h1, h2, h3, h4, h5, h7, Alike, Near]
          | some x =>
            have h8 := h6 x (by simp)
            by_cases c1 : q.head = some i <;> cases hx : q.store.get? x <;> rw [hx] at h8 <;>
            simp [IQueue.remove, IQueue.unlink, IQueue.setNext, IQueue.setPrev, IQueue.node, pyAssert, raiseIf, orRaise, Dict.has,
                Dict.pop, Dict.getPy, hm, hn, c1, hx, h1, h2, h3, h4, h5, h7, h8, Alike, Near]
        | some y =>
          have h9 := h6 y (by simp)
          cases nx with
          | none =>
            by_cases c1 : q.tail = some i <;> cases hy : q.store.get? y <;> rw [hy] at h9 <;>
            simp [IQueue.remove, IQueue.unlink, IQueue.setNext, IQueue.setPrev, IQueue.node, pyAssert, raiseIf, orRaise, Dict.has,
                Dict.pop, Dict.getPy, hm, hn, c1, hy, h1, h2, h3, h4, h5, h7, h9, Alike, Near]
          | some x =>
            have h8 := h6 x (by simp)
            by_cases hxy : y = x
            · subst hxy
              cases hy : q.store.get? y <;> rw [hy] at h9 <;>
              simp [IQueue.remove, IQueue.unlink, IQueue.setNext, IQueue.setPrev, IQueue.node, pyAssert, raiseIf, orRaise, Dict.has,
                Dict.pop, Dict.getPy, hm, hn, hy, h1, h2, h3, h4, h5, h7, h9, Alike, Near]
            · cases hy : q.store.get? y <;> cases hx : q.store.get? x <;> rw [hy] at h9 <;> rw [hx] at h8 <;>
              simp [IQueue.remove, IQueue.unlink, IQueue.setNext, IQueue.setPrev, IQueue.node, pyAssert, raiseIf, orRaise, Dict.has,
                Dict.pop, Dict.getPy, hm, hn, hy, hx, hxy, h1, h2, h3, h4, h5, h7, h8, h9, Alike, Near]

/-- A queue of five entries from which one can be got, removed and put forward. -/
example : (∃ r, (lineUp 5).get = .ok r) ∧ (∃ q, (lineUp 5).remove [0, 0] = .ok q ∧ q.heap ≠ (lineUp 5).heap) ∧
    (∃ q, (lineUp 5).decrease [0, 0, 0, 0] = .ok q ∧ q.heap ≠ (lineUp 5).heap) ∧
    (lineUp 5).index 4 = .ok 4 ∧ Nat.log2 5 = 2 := by
  refine ⟨⟨_, rfl⟩, ⟨_, rfl, ?_⟩, ⟨_, rfl, ?_⟩, ?_, ?_⟩ <;> decide +kernel

/-- Three looks do not do for the last of five entries, although three are more than `log2 5`. -/
example : ∃ (q : PQueue) (r : Nat), q.len = 5 ∧ ¬ Looks 3 q r := by
  obtain ⟨q, _, r, _, h, _, _, hk⟩ := C104_index_linear 4
  exact ⟨q, r, h, hk 3 (by decide)⟩

/-- A queue of three numbers: the middle one is removed, and its two neighbours are changed. -/
example : ∃ q q' : IQueue Nat Nat, (do let q ← IQueue.empty.put id 1; let q ← q.put id 2; q.put id 3) = .ok q ∧
    q.remove id 2 = .ok q' ∧ q'.contents = [1, 3] ∧ q'.store.get? 0 ≠ q.store.get? 0 ∧
    q'.store.get? 2 ≠ q.store.get? 2 := by
  refine ⟨_, _, rfl, rfl, ?_, ?_, ?_⟩ <;> decide +kernel

end Verif.Props
