import Verif.Props.IndexedObject
import Verif.Props.PriorityQueue
import Verif.Spec.Waiting

/-!
# C107: nobody waits for a queue that has something
-/

set_option linter.unusedSectionVars false

namespace Verif.Props

open Verif.Queue Verif.Spec

variable {σ α β ε : Type}

/-- What holds after every event. -/
structure KeptAwake (h : Hooks σ α β ε) (Good : σ → Prop) (s : AQueue σ) : Prop where
  good : Good s.items
  awake : NoSleeper (h.len s.items) s.waiting s.woken

theorem kept_wakeNext {h : Hooks σ α β ε} {Good : σ → Prop} {s : AQueue σ} (hg : Good s.items)
    (ha : s.waiting ≠ [] → h.len s.items ≤ s.woken.length + 1) : KeptAwake h Good s.wakeNext := by
  unfold AQueue.wakeNext
  split
  · next he => exact ⟨hg, fun hw => absurd he hw⟩
  · next g gs he =>
    refine ⟨hg, fun _ => ?_⟩
    have := ha (by rw [he]; simp)
    simp only [List.length_append, List.length_cons, List.length_nil]
    omega

theorem kept_look {h : Hooks σ α β ε} {Good : σ → Prop} (hc : CountsItems h Good) {s : AQueue σ} (hg : Good s.items)
    (ha : s.waiting ≠ [] → h.len s.items ≤ s.woken.length + 1) (g : Nat) : KeptAwake h Good (s.look h g).1 := by
  have h0 := hc.len _ hg
  unfold AQueue.look
  split
  · next he => exact ⟨hg, fun _ => by show h.len s.items ≤ s.woken.length; omega⟩
  · next he =>
    obtain ⟨g', l⟩ := hc.take _ hg (by omega)
    split <;> next e => 
      rw [e] at g' l
      refine ⟨g', fun hw => ?_⟩
      have := ha hw
      show h.len _ ≤ (s.woken.length : Int)
      simp only at l ⊢
      omega

theorem kept_step {h : Hooks σ α β ε} {Good : σ → Prop} (hc : CountsItems h Good) {s : AQueue σ} (hk : KeptAwake h Good s)
    (op : WOp α ε) : KeptAwake h Good (s.step h op).1 := by
  obtain ⟨hg, ha⟩ := hk
  have h0 := hc.len _ hg
  cases op with
  | put a =>
    obtain ⟨g', l, l'⟩ := hc.put _ a hg
    simp only [AQueue.step]
    split <;> next e =>
      rw [e] at g' l l'
      first
        | exact kept_wakeNext g' (fun hw => by have := ha hw; have := l _ rfl; simp only at this ⊢; omega)
        | exact ⟨g', fun hw => by have := ha hw; have := l' _ rfl; simp only at this ⊢; omega⟩
  | getNow =>
    simp only [AQueue.step]
    split
    · exact ⟨hg, ha⟩
    · obtain ⟨g', l⟩ := hc.take _ hg (by omega)
      split <;> next e =>
        rw [e] at g' l
        exact ⟨g', fun hw => by have := ha hw; simp only at l this ⊢; omega⟩
  | call g =>
    simp only [AQueue.step]
    split
    · exact ⟨hg, ha⟩
    · exact kept_look hc hg (fun hw => by have := ha hw; omega) g
  | resume g =>
    simp only [AQueue.step]
    split
    · next hm =>
      refine kept_look (s := { s with woken := s.woken.erase g }) hc hg (fun hw => ?_) g
      have := ha hw
      have hl := List.length_erase_of_mem hm
      have := List.length_pos_of_mem hm
      simp only [hl]
      omega
    · exact ⟨hg, ha⟩
  | cancel g =>
    simp only [AQueue.step]
    split
    · next hm => exact ⟨hg, fun hw => ha (fun hn => by rw [hn] at hm; cases hm)⟩
    · split
      · next hm =>
        have hl := List.length_erase_of_mem hm
        have := List.length_pos_of_mem hm
        split
        · next he => exact ⟨hg, fun _ => by simp only [] at he ⊢; omega⟩
        · refine kept_wakeNext hg (fun hw => ?_)
          have := ha hw
          simp only [hl]
          omega
      · exact ⟨hg, ha⟩
  | own e =>
    obtain ⟨g', l⟩ := hc.own _ e hg
    simp only [AQueue.step]
    split <;> next e =>
      rw [e] at g' l
      exact ⟨g', fun hw => by have := ha hw; simp only at l this ⊢; omega⟩

theorem kept_run {h : Hooks σ α β ε} {Good : σ → Prop} (hc : CountsItems h Good) (ops : List (WOp α ε)) {s : AQueue σ}
    (hk : KeptAwake h Good s) : KeptAwake h Good (s.run h ops) := by
  induction ops generalizing s with
  | nil => exact hk
  | cons op ops ih => exact ih (kept_step hc hk op)

/-! ### The three queues -/

theorem counts_plain : CountsItems (plainHooks (α := α)) (fun _ => True) where
  len s _ := by simp only [plainHooks]; omega
  put s a _ := ⟨trivial, fun _ _ => by simp [plainHooks, Doing.assign], fun e h => by simp [plainHooks, Doing.assign] at h⟩
  take s _ h := by
    cases s with
    | nil => simp [plainHooks] at h
    | cons a l => exact ⟨trivial, by simp [plainHooks]⟩
  own s e _ := nomatch e

theorem counts_indexed {η : Type} [DecidableEq α] [DecidableEq η] (hash : α → η) :
    CountsItems (indexedHooks hash) (IQueue.WF hash) where
  len s hw := by
    show 0 ≤ s.len
    rw [hw.len]; omega
  put s a hw := by
    show IQueue.WF hash (IQueue.Object.put hash a s).2 ∧
      (∀ u, (IQueue.Object.put hash a s).1 = .ok u → (IQueue.Object.put hash a s).2.len = s.len + 1) ∧
      (∀ e, (IQueue.Object.put hash a s).1 = .error e → (IQueue.Object.put hash a s).2.len ≤ s.len)
    by_cases h : hash a ∈ s.contents.map hash
    · have hc : s.map.has (hash a) = true := (hw.contains a).2 h
      have : IQueue.Object.put hash a s = (.error .keyError, s) := by
        simp only [IQueue.Object.put, doing_bind, Doing.self, hc, Doing.fail, if_true]
      rw [this]
      exact ⟨hw, fun _ h => by simp at h, fun _ _ => Int.le_refl _⟩
    · obtain ⟨q', e, hw', hl⟩ := hw.put_new h
      rw [doing_put e]
      refine ⟨hw', fun _ _ => ?_, fun _ h => by simp at h⟩
      rw [hw'.len, hw.len, hl]
      simp
  take s hw hp := by
    show IQueue.WF hash (IQueue.Object.get hash s).2 ∧ (IQueue.Object.get hash s).2.len = s.len - 1
    have hp : 0 < s.len := hp
    rw [hw.len] at hp
    cases hc : s.contents with
    | nil => rw [hc] at hp; simp at hp
    | cons b l =>
      obtain ⟨q', e, hw', hl⟩ := hw.get_cons hc
      rw [doing_get e]
      refine ⟨hw', ?_⟩
      rw [hw'.len, hw.len, hl, hc]
      simp
  own s a hw := by
    show IQueue.WF hash (IQueue.Object.remove hash a s).2 ∧ (IQueue.Object.remove hash a s).2.len ≤ s.len
    by_cases h : hash a ∈ s.contents.map hash
    · obtain ⟨q', e, hw', hl⟩ := hw.remove_present h
      rw [doing_remove e]
      refine ⟨hw', ?_⟩
      rw [hw'.len, hw.len, hl]
      exact Int.ofNat_le.2 (List.length_filter_le _ _)
    · have hc : s.map.has (hash a) = false := Bool.eq_false_iff.2 (mt (hw.contains a).1 h)
      have : IQueue.Object.remove hash a s = (.error .keyError, s) := by
        simp only [IQueue.Object.remove, doing_bind, Doing.self, hc, Doing.fail, Bool.false_eq_true, if_false]
      rw [this]
      exact ⟨hw, Int.le_refl _⟩

theorem siftupLoop_length (lt : α → α → Bool) (n : Nat) (h : List α) (pos : Nat) :
    (siftupLoop lt n h pos).1.length = h.length := by
  induction n generalizing h pos with
  | zero => rfl
  | succ n ih =>
    simp only [siftupLoop]
    repeat' split
    all_goals simp [ih]

theorem siftup_length (lt : α → α → Bool) (h : List α) : (siftup lt h).length = h.length := by
  unfold siftup
  split
  · rfl
  · rw [(siftdown_perm _ _ _).length_eq, List.length_set, siftupLoop_length]

theorem heappush_length (lt : α → α → Bool) (h : List α) (a : α) : (heappush lt h a).length = h.length + 1 := by
  rw [heappush, (siftdown_perm _ _ _).length_eq]; simp

theorem heappop_length {lt : α → α → Bool} {h : List α} {r : α} {h' : List α} (e : heappop lt h = .ok (r, h')) :
    h.length = h'.length + 1 := by
  unfold heappop at e
  split at e
  · cases e
  · next x hx =>
    have hl : h.dropLast.length = h.length - 1 := List.length_dropLast
    have hp : 0 < h.length := List.length_pos_iff.2 (fun hn => by rw [hn] at hx; cases hx)
    split at e <;> next hd => 
      cases e
      rw [hd] at hl
      simp only [List.length_cons, List.length_nil, siftup_length] at hl ⊢
      omega

theorem heappop_nonempty {lt : α → α → Bool} {h : List α} (hn : h ≠ []) : ∃ r h', heappop lt h = .ok (r, h') := by
  unfold heappop
  split
  · next he => exact absurd (List.getLast?_eq_none_iff.1 he) hn
  · split <;> exact ⟨_, _, rfl⟩

theorem pop_len (q : PQueue) : (q.heap = [] ∧ (PQueue.Object.pop q).2 = q ∧ (PQueue.Object.pop q).1 = .error .indexError) ∨
    ∃ r, (PQueue.Object.pop q).1 = .ok r ∧ (PQueue.Object.pop q).2.len + 1 = q.len := by
  by_cases hn : q.heap = []
  · left
    simp [PQueue.Object.pop, doing_bind, Doing.self, Doing.eval, hn, heappop]
  · right
    obtain ⟨r, h', e⟩ := heappop_nonempty (lt := q.lt) hn
    refine ⟨r, ?_, ?_⟩
    · simp only [PQueue.Object.pop, doing_bind, doing_pure, Doing.self, Doing.eval, e, Doing.assign]
    · simp only [PQueue.Object.pop, doing_bind, doing_pure, Doing.self, Doing.eval, e, Doing.assign, PQueue.len]
      exact (heappop_length e).symm

theorem counts_priority : CountsItems priorityHooks (fun _ => True) where
  len s _ := by simp only [priorityHooks]; omega
  put s a _ := by
    refine ⟨trivial, fun _ _ => ?_, fun e h => by cases h⟩
    show ((heappush _ (s.alloc a).heap s.fresh).length : Int) = s.heap.length + 1
    rw [heappush_length]; rfl
  take s _ h := by
    refine ⟨trivial, ?_⟩
    show (((PQueue.Object.get s).2.len : Nat) : Int) = s.len - 1
    have h : 0 < (s.len : Int) := h
    rcases pop_len s with ⟨he, _⟩ | ⟨r, e, hl⟩
    · simp [PQueue.len, he] at h
    · generalize hx : PQueue.Object.pop s = x at e hl
      obtain ⟨x, q⟩ := x
      cases e
      have : (PQueue.Object.get s).2.len = q.len := by
        simp only [PQueue.Object.get, doing_bind, hx, Doing.self, Doing.eval]
        cases q.loc.pop (q.key r).2 <;> rfl
      simp only at hl
      omega
  own s e _ := by
    refine ⟨trivial, ?_⟩
    cases e with
    | remove d =>
      show (((PQueue.Object.remove d s).2.len : Nat) : Int) ≤ s.len
      simp only [PQueue.Object.remove, doing_bind, Doing.self, Doing.eval]
      cases s.loc.pop d with
      | error e => exact Int.le_refl _
      | ok x =>
        obtain ⟨r, loc⟩ := x
        cases hi : s.index r with
        | error e => simp only [hi, Doing.assign]; exact Int.le_refl _
        | ok i =>
          simp only [hi, Doing.assign]
          generalize hq : PQueue.setPriority _ r (-1) = q
          have hlen : q.heap.length = s.heap.length := by rw [← hq]; rfl
          generalize hq' : ({ q with heap := siftdown q.lt q.heap i } : PQueue) = q'
          have hlen' : q'.len = s.len := by
            rw [← hq']
            simp only [PQueue.len, (siftdown_perm _ _ _).length_eq, hlen]
          rcases pop_len q' with ⟨he, h2, h1⟩ | ⟨t, e, hl⟩
          · generalize hx : PQueue.Object.pop q' = x at h1 h2
            obtain ⟨x, p⟩ := x
            cases h1
            have h2 : p = q' := h2
            simp only [h2, hlen']
            exact Int.le_refl _
          · generalize hx : PQueue.Object.pop q' = x at e hl
            obtain ⟨x, p⟩ := x
            cases e
            have : ∀ b, (Doing.check b p).2 = p := fun b => by cases b <;> rfl
            simp only [this]
            simp only at hl
            omega
    | decrease d =>
      show (((PQueue.Object.decrease d s).2.len : Nat) : Int) ≤ s.len
      simp only [PQueue.Object.decrease, doing_bind, Doing.self, Doing.eval]
      cases s.loc.getPy d with
      | error e => exact Int.le_refl _
      | ok r =>
        cases hi : s.index r with
        | error e => simp only [hi]; exact Int.le_refl _
        | ok i =>
          simp only [hi, Doing.assign, PQueue.len, (siftdown_perm _ _ _).length_eq]
          exact Int.le_refl _
    | maxPriority =>
      show (((PQueue.Object.maxPriority >>= fun _ => pure ()) s).2.len : Int) ≤ s.len
      rcases pop_len s with ⟨he, h2, h1⟩ | ⟨r, e, hl⟩
      · generalize hx : PQueue.Object.pop s = x at h1 h2
        obtain ⟨x, q⟩ := x
        cases h1; cases h2
        simp only [PQueue.Object.maxPriority, doing_bind, hx]
        exact Int.le_refl _
      · generalize hx : PQueue.Object.pop s = x at e hl
        obtain ⟨x, q⟩ := x
        cases e
        simp only [PQueue.Object.maxPriority, doing_bind, doing_pure, hx, Doing.self, Doing.assign, PQueue.len, heappush_length]
        simp only [PQueue.len] at hl
        have : (q.alloc (q.key r)).heap = q.heap := rfl
        rw [this]
        omega

/-- **C107 (a).** Whatever happens to a new queue, with any number of getters, cancelled ones among them: while a getter
waits, for every item there is another one that was woken and will look.  So for an `IndexedQueue`, -/
theorem C107_indexed {η : Type} [DecidableEq α] [DecidableEq η] (hash : α → η) (ops : List (WOp α α))
    (s : AQueue (IQueue α η)) (hs : s = AQueue.run (indexedHooks hash) ⟨IQueue.empty, [], []⟩ ops) :
    NoSleeper s.items.len s.waiting s.woken :=
  hs ▸ (kept_run (counts_indexed hash) ops ⟨IQueue.wf_empty hash, fun h => absurd rfl h⟩).awake

/-- for a `PriorityQueue`, whatever is put and however it is used, -/
theorem C107_priority (ops : List (WOp (Int × Bytes) PriorityOwn)) (s : AQueue PQueue)
    (hs : s = AQueue.run priorityHooks ⟨PQueue.empty, [], []⟩ ops) : NoSleeper s.items.len s.waiting s.woken :=
  hs ▸ (kept_run counts_priority ops ⟨trivial, fun h => absurd rfl h⟩).awake

/-- and for a queue of asyncio. -/
theorem C107_plain (ops : List (WOp α Empty)) (s : AQueue (List α))
    (hs : s = AQueue.run plainHooks ⟨[], [], []⟩ ops) : NoSleeper s.items.length s.waiting s.woken :=
  hs ▸ (kept_run counts_plain ops ⟨trivial, fun h => absurd rfl h⟩).awake

/-! ### One getter -/

/-- With one getter, nobody else is there. -/
def AloneIn (g : Nat) (s : AQueue σ) : Prop :=
  s.waiting = [] ∧ s.woken = [] ∨ s.waiting = [g] ∧ s.woken = [] ∨ s.waiting = [] ∧ s.woken = [g]

theorem alone_wakeNext {g : Nat} {s : AQueue σ} (ha : AloneIn g s) : AloneIn g s.wakeNext := by
  rcases ha with ⟨a, b⟩ | ⟨a, b⟩ | ⟨a, b⟩ <;> simp [AQueue.wakeNext, AloneIn, a, b]

theorem alone_look {h : Hooks σ α β ε} {g : Nat} {s : AQueue σ} (ha : s.waiting = [] ∧ s.woken = []) :
    AloneIn g (s.look h g).1 := by
  unfold AQueue.look
  repeat' split
  all_goals simp [AloneIn, ha]

theorem alone_step {h : Hooks σ α β ε} {g : Nat} {s : AQueue σ} (ha : AloneIn g s) (op : WOp α ε) (ho : OnlyGetter g op) :
    AloneIn g (s.step h op).1 := by
  cases op with
  | put a =>
    simp only [AQueue.step]
    split
    · exact alone_wakeNext ha
    · exact ha
  | getNow =>
    simp only [AQueue.step]
    repeat' split
    all_goals exact ha
  | call g' =>
    cases ho
    simp only [AQueue.step]
    split
    · exact ha
    · next hn =>
      refine alone_look ?_
      rcases ha with ⟨a, b⟩ | ⟨a, b⟩ | ⟨a, b⟩ <;> simp_all
  | resume g' =>
    simp only [AQueue.step]
    split
    · next hm =>
      rcases ha with ⟨a, b⟩ | ⟨a, b⟩ | ⟨a, b⟩
      · rw [b] at hm; cases hm
      · rw [b] at hm; cases hm
      · rw [b] at hm
        cases List.mem_singleton.1 hm
        exact alone_look (s := { s with woken := s.woken.erase g }) ⟨a, by simp [b]⟩
    · exact ha
  | cancel g' =>
    simp only [AQueue.step]
    split
    · next hm =>
      rcases ha with ⟨a, b⟩ | ⟨a, b⟩ | ⟨a, b⟩
      · rw [a] at hm; cases hm
      · rw [a] at hm
        cases List.mem_singleton.1 hm
        exact .inl ⟨by simp [a], b⟩
      · rw [a] at hm; cases hm
    · split
      · next hm =>
        rcases ha with ⟨a, b⟩ | ⟨a, b⟩ | ⟨a, b⟩
        · rw [b] at hm; cases hm
        · rw [b] at hm; cases hm
        · rw [b] at hm
          cases List.mem_singleton.1 hm
          split
          · exact .inl ⟨a, by simp [b]⟩
          · exact alone_wakeNext (.inl ⟨a, by simp [b]⟩)
      · exact ha
  | own e =>
    simp only [AQueue.step]
    repeat' split
    all_goals exact ha

theorem alone_run {h : Hooks σ α β ε} {g : Nat} (ops : List (WOp α ε)) (ho : ∀ op ∈ ops, OnlyGetter g op) {s : AQueue σ}
    (ha : AloneIn g s) : AloneIn g (s.run h ops) := by
  induction ops generalizing s with
  | nil => exact ha
  | cons op ops ih => exact ih (fun o hm => ho o (by simp [hm])) (alone_step ha op (ho op (by simp)))

/-- A routine that takes from the queue gets a turn of the event loop: it begins `get` if it is not in it, and goes on if it
was woken. -/
def wturn (h : Hooks σ α β ε) (g : Nat) (s : AQueue σ) : AQueue σ × WObs β :=
  if g ∈ s.woken then s.step h (.resume g) else s.step h (.call g)

theorem wturn_eq {h : Hooks σ α β ε} {Good : σ → Prop} {g : Nat} {s : AQueue σ} (hk : KeptAwake h Good s)
    (ha : AloneIn g s) :
    (h.len s.items = 0 → (wturn h g s).1.items = s.items ∧ ((wturn h g s).2 = .sleeps g ∨ (wturn h g s).2 = .done)) ∧
    (0 < h.len s.items → (wturn h g s).1 = ⟨(h.take s.items).2, [], []⟩ ∧
      (wturn h g s).2 = (match (h.take s.items).1 with
        | .ok b => .gave g b
        | .error e => .raised e)) := by
  have hn := hk.awake
  rcases ha with ⟨a, b⟩ | ⟨a, b⟩ | ⟨a, b⟩
  · refine ⟨fun h0 => ?_, fun hp => ?_⟩
    · simp [wturn, AQueue.step, AQueue.look, a, b, h0]
    · have : h.len s.items ≠ 0 := by omega
      simp only [wturn, AQueue.step, AQueue.look, a, b, this, List.append_nil, List.not_mem_nil, if_false]
      cases ht : h.take s.items with
      | mk x y => cases x <;> simp
  · refine ⟨fun h0 => ?_, fun hp => ?_⟩
    · simp [wturn, AQueue.step, a, b]
    · have := hn (by rw [a]; simp)
      rw [b] at this
      simp at this
      omega
  · refine ⟨fun h0 => ?_, fun hp => ?_⟩
    · simp [wturn, AQueue.step, AQueue.look, b, h0]
    · have : h.len s.items ≠ 0 := by omega
      simp only [wturn, AQueue.step, AQueue.look, a, b, this, List.mem_singleton, if_true, if_false]
      cases ht : h.take s.items with
      | mk x y => cases x <;> simp

/-- **C107 (b).** If one coroutine takes from an `IndexedQueue`, as the routines of the task managers do, it waits only while
the queue is empty: at its next turn it gets the oldest item, if there is one.  The rest of the model relies on this: a routine
that has a turn takes the first item, or does nothing. -/
theorem C107_turn {η : Type} [DecidableEq α] [DecidableEq η] (hash : α → η) (g : Nat) (ops : List (WOp α α))
    (ho : ∀ op ∈ ops, OnlyGetter g op) (s : AQueue (IQueue α η))
    (hs : s = AQueue.run (indexedHooks hash) ⟨IQueue.empty, [], []⟩ ops) :
    (s.items.contents = [] → (wturn (indexedHooks hash) g s).1.items = s.items ∧
      ((wturn (indexedHooks hash) g s).2 = .sleeps g ∨ (wturn (indexedHooks hash) g s).2 = .done)) ∧
    (∀ a l, s.items.contents = a :: l → ∃ q, s.items.get hash = .ok (a, q) ∧ q.contents = l ∧
      wturn (indexedHooks hash) g s = (⟨q, [], []⟩, .gave g a)) := by
  have hk : KeptAwake (indexedHooks hash) (IQueue.WF hash) s :=
    hs ▸ kept_run (counts_indexed hash) ops ⟨IQueue.wf_empty hash, fun h => absurd rfl h⟩
  have ha : AloneIn g s := hs ▸ alone_run ops ho (.inl ⟨rfl, rfl⟩)
  have hl : (indexedHooks hash).len s.items = s.items.contents.length := hk.good.len
  obtain ⟨h1, h2⟩ := wturn_eq hk ha
  refine ⟨fun he => h1 (by rw [hl, he]; rfl), fun a l he => ?_⟩
  obtain ⟨q, e, hw, hc⟩ := hk.good.get_cons he
  have ht : (indexedHooks hash).take s.items = (.ok a, q) := doing_get e
  obtain ⟨h3, h4⟩ := h2 (by rw [hl, he]; simp only [List.length_cons]; omega)
  rw [ht] at h3 h4
  exact ⟨q, e, hc, Prod.ext h3 h4⟩

/-- The same of the queue of the graph manager. -/
theorem C107_turn_graphs (g : Nat) (ops : List (WOp α Empty)) (ho : ∀ op ∈ ops, OnlyGetter g op) (s : AQueue (List α))
    (hs : s = AQueue.run plainHooks ⟨[], [], []⟩ ops) :
    (s.items = [] → (wturn plainHooks g s).1.items = [] ∧
      ((wturn plainHooks g s).2 = .sleeps g ∨ (wturn plainHooks g s).2 = .done)) ∧
    (∀ a l, s.items = a :: l → wturn plainHooks g s = (⟨l, [], []⟩, .gave g a)) := by
  have hk : KeptAwake plainHooks (fun _ => True) s := hs ▸ kept_run counts_plain ops ⟨trivial, fun h => absurd rfl h⟩
  have ha : AloneIn g s := hs ▸ alone_run ops ho (.inl ⟨rfl, rfl⟩)
  obtain ⟨h1, h2⟩ := wturn_eq hk ha
  refine ⟨fun he => ?_, fun a l he => ?_⟩
  · have := h1 (by rw [he]; rfl)
    rwa [he] at this
  · obtain ⟨h3, h4⟩ := h2 (by rw [he]; simp only [plainHooks, List.length_cons]; omega)
    rw [he] at h3 h4
    exact Prod.ext h3 h4

/-- The same of the queue of workers of the allocator (queued.py 58): the routine waits only while no worker is in it. -/
theorem C107_turn_workers (g : Nat) (ops : List (WOp (Int × Bytes) PriorityOwn)) (ho : ∀ op ∈ ops, OnlyGetter g op)
    (s : AQueue PQueue) (hs : s = AQueue.run priorityHooks ⟨PQueue.empty, [], []⟩ ops) :
    (s.items.len = 0 → (wturn priorityHooks g s).1.items = s.items ∧
      ((wturn priorityHooks g s).2 = .sleeps g ∨ (wturn priorityHooks g s).2 = .done)) ∧
    (0 < s.items.len → (wturn priorityHooks g s).1 = ⟨(PQueue.Object.get s.items).2, [], []⟩ ∧
      ∀ e q, s.items.get = .ok (e, q) → wturn priorityHooks g s = (⟨q, [], []⟩, .gave g e)) := by
  have hk : KeptAwake priorityHooks (fun _ => True) s := hs ▸ kept_run counts_priority ops ⟨trivial, fun h => absurd rfl h⟩
  have ha : AloneIn g s := hs ▸ alone_run ops ho (.inl ⟨rfl, rfl⟩)
  obtain ⟨h1, h2⟩ := wturn_eq hk ha
  refine ⟨fun he => h1 (by simp [priorityHooks, he]), fun hp => ?_⟩
  obtain ⟨h3, h4⟩ := h2 (by simp only [priorityHooks]; omega)
  refine ⟨h3, fun e q he => ?_⟩
  have ht : priorityHooks.take s.items = (.ok e, q) := by
    obtain ⟨⟨r, heap⟩, hr, he⟩ := Py.bind_ok.1 he
    obtain ⟨⟨x, loc⟩, hx, he⟩ := Py.bind_ok.1 he
    cases he
    show PQueue.Object.get s.items = _
    have hx : (s.items.loc.pop (PQueue.key { s.items with heap } r).2) = .ok (x, loc) := hx
    simp only [PQueue.Object.get, PQueue.Object.pop, doing_bind, doing_pure, Doing.self, Doing.eval, Doing.assign, hr, hx]
    rfl
  rw [ht] at h3 h4
  exact Prod.ext h3 h4

/-- **C07.** The methods of `PriorityQueue` with their assignments in order, when they return, leave the object that the model
of `Queue/Priority` gives. -/
theorem C07_object (q : PQueue) :
    (∀ e, PQueue.Object.put e q = (.ok (), q.put e)) ∧
    (∀ e q', q.get = .ok (e, q') → PQueue.Object.get q = (.ok e, q')) ∧
    (∀ d q', q.remove d = .ok q' → PQueue.Object.remove d q = (.ok (), q')) ∧
    (∀ d q', q.decrease d = .ok q' → PQueue.Object.decrease d q = (.ok (), q')) ∧
    (∀ p q', q.maxPriority = .ok (p, q') → PQueue.Object.maxPriority q = (.ok p, q')) := by
  refine ⟨fun e => rfl, fun e q' h => ?_, fun d q' h => ?_, fun d q' h => ?_, fun p q' h => ?_⟩
  · obtain ⟨⟨r, heap⟩, hr, h⟩ := Py.bind_ok.1 h
    obtain ⟨⟨x, loc⟩, hx, h⟩ := Py.bind_ok.1 h
    cases h
    have hx : (q.loc.pop (PQueue.key { q with heap } r).2) = .ok (x, loc) := hx
    simp only [PQueue.Object.get, PQueue.Object.pop, doing_bind, doing_pure, Doing.self, Doing.eval, Doing.assign, hr, hx]
    rfl
  · obtain ⟨⟨r, loc⟩, hr, h⟩ := Py.bind_ok.1 h
    obtain ⟨i, hi, h⟩ := Py.bind_ok.1 h
    obtain ⟨⟨t, heap⟩, ht, h⟩ := Py.bind_ok.1 h
    obtain ⟨_, hc, h⟩ := Py.bind_ok.1 h
    cases h
    have hi : q.index r = .ok i := hi
    have ht := ht
    rw [pyAssert_ok] at hc
    simp only [PQueue.Object.remove, PQueue.Object.pop, doing_bind, doing_pure, Doing.self, Doing.eval, Doing.assign, hr, hi,
      ht, Doing.check]
    rw [if_pos]
    · rfl
    · exact hc
  · obtain ⟨r, hr, h⟩ := Py.bind_ok.1 h
    obtain ⟨i, hi, h⟩ := Py.bind_ok.1 h
    cases h
    simp only [PQueue.Object.decrease, doing_bind, Doing.self, Doing.eval, Doing.assign, hr, hi]
  · obtain ⟨⟨r, heap⟩, hr, h⟩ := Py.bind_ok.1 h
    cases h
    simp only [PQueue.Object.maxPriority, PQueue.Object.pop, doing_bind, doing_pure, Doing.self, Doing.eval, Doing.assign, hr]
    rfl

/-! ### The items -/

theorem wakeNext_items (s : AQueue σ) : s.wakeNext.items = s.items := by
  unfold AQueue.wakeNext; split <;> rfl

theorem look_calls {η : Type} [DecidableEq α] [DecidableEq η] {hash : α → η} {s : AQueue (IQueue α η)}
    (hw : s.items.WF hash) (g : Nat) : (s.look (indexedHooks hash) g).1.items.WF hash ∧
      (((s.look (indexedHooks hash) g).1.items = s.items ∧ (s.look (indexedHooks hash) g).2 = .sleeps g) ∨
      ∃ a, (s.look (indexedHooks hash) g).2 = .gave g a ∧
        queueStep hash s.items .get = ((s.look (indexedHooks hash) g).1.items, .item a)) := by
  unfold AQueue.look
  split
  · exact ⟨hw, .inl ⟨rfl, rfl⟩⟩
  · next he =>
    have hl : (indexedHooks hash).len s.items = s.items.contents.length := hw.len
    cases hc : s.items.contents with
    | nil => rw [hl, hc] at he; exact absurd rfl he
    | cons a l =>
      obtain ⟨q, e, hw', _⟩ := hw.get_cons hc
      have ht : (indexedHooks hash).take s.items = (.ok a, q) := doing_get e
      simp only [ht]
      exact ⟨hw', .inr ⟨a, rfl, by simp only [queueStep, e]⟩⟩

theorem waiting_calls {η : Type} [DecidableEq α] [DecidableEq η] {hash : α → η} (ops : List (WOp α α))
    {s : AQueue (IQueue α η)} (hk : KeptAwake (indexedHooks hash) (IQueue.WF hash) s) :
    shownOf ops (s.trace (indexedHooks hash) ops) =
      queueTrace hash s.items (callsOf ops (s.trace (indexedHooks hash) ops)) := by
  induction ops generalizing s with
  | nil => rfl
  | cons op ops ih =>
    have hw := hk.good
    have ih := ih (kept_step (counts_indexed hash) hk op)
    simp only [AQueue.trace]
    cases op with
    | put a =>
      have hq := objectStep_eq hw (.put a)
      simp only [objectStep] at hq
      cases hx : IQueue.Object.put hash a s.items with
      | mk x q =>
        have hx' : (indexedHooks hash).put a s.items = (x, q) := hx
        simp only [hx] at hq
        cases x with
        | ok u =>
          simp only [AQueue.step, hx', wakeNext_items] at ih ⊢
          simp only [shownOf, callsOf, queueTrace, ← hq, ih]
        | error e =>
          simp only [AQueue.step, hx'] at ih ⊢
          simp only [shownOf, callsOf, queueTrace, ← hq, ih]
    | own a =>
      have hq := objectStep_eq hw (.remove a)
      simp only [objectStep] at hq
      cases hx : IQueue.Object.remove hash a s.items with
      | mk x q =>
        have hx' : (indexedHooks hash).own a s.items = (x, q) := hx
        simp only [hx] at hq
        cases x with
        | ok u =>
          simp only [AQueue.step, hx'] at ih ⊢
          simp only [shownOf, callsOf, queueTrace, ← hq, ih]
        | error e =>
          simp only [AQueue.step, hx'] at ih ⊢
          simp only [shownOf, callsOf, queueTrace, ← hq, ih]
    | getNow =>
      by_cases h0 : (indexedHooks hash).len s.items = 0
      · simp only [AQueue.step, h0, if_true] at ih ⊢
        simp only [shownOf, callsOf, ih]
      · have hl : (indexedHooks hash).len s.items = s.items.contents.length := hw.len
        cases hc : s.items.contents with
        | nil => rw [hl, hc] at h0; exact absurd rfl h0
        | cons a l =>
          obtain ⟨q, e, _⟩ := hw.get_cons hc
          have ht : (indexedHooks hash).take s.items = (.ok a, q) := doing_get e
          simp only [AQueue.step, h0, if_false, ht] at ih ⊢
          simp only [shownOf, callsOf, queueTrace, queueStep, e, ih]
    | call g =>
      by_cases hm : g ∈ s.waiting ++ s.woken
      · simp only [AQueue.step, hm, if_true] at ih ⊢
        simp only [shownOf, callsOf, ih]
      · simp only [AQueue.step, hm, if_false] at ih ⊢
        rcases (look_calls hw g).2 with ⟨h1, h2⟩ | ⟨a, h1, h2⟩
        · simp only [h1, h2] at ih ⊢
          simp only [shownOf, callsOf, ih]
        · simp only [h1] at ih ⊢
          simp only [shownOf, callsOf, queueTrace, h2, ih]
    | resume g =>
      by_cases hm : g ∈ s.woken
      · simp only [AQueue.step, hm, if_true] at ih ⊢
        rcases (look_calls (s := { s with woken := s.woken.erase g }) hw g).2 with ⟨h1, h2⟩ | ⟨a, h1, h2⟩
        · simp only [h1, h2] at ih ⊢
          simp only [shownOf, callsOf, ih]
        · simp only [h1] at ih ⊢
          simp only [shownOf, callsOf, queueTrace, h2, ih]
      · simp only [AQueue.step, hm, if_false] at ih ⊢
        simp only [shownOf, callsOf, ih]
    | cancel g =>
      have hi : (s.step (indexedHooks hash) (.cancel g)).1.items = s.items := by
        simp only [AQueue.step]
        repeat' split
        all_goals simp [wakeNext_items]
      have ho : (s.step (indexedHooks hash) (.cancel g)).2 = .done := by
        simp only [AQueue.step]
        repeat' split
        all_goals rfl
      rw [hi] at ih
      simp only [shownOf, callsOf, ho, ih]

/-- **C107 (c).** Waiting does not change what a queue is: whoever gets them, items of an `IndexedQueue` are given out as a
FIFO list of unique items gives them, provided the items used have pairwise different hashes. -/
theorem C107_order {η : Type} [DecidableEq α] [DecidableEq η] (hash : α → η) (ops : List (WOp α α)) (os : List (WObs α))
    (hs : os = AQueue.trace (indexedHooks hash) ⟨IQueue.empty, [], []⟩ ops)
    (hh : Separates hash ((callsOf ops os).flatMap QOp.arg)) : shownOf ops os = fifoTrace [] (callsOf ops os) := by
  subst hs
  rw [← C05_fifo hash _ hh]
  exact waiting_calls ops ⟨IQueue.wf_empty hash, fun h => absurd rfl h⟩

/-- Two getters: the one that was woken first finds the queue empty, since another call took the item in between, and waits
again, now behind the other one.  In this project each queue has one getter. -/
theorem C107_overtaken : AQueue.trace (indexedHooks (fun n : Nat => n)) ⟨IQueue.empty, [], []⟩
    [.call 0, .call 1, .put 7, .call 2, .resume 0, .put 8, .resume 1] =
    [.sleeps 0, .sleeps 1, .done, .gave 2 7, .sleeps 0, .done, .gave 1 8] := by decide

/-- One getter that is woken for an item that is removed before it runs, waits again, and gets the next one. -/
example : AQueue.trace (indexedHooks (fun n : Nat => n)) ⟨IQueue.empty, [], []⟩
    [.call 0, .put 7, .own 7, .resume 0, .put 7, .put 8, .put 7, .resume 0, .call 0, .getNow, .call 0, .cancel 0] =
    [.sleeps 0, .done, .done, .sleeps 0, .done, .done, .raised .keyError, .gave 0 7, .gave 0 8, .raised .queueEmpty,
     .sleeps 0, .done] := by decide

/-- A getter that is cancelled after it was woken passes the news on. -/
example : AQueue.run (indexedHooks (fun n : Nat => n)) ⟨IQueue.empty, [], []⟩ [.call 0, .call 1, .put 7, .cancel 0] =
    { AQueue.run (indexedHooks (fun n : Nat => n)) ⟨IQueue.empty, [], []⟩ [.put 7] with woken := [1] } := by decide

/-- The witnesses above are runs as in (b) and (c): one getter, different hashes. -/
example : (∀ op ∈ ([.call 0, .put 7, .own 7, .resume 0, .put 7, .put 8] : List (WOp Nat Nat)), OnlyGetter 0 op) ∧
    (AQueue.run (indexedHooks (fun n : Nat => n)) ⟨IQueue.empty, [], []⟩
      [.call 0, .put 7, .own 7, .resume 0, .put 7, .put 8]).items.contents = [7, 8] ∧
    (AQueue.run (indexedHooks (fun n : Nat => n)) ⟨IQueue.empty, [], []⟩
      [.call 0, .put 7, .own 7, .resume 0, .put 7, .put 8]).woken = [0] := by
  refine ⟨fun op h => ?_, by decide, by decide⟩
  simp only [List.mem_cons, List.not_mem_nil, or_false] at h
  rcases h with rfl | rfl | rfl | rfl | rfl | rfl <;> first | rfl | trivial

end Verif.Props
