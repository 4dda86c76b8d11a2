import Verif.Sched.SorterLemmas

/-!
# What the sorter keeps track of
-/

namespace Verif.Sched

namespace Sorter

/-- the node was reported done -/
def isDone (s : Sorter) (n : Bytes) : Bool := (s.info.get? n).map (·.npred) == some (-2)

/-- the node was handed out and not reported done -/
def isOut (s : Sorter) (n : Bytes) : Bool := (s.info.get? n).map (·.npred) == some (-1)

/-- Invariant: `nodes` are the nodes, `req n` what `n` depends on. -/
structure OK (nodes : Bytes → Prop) (req : Bytes → List Bytes) (s : Sorter) : Prop where
  dom : ∀ n, (s.info.get? n).isSome ↔ nodes n
  closed : ∀ n d, nodes n → d ∈ req n → nodes d
  reqNodup : ∀ n, nodes n → (req n).Nodup
  succ : ∀ n i m, s.info.get? n = some i → (m ∈ i.succ ↔ nodes m ∧ n ∈ req m)
  succNodup : ∀ n i, s.info.get? n = some i → i.succ.Nodup
  range : ∀ n i, s.info.get? n = some i → i.npred = -2 ∨ i.npred = -1 ∨ 0 ≤ i.npred
  waiting : ∀ n i, s.info.get? n = some i → 0 ≤ i.npred → i.npred = ((req n).countP fun d => !s.isDone d)
  started : ∀ n i, s.info.get? n = some i → i.npred < 0 → ∀ d ∈ req n, s.isDone d = true
  ready : ∀ n, n ∈ s.ready ↔ ∃ i, s.info.get? n = some i ∧ i.npred = 0
  readyNodup : s.ready.Nodup
  count : s.passed - s.finished = s.info.cnt fun i => decide (i.npred = -1)
  rank : ∃ rank : Bytes → Nat, ∀ n d, nodes n → d ∈ req n → rank d < rank n

variable {nodes : Bytes → Prop} {req : Bytes → List Bytes} {s : Sorter}

theorem isDone_iff {n : Bytes} : s.isDone n = true ↔ ∃ i, s.info.get? n = some i ∧ i.npred = -2 := by
  unfold isDone
  cases s.info.get? n <;> simp

theorem isOut_iff {n : Bytes} : s.isOut n = true ↔ ∃ i, s.info.get? n = some i ∧ i.npred = -1 := by
  unfold isOut
  cases s.info.get? n <;> simp

/-! ### `prepare` -/

theorem succs_of_get {d : Dict Bytes SortNode} {n : Bytes} {i : SortNode} (h : d.get? n = some i) :
    succs d n = i.succ := by simp [succs, h]

theorem built_closed {l : List (Bytes × List Bytes)} (h : Built l s) :
    ∀ n i, s.info.get? n = some i → ∀ m ∈ i.succ, (s.info.get? m).isSome := by
  intro n i hi m hm
  obtain ⟨p, hp, e, _⟩ := (h.succ n i m hi).1 hm
  exact (h.dom m).2 (Or.inl (List.mem_map.2 ⟨p, hp, e⟩))

theorem mem_succs {l : List (Bytes × List Bytes)} (hn : (l.map (·.1)).Nodup) (h : Built l s) {n m : Bytes} :
    m ∈ succs s.info n ↔ n ∈ reqOf l m := by
  rw [mem_reqOf hn]
  cases e : s.info.get? n with
  | some i => rw [succs_of_get e]; exact h.succ n i m e
  | none =>
    have hd : ¬ nodesOf l n := by rw [← h.dom, e]; simp
    simp only [succs, e, Option.map_none, Option.getD_none, List.not_mem_nil, false_iff]
    rintro ⟨p, hp, _, hx⟩
    exact hd (Or.inr ⟨p, hp, hx⟩)

/-- `prepare` of a fresh sorter: succeeds iff the graph is acyclic. -/
theorem prepare_ok {l : List (Bytes × List Bytes)} (hn : (l.map (·.1)).Nodup) (hps : ∀ p ∈ l, p.2.Nodup)
    {rank : Bytes → Nat} (hr : ∀ n d, d ∈ reqOf l n → rank d < rank n) :
    ∃ s, (build l).prepare = .ok s := by
  have h := built hn hps
  have := findCycle_acyclic (build l).info (built_closed h) (rank := rank) (by
    intro n m hm; exact hr m n ((mem_succs hn h).1 hm))
  exact ⟨_, by simp [prepare, this, raiseIf]; rfl⟩

theorem prepare_spec {l : List (Bytes × List Bytes)} (hn : (l.map (·.1)).Nodup) (hps : ∀ p ∈ l, p.2.Nodup) {s : Sorter}
    (hs : (build l).prepare = .ok s) : OK (nodesOf l) (reqOf l) s ∧
      (∀ n, s.isDone n = false ∧ s.isOut n = false) := by
  have h := built hn hps
  simp only [prepare, Py.bind_ok, raiseIf_ok] at hs
  obtain ⟨_, hc, hs⟩ := hs
  cases hs
  have hneg : ∀ n i, (build l).info.get? n = some i → 0 ≤ i.npred := by
    intro n i hi
    have := h.npred n i hi
    omega
  have hnd : ∀ n, isDone { build l with ready := ((build l).info.items.filter fun p => p.2.npred = 0).map (·.1) } n = false := by
    intro n
    rw [Bool.eq_false_iff]
    intro hd
    obtain ⟨i, hi, e⟩ := isDone_iff.1 hd
    have := hneg n i hi
    omega
  refine ⟨⟨h.dom, ?_, ?_, ?_, h.nodup, ?_, ?_, ?_, ?_, ?_, ?_, ?_⟩, ?_⟩
  · intro n d _ hd
    obtain ⟨p, hp, _, hd⟩ := (mem_reqOf hn).1 hd
    exact Or.inr ⟨p, hp, hd⟩
  · intro n _
    unfold reqOf
    cases e : Dict.lget l n with
    | none => simp
    | some v => exact hps _ (Dict.lget_mem e)
  · intro n i m hi
    rw [h.succ n i m hi, mem_reqOf hn]
    constructor
    · rintro ⟨p, hp, e, hx⟩
      exact ⟨Or.inl (List.mem_map.2 ⟨p, hp, e⟩), p, hp, e, hx⟩
    · rintro ⟨_, h⟩; exact h
  · intro n i hi; exact Or.inr (Or.inr (hneg n i hi))
  · intro n i hi _
    rw [h.npred n i hi]
    congr 1
    rw [eq_comm, List.countP_eq_length]
    intro d _
    simp [hnd]
  · intro n i hi hlt
    have := hneg n i hi
    omega
  · intro n
    simp only [List.mem_map, List.mem_filter, decide_eq_true_eq]
    constructor
    · rintro ⟨⟨a, i⟩, ⟨hm, e⟩, rfl⟩; exact ⟨i, Dict.mem_items.1 hm, e⟩
    · rintro ⟨i, hi, e⟩; exact ⟨(n, i), ⟨Dict.mem_items.2 hi, e⟩, rfl⟩
  · exact (List.filter_sublist.map _).nodup (build l).info.nodup
  · have : (build l).info.cnt (fun i => decide (i.npred = -1)) = 0 := by
      apply Dict.cnt_zero
      intro n i hi
      have := hneg n i hi
      simp; omega
    show (build l).passed - (build l).finished = _
    rw [h.rest.2.1, h.rest.2.2]
    simp [this]
  · obtain ⟨rank, hr⟩ := findCycle_rank (build l).info (built_closed h) hc
    exact ⟨rank, fun n d _ hd => hr d n ((mem_succs hn h).2 hd)⟩
  · intro n
    refine ⟨hnd n, ?_⟩
    rw [Bool.eq_false_iff]
    intro hd
    obtain ⟨i, hi, e⟩ := isOut_iff.1 hd
    have := hneg n i hi
    omega

/-! ### `get_ready` -/

theorem get?_mark (ns : List Bytes) (d : Dict Bytes SortNode) (x : Bytes) :
    (ns.foldl (fun d n => upd d n fun i => { i with npred := -1 }) d).get? x =
      if x ∈ ns then (d.get? x).map fun i => { i with npred := -1 } else d.get? x := by
  induction ns generalizing d with
  | nil => simp
  | cons n ns ih =>
    rw [List.foldl_cons, ih]
    simp only [get?_upd, List.mem_cons]
    by_cases h1 : x = n
    · subst h1
      cases d.get? x <;> simp
    · have : ¬ n = x := fun e => h1 e.symm
      simp [h1, this]

theorem cnt_mark (ns : List Bytes) (hn : ns.Nodup) (d : Dict Bytes SortNode)
    (h : ∀ n ∈ ns, ∃ i, d.get? n = some i ∧ i.npred = 0) :
    (ns.foldl (fun d n => upd d n fun i => { i with npred := -1 }) d).cnt (fun i => decide (i.npred = -1)) =
      d.cnt (fun i => decide (i.npred = -1)) + ns.length := by
  induction ns generalizing d with
  | nil => simp
  | cons n ns ih =>
    rw [List.nodup_cons] at hn
    rw [List.foldl_cons, ih hn.2]
    · obtain ⟨i, hi, e⟩ := h n (by simp)
      have := Dict.cnt_set { i with npred := -1 } (fun i => decide (i.npred = -1)) hi
      simp only [e] at this
      simp only [upd, hi, List.length_cons]
      simp at this
      omega
    · intro m hm
      obtain ⟨i, hi, e⟩ := h m (by simp [hm])
      have : n ≠ m := fun e => hn.1 (e ▸ hm)
      exact ⟨i, by simp [get?_upd, this, hi], e⟩

theorem getReady_spec (h : OK nodes req s) : (s.getReady).1 = s.ready ∧ OK nodes req (s.getReady).2 ∧
    (s.getReady).2.ready = [] ∧ (∀ n, (s.getReady).2.isDone n = s.isDone n) ∧
    (∀ n, (s.getReady).2.isOut n = true ↔ s.isOut n = true ∨ n ∈ s.ready) := by
  have hget : ∀ x, (s.getReady).2.info.get? x =
      if x ∈ s.ready then (s.info.get? x).map fun i => { i with npred := -1 } else s.info.get? x :=
    fun x => get?_mark s.ready s.info x
  have hd : ∀ n, (s.getReady).2.isDone n = s.isDone n := by
    intro n
    rw [Bool.eq_iff_iff, isDone_iff, isDone_iff, hget]
    by_cases hr : n ∈ s.ready
    · obtain ⟨i, hi, e⟩ := (h.ready n).1 hr
      simp [hr, hi, e]
    · simp [hr]
  refine ⟨rfl, ⟨?_, h.closed, h.reqNodup, ?_, ?_, ?_, ?_, ?_, ?_, ?_, ?_, h.rank⟩, rfl, hd, ?_⟩
  · intro n; rw [hget, ← h.dom]; split <;> simp
  · intro n i m hi
    rw [hget] at hi
    split at hi
    · obtain ⟨j, hj, rfl⟩ := Option.map_eq_some_iff.1 hi
      exact h.succ n j m hj
    · exact h.succ n i m hi
  · intro n i hi
    rw [hget] at hi
    split at hi
    · obtain ⟨j, hj, rfl⟩ := Option.map_eq_some_iff.1 hi
      exact h.succNodup n j hj
    · exact h.succNodup n i hi
  · intro n i hi
    rw [hget] at hi
    split at hi
    · obtain ⟨j, hj, rfl⟩ := Option.map_eq_some_iff.1 hi
      simp
    · exact h.range n i hi
  · intro n i hi hp
    simp only [hd]
    rw [hget] at hi
    split at hi
    · obtain ⟨j, hj, rfl⟩ := Option.map_eq_some_iff.1 hi
      simp at hp
    · exact h.waiting n i hi hp
  · intro n i hi hp
    simp only [hd]
    rw [hget] at hi
    split at hi
    · obtain ⟨j, hj, rfl⟩ := Option.map_eq_some_iff.1 hi
      obtain ⟨j', hj', e⟩ := (h.ready n).1 ‹_›
      rw [hj] at hj'; cases hj'
      have := h.waiting n j hj (by omega)
      rw [e] at this
      have h0 : ((req n).countP fun d => !s.isDone d) = 0 := by omega
      intro d hd'
      have := List.countP_eq_zero.1 h0 d hd'
      simpa using this
    · exact h.started n i hi hp
  · intro n
    simp only [show (s.getReady).2.ready = [] from rfl, List.not_mem_nil, false_iff]
    rintro ⟨i, hi, e⟩
    rw [hget] at hi
    split at hi
    · obtain ⟨j, hj, rfl⟩ := Option.map_eq_some_iff.1 hi
      simp at e
    · next hr => exact hr ((h.ready n).2 ⟨i, hi, e⟩)
  · simp [show (s.getReady).2.ready = [] from rfl]
  · have := cnt_mark s.ready h.readyNodup s.info fun n hn => (h.ready n).1 hn
    have hc := h.count
    show (s.passed + s.ready.length) - s.finished = _
    simp only [getReady, this]
    omega
  · intro n
    rw [isOut_iff, isOut_iff, hget]
    by_cases hr : n ∈ s.ready
    · obtain ⟨i, hi, e⟩ := (h.ready n).1 hr
      simp [hr, hi]
    · simp [hr]

/-! ### `done` -/

theorem release_spec (ns : List Bytes) (hn : ns.Nodup) (d : Dict Bytes SortNode) (ready : List Bytes)
    (h : ∀ n ∈ ns, (d.get? n).isSome) : ∃ d' ready', release d ready ns = .ok (d', ready') ∧
      (∀ x, d'.get? x = if x ∈ ns then (d.get? x).map fun i => { i with npred := i.npred - 1 } else d.get? x) ∧
      (∀ x, x ∈ ready' ↔ x ∈ ready ∨ (x ∈ ns ∧ ∃ i, d.get? x = some i ∧ i.npred = 1)) ∧
      ((ready.Nodup ∧ ∀ x ∈ ns, x ∉ ready) → ready'.Nodup) ∧
      ((∀ n ∈ ns, ∀ i, d.get? n = some i → 1 ≤ i.npred) →
        d'.cnt (fun i => decide (i.npred = -1)) = d.cnt (fun i => decide (i.npred = -1))) := by
  induction ns generalizing d ready with
  | nil => exact ⟨d, ready, rfl, by simp, by simp, fun h => h.1, fun _ => rfl⟩
  | cons n ns ih =>
    rw [List.nodup_cons] at hn
    obtain ⟨i, hi⟩ := Option.isSome_iff_exists.1 (h n (by simp))
    have hne : ∀ m ∈ ns, n ≠ m := fun m hm e => hn.1 (e ▸ hm)
    obtain ⟨d', ready', h1, h2, h3, h4, h5⟩ := ih hn.2 (d.set n { i with npred := i.npred - 1 })
      (if i.npred - 1 = 0 then ready ++ [n] else ready) (by
        intro m hm
        rw [Dict.get?_set, if_neg (hne m hm)]
        exact h m (by simp [hm]))
    refine ⟨d', ready', ?_, ?_, ?_, ?_, ?_⟩
    · simp [release, Dict.getPy_of_get? hi, h1]
    · intro x
      rw [h2]
      by_cases hx : x = n
      · subst hx
        simp [hn.1, hi]
      · have : ¬ n = x := fun e => hx e.symm
        simp [this, hx]
    · intro x
      rw [h3]
      by_cases hx : x = n
      · subst hx
        simp only [hn.1, false_and, or_false, List.mem_cons, true_and, hi, Option.some.injEq, exists_eq_left']
        split
        · next e => simp; right; omega
        · next e =>
          have : ¬ i.npred = 1 := by omega
          simp [this]
      · have : ¬ n = x := fun e => hx e.symm
        simp only [Dict.get?_set, this, if_false, List.mem_cons, hx, false_or]
        split <;> simp [hx]
    · rintro ⟨h6, h7⟩
      apply h4
      split
      · refine ⟨List.nodup_append.2 ⟨h6, by simp, ?_⟩, ?_⟩
        · intro a ha b hb e
          simp at hb
          subst hb
          exact h7 b (by simp) (e ▸ ha)
        · intro x hx
          simp only [List.mem_append, List.mem_singleton, not_or]
          exact ⟨h7 x (by simp [hx]), fun e => hne x hx e.symm⟩
      · exact ⟨h6, fun x hx => h7 x (by simp [hx])⟩
    · intro h6
      have h7 := h6 n (by simp) i hi
      rw [h5]
      · have := Dict.cnt_set { i with npred := i.npred - 1 } (fun i => decide (i.npred = -1)) hi
        have e1 : ¬ i.npred = -1 := by omega
        have e2 : ¬ i.npred - 1 = -1 := by omega
        simpa [e1, e2] using this
      · intro m hm j hj
        rw [Dict.get?_set, if_neg (hne m hm)] at hj
        exact h6 m (by simp [hm]) j hj

/-- `done` of a node that was handed out never raises. -/
theorem done_spec (h : OK nodes req s) {n : Bytes} (ho : s.isOut n = true) :
    ∃ s', s.done n = .ok s' ∧ OK nodes req s' ∧
      (∀ m, s'.isDone m = true ↔ s.isDone m = true ∨ m = n) ∧
      (∀ m, s'.isOut m = true ↔ s.isOut m = true ∧ m ≠ n) := by
  obtain ⟨i, hi, e⟩ := isOut_iff.1 ho
  obtain ⟨rank, hrank⟩ := h.rank
  have hself : n ∉ i.succ := by
    intro hm
    obtain ⟨h1, h2⟩ := (h.succ n i n hi).1 hm
    have := hrank n n h1 h2
    omega
  -- the successors still wait
  have hsucc : ∀ m ∈ i.succ, ∃ j, s.info.get? m = some j ∧ 1 ≤ j.npred := by
    intro m hm
    obtain ⟨h1, h2⟩ := (h.succ n i m hi).1 hm
    obtain ⟨j, hj⟩ := Option.isSome_iff_exists.1 ((h.dom m).2 h1)
    have hnd : ¬ s.isDone n = true := by
      rw [isDone_iff]
      rintro ⟨i', hi', e'⟩
      rw [hi] at hi'; cases hi'; omega
    refine ⟨j, hj, ?_⟩
    rcases h.range m j hj with h3 | h3 | h3
    · exact absurd (h.started m j hj (by omega) n h2) hnd
    · exact absurd (h.started m j hj (by omega) n h2) hnd
    · have h4 := h.waiting m j hj h3
      have h5 : 0 < (req m).countP fun d => !s.isDone d := List.countP_pos_iff.2 ⟨n, h2, by simpa using hnd⟩
      omega
  obtain ⟨d', ready', h1, h2, h3, h4, h5⟩ := release_spec i.succ (h.succNodup n i hi)
    (s.info.set n { i with npred := -2 }) s.ready (by
      intro m hm
      have : n ≠ m := fun e => hself (e ▸ hm)
      rw [Dict.get?_set, if_neg this]
      obtain ⟨j, hj, _⟩ := hsucc m hm
      simp [hj])
  have hget : ∀ x, d'.get? x = if x = n then some { i with npred := -2 }
      else if x ∈ i.succ then (s.info.get? x).map fun i => { i with npred := i.npred - 1 } else s.info.get? x := by
    intro x
    rw [h2]
    by_cases hx : x = n
    · subst hx; simp [hself]
    · have : ¬ n = x := fun e => hx e.symm
      simp [hx, this]
  let s' : Sorter := { s with info := d', ready := ready', finished := s.finished + 1 }
  have hd : ∀ m, s'.isDone m = true ↔ s.isDone m = true ∨ m = n := by
    intro m
    rw [isDone_iff, isDone_iff]
    simp only [s', hget]
    by_cases hx : m = n
    · subst hx; simp
    · by_cases hm : m ∈ i.succ
      · obtain ⟨j, hj, hp⟩ := hsucc m hm
        simp [hx, hm, hj]
        omega
      · simp [hx, hm]
  have hnot : s.isDone n = false := by
    rw [Bool.eq_false_iff]
    intro hdn
    obtain ⟨j, hj, e2⟩ := isDone_iff.1 hdn
    rw [hi] at hj; cases hj; omega
  refine ⟨s', ?_, ⟨?_, h.closed, h.reqNodup, ?_, ?_, ?_, ?_, ?_, ?_, ?_, ?_, h.rank⟩, hd, ?_⟩
  · simp [done, hi, orRaise, e, raiseIf, pyAssert, h1, s']
  · intro m
    rw [← h.dom]
    simp only [s', hget]
    by_cases hx : m = n
    · subst hx; simp [hi]
    · simp only [hx, if_false]
      split <;> simp
  · intro m j x hj
    simp only [s', hget] at hj
    by_cases hx : m = n
    · subst hx
      simp only [if_true, Option.some.injEq] at hj
      subst hj
      exact h.succ m i x hi
    · simp only [hx, if_false] at hj
      split at hj
      · obtain ⟨k, hk, rfl⟩ := Option.map_eq_some_iff.1 hj
        exact h.succ m k x hk
      · exact h.succ m j x hj
  · intro m j hj
    simp only [s', hget] at hj
    by_cases hx : m = n
    · subst hx
      simp only [if_true, Option.some.injEq] at hj
      subst hj
      exact h.succNodup m i hi
    · simp only [hx, if_false] at hj
      split at hj
      · obtain ⟨k, hk, rfl⟩ := Option.map_eq_some_iff.1 hj
        exact h.succNodup m k hk
      · exact h.succNodup m j hj
  · intro m j hj
    simp only [s', hget] at hj
    by_cases hx : m = n
    · subst hx
      simp only [if_true, Option.some.injEq] at hj
      subst hj
      simp
    · simp only [hx, if_false] at hj
      split at hj
      · next hm =>
        obtain ⟨k, hk, rfl⟩ := Option.map_eq_some_iff.1 hj
        obtain ⟨k', hk', hp⟩ := hsucc m hm
        rw [hk] at hk'; cases hk'
        simp only
        omega
      · exact h.range m j hj
  · intro m j hj hp
    have hcount : ∀ l : List Bytes, l.Nodup → (l.countP fun d => !s'.isDone d) + (if n ∈ l then 1 else 0) =
        l.countP fun d => !s.isDone d := by
      intro l hl
      induction l with
      | nil => simp
      | cons a l ih =>
        rw [List.nodup_cons] at hl
        have := ih hl.2
        simp only [List.countP_cons, List.mem_cons]
        have ha := hd a
        by_cases hx : a = n
        · subst hx
          have : s'.isDone a = true := ha.2 (Or.inr rfl)
          simp only [this, hnot, hl.1, true_or, if_true, if_false] at *
          simp
          omega
        · have hx' : ¬ n = a := fun e => hx e.symm
          have : s'.isDone a = s.isDone a := by
            rw [Bool.eq_iff_iff, ha]; simp [hx]
          simp only [this, hx', false_or] at *
          omega
    simp only [s', hget] at hj
    by_cases hx : m = n
    · subst hx
      simp only [if_true, Option.some.injEq] at hj
      subst hj
      simp at hp
    · simp only [hx, if_false] at hj
      split at hj
      · next hm =>
        obtain ⟨k, hk, rfl⟩ := Option.map_eq_some_iff.1 hj
        obtain ⟨k', hk', hp'⟩ := hsucc m hm
        rw [hk] at hk'; cases hk'
        obtain ⟨h6, h7⟩ := (h.succ n i m hi).1 hm
        have h8 := h.waiting m k hk (by omega)
        have h9 := hcount (req m) (h.reqNodup m h6)
        simp only [h7, if_true] at h9
        simp only
        omega
      · next hm =>
        have h8 := h.waiting m j hj hp
        have h6 : nodes m := (h.dom m).1 (by simp [hj])
        have h7 : n ∉ req m := fun hr => hm ((h.succ n i m hi).2 ⟨h6, hr⟩)
        have h9 := hcount (req m) (h.reqNodup m h6)
        simp only [h7, if_false] at h9
        omega
  · intro m j hj hp x hx'
    rw [hd]
    simp only [s', hget] at hj
    by_cases hx : m = n
    · subst hx
      exact Or.inl (h.started m i hi (by omega) x hx')
    · simp only [hx, if_false] at hj
      split at hj
      · next hm =>
        obtain ⟨k, hk, rfl⟩ := Option.map_eq_some_iff.1 hj
        obtain ⟨k', hk', hp'⟩ := hsucc m hm
        rw [hk] at hk'; cases hk'
        simp only at hp
        omega
      · exact Or.inl (h.started m j hj hp x hx')
  · intro m
    simp only [s', h3, h.ready m, hget]
    by_cases hx : m = n
    · subst hx
      simp [hi, e, hself]
    · have hx' : ¬ n = m := fun e => hx e.symm
      by_cases hm : m ∈ i.succ
      · obtain ⟨j, hj, hp⟩ := hsucc m hm
        simp only [hj, hx, hx', hm, Dict.get?_set, if_false, if_true, Option.map_some, Option.some.injEq,
          exists_eq_left', true_and]
        omega
      · simp [hx, hm]
  · apply h4
    refine ⟨h.readyNodup, fun x hx hr => ?_⟩
    obtain ⟨j, hj, hp⟩ := hsucc x hx
    obtain ⟨k, hk, ek⟩ := (h.ready x).1 hr
    rw [hj] at hk; cases hk; omega
  · have h6 := h5 (by
      intro m hm j hj
      have : n ≠ m := fun e => hself (e ▸ hm)
      rw [Dict.get?_set, if_neg this] at hj
      obtain ⟨k, hk, hp⟩ := hsucc m hm
      rw [hj] at hk; cases hk; exact hp)
    have h7 := Dict.cnt_set { i with npred := -2 } (fun i => decide (i.npred = -1)) hi
    have hc := h.count
    simp only [e] at h7
    simp at h7
    show s.passed - (s.finished + 1) = (d'.cnt _ : Int)
    rw [h6]
    omega
  · intro m
    rw [isOut_iff, isOut_iff]
    simp only [s', hget]
    by_cases hx : m = n
    · subst hx; simp
    · by_cases hm : m ∈ i.succ
      · obtain ⟨j, hj, hp⟩ := hsucc m hm
        simp [hx, hm, hj]
        omega
      · simp [hx, hm]

theorem done_err {n : Bytes} (ho : s.isOut n = false) : s.done n = .error .valueError ∨
    s.done n = .error .assertionError := by
  cases hi : s.info.get? n with
  | none => simp [done, hi, orRaise]
  | some i =>
    have : ¬ i.npred = -1 := by
      intro e
      rw [isOut_iff.2 ⟨i, hi, e⟩] at ho; cases ho
    simp only [done, hi, orRaise, Py.ok_bind]
    by_cases h1 : i.npred ≥ 0
    · simp [raiseIf, h1]
    · by_cases h2 : i.npred = -2
      · simp [raiseIf, h2]
      · simp [raiseIf, h1, h2, pyAssert, this]

/-! ### Activity -/

theorem isActive_iff (h : OK nodes req s) :
    s.isActive = true ↔ (∃ n, s.isOut n = true) ∨ s.ready ≠ [] := by
  have hc := h.count
  simp only [isActive, Bool.or_eq_true, decide_eq_true_eq, Bool.not_eq_true', List.isEmpty_eq_false_iff]
  refine or_congr ?_ Iff.rfl
  have : s.finished < s.passed ↔ 0 < s.info.cnt fun i => decide (i.npred = -1) := by omega
  rw [this, Dict.cnt_pos]
  refine exists_congr fun n => ?_
  rw [isOut_iff]
  simp

/-- An inactive sorter has every node done. -/
theorem inactive_done (h : OK nodes req s) (ha : s.isActive = false) : ∀ n, nodes n → s.isDone n = true := by
  have h0 : ¬ ((∃ n, s.isOut n = true) ∨ s.ready ≠ []) := by rw [← isActive_iff h, ha]; simp
  simp only [not_or, not_exists, ne_eq, Classical.not_not] at h0
  obtain ⟨rank, hr⟩ := h.rank
  have key : ∀ k n, rank n < k → nodes n → s.isDone n = true := by
    intro k
    induction k with
    | zero => intro n hk; omega
    | succ k ih =>
      intro n hk hn
      obtain ⟨i, hi⟩ := Option.isSome_iff_exists.1 ((h.dom n).2 hn)
      rcases h.range n i hi with h1 | h1 | h1
      · exact isDone_iff.2 ⟨i, hi, h1⟩
      · exact absurd (isOut_iff.2 ⟨i, hi, h1⟩) (h0.1 n)
      · have h2 := h.waiting n i hi h1
        have h3 : (req n).countP (fun d => !s.isDone d) = 0 := by
          rw [List.countP_eq_zero]
          intro d hd
          have := ih d (by have := hr n d hn hd; omega) (h.closed n d hn hd)
          simp [this]
        have : n ∈ s.ready := (h.ready n).2 ⟨i, hi, by omega⟩
        rw [h0.2] at this
        simp at this
  intro n hn
  exact key (rank n + 1) n (by omega) hn

end Sorter

end Verif.Sched
