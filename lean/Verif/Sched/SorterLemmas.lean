import Verif.Sched.Sorter

/-!
# Facts about the topological sorter
-/

namespace Verif

namespace Dict
variable {κ ν : Type} [DecidableEq κ]

/-- Number of entries with a property. -/
def cnt (d : Dict κ ν) (p : ν → Bool) : Nat := (d.values.filter p).length

theorem cnt_lset (l : List (κ × ν)) (hn : (l.map (·.1)).Nodup) {k : κ} {v : ν} (v' : ν) (p : ν → Bool)
    (h : lget l k = some v) :
    ((lset l k v').map (·.2)).countP p + (p v).toNat = (l.map (·.2)).countP p + (p v').toNat := by
  induction l with
  | nil => simp [lget] at h
  | cons x d ih =>
    obtain ⟨k1, v1⟩ := x
    simp only [List.map_cons, List.nodup_cons] at hn
    simp only [lget] at h
    simp only [lset]
    split at h
    · next e =>
      cases h
      simp only [e, if_true, List.map_cons, List.countP_cons]
      cases p v <;> cases p v' <;> simp <;> omega
    · next e =>
      have := ih hn.2 h
      simp only [e, if_false, List.map_cons, List.countP_cons]
      omega

/-- Changing one entry. -/
theorem cnt_set {d : Dict κ ν} {k : κ} {v : ν} (v' : ν) (p : ν → Bool) (h : d.get? k = some v) :
    (d.set k v').cnt p + (p v).toNat = d.cnt p + (p v').toNat := by
  have := cnt_lset d.items d.nodup v' p h
  simpa [cnt, values, set, List.countP_eq_length_filter] using this

theorem cnt_pos {d : Dict κ ν} {p : ν → Bool} : 0 < d.cnt p ↔ ∃ k v, d.get? k = some v ∧ p v = true := by
  simp only [cnt, values, List.length_pos_iff_exists_mem, List.mem_filter, List.mem_map]
  constructor
  · rintro ⟨v, ⟨⟨k, v'⟩, hm, rfl⟩, hp⟩; exact ⟨k, v', mem_items.1 hm, hp⟩
  · rintro ⟨k, v, hm, hp⟩; exact ⟨v, ⟨(k, v), mem_items.2 hm, rfl⟩, hp⟩

theorem cnt_zero {d : Dict κ ν} {p : ν → Bool} (h : ∀ k v, d.get? k = some v → p v = false) : d.cnt p = 0 := by
  rcases Nat.eq_zero_or_pos (d.cnt p) with h' | h'
  · exact h'
  · obtain ⟨k, v, hk, hv⟩ := cnt_pos.1 h'
    rw [h k v hk] at hv; cases hv

end Dict

end Verif

namespace Verif.Sched

namespace Sorter

/-! ### Building -/

theorem get?_ensure (d : Dict Bytes SortNode) (n x : Bytes) :
    (ensure d n).get? x = if n = x then some ((d.get? n).getD ⟨0, []⟩) else d.get? x := by
  unfold ensure
  cases h : d.get? n with
  | none =>
    have : d.has n = false := by simp [Dict.has, h]
    simp [this]
  | some i =>
    have : d.has n = true := by simp [Dict.has, h]
    simp only [this, if_true]
    split
    · next e => rw [← e, h]; rfl
    · rfl

theorem get?_upd (d : Dict Bytes SortNode) (n x : Bytes) (f : SortNode → SortNode) :
    (upd d n f).get? x = if n = x then (d.get? n).map f else d.get? x := by
  unfold upd
  cases h : d.get? n with
  | none =>
    simp only [Option.map_none]
    split
    · next e => rw [← e, h]
    · rfl
  | some i => simp

theorem get?_addPreds (ps : List Bytes) (hn : ps.Nodup) (d : Dict Bytes SortNode) (n x : Bytes) :
    (addPreds d n ps).get? x =
      if x ∈ ps then some { (d.get? x).getD ⟨0, []⟩ with succ := ((d.get? x).getD ⟨0, []⟩).succ ++ [n] }
      else d.get? x := by
  induction ps generalizing d with
  | nil => simp [addPreds]
  | cons p ps ih =>
    rw [List.nodup_cons] at hn
    simp only [addPreds, ih hn.2, get?_upd, get?_ensure, List.mem_cons]
    by_cases hx : x = p
    · subst hx
      simp [hn.1]
    · have : ¬ p = x := fun e => hx e.symm
      simp [this, hx]

/-- The nodes of an edge list: the keys and everything they depend on. -/
def nodesOf (l : List (Bytes × List Bytes)) (n : Bytes) : Prop :=
  n ∈ l.map (·.1) ∨ ∃ p ∈ l, n ∈ p.2

/-- What a node depends on. -/
def reqOf (l : List (Bytes × List Bytes)) (n : Bytes) : List Bytes := (Dict.lget l n).getD []

theorem lget_append (l : List (Bytes × List Bytes)) (p : Bytes × List Bytes) (n : Bytes) :
    Dict.lget (l ++ [p]) n = (Dict.lget l n).or (if p.1 = n then some p.2 else none) := by
  induction l with
  | nil => obtain ⟨a, b⟩ := p; simp [Dict.lget]
  | cons q l ih =>
    obtain ⟨a, b⟩ := q
    simp only [List.cons_append, Dict.lget, ih]
    split <;> simp

theorem lget_none {l : List (Bytes × List Bytes)} {n : Bytes} (h : n ∉ l.map (·.1)) : Dict.lget l n = none := by
  cases e : Dict.lget l n with
  | none => rfl
  | some v => exact absurd (List.mem_map.2 ⟨_, Dict.lget_mem e, rfl⟩) h

theorem mem_reqOf {l : List (Bytes × List Bytes)} (hn : (l.map (·.1)).Nodup) {n d : Bytes} :
    d ∈ reqOf l n ↔ ∃ p ∈ l, p.1 = n ∧ d ∈ p.2 := by
  unfold reqOf
  constructor
  · intro h
    cases e : Dict.lget l n with
    | none => simp [e] at h
    | some v => exact ⟨(n, v), Dict.lget_mem e, rfl, by simpa [e] using h⟩
  · rintro ⟨⟨a, b⟩, hp, rfl, hd⟩
    rw [Dict.lget_of_mem hn hp]; exact hd

structure Built (l : List (Bytes × List Bytes)) (s : Sorter) : Prop where
  dom : ∀ n, (s.info.get? n).isSome ↔ nodesOf l n
  npred : ∀ n i, s.info.get? n = some i → i.npred = (reqOf l n).length
  succ : ∀ n i m, s.info.get? n = some i → (m ∈ i.succ ↔ ∃ p ∈ l, p.1 = m ∧ n ∈ p.2)
  nodup : ∀ n i, s.info.get? n = some i → i.succ.Nodup
  rest : s.ready = [] ∧ s.passed = 0 ∧ s.finished = 0

theorem built_empty : Built [] empty := by
  constructor <;> simp [empty, nodesOf]

theorem built_add {l : List (Bytes × List Bytes)} {s : Sorter} (h : Built l s) {n : Bytes} {ps : List Bytes}
    (hn : n ∉ l.map (·.1)) (hps : ps.Nodup) : Built (l ++ [(n, ps)]) (s.add n ps) := by
  have hget : ∀ x, (s.add n ps).info.get? x =
      if x ∈ ps then
        some ⟨((s.info.get? x).getD ⟨0, []⟩).npred + (if x = n then (ps.length : Int) else 0),
          ((s.info.get? x).getD ⟨0, []⟩).succ ++ [n]⟩
      else if x = n then some ⟨((s.info.get? x).getD ⟨0, []⟩).npred + ps.length, ((s.info.get? x).getD ⟨0, []⟩).succ⟩
      else s.info.get? x := by
    intro x
    simp only [add, get?_addPreds ps hps, get?_upd, get?_ensure]
    by_cases hx : x = n
    · subst hx; simp
    · have : ¬ n = x := fun e => hx e.symm
      simp [hx, this]
  have hreq : ∀ x, reqOf (l ++ [(n, ps)]) x = if x = n then ps else reqOf l x := by
    intro x
    unfold reqOf
    rw [lget_append]
    by_cases hx : x = n
    · subst hx; simp [lget_none hn]
    · have : ¬ n = x := fun e => hx e.symm
      simp [hx, this]
  have hzero : ∀ x, ¬ nodesOf l x → reqOf l x = [] := by
    intro x hx
    have : x ∉ l.map (·.1) := fun h => hx (Or.inl h)
    simp [reqOf, lget_none this]
  have hn0 : reqOf l n = [] := by simp [reqOf, lget_none hn]
  have hold : ∀ x, ((s.info.get? x).getD ⟨0, []⟩).npred = (reqOf l x).length := by
    intro x
    cases e : s.info.get? x with
    | some i => exact h.npred x i e
    | none =>
      have : ¬ nodesOf l x := by rw [← h.dom, e]; simp
      simp [hzero x this]
  have holds : ∀ x m, m ∈ ((s.info.get? x).getD ⟨0, []⟩).succ ↔ ∃ p ∈ l, p.1 = m ∧ x ∈ p.2 := by
    intro x m
    cases e : s.info.get? x with
    | some i => exact h.succ x i m e
    | none =>
      have : ¬ nodesOf l x := by rw [← h.dom, e]; simp
      simp only [Option.getD_none, List.not_mem_nil, false_iff]
      rintro ⟨p, hp, _, hx⟩
      exact this (Or.inr ⟨p, hp, hx⟩)
  have holdn : ∀ x, ((s.info.get? x).getD ⟨0, []⟩).succ.Nodup := by
    intro x
    cases e : s.info.get? x with
    | some i => exact h.nodup x i e
    | none => simp
  have hnotin : ∀ x, n ∉ ((s.info.get? x).getD ⟨0, []⟩).succ := by
    intro x hx
    obtain ⟨p, hp, e, _⟩ := (holds x n).1 hx
    exact hn (List.mem_map.2 ⟨p, hp, e⟩)
  constructor
  · intro x
    rw [hget]
    have hd := h.dom x
    simp only [nodesOf] at hd ⊢
    by_cases h1 : x ∈ ps
    · simp [h1]
    · by_cases h2 : x = n
      · subst h2; simp [h1]
      · simp [h1, h2, hd]
  · intro x i hi
    rw [hget] at hi
    rw [hreq]
    have := hold x
    by_cases h1 : x ∈ ps
    · by_cases h2 : x = n
      · subst h2
        simp only [h1, if_true, Option.some.injEq] at hi
        subst hi; simp [this, hn0]
      · simp only [h1, h2, if_true, if_false, Option.some.injEq] at hi ⊢
        subst hi; simp [this]
    · by_cases h2 : x = n
      · subst h2
        simp only [h1, if_true, if_false, Option.some.injEq] at hi
        subst hi; simp [this, hn0]
      · simp only [h1, h2, if_false] at hi ⊢
        exact h.npred x i hi
  · intro x i m hi
    rw [hget] at hi
    have hs := holds x m
    simp only [List.mem_append, List.mem_singleton]
    have key : (∃ p, (p ∈ l ∨ p = (n, ps)) ∧ p.1 = m ∧ x ∈ p.2) ↔
        (∃ p ∈ l, p.1 = m ∧ x ∈ p.2) ∨ (n = m ∧ x ∈ ps) := by
      constructor
      · rintro ⟨p, hp | rfl, h1, h2⟩
        · exact Or.inl ⟨p, hp, h1, h2⟩
        · exact Or.inr ⟨h1, h2⟩
      · rintro (⟨p, hp, h1⟩ | h1)
        · exact ⟨p, Or.inl hp, h1⟩
        · exact ⟨(n, ps), Or.inr rfl, h1⟩
    rw [key, ← hs]
    by_cases h1 : x ∈ ps
    · simp only [h1, if_true, Option.some.injEq] at hi
      subst hi; simp [h1, eq_comm]
    · by_cases h2 : x = n
      · subst h2
        simp only [h1, if_true, if_false, Option.some.injEq] at hi
        subst hi; simp [h1]
      · simp only [h1, h2, if_false] at hi
        simp [hi, h1]
  · intro x i hi
    rw [hget] at hi
    have h3 := holdn x
    have h4 := hnotin x
    by_cases h1 : x ∈ ps
    · simp only [h1, if_true, Option.some.injEq] at hi
      subst hi
      exact List.nodup_append.2 ⟨h3, by simp, by grind⟩
    · by_cases h2 : x = n
      · subst h2
        simp only [h1, if_true, if_false, Option.some.injEq] at hi
        subst hi; exact h3
      · simp only [h1, h2, if_false] at hi
        exact h.nodup x i hi
  · exact h.rest

theorem built_foldl (l : List (Bytes × List Bytes)) (l0 : List (Bytes × List Bytes)) (s : Sorter)
    (h : Built l0 s) (hn : ((l0 ++ l).map (·.1)).Nodup) (hps : ∀ p ∈ l, p.2.Nodup) :
    Built (l0 ++ l) (l.foldl (fun s p => s.add p.1 p.2) s) := by
  induction l generalizing l0 s with
  | nil => simpa using h
  | cons p l ih =>
    obtain ⟨n, ps⟩ := p
    have : l0 ++ (n, ps) :: l = (l0 ++ [(n, ps)]) ++ l := by simp
    rw [this] at hn ⊢
    refine ih _ _ (built_add h ?_ (hps (n, ps) (by simp))) hn fun p hp => hps p (by simp [hp])
    simp only [List.map_append, List.map_cons, List.append_assoc] at hn
    intro hm
    exact (List.nodup_append.1 hn).2.2 n hm n (by simp) rfl

theorem built {l : List (Bytes × List Bytes)} (hn : (l.map (·.1)).Nodup) (hps : ∀ p ∈ l, p.2.Nodup) :
    Built l (build l) := by
  have := built_foldl l [] empty built_empty (by simpa using hn) hps
  simpa [build] using this

/-! ### Cycle search -/

/-- successors of a node -/
def succs (d : Dict Bytes SortNode) (n : Bytes) : List Bytes := ((d.get? n).map (·.succ)).getD []

/-- Every successor of a stacked node is still to be visited, finished, or the node above it. -/
def StackOK (d : Dict Bytes SortNode) (fin : Bytes → Prop) : Option Bytes → List (Bytes × List Bytes) → Prop
  | _, [] => True
  | x, (n, r) :: rest =>
    (∀ m ∈ succs d n, m ∈ r ∨ fin m ∨ x = some m) ∧ StackOK d fin (some n) rest

theorem StackOK.imp {d : Dict Bytes SortNode} {fin fin' : Bytes → Prop} (hf : ∀ m, fin m → fin' m)
    {x x' : Option Bytes} (hx : ∀ m, x = some m → fin' m ∨ x' = some m) {st : List (Bytes × List Bytes)}
    (h : StackOK d fin x st) : StackOK d fin' x' st := by
  induction st generalizing x x' with
  | nil => trivial
  | cons p st ih =>
    obtain ⟨n, r⟩ := p
    refine ⟨fun m hm => ?_, ih (fun m hm => Or.inr hm) h.2⟩
    rcases h.1 m hm with h1 | h1 | h1
    · exact Or.inl h1
    · exact Or.inr (Or.inl (hf m h1))
    · exact Or.inr (hx m h1)

/-- finished nodes -/
def Dfs.fin (st : Dfs) (m : Bytes) : Prop := m ∈ st.seen ∧ m ∉ st.stack.map (·.1)

/-- Invariant of the search; `f` numbers the finished nodes so that successors come first. -/
structure DfsInv (d : Dict Bytes SortNode) (st : Dfs) (x : Option Bytes) : Prop where
  nodup : (st.stack.map (·.1)).Nodup
  sub : ∀ m ∈ st.stack.map (·.1), m ∈ st.seen
  ok : StackOK d st.fin x st.stack
  order : ∃ (f : Bytes → Nat) (N : Nat), ∀ n, st.fin n → f n < N ∧ ∀ m ∈ succs d n, st.fin m ∧ f m < f n

/-- the node being visited -/
def Turn.node : Turn → Option Bytes
  | .visit n => some n
  | .back => none

theorem walk_inv (d : Dict Bytes SortNode) (fuel : Nat) (st st' : Dfs) (t : Turn)
    (h : DfsInv d st t.node) (hw : walk d fuel st t = some st') : (∃ x, DfsInv d st' x) ∧
      (∀ m, m ∈ st.seen → m ∈ st'.seen) ∧ (fuel ≠ 0 → ∀ n, t = .visit n → n ∈ st'.seen) := by
  induction fuel generalizing st t with
  | zero =>
    simp only [walk, Option.some.injEq] at hw
    subst hw
    exact ⟨⟨_, h⟩, fun _ h => h, by simp⟩
  | succ fuel ih =>
    cases t with
    | visit n =>
      simp only [walk] at hw
      split at hw
      · next hs =>
        split at hw
        · cases hw
        · next hns =>
          obtain ⟨h1, h2, _⟩ := ih st .back ⟨h.nodup, h.sub, h.ok.imp (fun _ h => h) (by
            intro m hm; cases hm; exact Or.inl ⟨hs, hns⟩), h.order⟩ hw
          exact ⟨h1, h2, fun _ m hm => by cases hm; exact h2 _ hs⟩
      · next hs =>
        have hfin : ∀ m, Dfs.fin ⟨st.seen.add n, (n, succs d n) :: st.stack⟩ m ↔ st.fin m := by
          intro m
          simp only [Dfs.fin, PySet.mem_add, List.map_cons, List.mem_cons, not_or]
          constructor
          · rintro ⟨h1 | h1, h2, h3⟩
            · exact ⟨h1, h3⟩
            · exact absurd h1 h2
          · rintro ⟨h1, h2⟩
            exact ⟨Or.inl h1, fun e => hs (e ▸ h1), h2⟩
        suffices hi : DfsInv d ⟨st.seen.add n, (n, succs d n) :: st.stack⟩ none by
          obtain ⟨h1, h2, _⟩ := ih _ .back hi hw
          exact ⟨h1, fun m hm => h2 m (by simp [hm]), fun _ m hm => by cases hm; exact h2 _ (by simp)⟩
        refine ⟨?_, ?_, ?_, ?_⟩
        · simp only [List.map_cons, List.nodup_cons]
          exact ⟨fun hm => hs (h.sub n hm), h.nodup⟩
        · intro m hm
          simp only [List.map_cons, List.mem_cons] at hm
          rcases hm with rfl | hm
          · simp
          · simp [h.sub m hm]
        · exact ⟨fun m hm => Or.inl hm, h.ok.imp (fun m hm => (hfin m).2 hm) (fun m hm => Or.inr hm)⟩
        · obtain ⟨f, N, hf⟩ := h.order
          exact ⟨f, N, fun m hm => by simpa only [hfin] using hf m ((hfin m).1 hm)⟩
    | back =>
      simp only [walk] at hw
      split at hw
      · cases hw
        exact ⟨⟨_, h⟩, fun _ h => h, by simp⟩
      · next n rest hst =>
        have hn := h.nodup
        have hsub := h.sub
        have hok := h.ok
        rw [hst] at hn hok hsub
        simp only [List.map_cons, List.nodup_cons] at hn
        have hfin : ∀ m, Dfs.fin ⟨st.seen, rest⟩ m ↔ st.fin m ∨ m = n := by
          intro m
          simp only [Dfs.fin, hst, List.map_cons, List.mem_cons, not_or]
          constructor
          · rintro ⟨h1, h2⟩
            by_cases e : m = n
            · exact Or.inr e
            · exact Or.inl ⟨h1, e, h2⟩
          · rintro (⟨h1, _, h2⟩ | rfl)
            · exact ⟨h1, h2⟩
            · exact ⟨hsub m (by simp), hn.1⟩
        have hnf : ¬ st.fin n := fun hf => hf.2 (by rw [hst]; simp)
        suffices hi : DfsInv d ⟨st.seen, rest⟩ none by
          obtain ⟨h1, h2, _⟩ := ih _ .back hi hw
          exact ⟨h1, h2, by simp⟩
        refine ⟨hn.2, fun m hm => hsub m (by simp [hm]), ?_, ?_⟩
        · refine hok.2.imp (fun m hm => (hfin m).2 (Or.inl hm)) ?_
          intro m hm; cases hm; exact Or.inl ((hfin _).2 (Or.inr rfl))
        · obtain ⟨f, N, hf⟩ := h.order
          refine ⟨fun m => if m = n then N else f m, N + 1, ?_⟩
          intro m hm
          rw [hfin] at hm
          by_cases e : m = n
          · subst e
            refine ⟨by simp, fun m' hm' => ?_⟩
            rcases hok.1 m' hm' with h1 | h1 | h1
            · simp at h1
            · have e : m' ≠ m := fun e => hnf (e ▸ h1)
              refine ⟨(hfin m').2 (Or.inl h1), ?_⟩
              have := (hf m' h1).1
              simpa [e] using this
            · cases h1
          · have hm : st.fin m := hm.resolve_right e
            obtain ⟨h1, h2⟩ := hf m hm
            refine ⟨by simp [e]; omega, fun m' hm' => ?_⟩
            obtain ⟨h3, h4⟩ := h2 m' hm'
            have e' : m' ≠ n := fun e => hnf (e ▸ h3)
            exact ⟨(hfin m').2 (Or.inl h3), by simpa [e, e'] using h4⟩
      · next n x xs rest hst =>
        have hn := h.nodup
        have hsub := h.sub
        have hok := h.ok
        rw [hst] at hn hok hsub
        have hfin : ∀ m, Dfs.fin ⟨st.seen, (n, xs) :: rest⟩ m ↔ st.fin m := by
          intro m; simp [Dfs.fin, hst]
        suffices hi : DfsInv d ⟨st.seen, (n, xs) :: rest⟩ (some x) by
          obtain ⟨h1, h2, _⟩ := ih _ (.visit x) hi hw
          exact ⟨h1, h2, by simp⟩
        refine ⟨hn, hsub, ?_, ?_⟩
        · refine ⟨fun m hm => ?_, hok.2.imp (fun m hm => (hfin m).2 hm) (fun m hm => Or.inr hm)⟩
          rcases hok.1 m hm with h1 | h1 | h1
          · rcases List.mem_cons.1 h1 with rfl | h1
            · exact Or.inr (Or.inr rfl)
            · exact Or.inl h1
          · exact Or.inr (Or.inl ((hfin m).2 h1))
          · cases h1
        · obtain ⟨f, N, hf⟩ := h.order
          exact ⟨f, N, fun m hm => by simpa only [hfin] using hf m ((hfin m).1 hm)⟩

/-- Turns that the unseen nodes can still cause. -/
def weight (seen : PySet Bytes) : List (Bytes × SortNode) → Nat
  | [] => 0
  | p :: l => (if p.1 ∈ seen then 0 else 2 * p.2.succ.length + 4) + weight seen l

/-- Turns that the stacked iterators can still cause. -/
def stackWeight (st : List (Bytes × List Bytes)) : Nat := (st.map fun p => 2 * p.2.length + 2).sum

theorem weight_le (l : List (Bytes × SortNode)) (seen : PySet Bytes) :
    weight seen l ≤ (l.map fun p => 2 * p.2.succ.length + 4).sum := by
  induction l with
  | nil => simp [weight]
  | cons p l ih =>
    simp only [weight, List.map_cons, List.sum_cons]
    split <;> omega

theorem weight_mono (l : List (Bytes × SortNode)) (seen : PySet Bytes) (n : Bytes) :
    weight (seen.add n) l ≤ weight seen l := by
  induction l with
  | nil => simp [weight]
  | cons p l ih =>
    simp only [weight, PySet.mem_add]
    by_cases h1 : p.1 ∈ seen <;> by_cases h2 : p.1 = n <;> simp only [h1, h2, if_true, if_false, or_true, or_false] <;>
      (try split) <;> omega

theorem weight_add {l : List (Bytes × SortNode)} (seen : PySet Bytes) {n : Bytes}
    {i : SortNode} (hi : (n, i) ∈ l) (hs : n ∉ seen) :
    weight (seen.add n) l + (2 * i.succ.length + 4) ≤ weight seen l := by
  induction l with
  | nil => simp at hi
  | cons p l ih =>
    have hm := weight_mono l seen n
    simp only [weight, PySet.mem_add]
    rcases List.mem_cons.1 hi with rfl | hi
    · simp only [hs, or_true, if_true, if_false]; omega
    · have := ih hi
      by_cases h1 : p.1 ∈ seen <;> by_cases h2 : p.1 = n <;>
        simp only [h1, h2, hs, if_true, if_false, or_true, or_false] <;> (try split) <;> omega

/-- The nodes met in the search are nodes. -/
def InDict (d : Dict Bytes SortNode) (st : Dfs) : Prop :=
  ∀ p ∈ st.stack, ∀ m ∈ p.2, (d.get? m).isSome

/-- The fuel is never used up: the search ends with an empty stack. -/
theorem walk_fuel (d : Dict Bytes SortNode)
    (hd : ∀ n i, d.get? n = some i → ∀ m ∈ i.succ, (d.get? m).isSome)
    (fuel : Nat) (st st' : Dfs) (t : Turn) (hin : InDict d st) (ht : ∀ n, t = .visit n → (d.get? n).isSome)
    (hf : weight st.seen d.items + stackWeight st.stack + (match t with | .visit _ => 2 | .back => 1) ≤ fuel)
    (hw : walk d fuel st t = some st') : st'.stack = [] := by
  induction fuel generalizing st t with
  | zero => cases t <;> simp at hf
  | succ fuel ih =>
    cases t with
    | visit n =>
      simp only [walk] at hw
      split at hw
      · split at hw
        · cases hw
        · exact ih st .back hin (by simp) (by simp only at hf ⊢; omega) hw
      · next hs =>
        obtain ⟨i, hi⟩ := Option.isSome_iff_exists.1 (ht n rfl)
        refine ih _ .back ?_ (by simp) ?_ hw
        · intro p hp m hm
          rcases List.mem_cons.1 hp with rfl | hp
          · simp only [hi, Option.map_some, Option.getD_some] at hm
            exact hd n i hi m hm
          · exact hin p hp m hm
        · have := weight_add st.seen (Dict.mem_items.2 hi) hs
          simp only [stackWeight, List.map_cons, List.sum_cons, hi, Option.map_some, Option.getD_some] at hf ⊢
          omega
    | back =>
      simp only [walk] at hw
      split at hw
      · next hst => cases hw; exact hst
      · next n rest hst =>
        refine ih _ .back (fun p hp => hin p (by rw [hst]; simp [hp])) (by simp) ?_ hw
        simp only [hst, stackWeight, List.map_cons, List.sum_cons] at hf ⊢
        omega
      · next n x xs rest hst =>
        refine ih _ (.visit x) ?_ ?_ ?_ hw
        · intro p hp m hm
          rcases List.mem_cons.1 hp with rfl | hp
          · exact hin (n, x :: xs) (by rw [hst]; simp) m (by simp [show m ∈ xs from hm])
          · exact hin p (by rw [hst]; simp [hp]) m hm
        · intro m hm; cases hm
          exact hin (n, x :: xs) (by rw [hst]; simp) x (by simp)
        · simp only [hst, stackWeight, List.map_cons, List.sum_cons, List.length_cons] at hf ⊢
          omega

theorem roots_spec (d : Dict Bytes SortNode)
    (hd : ∀ n i, d.get? n = some i → ∀ m ∈ i.succ, (d.get? m).isSome)
    (ns : List Bytes) (hns : ∀ n ∈ ns, (d.get? n).isSome) (st st' : Dfs) (h : DfsInv d st none)
    (he : st.stack = []) (hr : roots d st ns = some st') :
    DfsInv d st' none ∧ st'.stack = [] ∧ (∀ m, m ∈ st.seen → m ∈ st'.seen) ∧ ∀ n ∈ ns, n ∈ st'.seen := by
  induction ns generalizing st with
  | nil =>
    simp only [roots, Option.some.injEq] at hr
    subst hr
    exact ⟨h, he, fun _ h => h, by simp⟩
  | cons n ns ih =>
    simp only [roots] at hr
    split at hr
    · next hs =>
      obtain ⟨h1, h2, h3, h4⟩ := ih (fun n hn => hns n (by simp [hn])) st h he hr
      exact ⟨h1, h2, h3, fun m hm => by
        rcases List.mem_cons.1 hm with rfl | hm
        · exact h3 _ hs
        · exact h4 m hm⟩
    · next hs =>
      split at hr
      · cases hr
      · next st1 hw =>
        have hi : DfsInv d st (some n) := ⟨h.nodup, h.sub, by rw [he]; trivial, h.order⟩
        obtain ⟨⟨x, h1⟩, h2, h3⟩ := walk_inv d (fuel d) st st1 (.visit n) hi hw
        have hlen : weight st.seen d.items + stackWeight st.stack + 2 ≤ fuel d := by
          have := weight_le d.items st.seen
          simp only [he, stackWeight, fuel, Dict.values, List.map_map, Function.comp_def, List.map_nil,
            List.sum_nil] at this ⊢
          omega
        have hst := walk_fuel d hd (fuel d) st st1 (.visit n) (by intro p hp; rw [he] at hp; simp at hp)
          (by intro m hm; cases hm; exact hns n (by simp)) hlen hw
        have hn1 : n ∈ st1.seen := h3 (by simp [fuel]) n rfl
        have h1' : DfsInv d st1 none := ⟨h1.nodup, h1.sub, by rw [hst]; trivial, h1.order⟩
        obtain ⟨h4, h5, h6, h7⟩ := ih (fun n hn => hns n (by simp [hn])) st1 h1' hst hr
        exact ⟨h4, h5, fun m hm => h6 m (h2 m hm), fun m hm => by
          rcases List.mem_cons.1 hm with rfl | hm
          · exact h6 _ hn1
          · exact h7 m hm⟩

/-- No cycle found: the graph has a ranking along its edges. -/
theorem findCycle_rank (d : Dict Bytes SortNode)
    (hd : ∀ n i, d.get? n = some i → ∀ m ∈ i.succ, (d.get? m).isSome) (h : findCycle d = false) :
    ∃ rank : Bytes → Nat, ∀ n m, m ∈ succs d n → rank n < rank m := by
  unfold findCycle at h
  cases hr : roots d ⟨PySet.empty, []⟩ d.keys with
  | none => simp [hr] at h
  | some st =>
    have h0 : DfsInv d ⟨PySet.empty, []⟩ none :=
      ⟨by simp, by simp, trivial, fun _ => 0, 0, fun n hn => by simp [Dfs.fin] at hn⟩
    obtain ⟨h1, h2, _, h4⟩ := roots_spec d hd d.keys (fun n hn => by
      obtain ⟨v, hv⟩ := Dict.mem_keys.1 hn; simp [hv]) _ st h0 rfl hr
    obtain ⟨f, N, hf⟩ := h1.order
    refine ⟨fun n => N - f n, ?_⟩
    intro n m hm
    have hn : st.fin n := by
      refine ⟨h4 n ?_, by simp [h2]⟩
      cases e : d.get? n with
      | none => simp [succs, e] at hm
      | some i => exact Dict.mem_keys.2 ⟨i, e⟩
    obtain ⟨h5, h6⟩ := hf n hn
    obtain ⟨h7, h8⟩ := h6 m hm
    show N - f n < N - f m
    omega

/-- The stacked nodes form a path. -/
def PathOK (d : Dict Bytes SortNode) : Option Bytes → List (Bytes × List Bytes) → Prop
  | _, [] => True
  | x, (n, r) :: rest =>
    (∀ m ∈ r, m ∈ succs d n) ∧ (∀ m, x = some m → m ∈ succs d n) ∧ PathOK d (some n) rest

theorem PathOK.rank {d : Dict Bytes SortNode} {rank : Bytes → Nat} (hr : ∀ n m, m ∈ succs d n → rank n < rank m)
    {x : Bytes} {st : List (Bytes × List Bytes)} (h : PathOK d (some x) st) :
    ∀ n ∈ st.map (·.1), rank n < rank x := by
  induction st generalizing x with
  | nil => simp
  | cons p st ih =>
    obtain ⟨n, r⟩ := p
    obtain ⟨_, h2, h3⟩ := h
    have h4 := hr n x (h2 x rfl)
    intro m hm
    simp only [List.map_cons, List.mem_cons] at hm
    rcases hm with rfl | hm
    · exact h4
    · have := ih h3 m hm
      omega

theorem walk_acyclic (d : Dict Bytes SortNode) {rank : Bytes → Nat}
    (hr : ∀ n m, m ∈ succs d n → rank n < rank m) (fuel : Nat) (st : Dfs) (t : Turn)
    (h : PathOK d t.node st.stack) : ∃ st', walk d fuel st t = some st' := by
  induction fuel generalizing st t with
  | zero => exact ⟨st, by simp [walk]⟩
  | succ fuel ih =>
    cases t with
    | visit n =>
      simp only [walk]
      split
      · split
        · next hs =>
          have := h.rank hr n hs
          omega
        · refine ih st .back ?_
          revert h
          cases st.stack with
          | nil => intro _; trivial
          | cons p l => rintro ⟨h1, _, h3⟩; exact ⟨h1, by simp [Turn.node], h3⟩
      · refine ih _ .back ⟨fun m hm => hm, by simp [Turn.node], h⟩
    | back =>
      simp only [walk]
      split
      · exact ⟨_, rfl⟩
      · next n rest hst =>
        rw [hst] at h
        refine ih _ .back ?_
        obtain ⟨_, _, h3⟩ := h
        revert h3
        cases rest with
        | nil => intro _; trivial
        | cons p l => rintro ⟨h1, _, h3⟩; exact ⟨h1, by simp [Turn.node], h3⟩
      · next n x xs rest hst =>
        rw [hst] at h
        obtain ⟨h1, _, h3⟩ := h
        exact ih _ (.visit x) ⟨fun m hm => h1 m (by simp [hm]), by
          intro m hm; cases hm; exact h1 x (by simp), h3⟩

/-- A ranked graph has no cycle to find. -/
theorem findCycle_acyclic (d : Dict Bytes SortNode)
    (hd : ∀ n i, d.get? n = some i → ∀ m ∈ i.succ, (d.get? m).isSome) {rank : Bytes → Nat}
    (hr : ∀ n m, m ∈ succs d n → rank n < rank m) : findCycle d = false := by
  have key : ∀ (ns : List Bytes) (st : Dfs), (∀ n ∈ ns, (d.get? n).isSome) → st.stack = [] →
      ∃ st', roots d st ns = some st' := by
    intro ns
    induction ns with
    | nil => intro st _ _; exact ⟨st, rfl⟩
    | cons n ns ih =>
      intro st hns he
      simp only [roots]
      split
      · exact ih st (fun n hn => hns n (by simp [hn])) he
      · obtain ⟨st1, h1⟩ := walk_acyclic d hr (fuel d) st (.visit n) (by rw [he]; trivial)
        rw [h1]
        have hlen : weight st.seen d.items + stackWeight st.stack + 2 ≤ fuel d := by
          have := weight_le d.items st.seen
          simp only [he, stackWeight, fuel, Dict.values, List.map_map, Function.comp_def, List.map_nil,
            List.sum_nil] at this ⊢
          omega
        have hst := walk_fuel d hd (fuel d) st st1 (.visit n) (by intro p hp; rw [he] at hp; simp at hp)
          (by intro m hm; cases hm; exact hns n (by simp)) hlen h1
        exact ih st1 (fun n hn => hns n (by simp [hn])) hst
  obtain ⟨st', h⟩ := key d.keys ⟨PySet.empty, []⟩ (fun n hn => by
    obtain ⟨v, hv⟩ := Dict.mem_keys.1 hn; simp [hv]) rfl
  simp [findCycle, h]

end Sorter

end Verif.Sched
