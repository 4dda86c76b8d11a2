import Verif.Sched.SorterInv

/-!
# The sorter finds exactly the cycles

Unlike in `SorterLemmas`, a node may list a predecessor twice.
-/

namespace Verif.Sched

namespace Sorter

/-- `m` can be reached from `n` along successors. -/
inductive Chain (d : Dict Bytes SortNode) : Bytes → Bytes → Prop where
  | one {n m} : m ∈ succs d n → Chain d n m
  | more {n x m} : Chain d n x → m ∈ succs d x → Chain d n m

theorem PathOK.chain {d : Dict Bytes SortNode} {x : Bytes} {st : List (Bytes × List Bytes)} (h : PathOK d (some x) st) :
    ∀ n ∈ st.map (·.1), Chain d n x := by
  induction st generalizing x with
  | nil => intro n hn; simp at hn
  | cons p st ih =>
    obtain ⟨m, r⟩ := p
    obtain ⟨_, h2, h3⟩ := h
    intro n hn
    simp only [List.map_cons, List.mem_cons] at hn
    rcases hn with rfl | hn
    · exact .one (h2 x rfl)
    · exact .more (ih h3 n hn) (h2 x rfl)

theorem walk_chain (d : Dict Bytes SortNode) (hc : ∀ x, ¬ Chain d x x) (fuel : Nat) (st : Dfs) (t : Turn)
    (h : PathOK d t.node st.stack) : ∃ st', walk d fuel st t = some st' := by
  induction fuel generalizing st t with
  | zero => exact ⟨st, by simp [walk]⟩
  | succ fuel ih =>
    cases t with
    | visit n =>
      simp only [walk]
      split
      · split
        · next hs => exact absurd (h.chain n hs) (hc n)
        · refine ih st .back ?_
          revert h
          cases st.stack with
          | nil => intro _; trivial
          | cons p l => rintro ⟨h1, _, h3⟩; exact ⟨h1, by simp [Turn.node], h3⟩
      · refine ih _ .back ⟨fun m hm => hm, by simp [Turn.node], h⟩
    | back =>
      simp only [walk]
      split
      · exact ⟨_, rfl⟩
      · next n rest hst =>
        rw [hst] at h
        refine ih _ .back ?_
        obtain ⟨_, _, h3⟩ := h
        revert h3
        cases rest with
        | nil => intro _; trivial
        | cons p l => rintro ⟨h1, _, h3⟩; exact ⟨h1, by simp [Turn.node], h3⟩
      · next n x xs rest hst =>
        rw [hst] at h
        obtain ⟨h1, _, h3⟩ := h
        exact ih _ (.visit x) ⟨fun m hm => h1 m (by simp [hm]), by
          intro m hm; cases hm; exact h1 x (by simp), h3⟩

/-- `_find_cycle` finds a cycle iff there is one. -/
theorem findCycle_iff (d : Dict Bytes SortNode)
    (hd : ∀ n i, d.get? n = some i → ∀ m ∈ i.succ, (d.get? m).isSome) : findCycle d = true ↔ ∃ x, Chain d x x := by
  constructor
  · intro hf
    refine Classical.byContradiction fun hno => ?_
    have hc : ∀ x, ¬ Chain d x x := fun x hx => hno ⟨x, hx⟩
    have key : ∀ (ns : List Bytes) (st : Dfs), (∀ n ∈ ns, (d.get? n).isSome) → st.stack = [] →
        ∃ st', roots d st ns = some st' := by
      intro ns
      induction ns with
      | nil => intro st _ _; exact ⟨st, rfl⟩
      | cons n ns ih =>
        intro st hns he
        simp only [roots]
        split
        · exact ih st (fun n hn => hns n (by simp [hn])) he
        · obtain ⟨st1, h1⟩ := walk_chain d hc (fuel d) st (.visit n) (by rw [he]; trivial)
          rw [h1]
          have hlen : weight st.seen d.items + stackWeight st.stack + 2 ≤ fuel d := by
            have := weight_le d.items st.seen
            simp only [he, stackWeight, fuel, Dict.values, List.map_map, Function.comp_def, List.map_nil,
              List.sum_nil] at this ⊢
            omega
          have hst := walk_fuel d hd (fuel d) st st1 (.visit n) (by intro p hp; rw [he] at hp; simp at hp)
            (by intro m hm; cases hm; exact hns n (by simp)) hlen h1
          exact ih st1 (fun n hn => hns n (by simp [hn])) hst
    obtain ⟨st', h⟩ := key d.keys ⟨PySet.empty, []⟩ (fun n hn => by
      obtain ⟨v, hv⟩ := Dict.mem_keys.1 hn; simp [hv]) rfl
    simp [findCycle, h] at hf
  · rintro ⟨x, hx⟩
    cases hf : findCycle d with
    | true => rfl
    | false =>
      obtain ⟨rank, hr⟩ := findCycle_rank d hd hf
      have : ∀ n m, Chain d n m → rank n < rank m := by
        intro n m h
        induction h with
        | one h => exact hr _ _ h
        | more _ h ih => have := hr _ _ h; omega
      have := this x x hx
      omega

theorem mem_succs_ensure (d : Dict Bytes SortNode) (n x m : Bytes) : m ∈ succs (ensure d n) x ↔ m ∈ succs d x := by
  unfold succs
  rw [get?_ensure]
  split
  · rename_i h; subst h
    cases d.get? n <;> simp
  · rfl

theorem isSome_ensure (d : Dict Bytes SortNode) (n x : Bytes) : ((ensure d n).get? x).isSome = true ↔ (d.get? x).isSome = true ∨ n = x := by
  rw [get?_ensure]
  split <;> simp [*]

theorem isSome_upd (d : Dict Bytes SortNode) (n x : Bytes) (f : SortNode → SortNode) :
    ((upd d n f).get? x).isSome = (d.get? x).isSome := by
  rw [get?_upd]
  split
  · rename_i h; subst h; simp
  · rfl

theorem addPreds_succs (ps : List Bytes) (d : Dict Bytes SortNode) (n x m : Bytes) :
    m ∈ succs (addPreds d n ps) x ↔ m ∈ succs d x ∨ (m = n ∧ x ∈ ps) := by
  induction ps generalizing d with
  | nil => simp [addPreds]
  | cons p ps ih =>
    rw [addPreds, ih]
    have : m ∈ succs (upd (ensure d p) p fun i => { i with succ := i.succ ++ [n] }) x ↔ m ∈ succs d x ∨ (m = n ∧ x = p) := by
      by_cases h : p = x
      · subst h
        unfold succs
        rw [get?_upd, if_pos rfl, get?_ensure, if_pos rfl]
        cases d.get? p <;> simp
      · rw [← mem_succs_ensure d p x m]
        unfold succs
        rw [get?_upd, if_neg h]
        have : ¬ x = p := fun e => h e.symm
        simp [this]
    rw [this, List.mem_cons]
    constructor
    · rintro ((h | ⟨h1, h2⟩) | ⟨h1, h2⟩)
      · exact .inl h
      · exact .inr ⟨h1, .inl h2⟩
      · exact .inr ⟨h1, .inr h2⟩
    · rintro (h | ⟨h1, h2 | h2⟩)
      · exact .inl (.inl h)
      · exact .inl (.inr ⟨h1, h2⟩)
      · exact .inr ⟨h1, h2⟩

theorem addPreds_isSome (ps : List Bytes) (d : Dict Bytes SortNode) (n x : Bytes) :
    ((addPreds d n ps).get? x).isSome = true ↔ (d.get? x).isSome = true ∨ x ∈ ps := by
  induction ps generalizing d with
  | nil => simp [addPreds]
  | cons p ps ih =>
    rw [addPreds, ih, isSome_upd, isSome_ensure, List.mem_cons]
    grind

/-- The successors in the sorter: every node is a successor of what it needs. -/
structure Links (l : List (Bytes × List Bytes)) (s : Sorter) : Prop where
  succ : ∀ x m, m ∈ succs s.info x ↔ ∃ p ∈ l, p.1 = m ∧ x ∈ p.2
  dom : ∀ p ∈ l, (s.info.get? p.1).isSome = true

theorem links_add {l : List (Bytes × List Bytes)} {s : Sorter} (h : Links l s) (n : Bytes) (ps : List Bytes) :
    Links (l ++ [(n, ps)]) (s.add n ps) := by
  constructor
  · intro x m
    have hu : m ∈ succs (upd (ensure s.info n) n fun i => { i with npred := i.npred + ps.length }) x ↔ m ∈ succs s.info x := by
      rw [← mem_succs_ensure s.info n x m]
      unfold succs
      rw [get?_upd]
      split
      · rename_i e; subst e
        cases (ensure s.info n).get? n <;> simp
      · rfl
    simp only [add, addPreds_succs, hu, h.succ x m, List.mem_append, List.mem_singleton]
    constructor
    · rintro (⟨p, hp, h1⟩ | ⟨rfl, h2⟩)
      · exact ⟨p, .inl hp, h1⟩
      · exact ⟨_, .inr rfl, rfl, h2⟩
    · rintro ⟨p, hp | rfl, h1, h2⟩
      · exact .inl ⟨p, hp, h1, h2⟩
      · exact .inr ⟨h1.symm, h2⟩
  · intro p hp
    simp only [add, addPreds_isSome, isSome_upd, isSome_ensure]
    rcases List.mem_append.1 hp with hp | hp
    · exact .inl (.inl (h.dom p hp))
    · simp only [List.mem_singleton] at hp
      subst hp
      exact .inl (.inr rfl)

/-- Preparing a sorter that was filled node by node fails iff there is a cycle. -/
theorem prepare_links {l : List (Bytes × List Bytes)} {s : Sorter} (h : Links l s) :
    ((∃ x, Chain s.info x x) → s.prepare = .error .cycleError) ∧ ((¬ ∃ x, Chain s.info x x) → ∃ s', s.prepare = .ok s') := by
  have hd : ∀ n i, s.info.get? n = some i → ∀ m ∈ i.succ, (s.info.get? m).isSome := by
    intro n i hi m hm
    obtain ⟨p, hp, e, _⟩ := (h.succ n m).1 (by rw [succs_of_get hi]; exact hm)
    exact e ▸ h.dom p hp
  have := findCycle_iff s.info hd
  unfold prepare
  refine ⟨fun hc => ?_, fun hc => ?_⟩
  · rw [this.2 hc]; rfl
  · have hf : findCycle s.info = false := by
      cases e : findCycle s.info with
      | false => rfl
      | true => exact absurd (this.1 e) hc
    rw [hf]
    exact ⟨_, rfl⟩

end Sorter

end Verif.Sched
