import Verif.Spec.Sorter
import Verif.Sched.SorterCycle

/-!
# C93: the sorter of the graph manager
-/

namespace Verif.Props

open Verif.Sched Verif.Spec.Sorter

variable {g : List (Bytes × List Bytes)} {r : Record} {s : Sorter} {n : Bytes}

theorem isNode_nodesOf : IsNode g n ↔ Sorter.nodesOf g n := by
  unfold IsNode Sorter.nodesOf
  constructor
  · rintro ⟨p, hp, h | h⟩
    · exact .inl (List.mem_map.2 ⟨p, hp, h⟩)
    · exact .inr ⟨p, hp, h⟩
  · rintro (h | ⟨p, hp, h⟩)
    · obtain ⟨p, hp, h⟩ := List.mem_map.1 h
      exact ⟨p, hp, .inl h⟩
    · exact ⟨p, hp, .inr h⟩

theorem needs_reqOf (hn : (g.map (·.1)).Nodup) {m : Bytes} : Needs g n m ↔ m ∈ Sorter.reqOf g n := (Sorter.mem_reqOf hn).symm

/-- The sorter knows the record. -/
structure Tracks (g : List (Bytes × List Bytes)) (r : Record) (s : Sorter) : Prop where
  ok : Sorter.OK (Sorter.nodesOf g) (Sorter.reqOf g) s
  done : ∀ n, s.isDone n = true ↔ n ∈ r.done
  out : ∀ n, s.isOut n = true ↔ n ∈ r.handed ∧ n ∉ r.done
  sub : ∀ n ∈ r.done, n ∈ r.handed
  once : r.handed.Nodup
  order : ∀ l1 n l2, r.handed = l1 ++ n :: l2 → ∀ m, Needs g n m → m ∈ l1 ∧ m ∈ r.done

theorem Tracks.ready_iff (h : Tracks g r s) (hn : (g.map (·.1)).Nodup) : n ∈ s.ready ↔ Free g r n := by
  rw [h.ok.ready]
  constructor
  · rintro ⟨i, hi, h0⟩
    refine ⟨isNode_nodesOf.2 ((h.ok.dom n).1 (by rw [hi]; rfl)), fun hh => ?_, fun m hm => ?_⟩
    · by_cases hd : n ∈ r.done
      · obtain ⟨j, hj, e⟩ := Sorter.isDone_iff.1 ((h.done n).2 hd)
        rw [hi] at hj; cases hj; omega
      · obtain ⟨j, hj, e⟩ := Sorter.isOut_iff.1 ((h.out n).2 ⟨hh, hd⟩)
        rw [hi] at hj; cases hj; omega
    · have hw := h.ok.waiting n i hi (by omega)
      have hc : (Sorter.reqOf g n).countP (fun d => !s.isDone d) = 0 := by omega
      have := List.countP_eq_zero.1 hc m ((needs_reqOf hn).1 hm)
      exact (h.done m).1 (by simpa using this)
  · rintro ⟨h1, h2, h3⟩
    obtain ⟨i, hi⟩ := Option.isSome_iff_exists.1 ((h.ok.dom n).2 (isNode_nodesOf.1 h1))
    refine ⟨i, hi, ?_⟩
    rcases h.ok.range n i hi with e | e | e
    · exact absurd (h.sub n ((h.done n).1 (Sorter.isDone_iff.2 ⟨i, hi, e⟩))) h2
    · exact absurd ((h.out n).1 (Sorter.isOut_iff.2 ⟨i, hi, e⟩)).1 h2
    · rw [h.ok.waiting n i hi e]
      have : (Sorter.reqOf g n).countP (fun d => !s.isDone d) = 0 := by
        refine List.countP_eq_zero.2 fun m hm => ?_
        have := (h.done m).2 (h3 m ((needs_reqOf hn).2 hm))
        simp [this]
      omega

theorem uses_tracks (hn : (g.map (·.1)).Nodup) (hp : ∀ p ∈ g, p.2.Nodup) (h : Uses g r s) : Tracks g r s := by
  induction h with
  | start h =>
    obtain ⟨h1, h2⟩ := Sorter.prepare_spec hn hp h
    exact ⟨h1, fun n => by simp [(h2 n).1], fun n => by simp [(h2 n).2], by simp, by simp, fun l1 n l2 e => by simp at e⟩
  | @ready r s _ ih =>
    obtain ⟨h1, h2, h3, h4, h5⟩ := Sorter.getReady_spec ih.ok
    have hfree : ∀ n, n ∈ s.ready ↔ Free g r n := fun n => ih.ready_iff hn
    rw [h1]
    refine ⟨h2, fun n => by rw [h4]; exact ih.done n, fun n => ?_, fun n hd => List.mem_append_left _ (ih.sub n hd), ?_, ?_⟩
    · rw [h5, ih.out, hfree, List.mem_append, hfree]
      constructor
      · rintro (⟨a, b⟩ | hf)
        · exact ⟨.inl a, b⟩
        · exact ⟨.inr hf, fun hd => hf.2.1 (ih.sub n hd)⟩
      · rintro ⟨a | a, b⟩
        · exact .inl ⟨a, b⟩
        · exact .inr a
    · refine List.nodup_append.2 ⟨ih.once, ih.ok.readyNodup, fun a ha b hb e => ?_⟩
      subst e
      exact ((hfree a).1 hb).2.1 ha
    · intro l1 n l2 e m hm
      dsimp only at e ⊢
      rcases List.append_eq_append_iff.1 e with ⟨a, e1, e2⟩ | ⟨a, e1, e2⟩
      · have hmem : n ∈ s.ready := by rw [e2]; simp
        have := ((hfree n).1 hmem).2.2 m hm
        exact ⟨by rw [e1]; exact List.mem_append_left _ (ih.sub m this), this⟩
      · cases a with
        | nil =>
          have hmem : n ∈ s.ready := by rw [← (show n :: l2 = s.ready by simpa using e2)]; simp
          have := ((hfree n).1 hmem).2.2 m hm
          exact ⟨by have h0 := ih.sub m this; rw [e1] at h0; simpa using h0, this⟩
        | cons x a =>
          obtain ⟨rfl, -⟩ := List.cons.inj e2
          exact ih.order l1 n a e1 m hm
  | @done r s s' n _ hs ih =>
    have ho : s.isOut n = true := by
      cases e : s.isOut n with
      | true => rfl
      | false => rcases Sorter.done_err e with h | h <;> rw [h] at hs <;> cases hs
    obtain ⟨s'', h1, h2, h3, h4⟩ := Sorter.done_spec ih.ok ho
    rw [hs] at h1
    cases h1
    have hh := (ih.out n).1 ho
    refine ⟨h2, fun m => ?_, fun m => ?_, fun m hm => ?_, ih.once, fun l1 x l2 e m hm => ?_⟩
    · rw [h3, ih.done, List.mem_cons, or_comm]
    · rw [h4, ih.out, List.mem_cons, not_or]
      exact ⟨fun ⟨⟨a, b⟩, c⟩ => ⟨a, c, b⟩, fun ⟨a, c, b⟩ => ⟨⟨a, b⟩, c⟩⟩
    · rcases List.mem_cons.1 hm with rfl | hm
      · exact hh.1
      · exact ih.sub m hm
    · exact ⟨(ih.order l1 x l2 e m hm).1, List.mem_cons_of_mem _ (ih.order l1 x l2 e m hm).2⟩

/-- **C93.** What `get_ready` returns: every node whose needs are done and which was not handed out yet, each once. -/
theorem C93_ready (hn : (g.map (·.1)).Nodup) (hp : ∀ p ∈ g, p.2.Nodup) (h : Uses g r s) :
    s.getReady.1.Nodup ∧ ∀ n, n ∈ s.getReady.1 ↔ Free g r n := by
  have ht := uses_tracks hn hp h
  exact ⟨ht.ok.readyNodup, fun n => ht.ready_iff hn⟩

/-- **C93.** No node is handed out twice, and each comes after all that it needs, when these are done. -/
theorem C93_order (hn : (g.map (·.1)).Nodup) (hp : ∀ p ∈ g, p.2.Nodup) (h : Uses g r s) :
    r.handed.Nodup ∧ ∀ l1 n l2, r.handed = l1 ++ n :: l2 → ∀ m, Needs g n m → m ∈ l1 ∧ m ∈ r.done := by
  have ht := uses_tracks hn hp h
  exact ⟨ht.once, ht.order⟩

/-- **C93.** `done` accepts exactly the nodes that were handed out and not reported before; it raises `ValueError` for all others. -/
theorem C93_done (hn : (g.map (·.1)).Nodup) (hp : ∀ p ∈ g, p.2.Nodup) (h : Uses g r s) (n : Bytes) :
    (n ∈ r.handed ∧ n ∉ r.done → ∃ s', s.done n = .ok s') ∧ (¬ (n ∈ r.handed ∧ n ∉ r.done) → s.done n = .error .valueError) := by
  have ht := uses_tracks hn hp h
  refine ⟨fun hh => ?_, fun hh => ?_⟩
  · obtain ⟨s', h1, -⟩ := Sorter.done_spec ht.ok ((ht.out n).2 hh)
    exact ⟨s', h1⟩
  · unfold Sorter.done
    cases hi : s.info.get? n with
    | none => rfl
    | some i =>
      rcases ht.ok.range n i hi with e | e | e
      · simp [orRaise, raiseIf, e]
      · exact absurd ((ht.out n).1 (Sorter.isOut_iff.2 ⟨i, hi, e⟩)) hh
      · simp [orRaise, raiseIf, e]

/-- **C93.** The sorter is active as long as a node is not done. -/
theorem C93_active (hn : (g.map (·.1)).Nodup) (hp : ∀ p ∈ g, p.2.Nodup) (h : Uses g r s) :
    s.isActive = true ↔ ∃ n, IsNode g n ∧ n ∉ r.done := by
  have ht := uses_tracks hn hp h
  constructor
  · intro ha
    rcases (Sorter.isActive_iff ht.ok).1 ha with ⟨n, ho⟩ | hne
    · obtain ⟨i, hi, -⟩ := Sorter.isOut_iff.1 ho
      exact ⟨n, isNode_nodesOf.2 ((ht.ok.dom n).1 (by rw [hi]; rfl)), ((ht.out n).1 ho).2⟩
    · obtain ⟨n, hm⟩ := List.exists_mem_of_ne_nil _ hne
      have hf := (ht.ready_iff hn).1 hm
      exact ⟨n, hf.1, fun hd => hf.2.1 (ht.sub n hd)⟩
  · rintro ⟨n, h1, h2⟩
    cases ha : s.isActive with
    | true => rfl
    | false => exact absurd ((ht.done n).1 (Sorter.inactive_done ht.ok ha n (isNode_nodesOf.1 h1))) h2

/-- **C93.** If all that was handed out is done and a node is left, a node can be handed out: the sorter does not get stuck. -/
theorem C93_goes_on (hn : (g.map (·.1)).Nodup) (hp : ∀ p ∈ g, p.2.Nodup) (h : Uses g r s) (hd : ∀ n ∈ r.handed, n ∈ r.done)
    (hl : ∃ n, IsNode g n ∧ n ∉ r.done) : ∃ n, Free g r n := by
  have ht := uses_tracks hn hp h
  rcases (Sorter.isActive_iff ht.ok).1 ((C93_active hn hp h).2 hl) with ⟨n, ho⟩ | hne
  · exact absurd (hd n ((ht.out n).1 ho).1) ((ht.out n).1 ho).2
  · obtain ⟨n, hm⟩ := List.exists_mem_of_ne_nil _ hne
    exact ⟨n, (ht.ready_iff hn).1 hm⟩

theorem build_links (g : List (Bytes × List Bytes)) : Sorter.Links g (Sorter.build g) := by
  have key : ∀ (l l0 : List (Bytes × List Bytes)) (s : Sorter), Sorter.Links l0 s → Sorter.Links (l0 ++ l) (l.foldl (fun s p => s.add p.1 p.2) s) := by
    intro l
    induction l with
    | nil => intro l0 s h; simpa using h
    | cons p l ih =>
      intro l0 s h
      simpa using ih (l0 ++ [p]) _ (Sorter.links_add h p.1 p.2)
  have h0 : Sorter.Links [] Sorter.empty := ⟨fun x m => by simp [Sorter.succs, Sorter.empty], by simp⟩
  have := key g [] Sorter.empty h0
  rwa [List.nil_append] at this

theorem above_trans {n x m : Bytes} (h : Above g n x) (h' : Above g x m) : Above g n m := by
  induction h with
  | one h => exact .more h h'
  | more h _ ih => exact .more h (ih h')

theorem chain_above {n m : Bytes} : Sorter.Chain (Sorter.build g).info n m ↔ Above g m n := by
  have hl := build_links g
  constructor
  · intro h
    induction h with
    | one h => exact .one ((hl.succ _ _).1 h)
    | more _ h ih => exact .more ((hl.succ _ _).1 h) ih
  · intro h
    induction h with
    | one h => exact .one ((hl.succ _ _).2 h)
    | more h _ ih => exact .more ih ((hl.succ _ _).2 h)

/-- **C93.** `prepare` raises `CycleError` exactly if a node needs itself in the end; for graphs of any form. -/
theorem C93_cycle (g : List (Bytes × List Bytes)) :
    ((∃ n, Above g n n) → (Sorter.build g).prepare = .error .cycleError) ∧ ((¬ ∃ n, Above g n n) → ∃ s, (Sorter.build g).prepare = .ok s) := by
  obtain ⟨h1, h2⟩ := Sorter.prepare_links (build_links g)
  exact ⟨fun ⟨n, h⟩ => h1 ⟨n, chain_above.2 h⟩, fun h => h2 fun ⟨n, hn⟩ => h ⟨n, chain_above.1 hn⟩⟩

/-- The first two nodes, then the one that needs them both; a node that was not handed out, or is done, is not accepted. -/
example : (do let s ← (Sorter.build [([3], [[1], [2]]), ([2], [])]).prepare; return s.getReady.1 : Py (List Bytes)) = .ok [[1], [2]] ∧
    (do let s ← (Sorter.build [([3], [[1], [2]]), ([2], [])]).prepare
        let s ← s.getReady.2.done [1]
        let s ← s.done [2]
        return s.getReady.1 : Py (List Bytes)) = .ok [[3]] ∧
    (do let s ← (Sorter.build [([3], [[1], [2]]), ([2], [])]).prepare
        let s ← s.getReady.2.done [3]
        return s.getReady.1 : Py (List Bytes)) = .error .valueError ∧
    (do let s ← (Sorter.build [([3], [[1], [2]]), ([2], [])]).prepare
        let s ← s.getReady.2.done [1]
        let s ← s.done [1]
        return s.getReady.1 : Py (List Bytes)) = .error .valueError := by
  decide +kernel

example : (Sorter.build [([1], [[2]]), ([2], [[1]])]).prepare.toOption = none := by decide +kernel

end Verif.Props
