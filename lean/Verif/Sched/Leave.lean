import Verif.Sched.Exec

/-!
# Workers that leave
-/

namespace Verif.Sched

open Verif.Queue Verif.Util Verif.Wire Verif.Spec

/-- The workers `ws` leave; their tasks `ts` wait again. -/
structure Left (a : Abs) (ws : List Bytes) (ts : List Bytes) (b : Abs) : Prop where
  nodup : ts.Nodup
  mem : ∀ t, t ∈ ts ↔ ∃ w ∈ ws, a.worker t = some w
  eq : b = { a with
    up := fun w => if w ∈ ws then false else a.up w
    worker := fun t => if t ∈ ts then none else a.worker t
    waiting := a.waiting ++ ts
    mon := a.mon ++ a.backs ts }

theorem disconnectAll_left {h : History} (o : Order) (hno : ∀ x b, h.sub ≠ some (x, .heartbeat b)) : ∀ (ws : List Bytes) (s : Sched), Conc s → Inv h s.abs → AllSettled s.abs →
    Py.Post (s.disconnectAll o ws) (fun s' => Sched.After h s s' ∧ ∃ ts, Left s.abs ws ts s'.abs) (fun _ => True) := by
  intro ws
  induction ws with
  | nil =>
    intro s hc hi hset
    refine ⟨.refl hc hset, [], by simp, by simp, ?_⟩
    simp [Abs.backs]
  | cons w ws ih =>
    intro s hc hi hset
    unfold Sched.disconnectAll
    rw [Py.post_bind]
    refine (Sched.disconnectWorker_spec hc hi hset o w hno).imp ?_ (fun _ _ => trivial)
    rintro ⟨b, s1⟩ ⟨hA, _, _, h1, h2⟩
    simp only at hA h1 h2 ⊢
    refine (ih s1 hA.conc (hA.steps.inv hi) hA.settled).imp ?_ (fun _ _ => trivial)
    rintro s2 ⟨hB, ts2, hL⟩
    refine ⟨hA.trans hB, ?_⟩
    cases hup : s.abs.up w with
    | false =>
      have := h1 hup
      subst this
      refine ⟨ts2, hL.nodup, ?_, ?_⟩
      · intro t
        rw [hL.mem]
        constructor
        · rintro ⟨w', hw, ht⟩; exact ⟨w', List.mem_cons_of_mem _ hw, ht⟩
        · rintro ⟨w', hw, ht⟩
          rcases List.mem_cons.1 hw with rfl | hw
          · rw [hi.up t w' ht] at hup; cases hup
          · exact ⟨w', hw, ht⟩
      · rw [hL.eq]
        congr 1
        funext w'
        by_cases e : w' ∈ ws
        · simp [e]
        · by_cases e' : w' = w
          · subst e'; simp [hup]
          · simp [e, e']
    | true =>
      obtain ⟨ts, hn, hm, he⟩ := h2 hup
      have hm2 : ∀ t, t ∈ ts2 ↔ t ∉ ts ∧ ∃ w' ∈ ws, s.abs.worker t = some w' := by
        intro t
        rw [hL.mem, he]
        simp only
        rw [hm t]
        by_cases e : s.abs.worker t = some w
        · simp [e]
        · simp [e]
      refine ⟨ts ++ ts2, ?_, ?_, ?_⟩
      · rw [List.nodup_append]
        refine ⟨hn, hL.nodup, ?_⟩
        rintro t ht t' ht' rfl
        exact ((hm2 t).1 ht').1 ht
      · intro t
        rw [List.mem_append, hm2]
        constructor
        · rintro (ht | ⟨_, w', hw, ht⟩)
          · exact ⟨w, List.mem_cons_self, (hm t).1 ht⟩
          · exact ⟨w', List.mem_cons_of_mem _ hw, ht⟩
        · rintro ⟨w', hw, ht⟩
          rcases List.mem_cons.1 hw with rfl | hw
          · exact Or.inl ((hm t).2 ht)
          · by_cases e : t ∈ ts
            · exact Or.inl e
            · exact Or.inr ⟨e, w', hw, ht⟩
      · rw [hL.eq, he]
        simp only [Abs.mk.injEq, true_and, and_true]
        refine ⟨by simp, ?_, ?_, by simp [Abs.backs, Abs.nameOf]⟩
        · funext t
          by_cases e2 : t ∈ ts2
          · simp [e2]
          · by_cases e1 : t ∈ ts
            · have := (hm t).1 e1
              simp [e1, e2, this]
            · have : ¬ s.abs.worker t = some w := fun h => e1 ((hm t).2 h)
              simp [e1, e2, this]
        · funext w'
          by_cases e : w' ∈ ws
          · simp [e]
          · by_cases e' : w' = w
            · subst e'; simp [upd]
            · simp [e, e', upd, Ne.symm e']

theorem onDisconnect_left {h : History} {s : Sched} (hc : Conc s) (hi : Inv h s.abs) (hset : AllSettled s.abs) (o : Order) (source w : Bytes)
    (hno : ∀ x b, h.sub ≠ some (x, .heartbeat b)) :
    Py.Post (s.onDisconnect o source w) (fun s' => (s.abs.up w = false → s' = s) ∧
      (s.abs.up w = true → ∃ ts b, Left s.abs [w] ts b ∧ s'.abs = { b with out := b.out ++ [(source, .disconnectResponse w)] }))
      (fun _ => s.wm.alloc.queue.stale w ≠ none) := by
  unfold Sched.onDisconnect
  rw [Py.post_bind]
  refine (Sched.disconnectWorker_spec hc hi hset o w hno).imp ?_ (fun _ h => h.2)
  rintro ⟨b, s1⟩ ⟨hA, hb, _, h1, h2⟩
  simp only at hA hb h1 h2 ⊢
  cases hup : s.abs.up w with
  | false =>
    rw [hup] at hb
    subst hb
    exact ⟨fun _ => h1 hup, fun h => by cases h⟩
  | true =>
    rw [hup] at hb
    subst hb
    refine ⟨fun h => (by cases h), fun _ => ?_⟩
    obtain ⟨ts, hn, hm, he⟩ := h2 hup
    refine ⟨ts, s1.abs, ⟨hn, by simpa using hm, ?_⟩, rfl⟩
    rw [he]
    simp only [Abs.mk.injEq, true_and, and_true]
    constructor
    · funext t
      by_cases e1 : t ∈ ts
      · simp [e1, (hm t).1 e1]
      · have : ¬ s.abs.worker t = some w := fun h => e1 ((hm t).2 h)
        simp [e1, this]
    · funext w'
      by_cases e' : w' = w
      · subst e'; simp [upd]
      · simp [e', upd, Ne.symm e']

theorem workerRoutine_left {h : History} {s : Sched} (hc : Conc s) (hi : Inv h s.abs) (hset : AllSettled s.abs) (o : Order) (now : Int)
    (hno : ∀ x b, h.sub ≠ some (x, .heartbeat b)) :
    Py.Post (s.workerRoutine o now) (fun s' => ∃ ws ts b, (∀ w, w ∈ ws ↔ ∃ x, s.wm.alive.get? w = some x ∧ now - x.1 > s.cfg.workerTimeout) ∧
      Left s.abs ws ts b ∧ s'.abs = { b with out := s'.out })
      (fun _ => True) := by
  obtain ⟨h1, h2, h3, h4, h5, -, -⟩ := Sched.balanceRequest_spec (h := h) hc
  have hA : Sched.After h s s.balanceRequest := .of hset h1 h2 h3 (by simp [Sched.abs, h4])
  obtain ⟨la, ct, out, hb, _⟩ := balanceRequest_only s
  unfold Sched.workerRoutine Sched.cleanWorkers
  refine (disconnectAll_left o hno _ s.balanceRequest h1 (h3.inv hi) hA.settled).imp ?_ (fun _ _ => trivial)
  rintro s' ⟨hB, ts, hL⟩
  refine ⟨((s.balanceRequest.wm.alive.items.filter fun p => decide (now - p.2.1 > s.balanceRequest.cfg.workerTimeout)).map (·.1)),
    ts, { s'.abs with out := s.abs.out }, ?_, ?_, rfl⟩
  · intro w
    rw [hb]
    simp only [List.mem_map, List.mem_filter, decide_eq_true_eq]
    constructor
    · rintro ⟨⟨w', x⟩, ⟨h7, h8⟩, rfl⟩
      exact ⟨x, Dict.mem_items.1 h7, h8⟩
    · rintro ⟨x, hx, h8⟩
      exact ⟨(w, x), ⟨Dict.mem_items.2 hx, h8⟩, rfl⟩
  · have habs : s.balanceRequest.abs = { s.abs with out := s.abs.out ++ out } := by rw [hb]; rfl
    have e := hL.eq
    have m := hL.mem
    rw [habs] at e m
    exact ⟨hL.nodup, m, by rw [e]; rfl⟩

end Verif.Sched
