import Verif.Spec.Memo

/-!
# Claims about the functions a client remembers (C100)
-/

set_option linter.unusedSectionVars false

namespace Verif.Props

open Verif.Wire Verif.Client Verif.Spec.Memo

variable {κ : Type} [DecidableEq κ] {p : Pickle}

/-- One call, in full. -/
theorem getFunctionId_eq (m : Memo κ) (u : Use κ) :
    getFunctionId p m u = if u.hashable = false then .error .typeError else
      match m.get? u.key with
      | some r => .ok (r, m)
      | none =>
        match u.pickled with
        | some b => .ok ((p.hash b, u.name, b), m.set u.key (p.hash b, u.name, b))
        | none => .error .valueError := by
  unfold getFunctionId generateFunctionId
  cases hh : u.hashable with
  | false => simp [raiseIf, bind, Except.bind]
  | true =>
    cases hm : m.get? u.key with
    | some r => simp [raiseIf, bind, Except.bind, pure, Except.pure, Dict.has, hm, Dict.getPy, orRaise]
    | none => cases hb : u.pickled <;> simp [raiseIf, bind, Except.bind, pure, Except.pure, Dict.has, hm]

theorem after_get (m : Memo κ) (u : Use κ) (k : κ) (r : Bytes × Bytes × Bytes) :
    (m.after p u).get? k = some r ↔ m.get? k = some r ∨ m.get? k = none ∧ k = u.key ∧ Usable u ∧ Sends p u r := by
  unfold Memo.after
  rw [getFunctionId_eq]
  unfold Usable Sends
  cases hh : u.hashable with
  | false => simp
  | true =>
    cases hm : m.get? u.key with
    | some r' =>
      simp only [Bool.true_eq_false, if_false]
      constructor
      · exact .inl
      · rintro (h | ⟨h1, rfl, _⟩)
        · exact h
        · rw [hm] at h1; cases h1
    | none =>
      cases hb : u.pickled with
      | none => simp
      | some b =>
        simp only [Bool.true_eq_false, if_false, Dict.get?_set]
        split
        · next h => subst h; simp [hm, eq_comm]
        · next h => simp [Ne.symm h]

theorem first_cons (l : List (Use κ)) (x u v : Use κ) :
    First (x :: l) u v ↔ (x.key = u.key ∧ Usable x ∧ v = x) ∨ (¬ (x.key = u.key ∧ Usable x) ∧ First l u v) := by
  constructor
  · rintro ⟨bs, as, h, h1, h2, h3⟩
    cases bs with
    | nil => cases h; exact .inl ⟨h1, h2, rfl⟩
    | cons b bs =>
      cases h
      exact .inr ⟨fun h => h3 x (by simp) h.1 h.2, bs, as, rfl, h1, h2, fun w hw => h3 w (by simp [hw])⟩
  · rintro (⟨h1, h2, rfl⟩ | ⟨hn, bs, as, rfl, h1, h2, h3⟩)
    · exact ⟨[], l, rfl, h1, h2, by simp⟩
    · refine ⟨x :: bs, as, rfl, h1, h2, fun w hw => ?_⟩
      rcases List.mem_cons.1 hw with rfl | hw
      · exact fun hk hu => hn ⟨hk, hu⟩
      · exact h3 w hw

theorem afterAll_memo (l : List (Use κ)) (m : Memo κ) (u : Use κ) (r : Bytes × Bytes × Bytes) :
    (Memo.afterAll p m l).get? u.key = some r ↔ m.get? u.key = some r ∨ m.get? u.key = none ∧ ∃ v, First l u v ∧ Sends p v r := by
  induction l generalizing m with
  | nil => simp [Memo.afterAll, First]
  | cons x l ih =>
    rw [Memo.afterAll, ih, after_get]
    simp only [first_cons]
    by_cases hx : u.key = x.key ∧ Usable x
    · have hs : ∃ r', Sends p x r' := by
        obtain ⟨b, hb⟩ := Option.isSome_iff_exists.1 hx.2.2
        exact ⟨_, b, hb, rfl⟩
      have hsome : (m.after p x).get? u.key ≠ none := by
        intro hn
        obtain ⟨r', hr'⟩ := hs
        cases hm : m.get? u.key with
        | some y => have := (after_get (p := p) m x u.key y).2 (.inl hm); rw [hn] at this; cases this
        | none => have := (after_get (p := p) m x u.key r').2 (.inr ⟨hm, hx.1, hx.2, hr'⟩); rw [hn] at this; cases this
      constructor
      · rintro ((h | ⟨h1, h2, h3, h4⟩) | h)
        · exact .inl h
        · exact .inr ⟨h1, x, .inl ⟨h2.symm, h3, rfl⟩, h4⟩
        · exact absurd h.1 hsome
      · rintro (h | ⟨h1, v, ⟨h2, h3, rfl⟩ | ⟨h2, _⟩, h4⟩)
        · exact .inl (.inl h)
        · exact .inl (.inr ⟨h1, h2.symm, h3, h4⟩)
        · exact absurd ⟨hx.1.symm, hx.2⟩ h2
    · have hsame : ∀ r', (m.after p x).get? u.key = some r' ↔ m.get? u.key = some r' := by
        intro r'
        rw [after_get]
        exact ⟨fun h => h.elim id fun ⟨_, h1, h2, _⟩ => absurd ⟨h1, h2⟩ hx, .inl⟩
      have hnone : (m.after p x).get? u.key = none ↔ m.get? u.key = none := by
        rw [Option.eq_none_iff_forall_ne_some, Option.eq_none_iff_forall_ne_some]
        exact forall_congr' fun r' => not_congr (hsame r')
      rw [← after_get, hsame, hnone]
      constructor
      · rintro (h | ⟨h1, v, h2, h3⟩)
        · exact .inl h
        · exact .inr ⟨h1, v, .inr ⟨fun h => hx ⟨h.1.symm, h.2⟩, h2⟩, h3⟩
      · rintro (h | ⟨h1, v, ⟨h2, h3, _⟩ | ⟨_, h2⟩, h3'⟩)
        · exact .inl h
        · exact absurd ⟨h2.symm, h3⟩ hx
        · exact .inr ⟨h1, v, h2, h3'⟩

/-- After any calls, the memo holds the functions as they were when they were first used. -/
theorem afterAll_get (l : List (Use κ)) (u : Use κ) (r : Bytes × Bytes × Bytes) :
    (Memo.afterAll p Dict.empty l).get? u.key = some r ↔ ∃ v, First l u v ∧ Sends p v r := by
  rw [afterAll_memo]; simp

theorem Sends.exists {u : Use κ} (h : Usable u) : ∃ r, Sends p u r := by
  obtain ⟨b, hb⟩ := Option.isSome_iff_exists.1 h.2
  exact ⟨_, b, hb, rfl⟩

theorem first_nil (u v : Use κ) : ¬ First [] u v := by
  rintro ⟨bs, as, h, _⟩
  cases bs <;> cases h

theorem first_last (l : List (Use κ)) (u : Use κ) : ∀ v, First (l ++ [u]) u v ↔ First l u v ∨ (¬ (∃ w, First l u w) ∧ Usable u ∧ v = u) := by
  intro v
  induction l with
  | nil => rw [List.nil_append, first_cons]; simp [first_nil]
  | cons x l ih =>
    rw [List.cons_append, first_cons, ih]
    simp only [first_cons]
    by_cases hx : x.key = u.key ∧ Usable x
    · constructor
      · rintro (h | h)
        · exact .inl (.inl h)
        · exact absurd hx h.1
      · rintro ((h | h) | h)
        · exact .inl h
        · exact absurd hx h.1
        · exact absurd ⟨x, .inl ⟨hx.1, hx.2, rfl⟩⟩ h.1
    · constructor
      · rintro (h | ⟨_, h | h⟩)
        · exact .inl (.inl h)
        · exact .inl (.inr ⟨hx, h⟩)
        · refine .inr ⟨?_, h.2⟩
          rintro ⟨w, h' | h'⟩
          · exact hx ⟨h'.1, h'.2.1⟩
          · exact h.1 ⟨w, h'.2⟩
      · rintro ((h | h) | h)
        · exact .inl h
        · exact .inr ⟨hx, .inl h.2⟩
        · exact .inr ⟨hx, .inr ⟨fun ⟨w, hw⟩ => h.1 ⟨w, .inr ⟨hx, hw⟩⟩, h.2⟩⟩

/-- **C100.** After any calls, a function is sent as it was at the first call with a function equal to it; a function without a hash, and
one that cannot be pickled when it is first used, raises and changes nothing. -/
theorem C100_sent (l : List (Use κ)) (u : Use κ) :
    (∀ r m, getFunctionId p (Memo.afterAll p Dict.empty l) u = .ok (r, m) ↔
      u.hashable = true ∧ (∃ v, First (l ++ [u]) u v ∧ Sends p v r) ∧ m = Memo.afterAll p Dict.empty (l ++ [u])) ∧
    (∀ e, getFunctionId p (Memo.afterAll p Dict.empty l) u = .error e ↔
      (u.hashable = false ∧ e = .typeError) ∨ (u.hashable = true ∧ u.pickled = none ∧ e = .valueError ∧ ¬ ∃ v, First l u v)) := by
  have hlast := first_last l u
  have happ : ∀ (l : List (Use κ)) (m : Memo κ), Memo.afterAll p m (l ++ [u]) = (Memo.afterAll p m l).after p u := by
    intro l
    induction l with
    | nil => intro m; rfl
    | cons x l ih => intro m; rw [List.cons_append, Memo.afterAll, Memo.afterAll, ih]
  have hget := afterAll_get (p := p) l u
  rw [happ]
  unfold Memo.after
  rw [getFunctionId_eq]
  generalize Memo.afterAll p Dict.empty l = M at *
  simp only [hlast]
  cases hh : u.hashable with
  | false => simp [eq_comm]
  | true =>
    simp only [Bool.true_eq_false, if_false, false_and, false_or, true_and]
    cases hM : Dict.get? M u.key with
    | some r =>
      obtain ⟨v, hv, hs⟩ := (hget r).1 hM
      constructor
      · intro r' m
        constructor
        · intro h; cases h; exact ⟨⟨v, .inl hv, hs⟩, rfl⟩
        · rintro ⟨⟨v', h1 | h1, h2⟩, rfl⟩
          · have := (hget r').2 ⟨v', h1, h2⟩
            rw [hM] at this; cases this; rfl
          · exact absurd ⟨v, hv⟩ h1.1
      · intro e
        exact ⟨(fun h => nomatch h), fun h => absurd ⟨v, hv⟩ h.2.2⟩
    | none =>
      have hno : ¬ ∃ w, First l u w := by
        rintro ⟨w, hw⟩
        obtain ⟨bs, as, _, _, huse, _⟩ := id hw
        obtain ⟨r, hr⟩ := Sends.exists (p := p) huse
        have := (hget r).2 ⟨w, hw, hr⟩
        rw [hM] at this; cases this
      cases hb : u.pickled with
      | none =>
        constructor
        · intro r m
          refine ⟨fun h => (nomatch h), ?_⟩
          rintro ⟨⟨v, h1 | h1, _⟩, _⟩
          · exact absurd ⟨v, h1⟩ hno
          · have := h1.2.1.2; rw [hb] at this; cases this
        · intro e
          simp [hno, eq_comm]
      | some b =>
        constructor
        · intro r m
          constructor
          · intro h; cases h
            exact ⟨⟨u, .inr ⟨hno, ⟨hh, by rw [hb]; rfl⟩, rfl⟩, b, hb, rfl⟩, rfl⟩
          · rintro ⟨⟨v, h1 | ⟨_, _, rfl⟩, b', h2, rfl⟩, rfl⟩
            · exact absurd ⟨v, h1⟩ hno
            · rw [hb] at h2; cases h2; rfl
        · intro e; simp

theorem same_sent (l : List (Use κ)) (u : Use κ) (hu : Unchanged (l ++ [u])) (hh : u.hashable = true) {b : Bytes} (hb : u.pickled = some b) :
    getFunctionId p (Memo.afterAll p Dict.empty l) u = .ok ((p.hash b, u.name, b), Memo.afterAll p Dict.empty (l ++ [u])) := by
  have hU : Usable u := ⟨hh, by rw [hb]; rfl⟩
  have hf : ∃ v, First (l ++ [u]) u v := by
    by_cases h : ∃ w, First l u w
    · exact h.imp fun w hw => (first_last l u w).2 (.inl hw)
    · exact ⟨u, (first_last l u u).2 (.inr ⟨h, hU, rfl⟩)⟩
  obtain ⟨v, hv⟩ := hf
  obtain ⟨bs, as, h1, h2, h3, h4⟩ := id hv
  have hv' := hu u (by simp) v (by rw [h1]; simp) h2.symm
  exact ((C100_sent (p := p) l u).1 (p.hash b, u.name, b) _).2 ⟨hh, ⟨v, hv, b, by rw [← hv'.2.1, hb], by rw [hv'.2.2]⟩, rfl⟩

/-- **C100, partial.** If functions that are equal are the same, a task is submitted with the function that was given.

Full statement: the same for all functions.  This is false: see `C100_stale`. -/
theorem C100_same_partial (l : List (Use κ)) (u : Use κ) (hu : Unchanged (l ++ [u])) (hh : u.hashable = true) (b : Bytes) (hb : u.pickled = some b)
    (c : Client.Client) (t : Bytes) (args : List Bytes) :
    c.submitFunction p (Memo.afterAll p Dict.empty l) t u args = .ok (c.submit p t u.name b args, Memo.afterAll p Dict.empty (l ++ [u])) := by
  unfold Client.submitFunction
  rw [same_sent l u hu hh hb]
  rfl

/-- **C100, partial.** So is a graph. -/
theorem C100_graph_partial (g : List (Bytes × FunctionNode κ)) (l : List (Use κ)) (hu : Unchanged (l ++ usesOf g)) (hh : ∀ u ∈ usesOf g, Usable u) :
    ∃ r, AsIs g r ∧ resolveNodes p (Memo.afterAll p Dict.empty l) g = .ok (r, Memo.afterAll p Dict.empty (l ++ usesOf g)) := by
  induction g generalizing l with
  | nil => exact ⟨[], .nil, by simp [resolveNodes, usesOf]⟩
  | cons x g ih =>
    obtain ⟨n, b | ⟨u, args⟩⟩ := x
    · obtain ⟨r, h1, h2⟩ := ih l hu hh
      exact ⟨_, .data n b h1, by rw [resolveNodes, h2]; rfl⟩
    · have hU := hh u (by simp [usesOf])
      obtain ⟨b, hb⟩ := Option.isSome_iff_exists.1 hU.2
      have hu' : Unchanged ((l ++ [u]) ++ usesOf g) := by simpa [usesOf] using hu
      obtain ⟨r, h1, h2⟩ := ih (l ++ [u]) hu' fun v hv => hh v (by simp [usesOf, hv])
      have hun : Unchanged (l ++ [u]) := fun v hv w hw => hu' v (List.mem_append_left _ hv) w (List.mem_append_left _ hw)
      refine ⟨_, .call n u b args hb h1, ?_⟩
      rw [resolveNodes, same_sent l u hun hU.1 hb]
      simp only [Py.ok_bind]
      rw [h2]
      simp [usesOf, pure, Except.pure, bind, Except.bind]

/-- Pickle and a hash for the examples. -/
def memoPickle : Pickle := ⟨fun _ => true, fun b => 1 :: b⟩

/-- The function 7 with the name `f` and these bytes. -/
def fun7 (b : Bytes) : Use Nat := ⟨7, true, [102], some b⟩

example : Unchanged [fun7 [1], ⟨8, true, [103], some [2]⟩, fun7 [1]] ∧
    (getFunctionId memoPickle (Memo.afterAll memoPickle Dict.empty [fun7 [1], ⟨8, true, [103], some [2]⟩]) (fun7 [1])).toOption.map (·.1) =
      some ([1, 1], [102], [1]) := by
  refine ⟨?_, by decide +kernel⟩
  unfold Unchanged
  decide +kernel

/-- A graph with one node of data and two of the same function. -/
def memoGraph : List (Bytes × FunctionNode Nat) := [([97], .data [5]), ([98], .call (fun7 [1]) [[97]]), ([99], .call (fun7 [1]) [[98]])]

example : Unchanged (usesOf memoGraph) ∧ (∀ u ∈ usesOf memoGraph, Usable u) ∧
    (resolveNodes memoPickle Dict.empty memoGraph).toOption.map (·.1) =
      some [([97], .data [5]), ([98], .call [102] [1] [[97]]), ([99], .call [102] [1] [[98]])] := by
  refine ⟨?_, ?_, by decide +kernel⟩
  · unfold Unchanged; decide +kernel
  · unfold Usable; decide +kernel

/-- **C100 is false of the code.** An object that is called like a function and changed after the first submission is sent as it was
before: the task of the second submission, with the bytes 2, gets the function with the bytes 1. -/
theorem C100_stale : ∃ (u v : Use Nat) (c : Client.Client) (m : Memo Nat), u.key = v.key ∧ Usable u ∧ v.pickled = some [2] ∧ Usable v ∧
    Client.init.submitFunction memoPickle Dict.empty [10] u [] = .ok (c, m) ∧
    ∃ m', Client.init.submitFunction memoPickle m [11] v [] = .ok (Client.init.submit memoPickle [11] v.name [1] [], m') := by
  exact ⟨fun7 [1], fun7 [2], _, _, rfl, ⟨rfl, rfl⟩, rfl, ⟨rfl, rfl⟩, rfl, _, rfl⟩

/-- **C100.** The client keeps every function it was given, for as long as it lives: the memo has exactly the functions used so far. -/
theorem C100_kept (l : List (Use κ)) : (∀ k, k ∈ (Memo.afterAll p Dict.empty l).keys ↔ ∃ u ∈ l, u.key = k ∧ Usable u) ∧
    ∀ u, ∀ k ∈ (Memo.afterAll p Dict.empty l).keys, k ∈ ((Memo.afterAll p Dict.empty l).after p u).keys := by
  have first : ∀ (l : List (Use κ)) (u : Use κ), u ∈ l → Usable u → ∃ v, First l u v := by
    intro l
    induction l with
    | nil => intro u hu; cases hu
    | cons x l ih =>
      intro u hu hU
      by_cases hx : x.key = u.key ∧ Usable x
      · exact ⟨x, (first_cons ..).2 (.inl ⟨hx.1, hx.2, rfl⟩)⟩
      · rcases List.mem_cons.1 hu with rfl | hu
        · exact absurd ⟨rfl, hU⟩ hx
        · obtain ⟨v, hv⟩ := ih u hu hU
          exact ⟨v, (first_cons ..).2 (.inr ⟨hx, hv⟩)⟩
  refine ⟨fun k => ?_, fun u k hk => ?_⟩
  · rw [Dict.mem_keys]
    constructor
    · rintro ⟨r, hr⟩
      obtain ⟨v, ⟨bs, as, h1, h2, h3, _⟩, _⟩ := (afterAll_get (p := p) l ⟨k, true, [], none⟩ r).1 hr
      exact ⟨v, by rw [h1]; simp, h2, h3⟩
    · rintro ⟨u, hu, rfl, hU⟩
      obtain ⟨v, hv⟩ := first l u hu hU
      obtain ⟨bs, as, _, _, h3, _⟩ := id hv
      obtain ⟨r, hr⟩ := Sends.exists (p := p) h3
      exact ⟨r, (afterAll_get l u r).2 ⟨v, hv, hr⟩⟩
  · rw [Dict.mem_keys] at hk ⊢
    obtain ⟨r, hr⟩ := hk
    exact ⟨r, (after_get ..).2 (.inl hr)⟩

example : (Memo.afterAll memoPickle Dict.empty [fun7 [1], ⟨8, true, [103], some [2]⟩, fun7 [3], ⟨9, true, [], none⟩, ⟨10, false, [], some [4]⟩]).keys = [7, 8] := by
  decide +kernel

end Verif.Props
