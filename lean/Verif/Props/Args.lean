import Verif.Spec.Args

/-!
# Claims about the arguments of `submit` (C41)
-/

namespace Verif.Props

open Verif.Client Verif.Spec.Args

variable {V : Type}

/-- The value a parameter gets by name. -/
def fillOne (empty : V) (kw : Dict String V) (p : Param V) : V := (kw.get? p.name).getD (p.default.getD empty)

theorem takeRequired_ok (empty : V) {ps : List (Param V)} (hn : (ps.map (·.name)).Nodup) {kw : Dict String V} (l : List V)
    (h : ∀ p ∈ ps, (kw.get? p.name).isSome) :
    ∃ kw', takeRequired ps kw l = .ok (l ++ ps.map (fillOne empty kw), kw') ∧ ∀ n, n ∉ ps.map (·.name) → kw'.get? n = kw.get? n := by
  induction ps generalizing kw l with
  | nil => exact ⟨kw, by simp [takeRequired], fun _ _ => rfl⟩
  | cons p ps ih =>
    simp only [List.map_cons, List.nodup_cons] at hn
    obtain ⟨v, hv⟩ := Option.isSome_iff_exists.1 (h p (by simp))
    have hne : ∀ q ∈ ps, (kw.erase p.name).get? q.name = kw.get? q.name := by
      intro q hq
      rw [Dict.get?_erase, if_neg]
      intro e
      exact hn.1 (List.mem_map.2 ⟨q, hq, e.symm⟩)
    obtain ⟨kw', h1, h2⟩ := ih hn.2 (kw := kw.erase p.name) (l ++ [v]) (fun q hq => by rw [hne q hq]; exact h q (by simp [hq]))
    refine ⟨kw', ?_, ?_⟩
    · simp only [takeRequired, hv, h1, List.map_cons, List.append_assoc, List.singleton_append]
      have e1 : fillOne empty kw p = v := by simp [fillOne, hv]
      have e2 : ps.map (fillOne empty (kw.erase p.name)) = ps.map (fillOne empty kw) :=
        List.map_congr_left (fun q hq => by simp only [fillOne, hne q hq])
      rw [e1, e2]
    · intro n hn'
      simp only [List.map_cons, List.mem_cons, not_or] at hn'
      rw [h2 n hn'.2, Dict.get?_erase, if_neg (fun e => hn'.1 e.symm)]

theorem takeRequired_error {ps : List (Param V)} (hn : (ps.map (·.name)).Nodup) {kw : Dict String V} (l : List V)
    (h : ∃ p ∈ ps, kw.get? p.name = none) : takeRequired ps kw l = .error .typeError := by
  induction ps generalizing kw l with
  | nil => simp at h
  | cons p ps ih =>
    simp only [List.map_cons, List.nodup_cons] at hn
    simp only [takeRequired]
    split
    · rename_i v hv
      refine ih hn.2 _ ?_
      obtain ⟨q, hq, hk⟩ := h
      rcases List.mem_cons.1 hq with rfl | hq
      · rw [hv] at hk; cases hk
      · exact ⟨q, hq, by rw [Dict.get?_erase, hk]; simp⟩
    · rfl

theorem takeOptional_eq (empty : V) {ps : List (Param V)} (hn : (ps.map (·.name)).Nodup) (kw : Dict String V) (l : List V) :
    takeOptional empty ps kw l = l ++ ps.map (fillOne empty kw) := by
  induction ps generalizing kw l with
  | nil => simp [takeOptional]
  | cons p ps ih =>
    simp only [List.map_cons, List.nodup_cons] at hn
    simp only [takeOptional]
    split
    · rename_i v hv
      rw [ih hn.2]
      have e1 : fillOne empty kw p = v := by simp [fillOne, hv]
      have e2 : ps.map (fillOne empty (kw.erase p.name)) = ps.map (fillOne empty kw) := by
        refine List.map_congr_left (fun q hq => ?_)
        simp only [fillOne]
        rw [Dict.get?_erase, if_neg]
        intro e
        exact hn.1 (List.mem_map.2 ⟨q, hq, e.symm⟩)
      simp [e1, e2]
    · rename_i hv
      rw [ih hn.2]
      simp [fillOne, hv]

theorem withDefaults_get (ps : List (Param V)) (kw : Dict String V) {n : String} (h : ∀ p ∈ ps, p.kind = .kwOnly → p.name ≠ n) :
    (withDefaults ps kw).get? n = kw.get? n := by
  induction ps generalizing kw with
  | nil => rfl
  | cons p ps ih =>
    simp only [withDefaults, List.foldl_cons] at ih ⊢
    rw [ih _ (fun q hq => h q (by simp [hq]))]
    split
    · rename_i hk _
      rw [Dict.get?_set, if_neg (h p (by simp) hk)]
    · rfl

theorem Signature.filter (s : Signature V) : s.params.filter Param.positional = s.required ++ s.optional := by
  simp only [Signature.params, List.filter_append]
  rw [List.filter_eq_self.2 (fun p hp => (s.hreq p hp).1), List.filter_eq_self.2 (fun p hp => (s.hopt p hp).1)]
  rw [List.filter_eq_nil_iff.2 (fun p hp => by simp [s.hrest p hp])]
  simp

theorem Signature.count (s : Signature V) : ((s.required ++ s.optional).filter (·.default.isNone)).length = s.required.length := by
  simp only [List.filter_append]
  rw [List.filter_eq_self.2 (fun p hp => by simp [(s.hreq p hp).2])]
  rw [List.filter_eq_nil_iff.2 (fun p hp => by have := (s.hopt p hp).2; cases h : p.default <;> simp [h] at this ⊢)]
  simp

theorem withDefaults_same (s : Signature V) (kw : Dict String V) {p : Param V} (hp : p ∈ s.required ++ s.optional) :
    (withDefaults s.params kw).get? p.name = kw.get? p.name := by
  refine withDefaults_get _ _ ?_
  intro q hq hk
  have hnp : q.positional = false := by simp [Param.positional, hk]
  have hr : q ∈ s.rest := by
    simp only [Signature.params, List.mem_append] at hq
    rcases hq with (hq | hq) | hq
    · simp [(s.hreq q hq).1] at hnp
    · simp [(s.hopt q hq).1] at hnp
    · exact hq
  have := s.nodup
  rw [List.map_append, List.nodup_append] at this
  intro e
  exact this.2.2 _ (List.mem_map.2 ⟨p, hp, rfl⟩) _ (List.mem_map.2 ⟨q, hr, rfl⟩) e.symm

/-- What the conversion does for any signature. -/
theorem convert_eq (empty : V) (s : Signature V) (args : List V) (kw : Dict String V) :
    ((∃ p ∈ s.required.drop args.length, kw.get? p.name = none) → convert empty s.params args kw = .error .typeError) ∧
    ((∀ p ∈ s.required.drop args.length, (kw.get? p.name).isSome) →
      convert empty s.params args kw = .ok (args ++ ((s.required ++ s.optional).drop args.length).map (fillOne empty kw))) := by
  have hnd := s.nodup
  rw [List.map_append, List.nodup_append] at hnd
  have hnp := hnd.1
  have hsub : ∀ p ∈ s.required.drop args.length, p ∈ s.required ++ s.optional := fun p hp => List.mem_append_left _ (List.mem_of_mem_drop hp)
  have hdn : ((s.required.drop args.length).map (·.name)).Nodup := by
    refine List.Sublist.nodup (List.Sublist.map _ ?_) hnp
    exact (List.drop_sublist _ _).trans (List.sublist_append_left _ _)
  have htake : ((s.required ++ s.optional).take s.required.length).drop args.length = s.required.drop args.length := by simp
  unfold convert
  simp only [Signature.filter, Signature.count, htake]
  by_cases hlen : args.length ≥ (s.required ++ s.optional).length
  · simp only [hlen, if_true]
    have h1 : s.required.drop args.length = [] := List.drop_of_length_le (by simp at hlen; omega)
    have h2 : (s.required ++ s.optional).drop args.length = [] := List.drop_of_length_le hlen
    simp [h1, h2]
  · simp only [hlen, if_false]
    refine ⟨?_, ?_⟩
    · rintro ⟨p, hp, hk⟩
      rw [takeRequired_error hdn _ ⟨p, hp, (withDefaults_same s kw (hsub p hp)).trans hk⟩]
      rfl
    · intro h
      obtain ⟨kw', h1, h2⟩ := takeRequired_ok empty hdn (kw := withDefaults s.params kw) args
        (fun p hp => by rw [withDefaults_same s kw (hsub p hp)]; exact h p hp)
      rw [h1, Py.ok_bind]
      have hfill : ∀ p ∈ s.required ++ s.optional, fillOne empty (withDefaults s.params kw) p = fillOne empty kw p := by
        intro p hp
        simp only [fillOne, withDefaults_same s kw hp]
      -- the rest of the parameters
      have hl : (s.required ++ s.optional).drop (args ++ (s.required.drop args.length).map (fillOne empty (withDefaults s.params kw))).length =
          s.optional.drop (args.length - s.required.length) := by
        simp only [List.length_append, List.length_map, List.length_drop]
        rw [List.drop_append]
        rw [List.drop_of_length_le (by omega), List.nil_append]
        congr 1
        omega
      have hon : ((s.optional.drop (args.length - s.required.length)).map (·.name)).Nodup := by
        refine List.Sublist.nodup (List.Sublist.map _ ?_) hnp
        exact (List.drop_sublist _ _).trans (List.sublist_append_right _ _)
      simp only [hl, takeOptional_eq empty hon, Py.pure_eq, List.drop_append, List.map_append]
      congr 1
      rw [List.append_assoc]
      congr 2
      · exact List.map_congr_left (fun p hp => hfill p (hsub p hp))
      · refine List.map_congr_left (fun p hp => ?_)
        have hp' := List.mem_of_mem_drop hp
        rw [← hfill p (List.mem_append_right _ hp')]
        simp only [fillOne]
        rw [h2 p.name]
        intro hm
        obtain ⟨q, hq, e⟩ := List.mem_map.1 hm
        rw [List.map_append, List.nodup_append] at hnp
        exact hnp.2.2 _ (List.mem_map.2 ⟨q, List.mem_of_mem_drop hq, rfl⟩) _ (List.mem_map.2 ⟨p, hp', rfl⟩) e

theorem bind_fill (empty : V) {pos : List (Param V)} (hpos : ∀ p ∈ pos, p.positional = true) (hn : (pos.map (·.name)).Nodup)
    (tail : List (Param V)) {args : List V} {kw : Dict String V} {env : List (String × Bound V)}
    (hb : bind (pos ++ tail) args kw = some env)
    (hkw : ∀ n ∈ kw.keys, ∃ p ∈ pos, p.kind = .posOrKw ∧ p.name = n) :
    (∀ p ∈ pos.drop args.length, p.default = none → (kw.get? p.name).isSome) ∧
    bind (pos ++ tail) (args ++ (pos.drop args.length).map (fillOne empty kw)) .empty = some env := by
  induction pos generalizing args kw env with
  | nil =>
    have : kw = .empty := by
      refine Dict.ext_items ?_
      cases h : kw.items with
      | nil => rfl
      | cons x l =>
        obtain ⟨p, hp, _⟩ := hkw x.1 (by simp [Dict.keys, h])
        simp at hp
    subst this
    simpa using hb
  | cons p pos ih =>
    simp only [List.map_cons, List.nodup_cons] at hn
    have hp := hpos p (by simp)
    have hpos' : ∀ p ∈ pos, p.positional = true := fun q hq => hpos q (by simp [hq])
    -- a keyword that is not the name of `p`
    have hkw' : ∀ kw' : Dict String V, (∀ n, n ∈ kw'.keys → n ∈ kw.keys) → (p.kind ≠ .posOrKw ∨ p.name ∉ kw'.keys) →
        ∀ n ∈ kw'.keys, ∃ q ∈ pos, q.kind = .posOrKw ∧ q.name = n := by
      intro kw' hs hc n hn'
      obtain ⟨q, hq, h1, h2⟩ := hkw n (hs n hn')
      rcases List.mem_cons.1 hq with rfl | hq
      · rcases hc with hc | hc
        · exact absurd h1 hc
        · exact absurd (h2 ▸ hn') hc
      · exact ⟨q, hq, h1, h2⟩
    simp only [List.cons_append, Spec.Args.bind] at hb ⊢
    cases hk : p.kind with
    | posOnly =>
      simp only [hk] at hb ⊢
      have hno : kw.get? p.name = none := by
        refine Dict.not_mem_keys.1 (fun hm => ?_)
        obtain ⟨q, hq, h1, h2⟩ := hkw _ hm
        rcases List.mem_cons.1 hq with rfl | hq
        · rw [hk] at h1; cases h1
        · exact hn.1 (List.mem_map.2 ⟨q, hq, h2⟩)
      cases args with
      | cons a as =>
        simp only [Option.map_eq_some_iff] at hb
        obtain ⟨env', hb, rfl⟩ := hb
        obtain ⟨i1, i2⟩ := ih hpos' hn.2 hb (hkw' kw (fun _ h => h) (.inl (by simp [hk])))
        refine ⟨by simpa using i1, ?_⟩
        simp only [List.length_cons, List.drop_succ_cons, List.cons_append]
        rw [i2]; rfl
      | nil =>
        simp only at hb
        split at hb
        · rename_i v hv
          simp only [Option.map_eq_some_iff] at hb
          obtain ⟨env', hb, rfl⟩ := hb
          obtain ⟨i1, i2⟩ := ih hpos' hn.2 hb (hkw' kw (fun _ h => h) (.inl (by simp [hk])))
          simp only [List.length_nil, List.drop_zero, List.nil_append, List.map_cons] at i1 i2 ⊢
          refine ⟨?_, ?_⟩
          · intro q hq hd
            rcases List.mem_cons.1 hq with rfl | hq
            · rw [hv] at hd; cases hd
            · exact i1 q hq hd
          · rw [i2]
            simp [fillOne, hno, hv]
        · cases hb
    | posOrKw =>
      simp only [hk] at hb ⊢
      cases args with
      | cons a as =>
        simp only at hb
        split at hb
        · cases hb
        · rename_i hh
          simp only [Option.map_eq_some_iff] at hb
          obtain ⟨env', hb, rfl⟩ := hb
          obtain ⟨i1, i2⟩ := ih hpos' hn.2 hb (hkw' kw (fun _ h => h) (.inr (fun h => hh (Dict.has_iff.2 h))))
          refine ⟨by simpa using i1, ?_⟩
          simp only [List.length_cons, List.drop_succ_cons, List.cons_append]
          have he : (Dict.empty : Dict String V).has p.name = false := rfl
          simp only [he, Bool.false_eq_true, if_false]
          rw [i2]; rfl
      | nil =>
        simp only at hb
        have he : (Dict.empty : Dict String V).has p.name = false := rfl
        split at hb
        · rename_i v hv
          simp only [Option.map_eq_some_iff] at hb
          obtain ⟨env', hb, rfl⟩ := hb
          have hsame : ∀ q ∈ pos, (kw.erase p.name).get? q.name = kw.get? q.name := by
            intro q hq
            rw [Dict.get?_erase, if_neg]
            intro e
            exact hn.1 (List.mem_map.2 ⟨q, hq, e.symm⟩)
          obtain ⟨i1, i2⟩ := ih hpos' hn.2 hb (hkw' _ (fun n h => by
            rw [Dict.keys_erase] at h; exact (List.mem_filter.1 h).1) (.inr (by rw [Dict.keys_erase]; simp)))
          simp only [List.length_nil, List.drop_zero, List.nil_append, List.map_cons] at i1 i2 ⊢
          refine ⟨?_, ?_⟩
          · intro q hq hd
            rcases List.mem_cons.1 hq with rfl | hq
            · simp [hv]
            · rw [← hsame q hq]; exact i1 q hq hd
          · have e2 : pos.map (fillOne empty (kw.erase p.name)) = pos.map (fillOne empty kw) :=
              List.map_congr_left (fun q hq => by simp only [fillOne, hsame q hq])
            rw [e2] at i2
            simp only [he, Bool.false_eq_true, if_false]
            rw [i2]
            simp [fillOne, hv]
        · rename_i hno
          split at hb
          · rename_i v hv
            simp only [Option.map_eq_some_iff] at hb
            obtain ⟨env', hb, rfl⟩ := hb
            obtain ⟨i1, i2⟩ := ih hpos' hn.2 hb (hkw' kw (fun _ h => h) (.inr (Dict.not_mem_keys.2 hno)))
            simp only [List.length_nil, List.drop_zero, List.nil_append, List.map_cons] at i1 i2 ⊢
            refine ⟨?_, ?_⟩
            · intro q hq hd
              rcases List.mem_cons.1 hq with rfl | hq
              · rw [hv] at hd; cases hd
              · exact i1 q hq hd
            · simp only [he, Bool.false_eq_true, if_false]
              rw [i2]
              simp [fillOne, hno, hv]
          · cases hb
    | varPos => simp [Param.positional, hk] at hp
    | kwOnly => simp [Param.positional, hk] at hp
    | varKw => simp [Param.positional, hk] at hp

/-- If Python accepts the call and every keyword is the name of a parameter that can be given by position or by
keyword, then the arguments are converted to a list, and the call with this list binds the same local variables.
Missing: calls with keyword-only arguments or extra keywords (`C41_keyword_only_lost`, `C41_unknown_accepted`). -/
theorem C41_bind_partial (empty : V) (s : Signature V) {args : List V} {kw : Dict String V} {env : List (String × Bound V)}
    (hb : bind s.params args kw = some env) (hkw : ∀ n ∈ kw.keys, ∃ p ∈ s.positional, p.kind = .posOrKw ∧ p.name = n) :
    ∃ l, convert empty s.params args kw = .ok l ∧ bind s.params l .empty = some env := by
  have hnd := s.nodup
  rw [List.map_append, List.nodup_append] at hnd
  obtain ⟨h1, h2⟩ := bind_fill empty (pos := s.required ++ s.optional) (fun p hp => by
    rcases List.mem_append.1 hp with hp | hp
    · exact (s.hreq p hp).1
    · exact (s.hopt p hp).1) hnd.1 s.rest hb hkw
  refine ⟨_, (convert_eq empty s args kw).2 ?_, h2⟩
  intro p hp
  refine h1 p ?_ (s.hreq p (List.mem_of_mem_drop hp)).2
  rw [List.drop_append]
  exact List.mem_append_left _ hp

/-- The conversion raises iff a required positional parameter is given neither by position nor by keyword; it always
raises `TypeError`. -/
theorem C41_missing (empty : V) (s : Signature V) (args : List V) (kw : Dict String V) (e : PyErr) :
    convert empty s.params args kw = .error e ↔ e = .typeError ∧ ∃ p ∈ s.required.drop args.length, kw.get? p.name = none := by
  obtain ⟨h1, h2⟩ := convert_eq empty s args kw
  constructor
  · intro h
    by_cases hc : ∃ p ∈ s.required.drop args.length, kw.get? p.name = none
    · rw [h1 hc] at h; cases h; exact ⟨rfl, hc⟩
    · rw [h2 (fun p hp => by
        cases hk : kw.get? p.name with
        | none => exact absurd ⟨p, hp, hk⟩ hc
        | some v => rfl)] at h
      cases h
  · rintro ⟨rfl, h⟩
    exact h1 h

/-- `def f(a, b, c=30, *rest)` -/
def sigF : Signature Nat where
  required := [⟨"a", .posOrKw, none⟩, ⟨"b", .posOrKw, none⟩]
  optional := [⟨"c", .posOrKw, some 30⟩]
  rest := [⟨"rest", .varPos, none⟩]
  hreq := by decide
  hopt := by decide
  hrest := by decide
  nodup := by decide

/-- `f(1, b=2)` -/
example : bind sigF.params [1] (Dict.empty.set "b" 2) = some [("a", .one 1), ("b", .one 2), ("c", .one 30), ("rest", .many [])] ∧
    convert 0 sigF.params [1] (Dict.empty.set "b" 2) = .ok [1, 2, 30] ∧
    (∀ n ∈ (Dict.empty.set "b" 2 : Dict String Nat).keys, ∃ p ∈ sigF.positional, p.kind = .posOrKw ∧ p.name = n) := by decide +kernel

/-- `f(1, c=2)`: `b` is missing. -/
example : convert 0 sigF.params [1] (Dict.empty.set "c" 2) = .error .typeError := by decide +kernel

/-- `def g(a, *, k=5)` -/
def sigG : Signature Nat where
  required := [⟨"a", .posOrKw, none⟩]
  optional := []
  rest := [⟨"k", .kwOnly, some 5⟩]
  hreq := by decide
  hopt := by decide
  hrest := by decide
  nodup := by decide

/-- **The claim is false for keyword-only parameters**: `submit(g, 1, k=7)` runs `g(1, k=5)`. -/
theorem C41_keyword_only_lost : bind sigG.params [1] (Dict.empty.set "k" 7) = some [("a", .one 1), ("k", .one 7)] ∧
    convert 0 sigG.params [1] (Dict.empty.set "k" 7) = .ok [1] ∧
    bind sigG.params [1] .empty = some [("a", .one 1), ("k", .one 5)] := by decide +kernel

/-- **The claim is false for calls Python rejects**: `submit(g, 1, x=2)` and `submit(g, 1, a=2)` run `g(1)`. -/
theorem C41_unknown_accepted : bind sigG.params [1] (Dict.empty.set "x" 2) = none ∧ bind sigG.params [1] (Dict.empty.set "a" 2) = none ∧
    convert 0 sigG.params [1] (Dict.empty.set "x" 2) = .ok [1] ∧ convert 0 sigG.params [1] (Dict.empty.set "a" 2) = .ok [1] := by decide +kernel

/-- `def h(a, /)` -/
def sigH : Signature Nat where
  required := [⟨"a", .posOnly, none⟩]
  optional := []
  rest := []
  hreq := by decide
  hopt := by decide
  hrest := by decide
  nodup := by decide

/-- A positional-only parameter can be given by keyword: `submit(h, a=1)` runs `h(1)`. -/
theorem C41_positional_only_by_keyword : bind sigH.params [] (Dict.empty.set "a" 1) = none ∧
    convert 0 sigH.params [] (Dict.empty.set "a" 1) = .ok [1] := by decide +kernel

end Verif.Props
