import Verif.Util.ZmqConfig

/-!
# Claims about addresses (C58)
-/

namespace Verif.Props

open Verif.Util

/-- An address the constructor accepts: `tcp` with a port, the others without. -/
def ValidAddress (c : ZmqConfig) : Prop := c.port.isSome = true ↔ c.type = .tcp

theorem make_ok (t : ZmqType) (h : List Char) (p : Option Int) (c : ZmqConfig) :
    ZmqConfig.make t h p = .ok c ↔ c = ⟨t, h, p⟩ ∧ ValidAddress c := by
  unfold ZmqConfig.make
  cases p with
  | none =>
    cases t <;> simp only [Py.bind_ok, raiseIf_ok, Py.pure_eq, Except.ok.injEq, ValidAddress] <;> grind
  | some i =>
    cases t <;> simp only [Py.bind_ok, raiseIf_ok, Py.pure_eq, Except.ok.injEq, ValidAddress] <;> grind

theorem splitScheme_some (s a b : List Char) (h : splitScheme s = some (a, b)) : s = a ++ ':' :: '/' :: '/' :: b := by
  induction s using splitScheme.induct generalizing a with
  | case1 => cases h
  | case2 cs => simp only [splitScheme, Option.some.injEq, Prod.mk.injEq] at h; simp [← h.1, ← h.2]
  | case3 c cs hne ih =>
    have : splitScheme (c :: cs) = (splitScheme cs).map fun p => (c :: p.1, p.2) := by
      rw [splitScheme]; exact hne
    rw [this] at h
    simp only [Option.map_eq_some_iff] at h
    obtain ⟨⟨a', b'⟩, h1, h2⟩ := h
    cases h2
    rw [ih a' h1]
    rfl

theorem splitScheme_append (a b : List Char) (h : ':' ∉ a) : splitScheme (a ++ ':' :: '/' :: '/' :: b) = some (a, b) := by
  induction a with
  | nil => rfl
  | cons c a ih =>
    have hc : c ≠ ':' := by rintro rfl; exact h (by simp)
    have : splitScheme (c :: (a ++ ':' :: '/' :: '/' :: b)) = (splitScheme (a ++ ':' :: '/' :: '/' :: b)).map fun p => (c :: p.1, p.2) := by
      rw [splitScheme]
      intro cs e
      exact fun _ => hc e
    rw [List.cons_append, this, ih (fun h' => h (by simp [h']))]
    rfl

theorem splitColon_ne_nil (s : List Char) : splitColon s ≠ [] := by
  cases s with
  | nil => simp [splitColon]
  | cons c s => simp only [splitColon]; split; · simp
                split <;> simp

/-- no colon, one piece -/
theorem splitColon_one (s a : List Char) : splitColon s = [a] ↔ s = a ∧ ':' ∉ s := by
  induction s generalizing a with
  | nil => simp [splitColon, eq_comm]
  | cons c s ih =>
    simp only [splitColon]
    split
    · rename_i hc
      subst hc
      simp [splitColon_ne_nil]
    · rename_i hc
      split
      · rename_i h; exact absurd h (splitColon_ne_nil s)
      · rename_i p ps hp
        constructor
        · intro h
          simp only [List.cons.injEq] at h
          obtain ⟨rfl, rfl⟩ := h
          obtain ⟨h1, h2⟩ := (ih p).1 hp
          subst h1
          exact ⟨rfl, by simp only [List.mem_cons, not_or]; exact ⟨fun e => hc e.symm, h2⟩⟩
        · rintro ⟨rfl, h⟩
          simp only [List.mem_cons, not_or] at h
          rw [(ih s).2 ⟨rfl, h.2⟩] at hp
          cases hp
          rfl

theorem splitColon_two (s a b : List Char) : splitColon s = [a, b] ↔ s = a ++ ':' :: b ∧ ':' ∉ a ∧ ':' ∉ b := by
  induction s generalizing a with
  | nil => simp [splitColon]
  | cons c s ih =>
    simp only [splitColon]
    split
    · rename_i hc
      subst hc
      constructor
      · intro h
        simp only [List.cons.injEq] at h
        obtain ⟨rfl, h⟩ := h
        obtain ⟨rfl, h2⟩ := (splitColon_one s b).1 h
        exact ⟨rfl, by simp, h2⟩
      · rintro ⟨h1, h2, h3⟩
        cases a with
        | nil => cases h1; rw [(splitColon_one b b).2 ⟨rfl, h3⟩]
        | cons x a => cases h1; exact absurd (List.mem_cons_self ..) h2
    · rename_i hc
      split
      · rename_i h; exact absurd h (splitColon_ne_nil s)
      · rename_i p ps hp
        constructor
        · intro h
          simp only [List.cons.injEq] at h
          obtain ⟨rfl, rfl⟩ := h
          obtain ⟨h1, h2, h3⟩ := (ih p).1 hp
          subst h1
          exact ⟨rfl, by simp only [List.mem_cons, not_or]; exact ⟨fun e => hc e.symm, h2⟩, h3⟩
        · rintro ⟨h1, h2, h3⟩
          cases a with
          | nil => cases h1; exact absurd rfl hc
          | cons x a =>
            cases h1
            simp only [List.mem_cons, not_or] at h2
            rw [(ih a).2 ⟨rfl, h2.2, h3⟩] at hp
            cases hp
            rfl

theorem ofValue_some (s : List Char) (t : ZmqType) : ZmqType.ofValue s = some t ↔ s = t.value := by
  unfold ZmqType.ofValue
  cases t <;> grind [ZmqType.value]

theorem value_no_colon (t : ZmqType) : ':' ∉ t.value := by cases t <;> decide

/-- Exactly the documented shapes are accepted: `inproc://` or `ipc://` and any name, or `tcp://`, a host without
colon, a colon and a number.  The parsed address is what was written. -/
theorem C58_accepts (s : List Char) (c : ZmqConfig) : ZmqConfig.fromString s = .ok c ↔
    (c.type ≠ .tcp ∧ c.port = none ∧ s = c.type.value ++ ':' :: '/' :: '/' :: c.host) ∨
    (c.type = .tcp ∧ ∃ ps i, parseInt ps = some i ∧ ':' ∉ ps ∧ ':' ∉ c.host ∧ c.port = some i ∧
      s = c.type.value ++ ':' :: '/' :: '/' :: (c.host ++ ':' :: ps)) := by
  unfold ZmqConfig.fromString
  simp only [Py.bind_ok, orRaise_ok]
  constructor
  · rintro ⟨⟨scheme, rest⟩, h1, t, h2, h⟩
    simp only at h2
    rw [ofValue_some] at h2
    have hs := splitScheme_some _ _ _ h1
    subst h2
    split at h
    · rename_i ht
      obtain ⟨rfl, hv⟩ := (make_ok _ _ _ _).1 h
      exact .inl ⟨by rcases ht with rfl | rfl <;> simp, rfl, hs⟩
    · rename_i ht
      have htcp : t = .tcp := by cases t <;> simp_all
      subst htcp
      split at h
      · rename_i host port hsp
        simp only [Py.bind_ok, orRaise_ok] at h
        obtain ⟨i, hi, h⟩ := h
        obtain ⟨rfl, hv⟩ := (make_ok _ _ _ _).1 h
        obtain ⟨h3, h4, h5⟩ := (splitColon_two _ _ _).1 hsp
        exact .inr ⟨rfl, port, i, hi, h5, h4, rfl, by rw [hs]; simp only at h3; rw [h3]⟩
      · cases h
  · rintro (⟨h1, h2, rfl⟩ | ⟨h1, ps, i, h2, h3, h4, h5, rfl⟩)
    · refine ⟨_, splitScheme_append _ _ (value_no_colon _), c.type, (ofValue_some _ _).2 rfl, ?_⟩
      rw [if_pos (by cases h : c.type <;> simp_all)]
      refine (make_ok _ _ _ _).2 ⟨?_, ?_⟩
      · rw [← h2]
      · unfold ValidAddress; simp [h1, h2]
    · refine ⟨_, splitScheme_append _ _ (value_no_colon _), c.type, (ofValue_some _ _).2 rfl, ?_⟩
      rw [if_neg (by simp [h1])]
      simp only [(splitColon_two _ _ _).2 ⟨rfl, h4, h3⟩, Py.bind_ok, orRaise_ok]
      refine ⟨i, h2, (make_ok _ _ _ _).2 ⟨?_, ?_⟩⟩
      · rw [← h5]
      · unfold ValidAddress; simp [h1, h5]

/-- Everything else is rejected with `ValueError`. -/
theorem C58_rejects (s : List Char) (e : PyErr) (h : ZmqConfig.fromString s = .error e) : e = .valueError := by
  unfold ZmqConfig.fromString at h
  cases h1 : splitScheme s with
  | none => simp only [h1, orRaise, Py.error_bind] at h; cases h; rfl
  | some p =>
    simp only [h1, orRaise, Py.ok_bind] at h
    cases h2 : ZmqType.ofValue p.1 with
    | none => simp only [h2, Py.error_bind] at h; cases h; rfl
    | some t =>
      simp only [h2, Py.ok_bind] at h
      split at h
      · rename_i ht
        unfold ZmqConfig.make at h
        rcases ht with rfl | rfl <;> simp [raiseIf] at h
      · rename_i ht
        split at h
        · rename_i host port _
          cases h3 : parseInt port with
          | none => simp only [h3, Py.error_bind] at h; cases h; rfl
          | some i =>
            simp only [h3, Py.ok_bind] at h
            unfold ZmqConfig.make at h
            cases t <;> simp [raiseIf] at h ht
        · cases h; rfl

/-- A valid address is parsed back from its string form, if a `tcp` host has no colon.
Missing: hosts with a colon, such as IPv6 addresses (`C58_colon`). -/
theorem C58_roundtrip_partial (c : ZmqConfig) (hv : ValidAddress c) (hh : c.type = .tcp → ':' ∉ c.host) :
    ZmqConfig.fromString c.toAddress = .ok c := by
  rw [C58_accepts]
  by_cases ht : c.type = .tcp
  · obtain ⟨i, hi⟩ := Option.isSome_iff_exists.1 (hv.2 ht)
    refine .inr ⟨ht, decInt i, i, parseInt_decInt i, ?_, hh ht, hi, ?_⟩
    · intro hm
      have : ∀ n, ':' ∉ dec n := fun n hn => absurd (dec_digits n _ hn) (by decide)
      cases i with
      | ofNat n => exact this n hm
      | negSucc n =>
        rcases List.mem_cons.1 hm with h | h
        · exact absurd h (by decide)
        · exact this _ h
    · unfold ZmqConfig.toAddress
      simp [ht, hi, showPort, ZmqType.value]
  · refine .inl ⟨ht, ?_, ?_⟩
    · cases hp : c.port with
      | none => rfl
      | some i => exact absurd (hv.1 (by simp [hp])) ht
    · unfold ZmqConfig.toAddress
      split
      · rename_i h; exact absurd h ht
      · simp

/-- The text of an address, per type (zmq_config.py 39-46); a `tcp` configuration whose port was taken away after it was
made is shown with `None`. -/
theorem C58_address (host : List Char) (i : Int) :
    (⟨.inproc, host, none⟩ : ZmqConfig).toAddress = ['i', 'n', 'p', 'r', 'o', 'c', ':', '/', '/'] ++ host ∧
    (⟨.ipc, host, none⟩ : ZmqConfig).toAddress = ['i', 'p', 'c', ':', '/', '/'] ++ host ∧
    (⟨.tcp, host, some i⟩ : ZmqConfig).toAddress = ['t', 'c', 'p', ':', '/', '/'] ++ host ++ [':'] ++ decInt i ∧
    (⟨.tcp, host, none⟩ : ZmqConfig).toAddress = ['t', 'c', 'p', ':', '/', '/'] ++ host ++ [':', 'N', 'o', 'n', 'e'] := by
  refine ⟨rfl, rfl, ?_, ?_⟩ <;> simp [ZmqConfig.toAddress, showPort]

example : (⟨.ipc, ['a'], none⟩ : ZmqConfig).toAddress = ['i', 'p', 'c', ':', '/', '/', 'a'] := rfl

/-- `tcp://a:80` -/
example : ZmqConfig.fromString ['t', 'c', 'p', ':', '/', '/', 'a', ':', '8', '0'] = .ok ⟨.tcp, ['a'], some 80⟩ ∧
    (⟨.tcp, ['a'], some 80⟩ : ZmqConfig).toAddress = ['t', 'c', 'p', ':', '/', '/', 'a', ':', '8', '0'] ∧
    ZmqConfig.fromString ['t', 'c', 'p', ':', '/', '/', 'a'] = .error .valueError := by decide +kernel

/-- **The claim is false for hosts with a colon**: the address `tcp://::1:80` of a valid configuration is rejected. -/
theorem C58_colon : ZmqConfig.make .tcp [':', ':', '1'] (some 80) = .ok ⟨.tcp, [':', ':', '1'], some 80⟩ ∧
    ZmqConfig.fromString (⟨.tcp, [':', ':', '1'], some 80⟩ : ZmqConfig).toAddress = .error .valueError := by decide +kernel

/-- Numbers that are no ports are accepted: `tcp://a: -1_0`. -/
theorem C58_any_number : ZmqConfig.fromString ['t', 'c', 'p', ':', '/', '/', 'a', ':', ' ', '-', '1', '_', '0'] = .ok ⟨.tcp, ['a'], some (-10)⟩ := by
  decide +kernel

end Verif.Props
