import Verif.Util.Formatter
import Verif.Util.ZmqConfig
import Verif.Spec.Number
import Verif.Props.Address

/-!
# C58: which ports are accepted; C61: how integers are grouped
-/

namespace Verif.Props

open Verif.Util Verif.Spec

theorem char_of_toNat {c : Char} {n : Nat} (h : c.toNat = n) : c = Char.ofNat n := by
  rw [← h, Char.ofNat_toNat]

theorem isSpace_iff (c : Char) : isSpace c = true ↔ c ∈ blanks := by
  constructor
  · intro h
    simp only [isSpace, decide_eq_true_eq] at h
    have : c.toNat = 32 ∨ c.toNat = 9 ∨ c.toNat = 10 ∨ c.toNat = 11 ∨ c.toNat = 12 ∨ c.toNat = 13 ∨ c.toNat = 28 ∨
        c.toNat = 29 ∨ c.toNat = 30 ∨ c.toNat = 31 := by omega
    rcases this with h | h | h | h | h | h | h | h | h | h <;> rw [char_of_toNat h] <;> decide
  · intro h
    have : ∀ c ∈ blanks, isSpace c = true := by decide
    exact this c h

theorem isDigit_iff (c : Char) (v : Nat) : (isDigit c = true ∧ c.toNat - 48 = v) ↔ (c, v) ∈ figures := by
  constructor
  · rintro ⟨h, rfl⟩
    simp only [isDigit, decide_eq_true_eq] at h
    have : c.toNat = 48 ∨ c.toNat = 49 ∨ c.toNat = 50 ∨ c.toNat = 51 ∨ c.toNat = 52 ∨ c.toNat = 53 ∨ c.toNat = 54 ∨
        c.toNat = 55 ∨ c.toNat = 56 ∨ c.toNat = 57 := by omega
    rcases this with h | h | h | h | h | h | h | h | h | h <;> rw [char_of_toNat h] <;> decide
  · intro h
    have : ∀ p ∈ figures, isDigit p.1 = true ∧ p.1.toNat - 48 = p.2 := by decide
    exact this (c, v) h

/-- What the parser accepts after a digit. -/
inductive Rest : List Char → Nat → Nat → Prop where
  | nil {a : Nat} : Rest [] a a
  | digit {c : Char} {v a n : Nat} {cs : List Char} : (c, v) ∈ figures → Rest cs (10 * a + v) n → Rest (c :: cs) a n
  | under {c : Char} {v a n : Nat} {cs : List Char} : (c, v) ∈ figures → Rest cs (10 * a + v) n → Rest ('_' :: c :: cs) a n

theorem parseDigits_rest (cs : List Char) : ∀ (a n : Nat),
    (parseDigits a true cs = some n → Rest cs a n) ∧
    (parseDigits a false cs = some n → ∃ c v cs', cs = c :: cs' ∧ (c, v) ∈ figures ∧ Rest cs' (10 * a + v) n) := by
  induction cs with
  | nil => intro a n; exact ⟨fun h => by cases h; exact .nil, fun h => by cases h⟩
  | cons c cs ih =>
    intro a n
    refine ⟨fun h => ?_, fun h => ?_⟩
    · simp only [parseDigits] at h
      split at h
      · rename_i hd
        exact .digit ((isDigit_iff c _).1 ⟨hd, rfl⟩) ((ih _ _).1 h)
      · split at h
        · rename_i hu
          obtain ⟨d, v, cs', rfl, hf, hr⟩ := (ih _ _).2 h
          rw [hu.1]
          exact .under hf hr
        · cases h
    · simp only [parseDigits] at h
      split at h
      · rename_i hd
        exact ⟨c, _, cs, rfl, (isDigit_iff c _).1 ⟨hd, rfl⟩, (ih _ _).1 h⟩
      · simp at h

theorem rest_parse {cs : List Char} {a n : Nat} (h : Rest cs a n) : parseDigits a true cs = some n := by
  induction h with
  | nil => rfl
  | @digit c v a n cs hf hr ih =>
    obtain ⟨h1, h2⟩ := (isDigit_iff _ _).2 hf
    simp only [parseDigits, h1, if_true, h2]; exact ih
  | @under c v a n cs hf hr ih =>
    obtain ⟨h1, h2⟩ := (isDigit_iff _ _).2 hf
    have hu : isDigit '_' = false := by decide
    simp only [parseDigits, hu, h1, h2]
    simpa using ih

theorem rest_numeral {cs : List Char} {a n : Nat} (h : Rest cs a n) : ∀ pre, Numeral pre a → Numeral (pre ++ cs) n := by
  induction h with
  | nil => intro pre hp; simpa using hp
  | @digit c v a n cs hf hr ih =>
    intro pre hp
    have := ih _ (Numeral.more hp hf)
    simpa using this
  | @under c v a n cs hf hr ih =>
    intro pre hp
    have := ih _ (Numeral.split hp hf)
    simpa using this

theorem rest_append {cs : List Char} {a n : Nat} (h : Rest cs a n) : ∀ {ds : List Char} {m : Nat}, Rest ds n m → Rest (cs ++ ds) a m := by
  induction h with
  | nil => intro ds m h; exact h
  | digit hf hr ih => intro ds m h; exact .digit hf (ih h)
  | under hf hr ih => intro ds m h; exact .under hf (ih h)

theorem numeral_rest {cs : List Char} {n : Nat} (h : Numeral cs n) : ∃ c v cs', cs = c :: cs' ∧ (c, v) ∈ figures ∧ Rest cs' v n := by
  induction h with
  | one hf => exact ⟨_, _, [], rfl, hf, .nil⟩
  | more hn hf ih =>
    obtain ⟨c, v, cs', rfl, h1, h2⟩ := ih
    exact ⟨c, v, _, rfl, h1, rest_append h2 (.digit hf .nil)⟩
  | split hn hf ih =>
    obtain ⟨c, v, cs', rfl, h1, h2⟩ := ih
    exact ⟨c, v, _, rfl, h1, rest_append h2 (.under hf .nil)⟩

theorem parseDigits_iff (cs : List Char) (n : Nat) : parseDigits 0 false cs = some n ↔ Numeral cs n := by
  constructor
  · intro h
    obtain ⟨c, v, cs', rfl, h1, h2⟩ := (parseDigits_rest cs 0 n).2 h
    rw [Nat.mul_zero, Nat.zero_add] at h2
    exact rest_numeral h2 _ (.one h1)
  · intro h
    obtain ⟨c, v, cs', rfl, h1, h2⟩ := numeral_rest h
    obtain ⟨h3, h4⟩ := (isDigit_iff _ _).2 h1
    simp only [parseDigits, h3, if_true, h4]
    simpa using rest_parse h2

theorem numeral_head {cs : List Char} {n : Nat} (h : Numeral cs n) : ∃ c cs', cs = c :: cs' ∧ isDigit c = true := by
  obtain ⟨c, v, cs', rfl, h1, _⟩ := numeral_rest h
  exact ⟨c, cs', rfl, ((isDigit_iff _ _).2 h1).1⟩

theorem numeral_last {cs : List Char} {n : Nat} (h : Numeral cs n) : ∃ c cs', cs = cs' ++ [c] ∧ isDigit c = true := by
  cases h with
  | one hf => exact ⟨_, [], rfl, ((isDigit_iff _ _).2 hf).1⟩
  | more _ hf => exact ⟨_, _, rfl, ((isDigit_iff _ _).2 hf).1⟩
  | split _ hf => rename_i cs _ _ _ _; exact ⟨_, cs ++ ['_'], by simp, ((isDigit_iff _ _).2 hf).1⟩

theorem signed_iff (s cs : List Char) (i : Int) (hs : strip s = cs) : parseInt s = some i ↔ Signed cs i := by
  unfold parseInt
  rw [hs]
  constructor
  · intro h
    split at h <;> (simp only [Option.map_eq_some_iff] at h; obtain ⟨n, h1, rfl⟩ := h; rw [parseDigits_iff] at h1)
    · exact .minus h1
    · exact .plus h1
    · exact .plain h1
  · rintro (⟨h⟩ | ⟨h⟩ | ⟨h⟩)
    · split
      · obtain ⟨c, cs', e, hd⟩ := numeral_head h; cases e; exact absurd hd (by decide)
      · obtain ⟨c, cs', e, hd⟩ := numeral_head h; cases e; exact absurd hd (by decide)
      · rw [(parseDigits_iff _ _).2 h]; rfl
    · simp only [(parseDigits_iff _ _).2 h]; rfl
    · simp only [(parseDigits_iff _ _).2 h]; rfl

theorem signed_head {cs : List Char} {i : Int} (h : Signed cs i) : ∃ c cs', cs = c :: cs' ∧ isSpace c = false := by
  cases h with
  | plain h => obtain ⟨c, cs', rfl, hd⟩ := numeral_head h; exact ⟨c, cs', rfl, not_space_of_digit hd⟩
  | plus h => exact ⟨_, _, rfl, by decide⟩
  | minus h => exact ⟨_, _, rfl, by decide⟩

theorem signed_last {cs : List Char} {i : Int} (h : Signed cs i) : ∃ c cs', cs = cs' ++ [c] ∧ isSpace c = false := by
  cases h with
  | plain h => obtain ⟨c, cs', rfl, hd⟩ := numeral_last h; exact ⟨c, cs', rfl, not_space_of_digit hd⟩
  | plus h => obtain ⟨c, cs', rfl, hd⟩ := numeral_last h; exact ⟨c, '+' :: cs', rfl, not_space_of_digit hd⟩
  | minus h => obtain ⟨c, cs', rfl, hd⟩ := numeral_last h; exact ⟨c, '-' :: cs', rfl, not_space_of_digit hd⟩

theorem dropWhile_split (p : Char → Bool) (l : List Char) : ∃ a, l = a ++ l.dropWhile p ∧ ∀ c ∈ a, p c = true := by
  induction l with
  | nil => exact ⟨[], rfl, by simp⟩
  | cons c l ih =>
    by_cases h : p c = true
    · obtain ⟨a, h1, h2⟩ := ih
      refine ⟨c :: a, ?_, by simpa using ⟨h, h2⟩⟩
      rw [List.dropWhile_cons_of_pos h, List.cons_append, ← h1]
    · exact ⟨[], by rw [List.dropWhile_cons_of_neg h]; rfl, by simp⟩

theorem dropWhile_drop {p : Char → Bool} {a l : List Char} (h : ∀ c ∈ a, p c = true) : (a ++ l).dropWhile p = l.dropWhile p := by
  induction a with
  | nil => rfl
  | cons c a ih =>
    rw [List.cons_append, List.dropWhile_cons_of_pos (h c (by simp)), ih fun c hc => h c (by simp [hc])]

theorem strip_split (s : List Char) : ∃ a b, s = a ++ strip s ++ b ∧ (∀ c ∈ a, c ∈ blanks) ∧ (∀ c ∈ b, c ∈ blanks) := by
  obtain ⟨a, h1, h2⟩ := dropWhile_split isSpace s
  obtain ⟨b, h3, h4⟩ := dropWhile_split isSpace (s.dropWhile isSpace).reverse
  refine ⟨a, b.reverse, ?_, fun c hc => (isSpace_iff c).1 (h2 c hc), fun c hc => (isSpace_iff c).1 (h4 c (List.mem_reverse.1 hc))⟩
  have h3' := congrArg List.reverse h3
  rw [List.reverse_reverse, List.reverse_append] at h3'
  rw [List.append_assoc]
  show s = a ++ (strip s ++ b.reverse)
  unfold strip
  rw [← h3', ← h1]

theorem strip_of {a body b : List Char} {i : Int} (ha : ∀ c ∈ a, c ∈ blanks) (hb : ∀ c ∈ b, c ∈ blanks) (h : Signed body i) :
    strip (a ++ body ++ b) = body := by
  unfold strip
  obtain ⟨c, cs, h1, h2⟩ := signed_head h
  obtain ⟨d, ds, h3, h4⟩ := signed_last h
  have e1 : (a ++ body ++ b).dropWhile isSpace = body ++ b := by
    rw [List.append_assoc, dropWhile_drop fun c hc => (isSpace_iff c).2 (ha c hc), h1, List.cons_append,
      List.dropWhile_cons_of_neg (by simp [h2])]
  rw [e1, List.reverse_append, dropWhile_drop fun c hc => (isSpace_iff c).2 (hb c (List.mem_reverse.1 hc)), h3, List.reverse_append]
  simp [h4]

/-- **C58**: exactly the written integers are accepted as ports, with their values. -/
theorem C58_number (s : List Char) (i : Int) : parseInt s = some i ↔ Written s i := by
  rw [signed_iff s _ i rfl]
  constructor
  · intro h
    obtain ⟨a, b, h1, h2, h3⟩ := strip_split s
    exact ⟨a, strip s, b, h1, h2, h3, h⟩
  · rintro ⟨a, body, b, rfl, h2, h3, h⟩
    rw [strip_of h2 h3 h]
    exact h

example : Written ['\t', '-', '1', '_', '0', ' '] (-10) :=
  ⟨['\t'], ['-', '1', '_', '0'], [' '], rfl, by decide, by decide, .minus (n := 10) (.split (cs := ['1']) (n := 1) (v := 0) (.one (by decide)) (by decide))⟩

theorem decFuel_enough (f g n : Nat) (hf : n < f) (hg : n < g) : decFuel f n = decFuel g n := by
  induction f generalizing g n with
  | zero => omega
  | succ f ih =>
    cases g with
    | zero => omega
    | succ g =>
      simp only [decFuel]
      split
      · rfl
      · rw [ih g (n / 10) (by omega) (by omega)]

theorem dec_step (n : Nat) (h : 10 ≤ n) : dec n = dec (n / 10) ++ [digitChar (n % 10)] := by
  unfold dec
  conv => lhs; unfold decFuel
  rw [if_neg (by omega), decFuel_enough n (n / 10 + 1) _ (by omega) (by omega)]

theorem dec_small (n : Nat) (h : n < 10) : dec n = [digitChar n] := by
  unfold dec decFuel; rw [if_pos h]

theorem dec_thousand (n : Nat) (h : 1000 ≤ n) : dec n = dec (n / 1000) ++ threeDigits (n % 1000) := by
  rw [dec_step n (by omega), dec_step (n / 10) (by omega), dec_step (n / 10 / 10) (by omega)]
  have e1 : n / 10 / 10 / 10 = n / 1000 := by omega
  have e2 : n / 10 / 10 % 10 = n % 1000 / 100 := by omega
  have e3 : n / 10 % 10 = n % 1000 / 10 % 10 := by omega
  have e4 : n % 10 = n % 1000 % 10 := by omega
  rw [e1, e2, e3]
  conv => lhs; rw [e4]
  simp [threeDigits, digitChar]

/-- **C61**: below 1000 an integer is shown as it is, otherwise its last three digits are set apart by a comma. -/
theorem C61_groups (n : Nat) :
    (n < 1000 → formatInteger n = dec n) ∧
    (1000 ≤ n → formatInteger n = formatInteger (n / 1000) ++ ',' :: threeDigits (n % 1000)) := by
  constructor
  · intro h
    unfold formatInteger
    have hl : (dec n).length ≤ 3 := by
      by_cases h1 : n < 10
      · rw [dec_small n h1]; simp
      · rw [dec_step n (by omega)]
        by_cases h2 : n / 10 < 10
        · rw [dec_small _ h2]; simp
        · rw [dec_step _ (by omega), dec_small _ (by omega)]; simp
    have : ∀ l : List Char, l.length ≤ 3 → group l = l := by
      intro l hl
      match l, hl with
      | [], _ => rfl
      | [_], _ => rfl
      | [_, _], _ => rfl
      | [_, _, _], _ => rfl
    rw [this _ (by simpa using hl), List.reverse_reverse]
  · intro h
    unfold formatInteger
    rw [dec_thousand n h]
    simp only [List.reverse_append, threeDigits, List.reverse_cons, List.reverse_nil, List.nil_append, List.cons_append]
    have hn : (dec (n / 1000)).reverse ≠ [] := by simp [dec_ne_nil]
    generalize (dec (n / 1000)).reverse = l at hn ⊢
    cases l with
    | nil => exact absurd rfl hn
    | cons c l => simp [group]

example : formatInteger 1234567 = ['1', ',', '2', '3', '4', ',', '5', '6', '7'] ∧ 1000 ≤ 1234567 ∧ formatInteger 999 = ['9', '9', '9'] := by
  decide +kernel

end Verif.Props
