import Verif.Base.Py

/-!
# Decimal numbers in Python strings

`str` of an `int` and `int` of a `str`.

Simplifications.
* Only ASCII characters are digits or white space.
* The limit of 4300 digits (`sys.set_int_max_str_digits`) is left out.
-/

namespace Verif.Util

/-- The digit `n`, for `n < 10` (CPython; used by scaled/utility/zmq_config.py 39-68, formatter.py 7-48, scaled/entry_points/top.py 173-184). -/
def digitChar (n : Nat) : Char := Char.ofNat (48 + n)

/-- `str(n)` for a natural number; `fuel` is at least the number of digits (CPython; used by scaled/utility/zmq_config.py 39-68, formatter.py 7-48, scaled/entry_points/top.py 173-184). -/
def decFuel : Nat → Nat → List Char
  | 0, _ => []
  | fuel + 1, n => if n < 10 then [digitChar n] else decFuel fuel (n / 10) ++ [digitChar (n % 10)]

/-- `str(n)` (CPython; used by scaled/utility/zmq_config.py 39-68, formatter.py 7-48, scaled/entry_points/top.py 173-184) -/
def dec (n : Nat) : List Char := decFuel (n + 1) n

/-- `str(i)` (CPython; used by scaled/utility/zmq_config.py 39-68, formatter.py 7-48, scaled/entry_points/top.py 173-184) -/
def decInt : Int → List Char
  | .ofNat n => dec n
  | .negSucc n => '-' :: dec (n + 1)

/-- an ASCII digit (CPython; used by scaled/utility/zmq_config.py 49-68 and `type=int` of scaled/entry_points/scheduler.py 20-70) -/
def isDigit (c : Char) : Bool := decide (48 ≤ c.toNat ∧ c.toNat ≤ 57)

/-- ASCII white space (CPython `_Py_ascii_whitespace`) (CPython; used by scaled/utility/zmq_config.py 49-68 and `type=int` of scaled/entry_points/scheduler.py 20-70) -/
def isSpace (c : Char) : Bool := decide (c.toNat = 32 ∨ (9 ≤ c.toNat ∧ c.toNat ≤ 13) ∨ (28 ≤ c.toNat ∧ c.toNat ≤ 31))

/-- Digits with single underscores between them (CPython `PyLong_FromString`, base 10) (CPython; used by scaled/utility/zmq_config.py 49-68 and `type=int` of scaled/entry_points/scheduler.py 20-70). -/
def parseDigits : (acc : Nat) → (afterDigit : Bool) → List Char → Option Nat
  | acc, true, [] => some acc
  | _, false, [] => none
  | acc, after, c :: cs =>
    if isDigit c then parseDigits (10 * acc + (c.toNat - 48)) true cs
    else if c = '_' ∧ after = true then parseDigits acc false cs
    else none

/-- white space at both ends removed (CPython; used by scaled/utility/zmq_config.py 49-68 and `type=int` of scaled/entry_points/scheduler.py 20-70) -/
def strip (s : List Char) : List Char := ((s.dropWhile isSpace).reverse.dropWhile isSpace).reverse

/-- `int(s)`; `none` stands for `ValueError` (CPython; used by scaled/utility/zmq_config.py 49-68 and `type=int` of scaled/entry_points/scheduler.py 20-70). -/
def parseInt (s : List Char) : Option Int :=
  match strip s with
  | '-' :: cs => (parseDigits 0 false cs).map fun (n : Nat) => - (n : Int)
  | '+' :: cs => (parseDigits 0 false cs).map fun (n : Nat) => (n : Int)
  | cs => (parseDigits 0 false cs).map fun (n : Nat) => (n : Int)

theorem digitChar_toNat {n : Nat} (h : n < 10) : (digitChar n).toNat = 48 + n := by
  have : n = 0 ∨ n = 1 ∨ n = 2 ∨ n = 3 ∨ n = 4 ∨ n = 5 ∨ n = 6 ∨ n = 7 ∨ n = 8 ∨ n = 9 := by omega
  rcases this with rfl | rfl | rfl | rfl | rfl | rfl | rfl | rfl | rfl | rfl <;> decide

theorem digitChar_isDigit {n : Nat} (h : n < 10) : isDigit (digitChar n) = true := by
  simp only [isDigit, digitChar_toNat h, decide_eq_true_eq]; omega

theorem decFuel_digits (fuel n : Nat) : ∀ c ∈ decFuel fuel n, isDigit c = true := by
  induction fuel generalizing n with
  | zero => simp [decFuel]
  | succ fuel ih =>
    intro c hc
    simp only [decFuel] at hc
    split at hc
    · rename_i h; simp at hc; subst hc; exact digitChar_isDigit h
    · simp only [List.mem_append, List.mem_singleton] at hc
      rcases hc with hc | rfl
      · exact ih _ c hc
      · exact digitChar_isDigit (by omega)

theorem dec_digits (n : Nat) : ∀ c ∈ dec n, isDigit c = true := decFuel_digits _ _

/-- the value of digits (CPython; used by scaled/utility/zmq_config.py 49-68 and `type=int` of scaled/entry_points/scheduler.py 20-70) -/
def digitsValue (acc : Nat) (cs : List Char) : Nat := cs.foldl (fun a c => 10 * a + (c.toNat - 48)) acc

theorem digitsValue_decFuel (fuel n : Nat) (h : n < fuel) : digitsValue 0 (decFuel fuel n) = n := by
  induction fuel generalizing n with
  | zero => omega
  | succ fuel ih =>
    simp only [decFuel]
    split
    · rename_i hn
      simp only [digitsValue, List.foldl_cons, List.foldl_nil, digitChar_toNat hn]; omega
    · have hi := ih (n / 10) (by omega)
      simp only [digitsValue, List.foldl_append, List.foldl_cons, List.foldl_nil] at hi ⊢
      rw [hi, digitChar_toNat (by omega)]; omega

theorem dec_value (n : Nat) : digitsValue 0 (dec n) = n := digitsValue_decFuel _ _ (by omega)

theorem dec_ne_nil (n : Nat) : dec n ≠ [] := by
  unfold dec decFuel
  split <;> simp

theorem parseDigits_digits (cs : List Char) (h : ∀ c ∈ cs, isDigit c = true) (acc : Nat) (b : Bool) (hb : b = true ∨ cs ≠ []) :
    parseDigits acc b cs = some (digitsValue acc cs) := by
  induction cs generalizing acc b with
  | nil =>
    rcases hb with rfl | hb
    · rfl
    · exact absurd rfl hb
  | cons c cs ih =>
    cases b <;>
    · simp only [parseDigits, h c (by simp), if_true]
      rw [ih (fun c hc => h c (by simp [hc])) _ true (.inl rfl)]
      rfl

theorem parseDigits_dec (n : Nat) : parseDigits 0 false (dec n) = some n := by
  rw [parseDigits_digits _ (dec_digits n) _ _ (.inr (dec_ne_nil n)), dec_value]

theorem not_space_of_digit {c : Char} (h : isDigit c = true) : isSpace c = false := by
  simp only [isDigit, decide_eq_true_eq] at h
  simp only [isSpace, decide_eq_false_iff_not]; omega

theorem dropWhile_none {p : Char → Bool} {l : List Char} (h : ∀ c, l.head? = some c → p c = false) : l.dropWhile p = l := by
  cases l with
  | nil => rfl
  | cons c l => simp [List.dropWhile, h c rfl]

theorem strip_none {l : List Char} (h : ∀ c ∈ l, isSpace c = false) : strip l = l := by
  unfold strip
  rw [dropWhile_none fun c hc => h c (List.mem_of_head? hc)]
  rw [dropWhile_none fun c hc => h c (List.mem_reverse.1 (List.mem_of_head? hc)), List.reverse_reverse]

/-- `int(str(i)) == i` -/
theorem parseInt_decInt (i : Int) : parseInt (decInt i) = some i := by
  cases i with
  | ofNat n =>
    have hs : strip (dec n) = dec n := strip_none fun c hc => not_space_of_digit (dec_digits n c hc)
    simp only [parseInt, decInt, hs]
    have hd := dec_digits n
    have hp := parseDigits_dec n
    generalize dec n = cs at hd hp ⊢
    split
    · have := hd '-' (by simp); exact absurd this (by decide)
    · have := hd '+' (by simp); exact absurd this (by decide)
    · rw [hp]; rfl
  | negSucc n =>
    have hs : strip ('-' :: dec (n + 1)) = '-' :: dec (n + 1) := strip_none fun c hc => by
      rcases List.mem_cons.1 hc with rfl | hc
      · decide
      · exact not_space_of_digit (dec_digits _ c hc)
    simp only [parseInt, decInt, hs, parseDigits_dec]
    rfl

end Verif.Util
