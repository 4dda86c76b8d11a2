/-!
# How a number may be written, and how it is shown

Stated without reference to the parser.
-/

namespace Verif.Spec

/-- White space around a number: space, tab, line feed, vertical tab, form feed, carriage return and the four
separators. -/
def blanks : List Char :=
  [' ', '\t', '\n', '\x0b', '\x0c', '\r', '\x1c', '\x1d', '\x1e', '\x1f']

/-- The ten digits and their values. -/
def figures : List (Char × Nat) :=
  [('0', 0), ('1', 1), ('2', 2), ('3', 3), ('4', 4), ('5', 5), ('6', 6), ('7', 7), ('8', 8), ('9', 9)]

/-- `Numeral cs n`: `cs` is a numeral with the value `n`, digits with at most one underscore between two of them. -/
inductive Numeral : List Char → Nat → Prop where
  | one {c : Char} {v : Nat} : (c, v) ∈ figures → Numeral [c] v
  | more {cs : List Char} {n : Nat} {c : Char} {v : Nat} : Numeral cs n → (c, v) ∈ figures → Numeral (cs ++ [c]) (10 * n + v)
  | split {cs : List Char} {n : Nat} {c : Char} {v : Nat} : Numeral cs n → (c, v) ∈ figures → Numeral (cs ++ ['_', c]) (10 * n + v)

/-- `Signed cs i`: a numeral with or without sign. -/
inductive Signed : List Char → Int → Prop where
  | plain {cs : List Char} {n : Nat} : Numeral cs n → Signed cs n
  | plus {cs : List Char} {n : Nat} : Numeral cs n → Signed ('+' :: cs) n
  | minus {cs : List Char} {n : Nat} : Numeral cs n → Signed ('-' :: cs) (- (n : Int))

/-- `cs` is an integer with the value `i`, blanks around it are allowed. -/
def Written (cs : List Char) (i : Int) : Prop :=
  ∃ before body after, cs = before ++ body ++ after ∧ (∀ c ∈ before, c ∈ blanks) ∧ (∀ c ∈ after, c ∈ blanks) ∧ Signed body i

/-- The three digits of a number below 1000. -/
def threeDigits (n : Nat) : List Char :=
  [Char.ofNat (48 + n / 100), Char.ofNat (48 + n / 10 % 10), Char.ofNat (48 + n % 10)]

end Verif.Spec
