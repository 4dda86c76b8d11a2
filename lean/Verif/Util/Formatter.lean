import Verif.Util.Decimal

/-!
# `scaled/utility/formatter.py`

Numbers are natural numbers, and quotients are exact: `n / d` stands for what is a `float` in Python.  Rounding to
one decimal (`:.1f`) is in Util/Float: here the exact quotient is kept.
-/

namespace Verif.Util

/-- What is shown (scaled/utility/formatter.py 7-48). -/
inductive Shown where
  /-- `f"{int(number)}{unit}"` with this whole number -/
  | whole (n : Nat) (sign : Bool) (unit : List Char)
  /-- `f"{number:.1f}{unit}"` with the number `n / d` -/
  | tenths (n d : Nat) (unit : List Char)
  deriving DecidableEq

/-- The loop formatter.py 8-16; the number is `n / d`. -/
def formatBytesLoop (n : Nat) : (d : Nat) → List (List Char) → Py Shown
  | _, [] => .error .valueError
  | d, u :: us =>
    if n ≥ 1024 * d then formatBytesLoop n (d * 1024) us
    else if u = ['b'] ∨ u = ['k'] then .ok (.whole (n / d) false u)
    else .ok (.tenths n d u)

/-- `format_bytes` (formatter.py 7-18) -/
def formatBytes (n : Nat) : Py Shown := formatBytesLoop n 1 [['b'], ['k'], ['m'], ['g'], ['t']]

/-- The loop formatter.py 30-39; the number is `n / d`. -/
def formatMicrosLoop (n : Nat) : (d : Nat) → List (List Char) → Py Shown
  | _, [] => .error .valueError
  | d, u :: us =>
    if n ≥ 1000 * d then formatMicrosLoop n (d * 1000) us
    else if u = ['u', 's'] then .ok (.tenths n (d * 1000) ['m', 's'])
    else .ok (.whole (n / d) (decide (u = ['s'] ∧ n > 1000 * d)) u)

/-- `format_microseconds` (formatter.py 29-41) -/
def formatMicros (n : Nat) : Py Shown := formatMicrosLoop n 1 [['u', 's'], ['m', 's'], ['s']]

/-- `format_seconds` (formatter.py 44-48) -/
def formatSeconds (n : Nat) : List Char := if n > 60 then ['6', '0', '+', 's'] else dec n ++ ['s']

/-- commas between groups of three, from the right (CPython; used by scaled/utility/formatter.py 22) -/
def group : List Char → List Char
  | a :: b :: c :: d :: cs => a :: b :: c :: ',' :: group (d :: cs)
  | cs => cs

/-- `format_integer` (formatter.py 21-22): `f"{n:,}"` -/
def formatInteger (n : Nat) : List Char := (group (dec n).reverse).reverse

end Verif.Util
