import Verif.Base.Dict

/-!
# Specification of debouncing: how often the same thing was seen in a row
-/

namespace Verif.Spec

open Verif

/-- Two tables say the same. -/
def SameTable (a b : Dict Bytes Int) : Prop := ∀ w, a.get? w = b.get? w

/-- `Streak l n`: the newest table (first in the list) was seen exactly `n` times in a row. -/
inductive Streak : List (Dict Bytes Int) → Nat → Prop
  | one (a) : Streak [a] 1
  | more {a b l n} (h : Streak (b :: l) n) (hs : SameTable b a) : Streak (a :: b :: l) (n + 1)
  | new {a b l} (hs : ¬ SameTable b a) : Streak (a :: b :: l) 1

end Verif.Spec
