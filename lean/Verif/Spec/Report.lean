import Verif.Sched.Step

/-!
# Vocabulary for the status report
-/

namespace Verif.Spec

open Verif.Wire Verif.Sched

/-- `n` ids have the property. -/
def Counts (P : Bytes → Prop) (n : Int) : Prop :=
  ∃ ts : List Bytes, ts.Nodup ∧ (∀ t, t ∈ ts ↔ P t) ∧ n = ts.length

/-- Time and content of the last heartbeat of a worker. -/
def lastHeartbeat (w : Bytes) (es : List Event) : Option (Int × Heartbeat) :=
  es.reverse.findSome? fun e =>
    match e.op with
    | .recv w' (.heartbeat h) => if w' = w then some (e.now, h) else none
    | _ => none

/-- The bytes of one character in UTF-8 (RFC 3629, section 3). -/
def utf8Char (c : Char) : List Nat :=
  let n := c.toNat
  if n < 0x80 then [n]
  else if n < 0x800 then [0xC0 + n / 64, 0x80 + n % 64]
  else if n < 0x10000 then [0xE0 + n / 4096, 0x80 + n / 64 % 64, 0x80 + n % 64]
  else [0xF0 + n / 262144, 0x80 + n / 4096 % 64, 0x80 + n / 64 % 64, 0x80 + n % 64]

/-- The bytes are a text in UTF-8. -/
def IsText (b : Bytes) : Prop := ∃ cs : List Char, b.map (·.toNat) = cs.flatMap utf8Char

end Verif.Spec
