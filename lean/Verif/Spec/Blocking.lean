import Verif.Client.Blocking
import Verif.Spec.Client

/-!
# C92: what comes of a call
-/

namespace Verif.Spec.Client

open Verif.Wire Verif.Client

/-- No new call. -/
def goesOn : COp → Bool
  | .submit .. => false
  | .map .. => false
  | .get .. => false
  | _ => true

/-- What the call brought, if it is over and these were its futures: their results in order, or what the first of them that
has no result raised. -/
def Outcome (fs : List FState) (l : List (Bytes × Nat)) : Call → Prop
  | .returned rs => rs.map (·.1) = l.map (·.1) ∧ rs.map (fun r => some (FState.result r.2)) = l.map fun x => fs[x.2]?
  | .raised x => ∃ l1 k n l2, l = l1 ++ (k, n) :: l2 ∧ (∀ y ∈ l1, ∃ r, fs[y.2]? = some (.result r)) ∧
      (∀ r, x ≠ .result r) ∧ (Final x → fs[n]? = some x)
  | _ => True

/-- The connector's thread is no more. -/
def Gone (b : Caller) : Prop := b.client.closed = true ∨ b.dead = true

/-- Of a loop that gives results to futures, the first `k` rounds were done: these futures have what `f` made of their results, the others are
as before; and the loop ended there because there is no further result, or no further future, or because the next result could not be
read, or because the next future was done already. -/
structure ResolvedUpTo (f : Bytes → Py FState) (rs : List Bytes) (ns : List Nat) (before after : List FState) (k : Nat) : Prop where
  results : k ≤ rs.length
  futures : k ≤ ns.length
  done : ∀ (j : Nat) n r, j < k → ns[j]? = some n → rs[j]? = some r → ∃ s, f r = .ok s ∧ after[n]? = some s
  rest : ∀ n, n ∉ ns.take k → after[n]? = before[n]?
  stop : k < rs.length → ns[k]? = none ∨
    ∃ n r, ns[k]? = some n ∧ rs[k]? = some r ∧ ((∀ s, f r ≠ .ok s) ∨ before[n]? ≠ some .pending ∧ before[n]? ≠ some .running)

/-- A call whose user has got something for it: futures, results or an exception.  Nothing was called in the case `free`. -/
def CallDone : Call → Prop
  | .free => True
  | .handed _ => True
  | .returned _ => True
  | .raised _ => True
  | .rejected _ => True
  | .submitting .. => False
  | .getting .. => False
  | .waiting .. => False
  | .joining _ => False

end Verif.Spec.Client
