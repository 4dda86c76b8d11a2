import Verif.Wire.Message

/-!
# Specification of the wire format

Independent of the serialisation functions: which messages have a wire form.
-/

namespace Verif.Spec

open Verif.Wire

/-- Numbers that fit an unsigned field of `bits` bits. -/
def fitsBits (bits : Nat) (n : Int) : Prop := 0 ≤ n ∧ n < (2 ^ bits : Nat)

/-- Messages that have a wire form. -/
def sendable : Message → Prop
  | .balanceRequest n => fitsBits 32 n
  | .balanceResponse ids => ids.length < 2 ^ 32
  | .heartbeat h =>
    fitsBits 16 h.agentCpu ∧ fitsBits 64 h.agentRss ∧ fitsBits 16 h.workerCpu ∧
    fitsBits 64 h.workerRss ∧ fitsBits 16 h.queuedTasks ∧ fitsBits 32 h.latencyUs
  | .graphTask g =>
    g.functions.items ≠ [] ∧ g.functions.items.length < 2 ^ 32 ∧ g.targets.length < 2 ^ 32 ∧
    ∀ t ∈ g.graph, 2 + 2 * t.args.length < 2 ^ 32
  | _ => True

/-- A graph without a function table: accepted by the decoder, refused by the encoder. -/
def emptyGraph : Message → Prop
  | .graphTask g => g.functions.items = []
  | _ => False

end Verif.Spec
