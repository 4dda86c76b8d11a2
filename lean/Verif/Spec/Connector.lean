import Verif.Wire.Connector
import Verif.Spec.WireLayout
import Verif.Spec.Readable

/-!
# What a connector passes on
-/

namespace Verif.Spec

open Verif.Wire

/-- What is heard of the multipart messages that arrive: those that are no messages are left out. -/
inductive Hears : List (List Bytes) → List Message → Prop
  | nil : Hears [] []
  | noise {fss ms} (fs) : fs.length < 2 ∨ (∀ ty, fs[0]? ≠ some (ascii (tagWord ty))) → Hears fss ms → Hears (fs :: fss) ms
  | message {fss ms} (fs m) : decode fs = .ok (some m) → Hears fss ms → Hears (fs :: fss) (m :: ms)

/-- How many messages carry the tag. -/
def ofType (ty : MessageType) (ms : List Message) : Nat := ms.countP fun m => tagText m == tagWord ty

/-- A statistic: the numbers of messages by type, in the order in which the types first occurred; a type that did not
occur is not listed. -/
def Tallied (d : Dict MessageType Nat) (ms : List Message) : Prop :=
  (∀ ty, d.get? ty = if ofType ty ms = 0 then none else some (ofType ty ms)) ∧ d.keys = firsts (ms.map (·.type))

/-- Each message is given to the callback, one after the other. -/
def Calls {σ : Type} (f : σ → Message → Py σ) : σ → List Message → σ → Prop
  | s, [], s' => s' = s
  | s, m :: ms, s' => ∃ s1, f s m = .ok s1 ∧ Calls f s1 ms s'

/-- The exit callback is called, if there is one. -/
def Exits {σ : Type} (g : Option (σ → Py σ)) (s s' : σ) : Prop :=
  match g with
  | none => s' = s
  | some g => g s = .ok s'

/-- `w` consists of `a` and `b`, both in their order. -/
inductive Shuffle {α : Type} : List α → List α → List α → Prop
  | nil : Shuffle [] [] []
  | left {a b w} (x) : Shuffle a b w → Shuffle (a ++ [x]) b (w ++ [x])
  | right {a b w} (x) : Shuffle a b w → Shuffle a (b ++ [x]) (w ++ [x])

/-- The messages handed over with `send`. -/
def handed (ops : List SyncConn.Op) : List Message := ops.filterMap fun | .send m => some m | _ => none

/-- The messages sent with `send_immediately`. -/
def direct (ops : List SyncConn.Op) : List Message := ops.filterMap fun | .now m => some m | _ => none

/-- The multipart messages that arrived. -/
def arrived (ops : List SyncConn.Op) : List (List Bytes) := ops.filterMap fun | .arrive fs => some fs | _ => none

end Verif.Spec
