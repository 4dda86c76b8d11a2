import Verif.Spec.WireLayout

/-!
# Which frames can be read

The frames that a receiver can turn into a message, written out per tag.  Nothing here uses the decoding functions.
-/

namespace Verif.Spec

open Verif.Wire

/-- Each value once, in the order in which they first occur. -/
def firsts {α : Type} [DecidableEq α] : List α → List α
  | [] => []
  | x :: l => x :: (firsts l).filter fun y => y ≠ x

/-- Frame number `i` exists and is one of these words. -/
def WordAt (ps : List Bytes) (i : Nat) (words : List (List Char)) : Prop := ∃ b, ps[i]? = some b ∧ b ∈ words.map ascii

/-- Frame number `i` exists and has `k` bytes. -/
def SizedAt (ps : List Bytes) (i k : Nat) : Prop := ∃ b, ps[i]? = some b ∧ b.length = k

/-- The number in four bytes, least significant first. -/
def fourBytes : Bytes → Nat
  | [a, b, c, d] => a.toNat + 256 * b.toNat + 65536 * c.toNat + 16777216 * d.toNat
  | _ => 0

/-- Pairs of an argument kind and a value. -/
def Arguments : List Bytes → Prop
  | [] => True
  | [_] => False
  | k :: _ :: rest => (k = ascii ['D'] ∨ k = ascii ['T']) ∧ Arguments rest

/-- The frames of a task: id, function, arguments. -/
def TaskLike : List Bytes → Prop
  | _ :: _ :: rest => Arguments rest
  | _ => False

/-- The nodes of a graph: a number of frames, then that many frames of a task.  The last node may announce more
frames than there are. -/
inductive Nodes : List Bytes → Prop where
  | nil : Nodes []
  | cons {n : Bytes} {rest : List Bytes} : n.length = 4 → TaskLike (rest.take (fourBytes n)) →
      Nodes (rest.drop (fourBytes n)) → Nodes (n :: rest)

/-- The frames of a graph: id, number of functions, as many ids, names and contents, number of targets, as many
targets, nodes.  There may be fewer targets than announced if nothing follows. -/
def GraphLike (ps : List Bytes) : Prop :=
  ∃ n m, ps[1]? = some n ∧ n.length = 4 ∧ ps[2 + 3 * fourBytes n]? = some m ∧ m.length = 4 ∧
    Nodes (ps.drop (3 + 3 * fourBytes n + fourBytes m))

/-- The words for statuses. -/
def statuses : List (List Char) := [['I'], ['R'], ['X'], ['S'], ['F'], ['C'], ['N']]
def echoes : List (List Char) := [['S', 'K'], ['C', 'K'], ['C', 'F'], ['D', 'C'], ['N', 'W'], ['F', 'N']]

/-- The payloads that can be read under each tag. -/
def Readable (ty : MessageType) (ps : List Bytes) : Prop :=
  match ty with
  | .task => TaskLike ps
  | .taskEcho | .graphTaskEcho => WordAt ps 1 echoes
  | .taskCancel | .graphTaskCancel | .disconnectRequest | .disconnectResponse | .schedulerState => ps ≠ []
  | .taskResult => WordAt ps 1 statuses ∧ SizedAt ps 2 4 ∧ 4 ≤ ps.length
  | .graphTask => GraphLike ps
  | .graphTaskResult => WordAt ps 1 statuses
  | .balanceRequest => SizedAt ps 0 4
  | .balanceResponse => ∃ b, ps[0]? = some b ∧ b.length = 4 ∧ fourBytes b = ps.length - 1
  | .heartbeat => SizedAt ps 0 43
  | .heartbeatEcho | .workerTaskRequest => True
  | .functionRequest => WordAt ps 0 [['C'], ['A'], ['R'], ['D']] ∧ 4 ≤ ps.length
  | .functionResponse => WordAt ps 0 [['O', 'K'], ['N', 'E'], ['H', 'T'], ['D', 'C']] ∧ 4 ≤ ps.length
  | .taskState => WordAt ps 2 statuses
  | .graphTaskState => WordAt ps 2 [['N'], ['T']]
  | .graphTaskCancelEcho => False

/-- The tags. -/
def tagWord : MessageType → List Char
  | .task => ['T', 'K'] | .taskEcho => ['T', 'E'] | .taskCancel => ['T', 'C'] | .taskResult => ['T', 'R']
  | .graphTask => ['G', 'T'] | .graphTaskEcho => ['G', 'E'] | .graphTaskCancel => ['G', 'C'] | .graphTaskCancelEcho => ['G', 'X']
  | .graphTaskResult => ['G', 'R'] | .balanceRequest => ['B', 'Q'] | .balanceResponse => ['B', 'R']
  | .heartbeat => ['H', 'B'] | .heartbeatEcho => ['H', 'E'] | .functionRequest => ['F', 'R']
  | .functionResponse => ['F', 'A'] | .disconnectRequest => ['D', 'R'] | .disconnectResponse => ['D', 'P']
  | .workerTaskRequest => ['P', 'I'] | .schedulerState => ['S', 'S'] | .taskState => ['T', 'S']
  | .graphTaskState => ['G', 'S']

/-- A number, lowest byte first. -/
def number : Bytes → Nat
  | [] => 0
  | x :: l => x.toNat + 256 * number l

/-- The bytes from `i` to `j`. -/
def slice (b : Bytes) (i j : Nat) : Bytes := (b.take j).drop i

end Verif.Spec
