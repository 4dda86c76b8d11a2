import Verif.Wire.Message

/-!
# Specification of the bytes on the wire

The frames of every message, written out; nothing here uses the serialisation functions,
the `struct` model or the tag tables of the model.
-/

namespace Verif.Spec

open Verif.Wire

/-- The bytes of ASCII characters. -/
def ascii (s : List Char) : Bytes := s.map fun c => UInt8.ofNat c.toNat

/-- Byte number `i` of a number, counting from the least significant one. -/
def byteOf (n : Int) (i : Nat) : UInt8 := UInt8.ofNat (n.toNat / 256 ^ i % 256)

/-- An unsigned number in `k` bytes, least significant first. -/
def little (k : Nat) (n : Int) : Bytes := (List.range k).map (byteOf n)

/-- A truth value in one byte. -/
def flag (b : Bool) : Bytes := [if b then 1 else 0]

/-- Unused bytes that align the next field. -/
def gap (k : Nat) : Bytes := List.replicate k 0

def taskStatusText : TaskStatus → List Char
  | .inactive => ['I'] | .running => ['R'] | .canceling => ['X'] | .success => ['S']
  | .failed => ['F'] | .canceled => ['C'] | .notFound => ['N']

def echoStatusText : TaskEchoStatus → List Char
  | .submitOK => ['S', 'K'] | .cancelOK => ['C', 'K'] | .cancelFailed => ['C', 'F']
  | .duplicated => ['D', 'C'] | .noWorker => ['N', 'W'] | .functionNotExists => ['F', 'N']

def nodeTypeText : NodeTaskType → List Char
  | .normal => ['N'] | .target => ['T']

def functionRequestText : FunctionRequestType → List Char
  | .check => ['C'] | .add => ['A'] | .request => ['R'] | .delete => ['D']

def functionResponseText : FunctionResponseType → List Char
  | .ok => ['O', 'K'] | .notExists => ['N', 'E'] | .stillHaveTask => ['H', 'T'] | .duplicated => ['D', 'C']

def argumentText : ArgumentType → List Char
  | .data => ['D'] | .task => ['T']

/-- The tag of a message. -/
def tagText : Message → List Char
  | .task _ => ['T', 'K'] | .taskEcho .. => ['T', 'E'] | .taskCancel _ => ['T', 'C'] | .taskResult .. => ['T', 'R']
  | .graphTask _ => ['G', 'T'] | .graphTaskEcho .. => ['G', 'E'] | .graphTaskCancel _ => ['G', 'C']
  | .graphTaskResult .. => ['G', 'R'] | .balanceRequest _ => ['B', 'Q'] | .balanceResponse _ => ['B', 'R']
  | .heartbeat _ => ['H', 'B'] | .heartbeatEcho => ['H', 'E'] | .functionRequest .. => ['F', 'R']
  | .functionResponse .. => ['F', 'A'] | .disconnectRequest _ => ['D', 'R'] | .disconnectResponse _ => ['D', 'P']
  | .workerTaskRequest => ['P', 'I'] | .schedulerState _ => ['S', 'S'] | .taskState .. => ['T', 'S']
  | .graphTaskState .. => ['G', 'S']

/-- The frames of a task: id, function, then a kind and a value per argument. -/
def taskFrames (t : Task) : List Bytes :=
  [t.taskId, t.functionId] ++ t.args.flatMap fun a => [ascii (argumentText a.type), a.data]

/-- The frames after the tag. -/
def payload : Message → List Bytes
  | .task t => taskFrames t
  | .taskEcho i s => [i, ascii (echoStatusText s)]
  | .taskCancel i => [i]
  | .taskResult i s d r => [i, ascii (taskStatusText s), little 4 d.toNat, r]
  | .graphTask g =>
    [g.taskId, little 4 g.functions.items.length] ++ g.functions.items.map (·.1) ++
    g.functions.items.map (·.2.1) ++ g.functions.items.map (·.2.2) ++
    [little 4 g.targets.length] ++ g.targets ++
    g.graph.flatMap fun t => little 4 (2 + 2 * t.args.length) :: taskFrames t
  | .graphTaskEcho i s => [i, ascii (echoStatusText s)]
  | .graphTaskCancel i => [i]
  | .graphTaskResult i s rs => [i, ascii (taskStatusText s)] ++ rs
  | .balanceRequest n => [little 4 n]
  | .balanceResponse ids => little 4 ids.length :: ids
  | .heartbeat h =>
    [little 2 h.agentCpu ++ gap 6 ++ little 8 h.agentRss ++ little 2 h.workerCpu ++ gap 6 ++
     little 8 h.workerRss ++ little 2 h.queuedTasks ++ gap 2 ++ little 4 h.latencyUs ++
     flag h.initialized ++ flag h.hasTask ++ flag h.taskLock]
  | .heartbeatEcho => [[]]
  | .functionRequest t i n c => [ascii (functionRequestText t), i, n, c]
  | .functionResponse s i n c => [ascii (functionResponseText s), i, n, c]
  | .disconnectRequest w => [w]
  | .disconnectResponse w => [w]
  | .workerTaskRequest => [[]]
  | .schedulerState d => [d]
  | .taskState i n s => [i, n, ascii (taskStatusText s)]
  | .graphTaskState g i t ps => [g, i, ascii (nodeTypeText t)] ++ ps.items

/-- All frames of a message. -/
def wireFrames (m : Message) : List Bytes := ascii (tagText m) :: payload m

end Verif.Spec
