import Verif.Spec.Number
import Verif.Cluster.Options

/-!
# What a command line means

Said without `argparse`: a command line is a list of options with their values and plain words, in any order.
-/

namespace Verif.Spec.Command

open Verif.Util Verif.Cluster

abbrev Word := List Char

/-- One part of a command line. -/
inductive Part where
  | given (name value : Word)
  | plain (w : Word)
  deriving DecidableEq

/-- The parts as they are written. -/
def written : List Part → List Word
  | [] => []
  | .given n v :: ps => n :: v :: written ps
  | .plain w :: ps => w :: written ps

/-- The plain words of a command line. -/
def plains : List Part → List Word
  | [] => []
  | .given _ _ :: ps => plains ps
  | .plain w :: ps => w :: plains ps

/-- The word does not look like an option: a dash may only be the sign of a number. -/
def Bare (w : Word) : Prop := ∀ ds, w = '-' :: ds → ∀ c ∈ ds, 48 ≤ c.toNat ∧ c.toNat ≤ 57

/-- `v` is the last value given under one of the names. -/
def LastGiven (names : List Word) (ps : List Part) (v : Word) : Prop :=
  ∃ before n after, ps = before ++ .given n v :: after ∧ n ∈ names ∧ ∀ n' v', .given n' v' ∈ after → n' ∉ names

/-- No value is given under these names. -/
def NotGiven (names : List Word) (ps : List Part) : Prop := ∀ n v, .given n v ∈ ps → n ∉ names

/-- The number set by the option with these names. -/
def Number (names : List Word) (ps : List Part) (default n : Int) : Prop :=
  (∃ v, LastGiven names ps v ∧ Written v n) ∨ (NotGiven names ps ∧ n = default)

/-- The word set by the option with these names. -/
def Choice (names : List Word) (ps : List Part) (default w : Word) : Prop :=
  LastGiven names ps w ∨ (NotGiven names ps ∧ w = default)

/-- The word is the address. -/
def Denotes (s : Word) (c : ZmqConfig) : Prop :=
  (c.type ≠ .tcp ∧ c.port = none ∧ s = c.type.value ++ ':' :: '/' :: '/' :: c.host) ∨
  (c.type = .tcp ∧ ∃ ps i, Written ps i ∧ ':' ∉ ps ∧ ':' ∉ c.host ∧ c.port = some i ∧
    s = c.type.value ++ ':' :: '/' :: '/' :: (c.host ++ ':' :: ps))

/-- Every option is known and has a value of its kind: the `numbers` a number, the `loops` the name of an event loop. -/
def WellFormed (numbers loops : List Word) (ps : List Part) : Prop :=
  (∀ n v, .given n v ∈ ps → Bare v ∧
    ((n ∈ numbers ∧ ∃ i, Written v i) ∨ (n ∈ loops ∧ (v = "builtin".toList ∨ v = "uvloop".toList)))) ∧
  (∀ w, .plain w ∈ ps → Bare w)

/-- The user asks for help, and what comes before is right. -/
def AsksHelp (numbers loops : List Word) (address : Word → Prop) (toks : List Word) : Prop :=
  ∃ ps t rest, toks = written ps ++ t :: rest ∧ (t = "-h".toList ∨ t = "--help".toList) ∧ WellFormed numbers loops ps ∧
    (plains ps = [] ∨ ∃ w, plains ps = [w] ∧ address w)

/-- The event loop can be used. -/
def Usable (uvloop : Bool) (loop : Word) : Prop := loop = "builtin".toList ∨ (loop = "uvloop".toList ∧ uvloop = true)

/-- The options of `scaled_scheduler` that take a number. -/
def schedulerNumbers : List Word :=
  ["--io-threads".toList, "--max-number-of-tasks-waiting".toList, "-mt".toList, "--worker-timeout-seconds".toList, "-wt".toList,
   "--function-retention-seconds".toList, "-ft".toList, "--load-balance-seconds".toList, "-ls".toList,
   "--load-balance-trigger-times".toList, "-lbt".toList, "--per-worker-queue-size".toList, "-qs".toList]

/-- The options of `scaled_cluster` that take a number. -/
def clusterNumbers : List Word :=
  ["--num-of-workers".toList, "-n".toList, "--heartbeat-interval".toList, "-hi".toList, "--function-retention-seconds".toList,
   "-ft".toList, "--death-timeout-seconds".toList, "-dt".toList, "--garbage-collect-interval-seconds".toList, "-gc".toList,
   "--trim-memory-threshold-bytes".toList, "-tm".toList]

/-- The settings a command line of `scaled_scheduler` asks for. -/
structure SchedulerLine (uvloop : Bool) (ps : List Part) (s : SchedulerSettings) : Prop where
  form : WellFormed schedulerNumbers ["--event-loop".toList, "-e".toList] ps
  address : ∃ w, plains ps = [w] ∧ Denotes w s.address
  tcp : s.address.type = .tcp
  loop : ∃ l, Choice ["--event-loop".toList, "-e".toList] ps "builtin".toList l ∧ Usable uvloop l
  ioThreads : Number ["--io-threads".toList] ps 1 s.ioThreads
  maxWaiting : Number ["--max-number-of-tasks-waiting".toList, "-mt".toList] ps (-1) s.maxWaiting
  queueSize : Number ["--per-worker-queue-size".toList, "-qs".toList] ps 1000 s.queueSize
  workerTimeout : Number ["--worker-timeout-seconds".toList, "-wt".toList] ps 60 s.workerTimeout
  functionRetention : Number ["--function-retention-seconds".toList, "-ft".toList] ps 20 s.functionRetention
  balanceSeconds : Number ["--load-balance-seconds".toList, "-ls".toList] ps 1 s.balanceSeconds
  balanceTriggers : Number ["--load-balance-trigger-times".toList, "-lbt".toList] ps 2 s.balanceTriggers

/-- The settings a command line of `scaled_cluster` asks for, on a machine with `cpus` processors. -/
structure ClusterLine (uvloop : Bool) (cpus : Int) (ps : List Part) (s : ClusterSettings) : Prop where
  form : WellFormed clusterNumbers ["--event-loop".toList, "-el".toList] ps
  address : ∃ w, plains ps = [w] ∧ Denotes w s.address
  loop : Choice ["--event-loop".toList, "-el".toList] ps "builtin".toList s.eventLoop ∧ Usable uvloop s.eventLoop
  workers : Number ["--num-of-workers".toList, "-n".toList] ps (cpus - 1) s.workers
  heartbeatInterval : Number ["--heartbeat-interval".toList, "-hi".toList] ps 2 s.heartbeatInterval
  functionRetention : Number ["--function-retention-seconds".toList, "-ft".toList] ps 20 s.functionRetention
  deathTimeout : Number ["--death-timeout-seconds".toList, "-dt".toList] ps 10 s.deathTimeout
  gcInterval : Number ["--garbage-collect-interval-seconds".toList, "-gc".toList] ps 30 s.gcInterval
  trimThreshold : Number ["--trim-memory-threshold-bytes".toList, "-tm".toList] ps 1073741824 s.trimThreshold

/-- What a command line of `scaled_top` asks for: address and seconds. -/
structure TopLine (ps : List Part) (a : ZmqConfig) (seconds : Int) : Prop where
  form : WellFormed ["--timeout".toList] [] ps
  address : ∃ w, plains ps = [w] ∧ Denotes w a
  seconds : Number ["--timeout".toList] ps 5 seconds

end Verif.Spec.Command
