import Verif.Cluster.Argparse
import Verif.Sched.State

/-!
# How the commands are started

`scaled/entry_points/{scheduler,cluster,top}.py`, `scaled/cluster/{scheduler,combo}.py`, the constructors of
`scaled/cluster/cluster.py` and `scaled/scheduler/main.py`, `register_event_loop` of `scaled/utility/event_loop.py` and
the defaults of `scaled/io/config.py`: which setting ends up where.

Simplifications:
* Serializers, log output and sockets are left out; so are the `--help` texts.
* Whether `uvloop` is installed is a parameter.
* Times stay in seconds.
-/

namespace Verif.Cluster

open Verif.Util Verif.Sched

/-- `EventLoopType.allowed_types()`, event_loop.py 9-15 -/
def loopTypes : List Tok := [['b', 'u', 'i', 'l', 't', 'i', 'n'], ['u', 'v', 'l', 'o', 'o', 'p']]

/-- `register_event_loop`, event_loop.py 18-31; `uvloop`: it is installed -/
def registerEventLoop (uvloop : Bool) (name : Tok) : Except Stop Unit :=
  if name ∉ loopTypes then .error (.raised .typeError)
  else if name = ['u', 'v', 'l', 'o', 'o', 'p'] ∧ uvloop = false then .error .importError
  else .ok ()

/-- The arguments of `Scheduler`, main.py 33-43. -/
structure SchedulerSettings where
  address : ZmqConfig
  ioThreads : Int
  maxWaiting : Int
  queueSize : Int
  workerTimeout : Int
  functionRetention : Int
  balanceSeconds : Int
  balanceTriggers : Int
  deriving DecidableEq

/-- The arguments of `Cluster`, cluster.py 15-26. -/
structure ClusterSettings where
  address : ZmqConfig
  workers : Int
  heartbeatInterval : Int
  functionRetention : Int
  deathTimeout : Int
  gcInterval : Int
  trimThreshold : Int
  eventLoop : Tok
  deriving DecidableEq

/-- The arguments of `Worker`, worker.py 32-42. -/
structure WorkerSettings where
  eventLoop : Tok
  address : ZmqConfig
  heartbeatInterval : Int
  gcInterval : Int
  trimThreshold : Int
  functionRetention : Int
  deathTimeout : Int
  deriving DecidableEq

/-! ### config.py -/

/-- config.py 14 -/
def defaultIoThreads : Int := 1
/-- config.py 18 -/
def defaultMaxWaiting : Int := -1
/-- config.py 22 -/
def defaultWorkerTimeout : Int := 60
/-- config.py 28 -/
def defaultBalanceSeconds : Int := 1
/-- config.py 32 -/
def defaultBalanceTriggers : Int := 2
/-- config.py 35 -/
def defaultQueueSize : Int := 1000
/-- config.py 40 -/
def defaultFunctionRetention : Int := 20
/-- config.py 46, `os.cpu_count() - 1` -/
def defaultWorkers (cpus : Int) : Int := cpus - 1
/-- config.py 49 -/
def defaultHeartbeatInterval : Int := 2
/-- config.py 52 -/
def defaultDeathTimeout : Int := 10
/-- config.py 55 -/
def defaultGcInterval : Int := 30
/-- config.py 58 -/
def defaultTrimThreshold : Int := 1024 * 1024 * 1024
/-- config.py 62 -/
def defaultWorkerFunctionRetention : Int := 20

/-! ### scaled_scheduler -/

/-- The options of `scaled_scheduler`, entry_points/scheduler.py 22-67. -/
def schedulerOptions : List Arg := [
  ⟨["--io-threads".toList], .int, some (.int defaultIoThreads)⟩,
  ⟨["--max-number-of-tasks-waiting".toList, "-mt".toList], .int, some (.int defaultMaxWaiting)⟩,
  ⟨["--worker-timeout-seconds".toList, "-wt".toList], .int, some (.int defaultWorkerTimeout)⟩,
  ⟨["--function-retention-seconds".toList, "-ft".toList], .int, some (.int defaultFunctionRetention)⟩,
  ⟨["--load-balance-seconds".toList, "-ls".toList], .int, some (.int defaultBalanceSeconds)⟩,
  ⟨["--load-balance-trigger-times".toList, "-lbt".toList], .int, some (.int defaultBalanceTriggers)⟩,
  ⟨["--per-worker-queue-size".toList, "-qs".toList], .int, some (.int defaultQueueSize)⟩,
  ⟨["--event-loop".toList, "-e".toList], .choice loopTypes, some (.text "builtin".toList)⟩]

/-- The address, entry_points/scheduler.py 68 and entry_points/cluster.py 61. -/
def addressArg : Arg := ⟨["address".toList], .address, none⟩

/-- The check at the start of `Scheduler`, main.py 44-45. -/
def newScheduler (s : SchedulerSettings) : Except Stop SchedulerSettings :=
  if s.address.type ≠ .tcp then .error (.raised .typeError) else .ok s

/-- The address of the monitor, main.py 47. -/
def monitorAddress (a : ZmqConfig) : Tok :=
  ZmqConfig.toAddress ⟨.ipc, "/tmp/".toList ++ a.host ++ '_' :: showPort a.port ++ "_monitor".toList, none⟩

/-- `main`, entry_points/scheduler.py 73-92, up to the start of the loops -/
def schedulerCommand (uvloop : Bool) (toks : List Tok) : Except Stop SchedulerSettings := do
  let args ← parseArgs schedulerOptions addressArg toks
  registerEventLoop uvloop (← readText args "event_loop".toList)
  newScheduler {
    address := ← readAddress args "address".toList
    ioThreads := ← readInt args "io_threads".toList
    maxWaiting := ← readInt args "max_number_of_tasks_waiting".toList
    queueSize := ← readInt args "per_worker_queue_size".toList
    workerTimeout := ← readInt args "worker_timeout_seconds".toList
    functionRetention := ← readInt args "function_retention_seconds".toList
    balanceSeconds := ← readInt args "load_balance_seconds".toList
    balanceTriggers := ← readInt args "load_balance_trigger_times".toList }

/-- What the managers get, main.py 59-68, as the settings of `Sched/State`. -/
def SchedulerSettings.config (s : SchedulerSettings) : Config where
  maxWaiting := s.maxWaiting
  queueSize := s.queueSize
  workerTimeout := s.workerTimeout
  functionRetention := s.functionRetention
  balanceSeconds := s.balanceSeconds
  balanceTriggers := s.balanceTriggers

/-! ### scaled_cluster -/

/-- The options of `scaled_cluster`, entry_points/cluster.py 20-60. -/
def clusterOptions (cpus : Int) : List Arg := [
  ⟨["--num-of-workers".toList, "-n".toList], .int, some (.int (defaultWorkers cpus))⟩,
  ⟨["--heartbeat-interval".toList, "-hi".toList], .int, some (.int defaultHeartbeatInterval)⟩,
  ⟨["--function-retention-seconds".toList, "-ft".toList], .int, some (.int defaultWorkerFunctionRetention)⟩,
  ⟨["--death-timeout-seconds".toList, "-dt".toList], .int, some (.int defaultDeathTimeout)⟩,
  ⟨["--garbage-collect-interval-seconds".toList, "-gc".toList], .int, some (.int defaultGcInterval)⟩,
  ⟨["--trim-memory-threshold-bytes".toList, "-tm".toList], .int, some (.int defaultTrimThreshold)⟩,
  ⟨["--event-loop".toList, "-el".toList], .choice loopTypes, some (.text "builtin".toList)⟩]

/-- `main`, entry_points/cluster.py 65-80 -/
def clusterCommand (uvloop : Bool) (cpus : Int) (toks : List Tok) : Except Stop ClusterSettings := do
  let args ← parseArgs (clusterOptions cpus) addressArg toks
  registerEventLoop uvloop (← readText args "event_loop".toList)
  return {
    address := ← readAddress args "address".toList
    workers := ← readInt args "num_of_workers".toList
    heartbeatInterval := ← readInt args "heartbeat_interval".toList
    functionRetention := ← readInt args "function_retention_seconds".toList
    deathTimeout := ← readInt args "death_timeout_seconds".toList
    gcInterval := ← readInt args "garbage_collect_interval_seconds".toList
    trimThreshold := ← readInt args "trim_memory_threshold_bytes".toList
    eventLoop := ← readText args "event_loop".toList }

/-- The workers of a cluster, cluster.py 62-74; `range` of a negative number is empty. -/
def ClusterSettings.newWorkers (c : ClusterSettings) : List WorkerSettings :=
  List.replicate c.workers.toNat {
    eventLoop := c.eventLoop
    address := c.address
    heartbeatInterval := c.heartbeatInterval
    gcInterval := c.gcInterval
    trimThreshold := c.trimThreshold
    functionRetention := c.functionRetention
    deathTimeout := c.deathTimeout }

/-! ### scaled_top -/

/-- The option of `scaled_top`, entry_points/top.py 39-40. -/
def topOptions : List Arg := [⟨["--timeout".toList], .int, some (.int 5)⟩]

/-- `ZMQConfig.from_string` outside of the parser (scaled/entry_points/top.py 56, scaled/utility/zmq_config.py 49-68). -/
def addressOf (s : Tok) : Except Stop ZmqConfig :=
  match ZmqConfig.fromString s with
  | .ok a => .ok a
  | .error e => .error (.raised e)

/-- `poke`, entry_points/top.py 48-58: the address and the timeout in seconds -/
def topCommand (toks : List Tok) : Except Stop (ZmqConfig × Int) := do
  let args ← parseArgs topOptions ⟨["address".toList], .text, none⟩ toks
  let address ← addressOf (← readText args "address".toList)
  return (address, ← readInt args "timeout".toList)

/-! ### The combination -/

/-- The arguments of `SchedulerClusterCombo`, combo.py 21-39. -/
structure ComboSettings where
  address : Tok
  workers : Int
  ioThreads : Int
  maxWaiting : Int
  heartbeatInterval : Int
  eventLoop : Tok
  workerTimeout : Int
  functionRetention : Int
  deathTimeout : Int
  balanceSeconds : Int
  balanceTriggers : Int
  gcInterval : Int
  trimThreshold : Int
  queueSize : Int

/-- The defaults of combo.py 24-37. -/
def ComboSettings.make (address : Tok) (workers : Int) : ComboSettings where
  address := address
  workers := workers
  ioThreads := defaultIoThreads
  maxWaiting := defaultMaxWaiting
  heartbeatInterval := defaultHeartbeatInterval
  eventLoop := "builtin".toList
  workerTimeout := defaultWorkerTimeout
  functionRetention := defaultFunctionRetention
  deathTimeout := defaultDeathTimeout
  balanceSeconds := defaultBalanceSeconds
  balanceTriggers := defaultBalanceTriggers
  gcInterval := defaultGcInterval
  trimThreshold := defaultTrimThreshold
  queueSize := defaultQueueSize

/-- `SchedulerProcess`, cluster/scheduler.py 16-41: the settings and the event loop -/
structure SchedulerProcess where
  settings : SchedulerSettings
  eventLoop : Tok

/-- `SchedulerClusterCombo.__init__`, combo.py 40-60: the scheduler is made without `event_loop`, so it gets the default of
cluster/scheduler.py 26. -/
def newCombo (c : ComboSettings) : Except Stop (ClusterSettings × SchedulerProcess) := do
  let address ← addressOf c.address
  return (
    { address, workers := c.workers, heartbeatInterval := c.heartbeatInterval, functionRetention := c.functionRetention,
      deathTimeout := c.deathTimeout, gcInterval := c.gcInterval, trimThreshold := c.trimThreshold, eventLoop := c.eventLoop },
    { settings := { address, ioThreads := c.ioThreads, maxWaiting := c.maxWaiting, queueSize := c.queueSize,
                    workerTimeout := c.workerTimeout, functionRetention := c.functionRetention,
                    balanceSeconds := c.balanceSeconds, balanceTriggers := c.balanceTriggers },
      eventLoop := "builtin".toList })

/-- `register_event_loop` in `Worker.__initialize`, worker.py 70 -/
def WorkerSettings.begin (uvloop : Bool) (w : WorkerSettings) : Except Stop Unit := registerEventLoop uvloop w.eventLoop

/-- `SchedulerProcess.run`, cluster/scheduler.py 43-63, up to the start of the loops -/
def SchedulerProcess.run (uvloop : Bool) (p : SchedulerProcess) : Except Stop SchedulerSettings := do
  registerEventLoop uvloop p.eventLoop
  newScheduler p.settings

end Verif.Cluster
