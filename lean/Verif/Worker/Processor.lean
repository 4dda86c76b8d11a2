import Verif.Wire.Message

/-!
# `scaled/worker/agent/processor/processor.py` and `cache_cleaner.py`

The processor is a process with two threads that share the function cache: the main thread handles one message
after the other, the cache cleaner wakes up from time to time and evicts functions.  Operations on one `dict`
are atomic (the interpreter lock); everything between two of them can be interleaved, so a state records where
each thread stands.

Simplifications.
* The cleaner's list comprehension (cache_cleaner.py 56-60) is one step.  In CPython another thread may change
  the dictionary meanwhile, which can end the cleaner thread with `RuntimeError`; then nothing is evicted any more.
  Worker/Scan.lean takes the comprehension apart, Props/Scan.lean (C103) says when it is as good as one step.
* Garbage collection and `malloc_trim` (cache_cleaner.py 64-75) do not touch the cache and are left out.
* What user code does is a parameter (`Runtime`); functions that never return are left out.  An exception that is
  not an `Exception` (such as `SystemExit`) is not caught at processor.py 129 and ends the main thread without an
  answer, like an exception whose pickling raises; `dumpExc` gives `none` for both.  A `KeyboardInterrupt` from
  outside (processor.py 79) would do the same at any time.
* `deserialize_function` does not return `None`.
* The clock is a parameter of each step.
-/

namespace Verif.Proc

open Verif.Wire

/-- What pickle and the user's functions do: `F` functions, `V` values, `X` exceptions.  A call depends on a
number `c` that stands for everything outside (clock, files, random numbers) (scaled/worker/agent/processor/processor.py 105, 118-138; `Serializer`, scaled/protocol/python/serializer/default.py 11-33). -/
structure Runtime (F V X : Type) where
  /-- `Serializer.deserialize_function` -/
  loadFn : Bytes → Except X F
  /-- `Serializer.deserialize_argument` -/
  loadArg : Bytes → Except X V
  /-- `function(*args)` -/
  call : F → List V → Nat → Except X V
  /-- `Serializer.serialize_result` -/
  dump : V → Except X Bytes
  /-- `pickle.dumps(e)`; `none` if that raises or `e` is not an `Exception` -/
  dumpExc : X → Option Bytes
  /-- the `TypeError` of `None(*args)` -/
  notCallable : X

/-- Where the main thread stands (scaled/worker/agent/processor/processor.py 82-138). -/
inductive Main (F : Type) where
  /-- waits for a message (sync_connector.py 77-80) -/
  | idle
  /-- in `get_function` called from processor.py 111: before cache_cleaner.py 51 -/
  | stamp (k : Task)
  /-- processor.py 118-120: before cache_cleaner.py 47 -/
  | fetch (k : Task)
  /-- in `get_function` called from processor.py 121: before cache_cleaner.py 51 -/
  | stamp2 (k : Task) (f : F)
  /-- before processor.py 122; `none` if the cache had no function -/
  | call (k : Task) (f : Option F)
  /-- in `add_function`: before cache_cleaner.py 40 -/
  | added (fid : Bytes)
  /-- in `del_function` called from processor.py 99: before cache_cleaner.py 44 -/
  | del2 (fid : Bytes)
  deriving DecidableEq

/-- Where the cleaner stands (scaled/worker/agent/processor/cache_cleaner.py 32-62). -/
inductive Cleaner where
  /-- sleeps or collects garbage (cache_cleaner.py 35-36) -/
  | asleep
  /-- before the next round of the loop cache_cleaner.py 61-62 -/
  | evicting (ids : List Bytes)
  /-- in `del_function`: before cache_cleaner.py 44 -/
  | evict2 (fid : Bytes) (ids : List Bytes)
  deriving DecidableEq

/-- What happened (no Python counterpart; what scaled/worker/agent/processor/processor.py 75-138 does). -/
inductive Act where
  /-- a message was received -/
  | recv (m : Message)
  /-- a message was sent -/
  | sent (m : Message)
  /-- a cached function was read (cache_cleaner.py 47) -/
  | used (fid : Bytes)
  /-- the time of use was written down (cache_cleaner.py 40 and 51) -/
  | stamped (fid : Bytes)
  /-- the cleaner looked for idle functions (cache_cleaner.py 55-60) -/
  | scan
  /-- the cleaner removed a function (cache_cleaner.py 44) -/
  | evicted (fid : Bytes)
  deriving DecidableEq

/-- The processor (processor.py 24-48, cache_cleaner.py 17-30). -/
structure Proc (F : Type) where
  /-- `CacheCleaner._cached_functions` -/
  functions : Dict Bytes F
  /-- `CacheCleaner._cached_functions_alive_since` -/
  alive : Dict Bytes Int
  /-- `CacheCleaner._function_retention_seconds` -/
  retention : Int
  /-- `Processor._current_task` -/
  task : Option Task
  main : Main F
  cleaner : Cleaner
  /-- history with clock readings, oldest first -/
  log : List (Int × Act)

variable {F V X : Type}

namespace Proc

/-- `self._cached_functions_alive_since[function_id] = time.time()` (cache_cleaner.py 40 and 51) -/
def stamp (p : Proc F) (now : Int) (fid : Bytes) : Proc F :=
  { p with alive := p.alive.set fid now, log := p.log ++ [(now, .stamped fid)] }

/-- records an action (no Python counterpart) -/
def note (p : Proc F) (now : Int) (x : Act) : Proc F := { p with log := p.log ++ [(now, x)] }

/-- `Processor.SENTINEL` (processor.py 25) -/
def sentinel : Message := .taskResult [] .success 0 []

/-- processor.py 50-77: the fresh processor announces itself. -/
def init (retention start : Int) : Proc F :=
  { functions := .empty, alive := .empty, retention := retention, task := none, main := .idle, cleaner := .asleep,
    log := [(start, .sent sentinel)] }

/-- cache_cleaner.py 47-49 in `__on_received_task` (processor.py 110-116): a hit continues with `stamp`, a miss
asks for the function and keeps the task. -/
def onTask (p : Proc F) (now : Int) (k : Task) : Proc F :=
  match p.functions.get? k.functionId with
  | some _ => { (p.note now (.used k.functionId)) with main := .stamp k }
  | none => { (p.note now (.sent (.functionRequest .request k.functionId [] []))) with task := some k }

/-- `__on_receive_function_response` up to cache_cleaner.py 39 (processor.py 104-105).  Nothing catches an
exception of `deserialize_function`: it ends the process. -/
def onFunctionResponse (rt : Runtime F V X) (p : Proc F) (fid content : Bytes) : Except X (Proc F) :=
  match rt.loadFn content with
  | .ok f => .ok { p with functions := p.functions.set fid f, main := .added fid }
  | .error x => .error x

/-- `__on_receive_function_request` up to cache_cleaner.py 43 (processor.py 97-102). -/
def onFunctionRequest (p : Proc F) (ty : FunctionRequestType) (fid : Bytes) : Proc F :=
  if ty = .delete then { p with alive := p.alive.erase fid, main := .del2 fid } else p

/-- why the process ended (scaled/worker/agent/processor/processor.py 75-80 and 118-138) -/
inductive Died (X : Type) where
  /-- an exception of the runtime that nothing catches -/
  | uncaught (x : X)
  /-- `pickle.dumps(e)` raised in the handler (processor.py 137), or `e` is not an `Exception` (129) -/
  | unpicklable (x : X)
  /-- `task` is `None` in the handler (processor.py 130) -/
  | noTask
  deriving DecidableEq

/-- `__on_connector_receive` (processor.py 82-95); other messages are only logged. -/
def receive (rt : Runtime F V X) (p : Proc F) (now : Int) (m : Message) : Except (Died X) (Proc F) :=
  let p := p.note now (.recv m)
  match m with
  | .functionRequest ty fid _ _ => .ok (p.onFunctionRequest ty fid)
  | .task k => .ok (p.onTask now k)
  | .functionResponse _ fid _ c =>
    match onFunctionResponse rt p fid c with
    | .ok q => .ok q
    | .error x => .error (.uncaught x)
  | _ => .ok p

/-- processor.py 122-124: arguments in order, call, result to bytes. -/
def evaluate (rt : Runtime F V X) (k : Task) (f : Option F) (c : Nat) : Except X Bytes := do
  let args ← k.args.mapM fun a => rt.loadArg a.data
  match f with
  | none => throw rt.notCallable
  | some f => rt.dump (← rt.call f args c)

/-- processor.py 122-138 -/
def answer (rt : Runtime F V X) (p : Proc F) (now : Int) (k : Task) (f : Option F) (c : Nat) (dur : UInt32) :
    Except (Died X) (Proc F) :=
  match evaluate rt k f c with
  | .ok r => .ok { (p.note now (.sent (.taskResult k.taskId .success dur r))) with main := .idle }
  | .error x =>
    match rt.dumpExc x with
    | some r => .ok { (p.note now (.sent (.taskResult k.taskId .failed dur r))) with main := .idle }
    | none => .error (.unpicklable x)

/-- One step of the main thread while it handles a message (scaled/worker/agent/processor/processor.py 97-138). -/
def work (rt : Runtime F V X) (p : Proc F) (now : Int) (c : Nat) (dur : UInt32) : Except (Died X) (Proc F) :=
  match p.main with
  | .idle => .ok p
  -- cache_cleaner.py 51-52, processor.py 111-112
  | .stamp k => .ok { (p.stamp now k.functionId) with main := .fetch k }
  -- cache_cleaner.py 47-49
  | .fetch k =>
    match p.functions.get? k.functionId with
    | some f => .ok { (p.note now (.used k.functionId)) with main := .stamp2 k f }
    | none => .ok { p with main := .call k none }
  -- cache_cleaner.py 51-52
  | .stamp2 k f => .ok { (p.stamp now k.functionId) with main := .call k (some f) }
  | .call k f => answer rt p now k f c dur
  -- cache_cleaner.py 40, processor.py 106-108; without a task, processor.py 121 raises and so does the handler
  | .added fid =>
    match p.task with
    | some k => .ok { (p.stamp now fid) with task := none, main := .fetch k }
    | none => .error .noTask
  -- cache_cleaner.py 44
  | .del2 fid => .ok { p with functions := p.functions.erase fid, main := .idle }

/-- `__clean_function` up to line 60: the functions whose stamp is too old (scaled/worker/agent/processor/cache_cleaner.py 54-60). -/
def idleFunctions (p : Proc F) (now : Int) : List Bytes :=
  (p.alive.items.filter fun x => decide (now - x.2 > p.retention)).map (·.1)

/-- One step of the cleaner (cache_cleaner.py 32-36, 54-62, 42-44). -/
def clean (p : Proc F) (now : Int) : Proc F :=
  match p.cleaner with
  | .asleep => { (p.note now .scan) with cleaner := .evicting (p.idleFunctions now) }
  | .evicting [] => { p with cleaner := .asleep }
  | .evicting (fid :: ids) => { p with alive := p.alive.erase fid, cleaner := .evict2 fid ids }
  | .evict2 fid ids =>
    let q := if p.functions.has fid then p.note now (.evicted fid) else p
    { q with functions := p.functions.erase fid, cleaner := .evicting ids }

end Proc

/-- What can happen (scaled/worker/agent/processor/processor.py 82-138, cache_cleaner.py 32-62). -/
inductive Op where
  /-- a message is there; it is only taken when the main thread waits for one -/
  | recv (m : Message)
  /-- the main thread goes on, with outside influence `c` on the user's function and the measured duration -/
  | work (c : Nat) (dur : UInt32)
  /-- the cleaner goes on -/
  | clean
  deriving DecidableEq

/-- Something happens at a time (scaled/worker/agent/processor/processor.py 82-138, cache_cleaner.py 32-62). -/
structure Event where
  op : Op
  now : Int
  deriving DecidableEq

namespace Proc

/-- One event (scaled/worker/agent/processor/processor.py 82-138, cache_cleaner.py 32-62). -/
def step (rt : Runtime F V X) (p : Proc F) (e : Event) : Except (Died X) (Proc F) :=
  match e.op with
  | .recv m =>
    match p.main with
    | .idle => receive rt p e.now m
    | _ => .ok p
  | .work c dur => work rt p e.now c dur
  | .clean => .ok (p.clean e.now)

/-- Events one after the other (scaled/worker/agent/processor/processor.py 75-80). -/
def run (rt : Runtime F V X) : Proc F → List Event → Except (Died X) (Proc F)
  | p, [] => .ok p
  | p, e :: es => do run rt (← step rt p e) es

end Proc

/-- The states a processor can be in (scaled/worker/agent/processor/processor.py 24-138). -/
inductive Reach (rt : Runtime F V X) (retention start : Int) : Proc F → Prop where
  | init : Reach rt retention start (Proc.init retention start)
  | step {p p' : Proc F} (e : Event) : Reach rt retention start p → p.step rt e = .ok p' → Reach rt retention start p'

end Verif.Proc
