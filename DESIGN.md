# Design

Target: `/repo` (scaled-distributed/scaled, pinned). The Lean project in `lean/`
contains a function-by-function model of the Python code, small independent
specifications, and theorems. Nothing in `/repo` was executed or changed.

## 1. How the code is modelled

* Python values that the code only moves around (ids, payloads, cloudpickle
  blobs) are byte strings `Bytes = List UInt8`. Serialised user functions and
  arguments are opaque; the *evaluator* (what running a function on arguments
  yields) is a parameter of the theorems, never an assumption about pickle.
* An exception is a value: `Py a = Except PyErr a`. An uncaught exception in the
  scheduler or in a worker agent ends that process (`asyncio.gather` propagates,
  only `CancelledError`/`TimeoutError` are caught), so `step s op = .error e` is
  "the process dies".
* `dict` = insertion-ordered association list, `set` = duplicate-free list. Where
  the code iterates over a `set`, the order is an input of the step (oracle), so
  theorems hold for every order.
* Linked lists and the heap are modelled at object level: nodes/entries live in a
  store, and aliasing between two containers is visible (this is where finding
  C08 comes from).
* Time is an input of every step that reads the clock.
* The scheduler is a transition system `step : Sched -> Op -> Py Sched`;
  operations are "message received from peer" and "one turn of a routine". Sent
  messages are appended to an output log. All interleavings of handlers and
  routines are covered, at the granularity of asyncio suspension points (see 3).
* Worker agent, processor, client and the composed system are transition systems
  in the same style.

Proof shapes: round-trips (wire, addresses), refinement (linked queue to FIFO
list, heap to priority map), invariants by induction over all histories
(scheduler, worker, client, system), decision tables (admission, balance,
liveness). No bounded checking; `decide` is used only for concrete witnesses of
properties the code violates and for the non-vacuity `example`s.

## 2. Properties

"P" = planned to be proved as stated; "N" = the code violates it: the negation is
proved with a concrete witness and the strongest true part is proved as
`*_partial`. The outcome per property is in `MANIFEST.json`.

| id | what is modelled | how |
|----|------------------|-----|
| C01-C03 | every `serialize`/`deserialize` of `message.py`, `struct` formats incl. native alignment | round-trip, injectivity from round-trip, exact failure domain by cases |
| C04 | `deserialize` on arbitrary frames, frame validity checks | decode then encode then decode is stable, per type |
| C05-C06 | `async_indexed_queue.py` with explicit node store, and once more with every assignment in order (`Queue/IndexedObject`: what was assigned before an exception stays) | refinement of pointer structure to list; `C06_unchanged` |
| C07-C08 | `async_priority_queue.py` + `heapq` sift functions, entries as mutable objects | heap invariant + multiset refinement; C07 N (data put twice, priorities below zero); C08 N (aliasing after `max_priority`) |
| C09-C13 | `allocators/queued.py` over the real queue | invariant; C11 N (load drift), partial: holds for histories without `max_priority` between get/decrease |
| C14 | `balance` with exact fractions; `balanceFloat` is the code with floats | arithmetic over all count vectors; both roundings of the floats are smaller than the distance to the next whole number (`C14_floats`); N in the last clause (rounding up asks for too much in total) |
| C15 | `__balance_request` | induction over ticks |
| C16-C23 | task/worker/client managers, composed with the real queues | invariant + accounting over output log; C23 N (cancel during placement) |
| C24-C26 | `on_task_new`, `routine` | decision table; FIFO refinement (head rotation when all full is modelled) |
| C27 | `on_heartbeat`, `__clean_workers` | exact characterisation |
| C28 | everything in the scheduler | N: witnesses; exactly which events raise (`C28_exact`) |
| C29 | counters, `statistics` | accounting invariant, and what workers report in whole systems |
| C30-C32 | `function_manager.py` | invariant; C32 N |
| C33-C40 | `graph_manager.py` + `graphlib.TopologicalSorter` | invariant relating graph state to the submitted graph; C37, C39, C40 N in part (crashes) |
| C41-C44 | pure parts of `client.py` | functional equality with independent spec; C42, C43 N for one-shot iterators / repeated keys |
| C45-C49 | client state machine, user thread and network thread at statement granularity where it matters | invariant; C46, C48 N |
| C50-C54 | worker agent state machine | invariant; C52, C53 N |
| C55-C56 | processor and cache | invariant, evaluator as parameter |
| C57 | heartbeat/timeout managers | trace induction |
| C58 | `zmq_config.py` | string round-trip; N in part (IPv6-like hosts) |
| C59-C60 | dict utilities, and once more with every assignment in order (`Util/OneToManyObject`) | refinement to finite relations; `C59_unchanged`, `C60_unchanged` |
| C61 | `formatter.py` unit selection over integers | case analysis; tenths: floats as `m / 2^k`, exact for powers of two, ties to the even tenth, error bounds otherwise |
| C62-C63 | clients + scheduler + workers + channels | global invariant, evaluator as parameter |
| C64 | processor main loop, including what ends the process | exact set of ending events; N: three witnesses |
| C65 | frame layout per message type, tag table | layout given a second time in `Spec/WireLayout.lean`, equality |
| C66 | `get_status` of every manager | equality with tables rebuilt from the state's public content; N for equal function names |
| C67 | answers of the function manager to check / add | decision table |
| C68 | destination of every message the scheduler sends | invariant over the output log and the history |
| C69 | heartbeat bookkeeping (latency, counters); the latency once more in 64 bit floats (`Util/Latency`) | equality; `C69_latency`, `C69_latency_back`: the float is exact below 2^53 ns, also if the clock was set back; `C69_latency_long`: not above |
| C70 | `TaskMonitor` messages | invariant over the monitor log and the history |
| C71 | scheduler behind its binder: frames in, frames out, counters | trace induction; encodability as an invariant |
| C72 | arbitrary frames at the binder | exact set of readable payloads; N |
| C73 | `entry_points/top.py`: tables, sorting, positions, subscription loop | layout given independently, equality; N (large lag or size) |
| C74 | `AsyncConnector`, `SyncConnector` as a thread with a queue | trace induction, generic in the callback; N (dropped at stop, sent not counted) |
| C75 | master process of a cluster with its signal handlers | exact effect of a signal in every phase; N |
| C76 | possibility of progress from every state of `Exec` with `Prompt` | measure: acceptances possible minus successes |
| C77 | worker process: loops, signals, end | exact exit for every event; N (`C77_orphan`) |
| C78 | command lines, settings of scheduler, cluster, combination | equivalence with a declarative reading; N (`C78_combo_loop`) |
| C79 | log: places, levels, durations | exact set of places; N (`C79_clash`) |
| C80 | client: messages that end it | exact set, alone and in a system; N (`C80_no_worker`, `C80_unloadable`, `C80_pending`, `C80_nothing_asked`) |
| C81 | scheduler process: loops, signals, end | signals: full; N (`C81_left_open`): sockets left open after an exception |
| C82 | `SchedulerClusterCombo`: start and shutdown | never raises after start, scheduler ends; N (`C82_early`, `C82_one_worker`, `C82_failed_init`) |
| C83 | what ends the scheduler of a system | exactly (`C83_exact`); N: ten runs (`C83_dies`) |
| C84 | where a task is that was given to a worker | counting tasks sent against results and returns, over all runs of the system |
| C85 | where a submitted task is, and that there is one copy of it | the client's places in every interleaving; copies sent against echoes received; C16, C18, C84 |
| C86 | where a graph is that a user asked for | graphs built against graphs sent; fate of a graph at the scheduler; C84 |
| C87 | when a processor collects garbage and trims memory | induction on the calls of the cleaner |
| C88 | where the running task of an agent is | N (`C88_twice`, `C88_runs_anyway`) for a worker given a task twice; else invariants of agent and processors together: tasks told against taken (`Inside`), functions asked for against answers (`Waits`), announcements (`Announced`) |
| C89 | a task runs at most once | N (`C89_twice`); while the worker of the task is not given up: tasks sent against tasks given back, over all runs (`Single`) |
| C90 | a system at rest has answered everything | N (`C90_hang`, `C90_stranded`, `C90_stuck`); exactly what else may keep a task: C84, C85, C86, C88, C89, questions about functions against answers (`Owes`, `Registering`), `Placed` |
| C91 | left alone, a system comes to rest | a lexicographic measure of four sizes (things that happen once, lives of tasks, stale requests, work) that every event which does something makes smaller (`step_down`); C90, `Gain`, `Emit` |
| C92 | `submit`, `map` and `get` from start to end, with the connector's thread that may die half-way | invariant over where the user's thread stands; N (`C92_collateral`, `C92_half`, `C92_exit_half`); after a raise nothing comes and nothing goes (`C92_mute`, `C92_stuck`); what the dying thread leaves in the tables and in the futures (`C92_echo_left`, `C92_graph_left`) |
| C93 | the sorter (graphlib) behind graph_manager.py | record of what was handed out and reported, kept beside the sorter; cycles by closed walks |
| C94 | `map` and blocking `get` in a whole system | C92 for the call, C62/C63 for the values; repeated keys are false (`C63_repeated_key`) |
| C95 | a waiting `map` or `get` comes to its end once the system is at rest | C90 gives the answers; the client's record of every answer that arrived in time (`Timely`, `Holds`); C17 for the status; C92 for the call; N (`C95_repeated_key`) |
| C96 | a worker whose task ends its processor | N (`C96_stuck`), in general (`C96_blocks`): agent and processor stay as they are in every execution without a cancel; C88 says whose task it is |
| C97 | a system that runs as it should answers every submitted task and every graph | no handler that is due can fail (`C97_fine`), from C53, C64, C80 and the order of messages on each connection (`EchoFirst`, `Tame`, `AgentWire`); the measure of C91 for the end (`C97_stops`); C90 and C95 for the answers; that no node of a graph fails: `C97_nodes` (functions that return, processors that hold their functions), `C97_quiet` (no graphs); for every fair run, whatever the order of events: `C97_every`; there the calls of `map` and blocking `get` that wait end, with what the functions and the graph say: `C97_map`, `C97_get` |
| C98 | the load on the monitor's screen | floats with error bounds (`Near`), one factor per rounding; N (`C98_less`, `C98_rewritten`) |
| C99 | what following the advice of `balance` leads to | invariant over half-finished moves (`Halfway`): what is still to be given back, and nobody above the mean rounded up; N (`C99_not_level`, `C99_again`) |
| C100 | the functions a client remembers (`Client/Memo`) | what the memo holds after any calls (`First`); N (`C100_stale`) |
| C101 | the tables of the scheduler are no larger than what is open | counting: each key of each table is the id of something open (`Bounded`), from the invariants of C19, C22 and C38; N (`C101_claim_kept`); client: the tables as functions of the history (`unaccepted`, `openFuture`, `openGraph`); worker: the accounts of C51; whole systems: the state at rest of C90 and the fair runs of C97 (`NothingLeft`) |
| C102 | heartbeats in time keep worker and scheduler together | timed runs (`InTime`): last heartbeat heard, answer, next turn of the loop, next heartbeat; the bound h + 2δ is sharp (`C102_sharp`) |
| C103 | the cleaner outlives its look at the cached functions | the iteration taken apart (`Worker/Scan.lean`: CPython's row of entries, holes, remembered size); ends exactly when the number of entries changed (`C103_dead`); otherwise between the idle functions of the end and of the beginning |
| C104 | the queues cost what their comments promise | cost without counting steps (`Spec/Cost.lean`): what decides the outcome (`Asks`, `Looks`, `Near`), what is different afterwards (`Moves`, `Far`); `C104_index_linear` N |
| C105 | a processor that is of no more use is over | `Worker/Threads.lean`: both threads and the process; exact condition for the end (`C105_over`, `C105_exact`); `C105_stays` N |
| C106 | a worker that has ended is over as a process | `Worker/Family.lean`: the worker and its processors as processes; exact condition (`C106_exact`); `C106_hangs` N |
| C107 | asyncio's `Queue` around the hooks of the two queues (`Queue/Waiting`): futures of getters, wake-ups, cancellation | invariant on woken getters; `C107_turn` justifies the turns of the rest of the model |
| C108 | a worker signals and measures its own processor only | `Worker/Pids.lean`: the worker's children with their process numbers; invariant on the child with the watched number; discharges that `os.kill` and `psutil` do not fail |
| C109 | a worker that dies of an exception dies silently | `Worker/AgentObject.lean`: the handlers as sequences of assignments (`Doing`); the same as `Worker/Agent` (`C109_same`), unseen if they raise (`C109_silent`) |
| C110 | a call that is refused leaves nothing behind | `Client/Refused.lean`: `submit`, `map` and `get` statement by statement (`Doing`); N for `map` (`C110_map_half`) |
| C111 | balancing keeps the interval that was set | executions with a clock (`Spec/Interval`), invariant on the counter; N: the setting is only a switch |
| C112 | a clock that is set ends nobody | readings of the clock are arbitrary; histories of heartbeats and answers (`Spec/ClockSet`); N (`C112_back`, `C112_worker`, `C112_scheduler`) |

Not expressible / out of scope: performance, real network and OS behaviour,
pickle correctness, delivery of signals by the operating system, curses itself, logging text.

## 3. Trusted base

* Lean 4 kernel. Axioms used are at most `propext`, `Classical.choice`,
  `Quot.sound`; the exact list per theorem is in `AXIOMS.md`.
* The transcription from Python to Lean (each definition cites file and lines).
* asyncio granularity: a handler runs without interleaving between suspension
  points. `zmq.asyncio` sends with unlimited high-water mark and `put` on an
  unbounded queue complete without suspending. The only mid-handler suspension
  in the scheduler is `await get()` on the worker queue inside `assign_task`
  (modelled as the `pending` slot of the task routine).
* CPython semantics of `heapq`, `graphlib`, `struct`, `dict`; the relevant pure
  Python sources were transcribed.
* `hash()` is a parameter of the queue model; in the scheduler it is taken to be
  injective on ids (64-bit collisions of random UUIDs are not modelled there).

* In a system, messages between two processes may overtake each other, which is
  more than ZeroMQ allows, so what is proved about all runs of a system holds for
  ordered delivery too. Only C97 assumes the order (per client, in `Mild`): an echo
  that comes after the result of its task would raise `KeyError` in the client.

Modelled code and code left out are listed per directory in section 4, updated
as the model grows.

## 4. Coverage of the code

| code | model | left out |
|------|-------|----------|
| `protocol/python/message.py` | `Wire/Struct`, `Wire/Message`: every class, both directions, tag table | - |
| `io/async_binder.py`, `io/async_connector.py`, `io/sync_connector.py` | `Wire/Message`, `Sched/Server`, `Wire/Connector`: frame split and join, unknown-tag handling, send/receive counters, queue and thread of the sync connector | sockets, identities chosen by ZMQ |
| `utility/queues/*` | `Queue/*`: node store, locator, heap sift functions; the methods again with their assignments in order (`*Object`); waiting in `get` (`Queue/Waiting`) | in the scheduler and worker models a waiting `get` is a turn that does nothing (justified by C107) or the `pending` slot |
| `utility/one_to_many_dict.py`, `key_value_set.py` | `Util/OneToMany`, `Util/OneToManyObject` | - |
| `utility/zmq_config.py`, `formatter.py` | `Util/ZmqConfig`, `Util/Formatter`, `Util/Decimal`, `Util/Float` (rounding of floats, `:.1f`, `:.1%`) | - |
| `scheduler/allocators/queued.py` | `Sched/Alloc` | - |
| `scheduler/{task,worker,client,function,graph}_manager.py`, `main.py`, `status_reporter.py` | `Sched/State`, `Sched/Step`, `Sched/Sorter` (graphlib), `Sched/Exec` | psutil values, sockets |
| `protocol/python/serializer/default.py` | the parameters `Pickle` (`Client/Client`) and `Runtime` (`Worker/Processor`) | what cloudpickle writes |
| `client.py` | `Client/Args`, `Client/Graph` (pure parts), `Client/Client` (futures), `Client/Memo` (functions), `Client/ClientIo` (messages), `Client/Blocking` (whole calls, what a dying thread leaves), `Client/Refused` (calls that raise) | `__del__`, thread start-up |
| `worker/agent/*.py`, `worker/worker.py` | `Worker/Agent`; `Worker/Process` (end of the process); `Worker/Pids` (process numbers) | process spawning, psutil's figures |
| `worker/agent/processor/*.py` | `Worker/Processor`: main loop and cache cleaner as two threads; `Worker/Memory`: garbage collection; `Worker/Threads`: end of the threads and of the process; `Worker/Family`: the worker that waits for them | a signal that interrupts a task (`SIGTERM` kills, `SIGINT` is like an exception that is no `Exception`); what `gc` and `malloc_trim` do |
| whole system | `System/System`: one scheduler, clients, workers with their processors; messages may be lost, late and out of order, not doubled; workers leave, everybody may fall silent | what a part does after an exception |
| `entry_points/top.py` | `Util/Top` | JSON text, curses (a predicate says which writes fit); `f"{x:.1f}"` is a parameter there, `Util/Float` says what it is |
| `cluster/cluster.py` | `Cluster/Cluster`: start, join, signal handlers | - |
| `scheduler/main.py` `get_loops`, `utility/event_loop.py`, `cluster/{scheduler,combo}.py`, `entry_points/scheduler.py` (run, signals) | `Sched/Process`, `Cluster/Combo` | signals before the loops start, process exit |
| `cluster/{scheduler,combo}.py`, `entry_points/{cluster,scheduler,top}.py` (arguments), `io/config.py`, `utility/event_loop.py` | `Cluster/Argparse`, `Cluster/Options` | abbreviated and joined options, help texts |
| `utility/logging/*` | `Util/Logging` | texts of the lines, rotation of files |

## 5. Outcomes: what the code does not satisfy

Each item is proved by a concrete execution of the model (theorem in brackets)
and the remaining part of the property is proved as `*_partial`.

**Queues and allocator**

* C07: the queue relies on its caller: data that are put twice make a later `get`
  raise (`C07_put_twice`), and one `decrease_priority` too many makes a later `remove`
  take the wrong entry and raise (`C07_below_zero`). The allocator does neither.
* C08: `max_priority` puts the entry it looked at back as a *new* list while the
  locator keeps pointing at the old one. A later `decrease_priority` changes the
  old list only, so the update is lost; a second one, or a `remove`, raises
  (`C08_lost_update`, `C08_second_decrease_raises`, `C08_remove_raises`).
* C104: the comments of `remove` and `decrease_priority` promise O(log n), but both
  look for the entry with `list.index`, which compares it with all entries before it
  (`C104_index_linear`). The allocator calls `decrease_priority` for every finished
  task, so each one costs a look through up to all workers. What the heap functions
  compare and move is logarithmic, and the indexed queue keeps its promise of O(1).
* C11: the allocator calls `max_priority` on every submission
  (`has_available_worker`), so loads drift upwards and a worker with a free slot
  is refused (`C11_free_slot_refused`). Consequences: C13 (removal raises), C19
  (a leaving worker kills the scheduler), C20 (balance responses kill it), C24
  and C26 (idle workers are passed over, order is inverted), C28.
  The damage needs another event between the submission and the next turn of
  the task routine. For executions in which results, cancels, heartbeats and
  the like come only when that turn has been taken (`Spec.Prompt`) and the
  waiting limit is not 0, the loads are always right and the locator is never
  out of date when it is used, so C11, C19, C20, C24 and C26 hold in full
  (`*_prompt_partial`, `C11_consult_partial`) and C28 loses those cases. With
  the limit 0 an idle worker is refused even then (`C24_prompt_limit`).
* C05 needs items with different hashes; two items with one hash are confused
  (`C05_hash_collision`).
* C14: every worker above the average is asked for its surplus rounded up, so in
  total more tasks are asked for than there is room (`C14_asks_for_too_much`).
* C15: with `trigger_times = 1` no balance request is ever sent
  (`C15_trigger_one_silent`).

**Scheduler**

* C22, C37, C40: cancelling or failing a graph while one of its nodes waits in
  the queue raises `KeyError` and ends the scheduler.
* C23: a cancel that arrives while the task routine holds the task (nobody
  connected) does nothing and the task runs later.
* C28: 13 executions of well-formed messages that end the scheduler. Among them
  the graph `add(a, a)`, which the client accepts and sends (C39). `C28_exact`
  says in which states which events raise, as an equivalence: the handler
  lemmas give a condition that holds exactly when the handler raises
  (`step_exact`), and `Fatal` restates it in the terms of the properties.
* C37: a worker's answer that a node is not there (`NotFound`) ends the
  scheduler, though the next assertion allows it (`C37_notFound_kills`).
* C100: the client pickles a function once and then looks it up with `==`
  (client.py 248-254).  A callable object, a method of an object or a function
  whose globals are pickled with it is sent as it was at its first submission,
  whatever it is now (`C100_stale`): `client.submit(model.predict, x)`,
  `model.fit(…)`, `client.submit(model.predict, x)` uses the old model twice.
  The memo also keeps every function it was ever given (`C100_kept`), so a client
  that submits a new `lambda` each time grows for ever.
* C101: every table of the scheduler is bounded by the tasks and graphs that are
  open and the connected workers, with one exception: a node of a graph that was
  refused with `NoWorker` keeps its claim on its function when the graph fails
  elsewhere, and the function is then never cleaned up (`C101_claim_kept`).
* C88: a worker that the scheduler counted as lost comes back with its next
  heartbeat and is given its tasks again.  It then has a task twice, and a
  `TaskCancel` ends only one of the two: the cancelled task is run all the same
  (`C88_runs_anyway`).  The agent tells results by the task id alone
  (processor_manager.py 170-185), so a result of the killed processor that is
  still on the way is taken for that of the next one, and the agent counts the
  new processor as free while it has a task (`C88_twice`).  This second point
  needs the result of the old processor to arrive after the announcement of the
  new one; the model leaves that order open, a ZMQ PAIR socket may not.
* C88: a worker whose request for a function is answered with `NotExists` drops
  the answer; its processor waits for ever and every task that the worker has
  or gets is stuck. The answer comes when the scheduler counted the worker as
  lost, had its task done elsewhere and forgot the function (last of the
  `runnings` in Props/Running.lean).
* C89: when a worker's heartbeats are late the scheduler sends its tasks to
  others, but nothing stops the first worker, so a task can run twice
  (`C89_twice`). Giving tasks back after a balance request never does this.
* C90: a system can come to rest with a task that was accepted and is never
  done, in three ways. The recorded load of the only worker stays too high
  (C11), so the task waits though the worker has nothing to do (`C90_hang`: one
  client, one worker, two tasks, one task per worker). The client keeps the
  task for an answer that came before (`C90_stranded`, from C46). The worker is
  stuck (`C90_stuck`, from C88).
* C32: `Delete` of an idle function raises `ValueError` in every state.
* C36, C38: a graph node refused with `NoWorker` leaves the graph open for ever
  and its function claimed.
* C66: the function statistics are keyed by name; two functions of one name
  share a row.
* C70: the scheduler does not check the status in a worker's result. A worker
  that answers with the status `Running` is shown as such, and its task is not counted
  (`C29_other_worker`). Status order and counters are proved for workers that end tasks
  with final statuses only, and that those of this project do (`C29_system`,
  `C70_system`).
* C72: a proper tag with a payload that cannot be read (for example a result
  without its value) raises in the binder and ends the scheduler, in every
  state (`C72_malformed_kills`). A graph whose last node or target list is
  shorter than announced is accepted silently (`C72_decoded` states it).
* C73: `top` ends with `ValueError` when one worker reports a lag of 1000 s or
  more, or a size of 1024t or more (`C73_not_shown`, `C73_lag_ends`); it ends
  quietly on the first message with an unknown tag (`C73_watch`).
* Results are not checked against the sender. Properties that need it carry the
  hypothesis explicitly (`Spec.Allowed` lists what clients are assumed to do).

**Client**

* C41: keyword-only arguments are dropped, unknown and repeated keywords are
  accepted, positional-only parameters can be named.
* C42: an iterator argument to `map` is used up by the length check; nothing is
  submitted and `[]` is returned.
* C110: `map` submits item after item. If the third cannot be pickled or lacks an
  argument it raises, but the first two are submitted: they are computed, nobody
  has their futures, and the client is not disconnected, as it is if a result is an
  exception (client.py 100-107).
* C43, C63: a repeated key in `get` shifts the futures; `Stands` says for all
  lists of keys which node's value is returned for a key (`C63_value_any`).
* C45: `submit` registers the future after sending, so a fast result is lost, or
  its echo raises in the network thread. A future cancelled by the user ends the
  network thread when its result arrives.
* C46: a task buffered while the function response is handled is never sent.
* C48: a failed graph resolves its first future only.
* C49: a future cancelled by the user breaks `disconnect`; one registered after
  it is never resolved.
* C92: when one task of a `map` or of a blocking `get` fails, the call disconnects
  the client before it raises. Futures of earlier `submit`s get
  `ScaledDisconnect` and their running tasks are cancelled (`C92_collateral`).
  The client stays usable in appearance only: every later `map` or `get` waits
  for ever (`C92_stuck`, `C92_stuck_get`). A cancelled future among those of a
  graph result or of a `disconnect` ends the thread half-way, and the futures
  after it are never resolved, not even with `ScaledDisconnect` (`C92_half`,
  `C92_exit_half`).
* C95: a blocking `get` with a repeated first key, such as `["a", "a", "b"]`, waits for
  ever when the graph fails: the second future is returned for "a", the exception is
  set in the first one only (`C95_repeated_key`).

**Worker**

* C52: a cancel for the task that waits for the processor is answered `NotFound`
  and the task runs.
* C96: a function that calls `sys.exit()`, or raises an exception that cannot be pickled,
  ends the processor. Nothing in the agent looks after it: the worker goes on sending
  heartbeats and taking tasks, and no result ever comes from it (`C96_stuck`,
  `C96_blocks`). Only a cancel of that very task helps (`C96_cancel`).
* C53: a late cancel or function response for an idle worker raises
  `AttributeError` and ends it. In a system there is one more way: a worker that
  was silent for too long gets its queued tasks again and ends with `KeyError`
  (`C53_system_dies`). `C53_system_partial` says that these are all.
* C55, C56: the cache cleaner can evict a function between its lookup and its
  use; the task then fails with `TypeError`.
* C64: a function that cannot be loaded, an exception that cannot be pickled, or
  a second function response ends the processor. The last happens in a system
  when the answer for a cancelled task serves for the next one
  (`C64_system_second`).

**Connectors and cluster**

* C74: a stopped `SyncConnector` drops what is still in its queue (`C74_dropped`);
  its "sent" statistic is always empty (`C74_sent_not_counted`).
* C75: a signal before the workers exist is lost (`C75_lost`); one during start-up
  raises `TypeError` in the handler, since `pid` is `None` (`C75_start_raises`);
  one after the first worker was waited for raises `ProcessLookupError` before
  anybody is interrupted (`C75_survivor`); a cluster of one worker fails on
  `SIGTERM` (`C75_one_worker`).
* C77: a worker that ends by an exception other than the timeout sends no
  `DisconnectRequest` and does not kill its processor; a cancel that crosses the
  result of its task is enough (`C77_orphan`). `multiprocessing` then waits for the
  processor (C106). `SIGTERM`, for which there is no handler, also leaves the
  processor behind.
* C106: the process of a worker that ended by an exception is over exactly when its
  last processor is (`C106_exact`). That one still waits for messages of an agent that
  is gone, so both stay until one of them is killed (`C106_waits`, `C106_hangs`), and
  with them the master of the cluster, which ends only after all workers
  (`C75_ended`). `SIGINT` to the processor does not help (C105).

* C78: `SchedulerClusterCombo` does not pass `event_loop` to its scheduler, which
  always uses the built-in one (`C78_combo_loop`). A combination at an address that
  is not tcp is made and its workers start, but its scheduler process dies with
  `TypeError` (`C78_combo_run`); one whose event loop is not installed gets a
  scheduler and no workers (examples in Props/Options).

* C79: the handler of the screen is called `console`; a log file of that name
  replaces it or is replaced by it (`C79_clash`). Nothing in the package passes
  such a name. The decorator `log_function` and the loggers with a duration are not
  used anywhere.

* C80: the client raises `NotImplementedError` on a `NoWorker` echo. That ends the
  connector thread, so every other future of the client stays unresolved
  (`C80_no_worker`; `C80_refused` with the scheduler: two tasks, no worker, a limit
  of one). A result that cannot be unpickled does the same (`C80_unloadable`). So does the
  failure of a graph of which nothing was asked: `get(graph, [])` makes no future,
  the answer holds one exception, and `futures[0]` raises (`C80_no_target`,
  `C80_nothing_asked`). An
  answer with status `Canceled` or `NotFound` takes the future out of the table
  without resolving it (`C80_pending`, `C80_unresolved`). In a system these, a
  cancelled future and the race of C45 are the only ways in which a message can
  end a client (`C80_system`).

* C81: an exception in a loop ends the scheduler without `destroy`: lines 142-143 of
  `main.py` run only after `CancelledError` (`C81_left_open`). While the exception
  is on its way to `get_loops` the other loops go on for two passes of the event
  loop, and a signal that comes in the second one hides the exception
  (`C81_hidden`). `SchedulerProcess` has no signal handler (`C81_process`).
* C82: `SchedulerClusterCombo.shutdown` soon after the constructor is lost when the
  cluster has its handlers and no worker yet: the workers start when the scheduler
  is gone (`C82_early`). With one worker the signal raises `TypeError` in it. If
  the constructor fails, `__del__` raises `AttributeError` (`C82_failed_init`).

**The scheduler in a system**

* C105: the cleaner thread is no daemon and loops for ever, so Python does not end a
  processor whose main thread is over: after a task that raises what is no `Exception`
  (`C105_stays`) or after `SIGINT` (`C105_interrupted`) the process stays, asleep, until
  it is killed. It does end when the cleaner was over before (C103) or is just about
  to notice a change (`C105_exact`). Nobody tells the agent (C96), and a worker that
  ends by an exception waits for this process (C77).
* C103: the cleaner iterates over the dictionary the main thread writes. A new
  function that arrives, or one that is deleted, during the iteration makes the next
  step raise `RuntimeError` (`C103_dies`, `C103_happens`), nothing catches it, and the
  thread that evicts functions and collects garbage is over while the processor goes
  on. Stamps of functions that are there do no harm (`C103_steady_partial`), and then
  the look is as good as the single step of `Proc.clean` (`C103_alone`).
* C83: a system of nothing but this code ends its own scheduler (`C83_dies`): a
  worker leaves or falls silent after a submission that found it available; two
  results, or the answer to a balance request, after such a submission; a client
  ends before its graph is unpacked, while a node of it waits, or after it was
  answered; a node fails while another one waits; a node names an input twice; a
  client name is not UTF-8. `C83_exact` says that these are all the ways.

**Addresses and display**

* C58: tcp hosts with a colon are accepted but do not parse back; any integer is
  accepted as a port.
* C98: `int(cpu * 1000)` cuts off what rounding lost: 0.7 % arrive as 0.6 % (`C98_less`),
  one value in eight is hit; writing a heartbeat that was read can change it
  (`C98_rewritten`). Never by more than a tenth of a percent (`C98_screen_partial`).
  A load of more than 6553.6 % ends the agent with `struct.error` (`C98_overflow`).
* C111: `load_balance_seconds` is compared with 0 and used for nothing else
  (worker_manager.py 136); the worker manager has its turn every second
  (`CLEANUP_INTERVAL_SECONDS`). With 10 seconds set, workers are asked for tasks twice
  within two seconds (`C111_too_often`). What keeps questions apart is
  `load_balance_trigger_times` (`C111_apart`).
* C112: intervals are measured with `time.time` and `time.time_ns`. If the clock of a
  worker's machine is set back while a heartbeat is on its way, even by a nanosecond
  more than the answer took, the latency is negative, and the next heartbeat raises
  `struct.error` and ends the worker (`C112_back`, `C112_set_back`). Set forward by the
  death timeout, the worker ends (`C112_worker`); on the scheduler's machine, all workers
  are given up at once (`C112_scheduler`).
* C99: because of C11 a worker can be recorded with more tasks than it has; the advice
  then takes a task from another worker and the allocator puts it back there
  (`C99_not_level`). With fewer tasks than workers the advice is never empty and asks
  the busy workers for all they have (`C99_again`); only that a worker does not give
  back the task it runs keeps these from moving for ever.
* C61: sizes just below the next unit are shown as `1024.0m`; a duration of 1000 s or more raises in `format_microseconds`.

## 6. Wrong programs

`seeded/LOG.jsonl` has one line per wrong program tried: which definition was
changed, how, which claims fail to prove, and which theorems were added or
tightened because a wrong program went unnoticed. `seeded/run.py` holds the
hand-written changes, `seeded/auto.py` makes mechanical ones (constants,
comparisons, dropped branches, swapped arguments; with `MORE=1` also parameters of
one type exchanged, branches that do nothing or fail, updates left out, lines and
pairs exchanged; with `MORE=2` something done twice, a write or a test left out, a
number one higher, two arms exchanged) in every model definition. Exchanging two lines that do not depend
on each other is no wrong program; such edits are marked in the log. A theorem that was
renamed since (`C07_least_first`, now `C07_least_first_partial`) stands in the log under
its present name.
