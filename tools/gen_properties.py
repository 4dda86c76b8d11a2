#!/usr/bin/env python3
"""Writes /verif/properties.jsonl. One entry per property; keep ids stable."""
import json, os
P = []
def p(id, title, statement, quantifier, why, anchors):
    P.append(dict(id=id, title=title, statement=statement, quantifier=quantifier, why_tests_cant=why, anchors=anchors))

MSG = "scaled/protocol/python/message.py"
IQ = "scaled/utility/queues/async_indexed_queue.py"
PQ = "scaled/utility/queues/async_priority_queue.py"
AL = "scaled/scheduler/allocators/queued.py"
TM = "scaled/scheduler/task_manager.py"
WM = "scaled/scheduler/worker_manager.py"
FM = "scaled/scheduler/function_manager.py"
GM = "scaled/scheduler/graph_manager.py"
CM = "scaled/scheduler/client_manager.py"
MAIN = "scaled/scheduler/main.py"
CL = "scaled/client.py"
WTM = "scaled/worker/agent/task_manager.py"
WPM = "scaled/worker/agent/processor_manager.py"
PROC = "scaled/worker/agent/processor/processor.py"
CC = "scaled/worker/agent/processor/cache_cleaner.py"
HB = "scaled/worker/agent/heartbeat_manager.py"
TO = "scaled/worker/agent/timeout_manager.py"

# ---- wire protocol
p("C01", "Every message survives the wire",
  "For every message object of every protocol type whose fields fit the wire format, deserializing the frames produced by serialize() gives back an equal message: same ids, same payload bytes, same argument list in the same order, same statuses, same counts.",
  "all messages of all 20 protocol types: any ids, any payload bytes, any number of arguments, functions, targets, graph nodes, results",
  "lists, nested frames and payload contents are unbounded; tests sample a handful of shapes",
  [MSG+":*.serialize/deserialize", "scaled/io/async_binder.py:send/routine"])
p("C02", "Frames are self-describing",
  "The frame list sent for any message is accepted by the receiver's validity check (enough frames, known type tag), the tag selects the class that was sent, and no two different messages are ever sent as the same frames.",
  "all pairs of messages of all types",
  "a confusion needs a particular pair of payloads of different types; the pair space is infinite",
  [MSG+":MessageType,PROTOCOL", "scaled/io/async_binder.py:__is_valid_message", "scaled/io/async_connector.py:__is_valid_message"])
p("C03", "Exactly which messages cannot be sent",
  "Sending a message fails if and only if a numeric field does not fit its fixed-width wire field (16-bit cpu permille and queue length, 32-bit counts, 64-bit rss), or the message is a graph with an empty function table. Every other message is sent.",
  "all messages of all types, all integers",
  "the boundary is a predicate over unbounded integers and lists",
  [MSG+":Heartbeat.serialize,GraphTask.serialize,BalanceRequest.serialize"])
p("C04", "A malformed frame list cannot be mistaken for a message",
  "For arbitrary received frames, decoding either is refused (dropped or raises) or yields a message whose own encoding is decoded to that same message again (a graph without functions has no encoding and is the one exception); a graph decode always terminates and consumes all frames.",
  "all lists of byte strings",
  "input space is all byte strings; fuzzing only samples it",
  [MSG+":*.deserialize", "scaled/io/async_binder.py:routine"])
# ---- queues
p("C05", "IndexedQueue is a FIFO of unique items",
  "After any sequence of put, get and remove, get returns the oldest item still in the queue, remove(x) removes exactly x and keeps the order of the rest, len and membership are exact; provided the stored items have pairwise different hash values.",
  "all operation sequences of any length over any hashable items",
  "linked-list pointer bugs show only after particular interleavings of head/middle/tail removals",
  [IQ+":IndexedQueue,_DoubleLinkedList,_IndexedDoubleLinkedQueue"])
p("C06", "IndexedQueue misuse raises and changes nothing",
  "put of an item already queued raises KeyError, remove of an absent item raises KeyError, get on an empty queue raises QueueEmpty, and in each case the queue is unchanged.",
  "all reachable queue states and all items",
  "needs all states, including after many removals",
  [IQ+":_IndexedDoubleLinkedQueue.put/get/remove"])
p("C07", "The worker priority queue always yields a least loaded worker",
  "After any sequence of put, get, remove and decrease_priority, get returns the entry with the smallest (priority, worker id) among those stored, and exactly the stored entries can ever be returned.",
  "all operation sequences of any length (binary heap with in-place priority changes)",
  "heap-order violations depend on heap shape; unbounded sizes",
  [PQ+":PriorityQueue", "heapq:_siftdown,_siftup"])
p("C08", "Priority changes are never lost",
  "After max_priority() is consulted, a later decrease_priority(w) still lowers w's stored priority by one and remove(w) still removes w.",
  "all operation sequences that include max_priority",
  "needs the particular order consult / decrease without a get in between",
  [PQ+":PriorityQueue.max_priority,decrease_priority,remove"])
# ---- allocator
p("C09", "A task is assigned to at most one worker",
  "At any time every task known to the allocator is assigned to exactly one connected worker, and the per-worker task sets and the task-to-worker lookup agree.",
  "all sequences of add/remove worker, assign, remove task",
  "history property over unbounded sequences",
  [AL+":QueuedAllocator"])
p("C10", "A worker is never given more than its queue size",
  "No worker ever has more than per_worker_queue_size tasks assigned at the same time (for a non-negative queue size).",
  "all schedules of submissions, results, disconnects, balance responses",
  "needs every interleaving; counts are kept in a separate heap",
  [AL+":assign_task,remove_task"])
p("C11", "A worker with a free slot is usable",
  "If some connected worker has fewer than per_worker_queue_size tasks assigned, the scheduler treats it as available: assign_task succeeds and has_available_worker is true.",
  "all reachable allocator states",
  "requires the load counter to be exact after every history",
  [AL+":has_available_worker,assign_task", PQ+":max_priority"])
p("C12", "Tasks go to a least loaded worker",
  "A newly assigned task goes to a worker whose recorded load is minimal among connected workers, and its recorded load rises by exactly one.",
  "all reachable allocator states",
  "universal over states",
  [AL+":assign_task"])
p("C13", "Removing a worker hands back exactly its tasks",
  "Removing a worker returns precisely the tasks assigned to it, leaves no task assigned to it and does not touch other workers' tasks.",
  "all reachable allocator states, all workers",
  "universal over states",
  [AL+":remove_worker"])
p("C14", "Balance advice is sound",
  "Balance advice is non-empty only if some worker is idle while another has tasks; it names only workers above the mean, asks each for at least one and at most its assigned number of tasks, leaves each named worker at or below the mean but more than mean-1, and never asks for more in total than the idle and below-mean workers can absorb up to mean+1 each.",
  "all assignments of task counts to any number of workers",
  "arithmetic claim over all count vectors",
  [AL+":balance"])
p("C15", "Balance requests are debounced",
  "The scheduler sends balance requests at a routine tick iff load balancing is enabled, the current advice is non-empty and this is exactly the load_balance_trigger_times-th consecutive tick with the same advice; then it sends each named worker exactly its advised number.",
  "all sequences of ticks and advices, all trigger settings",
  "unbounded sequences of ticks",
  [WM+":__balance_request"])
# ---- scheduler: task life cycle
p("C16", "Every accepted task is answered exactly once or is still held",
  "For every task id that is not a graph node: the number of times the scheduler acknowledged it with SubmitOK to a client equals the number of TaskResult messages for it sent to that client plus one if the scheduler still holds it. In particular no accepted task is dropped and no result is delivered twice, as long as the scheduler is running.",
  "all message histories, worker deaths, timeouts, reroutes, cancels, routine interleavings (clients use fresh task ids)",
  "history property over all interleavings and crash points of workers",
  [TM+":on_task_new,on_task_done,on_task_reroute,routine", WM+":__disconnect_worker,on_balance_response,on_task_done"])
p("C17", "Results go to the client that submitted the task",
  "Every TaskResult the scheduler sends for a task goes to the client whose submission was acknowledged before, never to another client.",
  "all histories with any number of clients",
  "needs all interleavings of clients",
  [CM+":on_task_new,on_task_done", TM+":on_task_done"])
p("C18", "A held task is waiting, being placed, or on exactly one connected worker",
  "At any time every task the scheduler holds is in exactly one of: the waiting queue, the placement step, or assigned to exactly one connected worker; and only held tasks are there.",
  "all reachable scheduler states",
  "invariant over unbounded histories",
  [TM+":routine,on_task_reroute", AL+":assign_task"])
p("C19", "Losing a worker loses no task",
  "When a worker disconnects or times out, every task assigned to it is put back in the waiting queue, nothing else changes hands, and the worker gets no further task until it sends a heartbeat again.",
  "all reachable states, all crash points of workers, all set iteration orders",
  "crash point and ordering are universally quantified",
  [WM+":__disconnect_worker,__clean_workers,on_disconnect"])
p("C20", "A balance response moves exactly the returned tasks",
  "On a balance response, exactly those returned tasks that the scheduler still considers assigned go back to the waiting queue; unknown ids are ignored.",
  "all reachable states and all id lists (duplicates, unknown ids)",
  "arbitrary lists and states",
  [WM+":on_balance_response"])
p("C21", "Late and duplicate results are ignored",
  "A TaskResult for a task that is not currently assigned to any worker has no observable effect: nothing is sent to any client and no bookkeeping changes.",
  "all reachable states, all result messages",
  "depends on arbitrary message races",
  [WM+":on_task_done"])
p("C22", "Cancelling a waiting task answers it and prevents its dispatch",
  "A cancel for a task in the waiting queue makes the scheduler send exactly one Canceled result to its client and forget the task, so it is never sent to a worker afterwards unless resubmitted; a cancel for an assigned task is forwarded to exactly the worker holding it.",
  "all reachable states",
  "race between cancel and placement",
  [TM+":on_task_cancel", WM+":on_task_cancel"])
p("C23", "A cancel of a held task is never silently ignored",
  "Whenever the scheduler holds a task, a cancel for it either yields a Canceled result or is forwarded to the worker that has it.",
  "all reachable states incl. the instant between dequeue and assignment",
  "needs the exact moment when no worker is connected",
  [TM+":on_task_cancel,routine"])
p("C24", "Submission replies are decided by function, capacity and queue limit",
  "A submitted task is answered with exactly one echo: FunctionNotExists iff its function is unknown; otherwise NoWorker iff no worker is available and a non-negative waiting limit is reached; otherwise SubmitOK, and only then is it queued.",
  "all states, tasks, limits",
  "decision table over all states",
  [TM+":on_task_new"])
p("C25", "Waiting queue limit is respected",
  "With a non-negative limit L, a submission while no worker is available never makes the waiting queue longer than L.",
  "all states, all L >= 0",
  "boundary over all states",
  [TM+":on_task_new"])
p("C26", "Tasks are dispatched in submission order when capacity exists",
  "While workers have free slots, waiting tasks are sent to workers in the order they were queued; a task is sent with the function and arguments that were submitted.",
  "all queue contents and schedules",
  "ordering over unbounded queues",
  [TM+":routine", IQ])
p("C27", "Worker liveness follows heartbeats",
  "A worker is dropped by the cleanup routine iff more than worker_timeout_seconds passed since its last heartbeat; every heartbeat (re)registers the worker and is echoed exactly once.",
  "all heartbeat/clock sequences",
  "time is universally quantified",
  [WM+":on_heartbeat,__clean_workers"])
p("C28", "The scheduler survives any well-formed traffic",
  "No sequence of well-formed messages from clients and workers (fresh ids, functions registered before use, acyclic graphs) makes the scheduler raise, i.e. terminate.",
  "all well-formed message histories and interleavings",
  "one bad interleaving suffices; tests cannot enumerate",
  [MAIN+":on_receive_message,get_loops", TM, WM, GM, FM])
p("C29", "Task statistics add up",
  "The number of accepted submissions equals success + failed + canceled + not_found plus the number of tasks still held; producing the status report never fails on bookkeeping lookups.",
  "all histories of whole systems, and of a scheduler whose workers report only statuses that end a task",
  "history accounting",
  [TM+":statistics,on_task_done", WM+":statistics", FM+":statistics"])
# ---- functions
p("C30", "A function in use is never dropped",
  "As long as the scheduler holds a task (or an unstarted graph node) that uses a function, that function stays available in the scheduler and a worker asking for it gets it; cleanup drops a function iff it is unused and idle for more than the retention time, and then tells every connected worker.",
  "all histories and clock values",
  "race between cleanup and submissions",
  [FM+":routine,on_task_use_function,on_task_done_function"])
p("C31", "A function id always means the bytes first registered",
  "Registering a known function id does not change its name or content; a worker's request returns exactly the content of the registration that created the entry.",
  "all request histories",
  "histories with many clients registering",
  [FM+":__on_function_add,__on_function_request"])
p("C32", "Deleting an unused function works",
  "A delete request for a registered function with no task using it removes it and is answered.",
  "all reachable states",
  "state dependent",
  [FM+":__on_function_scheduler_delete"])
# ---- graph
p("C33", "A graph node starts only after its inputs, with their results",
  "The scheduler submits a graph node only after every node it depends on has succeeded, and the arguments sent are its data arguments and the dependencies' result bytes, in the declared order.",
  "all acyclic graphs of any size and shape, all completion orders, any other concurrent traffic",
  "graph shapes times completion orders is unbounded",
  [GM+":__check_one_graph,__get_argument,__get_task_result", "graphlib:TopologicalSorter"])
p("C34", "Each graph node is started at most once",
  "During the life of a graph, every node is submitted at most once.",
  "all acyclic graphs, all completion orders",
  "as above",
  [GM+":__check_one_graph"])
p("C35", "get() returns the value of the graph",
  "If every started node returns the value of its function on its arguments, then a graph answered with Success carries, for each requested target in order, the value obtained by evaluating the graph.",
  "all acyclic graphs, all functions, all completion orders, any concurrent traffic",
  "semantic equality over all graphs and schedules",
  [GM+":__finish_one_graph,__get_target_results,__get_task_result", CL+":get"])
p("C36", "A graph cannot get stuck",
  "While a graph is unanswered and not cancelled, at least one of its nodes is submitted and unfinished; so if every submitted node finishes, the graph is answered.",
  "all acyclic graphs, all completion orders",
  "deadlock freedom over all graphs",
  [GM+":__check_one_graph,on_task_done"])
p("C37", "A failed node fails the whole graph once",
  "When a node fails, the client gets exactly one graph result with status Failed carrying that node's error, no further node of that graph is started, and its other running nodes are cancelled.",
  "all graphs, all failure points",
  "failure point universally quantified",
  [GM+":on_task_done,__clean_graph"])
p("C38", "A finished graph leaves nothing behind",
  "After a graph is answered, the scheduler keeps no record of it, of its finished or unstarted nodes, nor any claim on its functions by them.",
  "all graphs, all outcomes",
  "leaks show only over long histories",
  [GM+":__clean_graph,__get_task_result"])
p("C39", "Graphs may use an input twice",
  "A node that names the same upstream node more than once among its arguments is evaluated like any other node.",
  "all acyclic graphs with repeated arguments",
  "input shape outside the test suite",
  [GM+":__get_task_result", "scaled/utility/key_value_set.py:remove_value"])
p("C40", "Cancelling a graph is always safe",
  "A graph cancel, at any moment, makes the scheduler forget the graph and cancel its running nodes, without harming the scheduler.",
  "all moments: before the graph is unpacked, while nodes wait, while they run, after it finished",
  "needs particular moments",
  [GM+":on_graph_task_cancel,__clean_graph", TM+":on_task_cancel"])
# ---- client
p("C41", "Keyword arguments are bound like a Python call",
  "submit(fn, *args, **kwargs) sends the positional argument list that Python's own binding of the call would give, for functions of positional parameters with defaults; it raises TypeError iff a required parameter is missing.",
  "all signatures, argument lists and keyword sets",
  "combinatorial input space",
  [CL+":__convert_kwargs_to_args"])
p("C42", "map returns one result per item, in order",
  "map(fn, items) returns the list of results of fn on each item in the order of items, for any iterable.",
  "all iterables (re-iterable and one-shot), any length",
  "iterator kinds and unbounded length",
  [CL+":map"])
p("C43", "get returns each requested key with its own value",
  "The dictionary returned by get has exactly the requested keys and each maps to the future/result of that node.",
  "all graphs and key lists, including repeated keys",
  "key list shapes",
  [CL+":get,__construct_graph"])
p("C44", "The graph sent is the graph given",
  "The graph message built by get denotes the user's graph: every node that is a call becomes one task with the same function and arguments (data nodes inlined, call nodes by reference), unknown keys or arguments raise KeyError and cycles raise CycleError before anything is sent.",
  "all user graphs",
  "input space unbounded",
  [CL+":__split_data_and_graph,__check_graph,__construct_graph"])
p("C45", "A result resolves exactly its own future",
  "A Success or Failed result for a task resolves the future returned by the submit that created the task, with that result, exactly once; unknown ids change nothing.",
  "all client histories",
  "history property",
  [CL+":__on_task_result,submit"])
p("C46", "A submitted task is never stranded in the client",
  "Every submitted task whose submission is not yet acknowledged is either on its way to the scheduler, or waits for a function registration whose request or answer is on its way, or its echo is on its way back.",
  "all interleavings of user thread and network thread, all network delays",
  "thread interleavings",
  [CL+":submit,__on_buffer_task_send,__on_function_response,__on_task_echo"])
p("C47", "A task is only sent after its function is known, and never twice at the same time",
  "The client sends a task only after the scheduler acknowledged its function, and never has two copies of a task in flight.",
  "all interleavings and network delays",
  "needs the retry path under all races",
  [CL+":__on_buffer_task_send,__on_function_response,__on_task_echo"])
p("C48", "Every future of a failed graph fails",
  "When a graph fails, every future returned by get for it raises the error.",
  "all graphs with any number of targets",
  "needs multi-target failing graphs, non-blocking",
  [CL+":__on_graph_task_result"])
p("C49", "disconnect resolves everything outstanding",
  "After disconnect, every outstanding future is resolved with ScaledDisconnect and a cancel was sent for each outstanding task and graph; without a disconnect the client does not end.",
  "all client states",
  "state quantified",
  [CL+":__on_exit"])
# ---- worker
p("C50", "A worker runs one task at a time and answers the right one",
  "At any time at most one task is handed to the processor; a result is forwarded to the scheduler only if it is for that task, and then the next task may start.",
  "all interleavings of scheduler messages, processor messages and restarts",
  "races between cancel, restart and result",
  [WPM+":on_task,__on_internal_task_result"])
p("C51", "A worker loses no task",
  "Every task a worker received is still queued, being handed over or running, unless it was answered to the scheduler with a result or returned in a balance response.",
  "all worker histories",
  "history property",
  [WTM, WPM])
p("C52", "A task reported cancelled or not found is not run afterwards",
  "After a worker answers a cancel with Canceled or NotFound, it does not run that task later (unless it receives it again).",
  "all worker histories",
  "race with the task waiting for the processor",
  [WTM+":on_cancel_task", WPM+":on_cancel_task"])
p("C53", "No scheduler message kills a worker",
  "No well-formed message sequence from the scheduler (cancels for finished tasks, late function responses) makes the worker agent raise.",
  "all message races",
  "needs crossing messages",
  [WPM+":on_cancel_task,on_function_response"])
p("C54", "Balancing returns only unstarted tasks",
  "On a balance request for n tasks the worker returns the min(n, queued) oldest queued tasks, none of which was started, and forgets exactly these.",
  "all worker states, all n",
  "state quantified",
  [WTM+":on_balance_request"])
p("C55", "The processor runs the requested function on the task's arguments",
  "Each task the processor answers with Success carries the result of the function content registered under the task's function id applied to the task's arguments in order; if the function raises, it answers Failed with that exception; each task is answered at most once.",
  "all message sequences incl. cache hits, misses, deletions",
  "cache state histories",
  [PROC+":__on_received_task,__on_receive_function_response,__process_task", CC])
p("C56", "Worker function cache eviction",
  "The worker evicts a cached function only if it was unused for more than the retention time or the scheduler asked for it, and both of its tables stay in step.",
  "all operation sequences and clocks",
  "time quantified",
  [CC+":add_function,get_function,del_function,__clean_function"])
p("C57", "Heartbeats never pile up and silence ends the worker",
  "A worker has at most one unanswered heartbeat; it raises the timeout at a check iff at least death_timeout_seconds passed since it last accepted an echo (or start).",
  "all sequences of ticks and echoes, all clocks",
  "time quantified",
  [HB, TO])
# ---- utilities
p("C58", "Addresses parse back to themselves",
  "Parsing the string form of a valid address gives the same address; parsing accepts exactly the documented shapes and rejects the rest with an error.",
  "all address values and all strings",
  "string space",
  ["scaled/utility/zmq_config.py:ZMQConfig"])
p("C59", "OneToManyDict is a two-way index",
  "After any operations, value v belongs to key k in the forward view iff the reverse lookup of v is k; each value has one key, no key has an empty value set; a rejected operation changes nothing.",
  "all operation sequences",
  "unbounded sequences",
  ["scaled/utility/one_to_many_dict.py:OneToManyDict"])
p("C60", "KeyValueDictSet is a relation",
  "KeyValueDictSet behaves like a finite relation: add/remove_value/remove_key change exactly the named pairs, a key is present iff it has a value.",
  "all operation sequences",
  "unbounded sequences",
  ["scaled/utility/key_value_set.py:KeyValueDictSet"])
p("C61", "Display formatters are total where used and pick the right unit",
  "format_bytes shows the largest unit b/k/m/g/t in which the number is at least 1 (b below 1024) and raises iff the number is 1024^5 or more; format_microseconds similarly and raises iff 10^9 or more.",
  "all non-negative numbers",
  "number range",
  ["scaled/utility/formatter.py"])
# ---- end to end
p("C62", "submit(...).result() is the function's value",
  "In a system of clients, one scheduler and workers connected by channels with arbitrary delay, if a submit future resolves with a value then the value is the function applied to the submitted arguments, whatever worker deaths, reroutes, duplicate executions and cancels happened.",
  "all system executions: any number of clients and workers, message delays, worker deaths, timeouts",
  "global interleavings",
  [CL, MAIN, "scaled/worker/worker.py"])
p("C63", "get(...) is the graph's value end to end",
  "In the same system, if get returns, every returned value is the value of that node of the user's graph.",
  "all system executions and graphs",
  "global interleavings",
  [CL, GM, "scaled/worker/worker.py"])
# ---- added while modelling the processor
p("C64", "The processor answers every task it was given",
  "Whatever the function, the arguments and the exception are, the processor ends the work on a task by sending a result for it.",
  "all function contents, arguments, exceptions and message sequences",
  "needs functions that cannot be loaded and exceptions that cannot be pickled",
  ["scaled/worker/agent/processor/processor.py:__on_receive_function_response,__process_task"])
# ---- added while testing against wrong programs
p("C65", "The bytes on the wire are the documented ones",
  "Every sent message is its two-letter tag followed by exactly the documented frames: field order, number widths, byte order and alignment; a received message is only ever decoded under its own tag.",
  "all messages and all received frame lists",
  "a symmetric change of encoder and decoder passes every round-trip test",
  [MSG, "scaled/io/async_connector.py:send", "scaled/io/async_binder.py:send"])
p("C66", "The status report tells the truth",
  "The report has one row per connected worker with the number of tasks given and free, its last heartbeat and its age; one row per client with what it owns; one row per function in use with the number of uses.  A name can be reported iff it is a text in UTF-8.",
  "all executions",
  "needs long runs with several clients, functions and worker deaths",
  ["scaled/scheduler/worker_manager.py:statistics", "scaled/scheduler/client_manager.py:statistics", FM+":statistics", "scaled/scheduler/status_reporter.py"])
p("C67", "Function requests are answered exactly",
  "A check answers whether the function is registered; an add registers a new function or answers Duplicated; nothing else changes.",
  "all scheduler states and requests",
  "state space",
  [FM+":on_function"])
p("C68", "Every message the scheduler sends goes to a peer that prompted it",
  "Tasks, cancels, heartbeat echoes, balance requests and function deletions go only to peers that sent heartbeats; echoes and results go only to the peer that submitted the task or graph; other answers go to the peer that asked. So clients and workers never get a kind of message they cannot handle.",
  "all executions with any number of clients and workers",
  "a misaddressed message needs a particular interleaving of several peers",
  [MAIN, TM, WM, FM, GM, CM])
p("C69", "A heartbeat tells the truth about the worker",
  "Every heartbeat carries the number of queued tasks, the latency shown by the last answered heartbeat, whether the processor has announced itself, whether it has a task, and whether the task lock is held; none is sent while one is unanswered.",
  "all histories of the worker agent",
  "the fields change with every interleaving of scheduler and processor messages",
  [HB, WPM, WTM])
p("C70", "The monitor is shown what happens",
  "The last status published for a task says where it is (waiting, with a worker, asked to stop, ended); statuses follow each other only in legal ways; running and canceling are published exactly with the dispatches and cancels sent, in order; names shown are those given for the task's function; every node of a graph is published with its kind and its inputs.",
  "all executions with any number of clients and workers",
  "the stream spans the whole life of every task under every interleaving",
  [TM+":__send_monitor", GM+":__add_new_graph"])
p("C71", "The scheduler's socket passes everything on and counts it",
  "As long as the scheduler process runs, the scheduler has handled exactly the messages that came in, in order, frames that are no message left out; what it said is on the wire in the documented layout, in order, and every message it says has a wire form; the counters in the status report are the numbers of messages of each type that came in and went out.",
  "all sequences of frames of any peers and routine turns",
  "counters and encodings depend on the whole history; an unencodable message needs a particular state of the books",
  ["scaled/io/async_binder.py:routine,send,statistics"])
p("C72", "Malformed frames cannot end the scheduler",
  "Whatever frames a peer sends, the scheduler process survives; frames that do not read as a message have no effect.",
  "all lists of byte strings, in every state",
  "the readable payloads are an infinite set with length fields and nested lists",
  ["scaled/io/async_binder.py:routine,__is_valid_message", MSG+":*.deserialize"])
p("C73", "The display shows every status",
  "Every status the scheduler publishes is shown: each figure in its cell, columns as wide as their widest cell, nothing drawn over something else, workers sorted by the chosen column with the greatest first and equal ones in their order; a terminal that is too small gets a note. States are shown in the order received until a message of unknown type arrives.",
  "all statuses, terminal sizes, keys and frame sequences",
  "positions depend on the lengths of all cells and of four tables",
  ["scaled/entry_points/top.py"])
p("C74", "The connectors pass everything on and count it",
  "The callback of a connector gets exactly the messages that came in, in order, frames that are no message left out; what is handed over leaves in the documented layout and in order, and nothing else leaves; the statistics are the numbers of messages of each type received and sent; the exit callback is called once, after all messages.",
  "all sequences of frames, sends, stops and thread steps",
  "sends come from another thread at any moment; what is lost depends on when the stop comes",
  ["scaled/io/async_connector.py", "scaled/io/sync_connector.py"])
p("C75", "A signal to the cluster stops its workers",
  "Whenever the master process of a cluster gets SIGINT or SIGTERM, it interrupts every worker that runs, and does not fail; it ends when it has waited for all its workers, each started once.",
  "all numbers of workers and all interleavings of start-up, signals and ends of workers",
  "the handler runs between any two steps of start-up and join",
  ["scaled/cluster/cluster.py:run,__destroy,__start_workers_and_run_forever"])

p("C76", "Everything submitted can be finished",
  "While a worker is connected, no state is a dead end: turns of the routines and results of the workers lead on to a state in which no task is held, every submission of a single task has been refused or answered, and every graph that nobody cancelled has been answered.",
  "all reachable states, all values the workers answer with",
  "a lost task shows only as an answer that never comes, after a history of any length",
  ["scaled/scheduler/task_manager.py:routine,on_task_result", "scaled/scheduler/graph_manager.py:routine,on_task_done", "scaled/scheduler/worker_manager.py:assign_task_to_worker"])

p("C77", "A worker says goodbye and leaves no processor behind",
  "Whenever a worker ends, it has told the scheduler that it leaves, exactly once and after everything else it sends, and all processors it started have been killed. It ends on SIGINT and when the scheduler has not answered a heartbeat for the death timeout, and at no other time.",
  "all sequences of messages from scheduler and processor, loop turns, clock values and signals",
  "the end can come between any two events, and each handler may raise",
  ["scaled/worker/worker.py:run,__get_loops,__register_signal,__destroy", "scaled/worker/agent/processor_manager.py:destroy,__kill", "scaled/utility/event_loop.py:create_async_loop_routine"])

p("C78", "Every setting reaches the part it is for",
  "scaled_scheduler, scaled_cluster and scaled_top start exactly with the settings their command line asks for (options in any order, the last value of an option counting, documented defaults otherwise); everything else is refused with a usage message, apart from an address that is not tcp and a missing uvloop. All workers of a cluster get the settings of the cluster. SchedulerClusterCombo hands its settings, including the event loop, to scheduler and cluster. The monitor address of a scheduler can be given to scaled_top and belongs to one host and port only.",
  "all command lines (lists of arbitrary words), all argument values of SchedulerClusterCombo, all numbers of processors",
  "command lines are unbounded lists; a value may repeat, be missing, look like an option or be given twice",
  ["scaled/entry_points/scheduler.py:get_args,main", "scaled/entry_points/cluster.py:get_args,main", "scaled/entry_points/top.py:get_args,poke", "scaled/cluster/combo.py:__init__", "scaled/cluster/scheduler.py:__init__,run", "scaled/cluster/cluster.py:__start_workers_and_run_forever", "scaled/scheduler/main.py:__init__", "scaled/utility/event_loop.py:register_event_loop", "scaled/io/config.py"])

p("C79", "The log goes where it is told to",
  "setup_logger makes one handler per place: the screen for '-' and '/dev/stdout', a file for every other name. A line is written to exactly these places, once each, if its level is at least the level of the log (and DEBUG); sockets and unknown levels are refused. A TimedLogger shows the elapsed time (below 2^53 ns) to the microsecond, and a ScopedLogger writes its two lines and passes on result or exception of its body.",
  "all lists of names, all levels, all readings of the clock",
  "names may repeat or coincide with the internal name of a handler",
  ["scaled/utility/logging/utility.py:setup_logger,__detect_log_types,__logging_config", "scaled/utility/logging/scoped_logger.py:TimedLogger,ScopedLogger", "scaled/utility/logging/decorators.py:log_function"])

p("C80", "No message ends a client, and every answer resolves a future",
  "A client handles every message the scheduler sends it without its connector thread raising, and every TaskResult or GraphTaskResult for a task whose future is in the table resolves that future. Messages about nothing the client waits for change nothing.",
  "all histories of one client's calls and received messages; all executions of a scheduler with clients and workers",
  "an exception ends the thread that resolves all futures; any interleaving of submit, cancel and messages can precede it",
  ["scaled/client.py:__on_receive,__on_task_echo,__on_function_response,__on_task_result,__on_graph_task_result", "scaled/io/sync_connector.py:__run", "scaled/scheduler/task_manager.py:on_task_new"])

p("C81", "The scheduler runs until a signal and ends tidily",
  "The scheduler process runs its six loops until it gets SIGINT or SIGTERM; from then on it handles and sends nothing, destroys both sockets and returns. It ends at no other time without an exception of a loop, and whenever it ends its sockets are destroyed. A loop does its work whenever its sleep is over; the routines that clean up and report run at most once a second.",
  "all interleavings of turns, frames, clock values, signals and passes of the event loop",
  "a signal or an exception can come between any two turns; an exception reaches the process only after further passes of the event loop",
  ["scaled/scheduler/main.py:get_loops,scheduler_main", "scaled/utility/event_loop.py:create_async_loop_routine", "scaled/entry_points/scheduler.py:main", "scaled/cluster/scheduler.py:run"])
p("C82", "Shutting down scheduler and workers that were started together",
  "SchedulerClusterCombo.shutdown can be called at any time and any number of times without an exception; after it the scheduler has ended and every running worker has been interrupted. A combination whose constructor failed can be destroyed without an exception.",
  "all interleavings of start-up, steps and signals of the processes, every point at which the constructor can fail",
  "the processes start in the background; shutdown can meet them in any state",
  ["scaled/cluster/combo.py", "scaled/cluster/cluster.py", "scaled/cluster/scheduler.py"])
p("C83", "The scheduler survives its own clients and workers",
  "In a system of scheduler, clients and workers of this code, no message that a client or worker sends and no routine makes the scheduler raise.",
  "every interleaving of any number of clients, workers and processors, lost, delayed and reordered messages, joining, leaving and silent workers, clients that end",
  "an exception ends the scheduler process and with it every task of every client",
  ["scaled/scheduler/main.py", "scaled/scheduler/worker_manager.py", "scaled/scheduler/graph_manager.py", "scaled/scheduler/task_manager.py", "scaled/client.py", "scaled/worker/worker.py"])
p("C84", "No task is lost between scheduler and worker",
  "In every state of a system, a task that the scheduler counts as given to a worker is on the way to this worker, or held there (queued, in hand or with the processor), or its result or its return is on the way back to the scheduler.",
  "every interleaving of any number of clients, workers and processors, delayed and reordered messages, joining, leaving and silent workers, cancels, load balancing, graphs",
  "a task that is nowhere while the scheduler waits for it is never finished and its client waits for ever; results, cancels, balancing and time-outs cross each other",
  ["scaled/scheduler/worker_manager.py", "scaled/scheduler/task_manager.py", "scaled/scheduler/allocators/queued.py", "scaled/worker/agent/task_manager.py", "scaled/worker/agent/processor_manager.py"])
p("C85", "No submitted task is lost or duplicated",
  "In every state of a system, there is exactly one copy of a task that a user submitted: with the client (in submit, waiting for the function, in the queue of the connector), on the way to the scheduler, refused with the refusal on the way back, held by the scheduler (waiting, being placed, or with a worker as in C84), or its result was sent to the client, where it is on the way or has arrived.",
  "every interleaving of the two threads of any number of clients, of workers and processors, delayed and reordered messages, refusals and resubmissions, cancels, clients that end",
  "a task that is nowhere leaves its future unresolved for ever; a task that is in two places runs twice; the client's two threads, refusals and results cross each other",
  ["scaled/client.py", "scaled/io/sync_connector.py", "scaled/scheduler/task_manager.py", "scaled/scheduler/client_manager.py", "scaled/scheduler/worker_manager.py"])
p("C86", "No graph is lost",
  "In every state of a system, a graph that a user asked for is with the client, on the way to the scheduler, waiting there to be unpacked, or one of its nodes is with the scheduler or a worker as in C84 or was refused because of the limit on waiting tasks, or its result is on the way to the client or has arrived, or the client has ended and cancelled it.",
  "every interleaving of any number of clients, workers and processors, any graphs that get accepts, delayed and reordered messages, clients that end",
  "a graph without a node at work is never answered and its client waits for ever in get",
  ["scaled/client.py", "scaled/scheduler/graph_manager.py", "scaled/scheduler/task_manager.py", "scaled/scheduler/worker_manager.py"])

p("C87", "A processor collects garbage in time",
  "A call of the memory cleaner collects garbage exactly if the last collection (or the start of the processor) is at least the configured interval ago, and gives memory back to the operating system exactly if it collects and the resident size reaches the configured threshold. If the clock does not go back, two collections are at least the interval apart.",
  "every sequence of calls, every reading of the clock and of the resident size, every interval and threshold, also negative ones",
  "a processor that never collects grows until the machine has no memory left, one that collects at each call slows down the tasks",
  ["scaled/worker/agent/processor/cache_cleaner.py"])

p("C88", "The running task of a worker is somewhere",
  "The task that an agent counts as running is on the way to its current processor, or the processor works on it, or the processor waits for the function of the task and the question or its answer is under way (or the scheduler refused it as unknown), or its result is on the way back to the agent. The processor has no other task. When the loop of the agent waits for the processor, the announcement of the processor is under way; when it waits for the lock, a task runs.",
  "every state of every system of a scheduler, clients, workers and processors, messages arriving in any order",
  "if the task of an agent is nowhere, the agent keeps its lock for ever, its queue is never served and all tasks that the scheduler gave it are lost",
  ["scaled/worker/agent/processor_manager.py", "scaled/worker/agent/task_manager.py", "scaled/worker/agent/processor/processor.py", "scaled/scheduler/function_manager.py"])

p("C89", "A task is run at most once",
  "In a whole system a task is given to at most one processor of one worker, at most once, and that processor answers it at most once.",
  "every run of every system of a scheduler, clients, workers and processors, messages arriving in any order",
  "a task with an effect outside the system (a payment, a write to a file) that runs twice has its effect twice",
  ["scaled/scheduler/worker_manager.py", "scaled/scheduler/task_manager.py", "scaled/worker/agent/task_manager.py", "scaled/worker/agent/processor_manager.py"])

p("C90", "A system that comes to rest has answered everything",
  "When nothing is left to do in a system - every message arrived, no call of a user is unfinished, and the routines of the scheduler, the agents and the processors find nothing to do - every task and every graph that users submitted has its result, provided a worker is connected and a worker may have a task.",
  "every state of every system of a scheduler, clients, workers and processors, messages arriving in any order",
  "otherwise a user waits for ever for a result that nobody works on: the system hangs",
  ["scaled/client.py", "scaled/scheduler/task_manager.py", "scaled/scheduler/allocators/queued.py", "scaled/utility/queues/async_priority_queue.py", "scaled/scheduler/function_manager.py", "scaled/worker/agent/processor_manager.py"])

p("C91", "Left alone, a system comes to rest",
  "If from some point on users make no calls, nobody joins or leaves and no timer fires, a system of a scheduler, clients, workers and processors does only finitely many things: no message goes round in circles, no task is passed on for ever. From every state such events lead to one in which nothing is left to do, and that is a system at rest (C90) unless a part of it ends with an exception.",
  "every infinite run and every reachable state of every system, messages arriving in any order",
  "a loop of messages between parts would use the machine and the network without end though nobody asks for anything, and a task that is passed on for ever is never answered",
  ["scaled/client.py", "scaled/scheduler/main.py", "scaled/scheduler/task_manager.py", "scaled/scheduler/graph_manager.py", "scaled/scheduler/worker_manager.py", "scaled/worker/worker.py", "scaled/worker/agent/processor_manager.py", "scaled/worker/agent/processor/processor.py"])

p("C92", "Calls of a client return what their tasks returned, and one that fails harms no other",
  "`map` and a blocking `get` return the results of their own tasks in the order of the calls or keys, or raise what the first task without a result raises; `submit` and a `get` that does not block return new futures. After a call raised, the client can be used again, and the futures of other calls keep their chance of a result.",
  "every sequence of calls, cancellations, messages and steps of the two threads, also when the thread of the connector ends with an exception in the middle of a loop",
  "a user who catches the exception of one failed task goes on with a client on which nothing is ever answered and waits for ever; other work is cancelled without being asked for",
  ["scaled/client.py", "scaled/io/sync_connector.py"])

p("C93", "Nodes of a graph are handed out in the order of their needs",
  "The sorter of the graph manager hands out every node once, and not before everything that it needs was reported done; a node that is not handed out or was reported before is not accepted; it stays active as long as a node is left and never gets stuck. A graph is refused with CycleError exactly if one of its nodes needs itself in the end.",
  "every graph, of any size and shape, and every order of reports",
  "a task that starts before its arguments exist has nothing to work on; a sorter that gets stuck leaves a graph unanswered",
  ["scaled/scheduler/graph_manager.py"])

p("C94", "A call of the user brings what the functions give, through the whole system",
  "`map(f, xs)` returns a list as long as `xs` with what `f` returned on `xs[i]` at place `i`; if it raises what a task raised, this is what `f` raised on some `xs[i]`. A blocking `get` returns the given keys in order, each with the value of its node in the user's graph.",
  "every run of any number of clients and workers with one scheduler, with messages delayed, lost or out of order, workers lost and tasks rerouted",
  "it is what the user of the library relies on: the cluster computes what the plain program would compute",
  ["scaled/client.py", "scaled/scheduler/task_manager.py", "scaled/scheduler/graph_manager.py", "scaled/worker/agent/processor/processor.py"])

p("C95", "A call that waits comes to an end",
  "When no worker with a task was given up, no worker was asked to cancel anything, there is a worker, and the system came to rest with right loads, then the future of every `submit` holds a result or an exception, the futures of every graph hold results or the first one an exception, and a `map` or blocking `get` that still waits ends after finitely many steps of the user's thread and one look of the connector at its stop flag, whether it returns or raises.",
  "every run of any number of clients and workers with one scheduler in which no message reaches a client inside its own `submit`",
  "a call that never returns is the worst that can happen to the user",
  ["scaled/client.py", "scaled/io/sync_connector.py", "scaled/scheduler/task_manager.py", "scaled/scheduler/graph_manager.py"])

p("C96", "A worker survives what its tasks do",
  "Whatever a task's function does when it is called, the processor answers the task, and the worker goes on to its next task.",
  "every state of a system, every function and arguments; functions that return or raise",
  "one task must not take away a worker and all tasks behind it",
  ["scaled/worker/agent/processor/processor.py", "scaled/worker/agent/processor_manager.py", "scaled/worker/agent/task_manager.py"])
p("C97", "A system that runs as it should answers every submitted task and every graph",
  "As long as workers and clients stay, nobody cancels, functions can be loaded and results and exceptions can be pickled, no handler fails, and after finitely many further messages and steps every task that was submitted has a future that holds its result or exception, and every future that get returned holds the value of its node; a map or a blocking get that waits then ends with these.",
  "every state that such a run can reach, any number of clients, workers, tasks and graphs; the functions of graphs return and are not taken away by the cache cleaner in the middle of a call; keys of get as in C63; no limit on waiting tasks (max waiting < 0), a worker with room; messages to one client arrive in order, and none while it is inside submit or get; the task routine gets its turn after every event that could feed it",
  "whole-system liveness: it joins scheduler, agents, processors and clients, and needs every message handler on the way",
  ["scaled/scheduler/task_manager.py", "scaled/scheduler/worker_manager.py", "scaled/scheduler/function_manager.py", "scaled/client/client.py", "scaled/worker/agent/task_manager.py", "scaled/worker/agent/processor_manager.py", "scaled/worker/agent/processor/processor.py"])
p("C98", "The load that is shown is the load that was measured",
  "The share of a processor that psutil measures, to a tenth of a percent, is what a heartbeat carries and what the monitor shows; a heartbeat that was read and is written again carries the same value.",
  "all loads below 6553.6 percent, with the rounding of every float operation on the way",
  "operators read the monitor; the message codec must not change values",
  ["scaled/protocol/python/message.py", "scaled/worker/agent/heartbeat_manager.py", "scaled/utility/formatter.py", "scaled/scheduler/status_reporter.py", "scaled/entry_points/top.py"])

p("C99", "Following the balance advice balances the workers",
  "When the workers give back what the balance advice asks for and the tasks are placed again, in any order, no worker has two tasks more than another, and then nothing more is asked for; whatever is given back, no worker ends with more than it had or more than the mean rounded up.",
  "every state that calls of the allocator can reach, every number of workers and tasks, every order of taking away and placing",
  "otherwise balancing would move tasks round and round, or pile them up",
  ["scaled/scheduler/allocators/queued.py", "scaled/scheduler/worker_manager.py"])

p("C100", "The function that is sent is the function that was submitted",
  "submit, map and get send the function as it is at the moment of the call, however often and in whatever state it was submitted before; a function that cannot be sent raises and leaves the client as it was.",
  "every sequence of calls with any functions, which may change, may not be hashable and may not be picklable",
  "a stale function gives plausible but wrong results, and only for objects that change between calls",
  ["scaled/client.py"])

p("C101", "Nothing is kept for what is finished",
  "At every moment each table of the scheduler is no larger than what is open: the tasks held, the graphs under way with their nodes, and the connected workers; when every task and graph has been answered, the scheduler keeps nothing of them, neither owners, places, nodes nor claims on functions; a client whose calls were answered and a worker whose tasks were answered or given back keep nothing of them either; and every fair run of a system in which everything goes as it should comes to a state in which nobody keeps anything.",
  "every execution of the scheduler, every configuration; every execution of a client, also with messages in the middle of calls; every execution of a worker; every system, and every fair run of an orderly one",
  "a scheduler runs for weeks; whatever is left behind by each task ends its memory",
  ["scaled/scheduler/task_manager.py", "scaled/scheduler/client_manager.py", "scaled/scheduler/graph_manager.py", "scaled/scheduler/function_manager.py", "scaled/scheduler/allocators/queued.py", "scaled/utility/one_to_many_dict.py", "scaled/client.py", "scaled/worker/agent/task_manager.py"])

p("C102", "A worker and a scheduler that answer in time do not give each other up",
  "If a worker's loop gets to its heartbeat within h of its start and of every answer, and heartbeats and answers are under way no longer than d, then with h + 2d within the limits of both sides the scheduler never declares the worker dead after its first heartbeat, and the worker never ends for want of an answer, whatever else happens in the system. The bounds cannot be smaller.",
  "all timed executions of whole systems; clocks of the two machines may differ",
  "two timers and three loops on two machines; a false alarm needs a particular timing of all of them",
  [HB, TO, WM+":on_heartbeat,__clean_workers"])

p("C103", "The cleaner outlives its look at the cached functions",
  "Whatever the main thread of a processor does meanwhile, the cleaner thread gets to the end of its look for idle functions and is not ended by it. Its list has each function at most once, only functions that were idle when it began, and all functions that are idle when it ends.",
  "every dictionary, also with holes left by deletions, every interleaving of the main thread's stamps and deletions with the steps of the iteration, every clock, every retention time that is not negative",
  "when the thread is over no function is ever evicted and no garbage collected any more, and nobody is told",
  [CC+":run,__clean_function,add_function,get_function,del_function"])

p("C104", "The operations of the queues cost what their comments promise",
  "put, get and remove of the indexed queue look at and change a number of nodes that does not depend on the length of the queue. put, get, remove and decrease_priority of the priority queue look at and move a number of entries that grows with the logarithm of its length.",
  "every state of either queue, of every length, every item, every hash function and every order of the entries",
  "every submitted, finished and returned task goes through these queues, and the scheduler is one thread; a wrong answer is not the only thing a queue can do to it",
  ["scaled/utility/queues/async_indexed_queue.py:IndexedQueue,_DoubleLinkedList,_IndexedDoubleLinkedQueue", "scaled/utility/queues/async_priority_queue.py:PriorityQueue"])

p("C105", "A processor that is of no more use is over",
  "The process of a processor is over when its main thread takes no message any more, and not before unless it is killed.",
  "every runtime, every task, every interleaving of the two threads, every moment at which a signal comes after the start",
  "a process that only sleeps keeps its memory and its connection, the agent believes it has a processor, and a worker that waits for it at its end never ends",
  ["scaled/worker/agent/processor/processor.py:run,__initialize,__run_forever", CC+":__init__,run,__clean_function", "scaled/worker/agent/processor_manager.py:__kill"])

p("C106", "A worker that has ended is over as a process",
  "When a worker's loops have come to their end, in whatever way, its process and those of all its processors are over; before that its process is not over.",
  "every history of the worker, of its processors and of the signals that come after the start, every runtime",
  "a cluster waits for its workers (C75), and whoever started the cluster waits for it; a process that waits for a processor nobody speaks to any more blocks them all",
  ["scaled/worker/worker.py:run,__run_forever,__get_loops,__register_signal", "scaled/worker/agent/processor_manager.py:destroy,__kill,__start_new_processor", "scaled/worker/agent/processor/processor.py:Processor,run"])
p("C107", "Nobody waits for a queue that has something",
  "While a coroutine waits in `get` of a queue, for every item in it there is another coroutine that was woken and will look; so the one coroutine that takes from a queue of the scheduler or of a worker waits only while the queue is empty, and at its next turn gets the item that is due. Items are given out in the order in which they were put, whoever waited for them and whatever was removed, taken at once or cancelled in between.",
  "every sequence of put, get, get_nowait, remove, turns of the event loop and cancellations, any number of coroutines; for the next turn one coroutine",
  "the item can be removed, or taken by a balance request, between the moment the waiting routine is woken and the moment it runs",
  ["scaled/utility/queues/async_indexed_queue.py:IndexedQueue", "scaled/utility/queues/async_priority_queue.py:PriorityQueue", "scaled/scheduler/task_manager.py:routine", "scaled/scheduler/graph_manager.py:routine", "scaled/worker/agent/task_manager.py:routine", "scaled/scheduler/allocators/queued.py:assign_task"])
p("C108", "A worker signals and measures its own processor only",
  "The number to which a worker sends SIGTERM and the number whose figures it puts into its heartbeats belong to the processor that it started last, and that process was not waited for, so that no other process can have the number; neither call meets a number that does not exist; and when a processor is started, every processor that had ended before is waited for.",
  "every history of the worker, every moment at which a processor ends, every choice of free process numbers by the operating system",
  "a signal to a number that was given away kills a stranger, and os.kill or psutil raises for a number that nobody has, which would end the worker; the scheduler and the monitor show the figures as those of the worker",
  ["scaled/worker/agent/processor_manager.py:initialize,restart_processor,destroy,__kill,__start_new_processor", "scaled/worker/agent/heartbeat_manager.py:set_processor_pid,routine"])
p("C109", "A worker that dies of an exception dies silently",
  "A handler of a worker that raises has sent nothing, neither to the scheduler nor to the processor, and has killed and started no processor, also if it had already changed its own tables when it raised.",
  "every state of the worker, every message and every turn of its loops, handlers as sequences of assignments that stay when a later statement raises",
  "the scheduler learns of the death of such a worker only by its silence (C27) and gives its tasks to others; an answer that was sent before the exception would make it count a task as done that a dead worker held, and a processor started by it would be left behind (C77)",
  ["scaled/worker/worker.py:__on_receive_external", "scaled/worker/agent/task_manager.py:on_task_new,on_cancel_task,on_balance_request,__processing_task", "scaled/worker/agent/processor_manager.py:on_task,on_function_request,on_function_response,on_cancel_task,restart_processor,__on_internal_task_result,__on_internal_function_request", "scaled/worker/agent/heartbeat_manager.py:routine,on_heartbeat_echo", "scaled/worker/agent/timeout_manager.py:routine"])

p("C110", "A call that is refused leaves nothing behind",
  "If submit, map or get raises before it waits for results, because the function or an argument cannot be pickled, arguments are missing, or a graph is not in order, then nothing was submitted: the client has no new task, no new future and no new message to send. If it does not raise it submitted exactly what was asked for.",
  "every state of the client, every function with or without a hash, a signature and a pickled form, all arguments and keywords, all iterables that can be iterated twice, all graphs and keys",
  "the caller gets an exception and no future; work submitted nevertheless is computed for nobody, cannot be cancelled, and its entries stay in the tables of the client; a caller that corrects the arguments and calls again has it done twice",
  ["scaled/client.py:submit,map,get,__get_function_id,__convert_kwargs_to_args,__split_data_and_graph,__check_graph,__construct_graph"])

p("C111", "Balancing keeps the interval that was set",
  "Between two times at which the scheduler asks workers to give tasks back there are at least load_balance_seconds seconds; with a setting of 0 or less it never asks.",
  "every execution of the scheduler in which the turns of the worker manager are at least a second apart, every setting of load_balance_seconds and load_balance_trigger_times",
  "the settings are documented as the number of seconds for load balancing, 0 for none (io/config.py 27-32); somebody who sets a long interval does so because moving tasks is expensive",
  ["scaled/scheduler/worker_manager.py:routine,__balance_request", "scaled/scheduler/main.py:get_loops", "scaled/io/config.py", "scaled/utility/event_loop.py:create_async_loop_routine"])

p("C112", "A clock that is set ends nobody",
  "Setting the clock of a machine forward or back makes no worker raise and makes neither the scheduler nor a worker give up a peer that answers.",
  "every reachable state of an agent and of the scheduler, every reading of the clock, every history of heartbeats and answers",
  "intervals are measured with time.time and time.time_ns, which jump when the clock of the machine is set; time.monotonic does not",
  ["scaled/worker/agent/heartbeat_manager.py:on_heartbeat_echo,routine", "scaled/worker/agent/timeout_manager.py:update_last_seen_time,routine", "scaled/scheduler/worker_manager.py:__clean_workers", "scaled/protocol/python/message.py:Heartbeat"])

out = os.path.join(os.path.dirname(os.path.dirname(os.path.abspath(__file__))), "properties.jsonl")
with open(out, "w") as f:
    for x in P:
        f.write(json.dumps(x) + "\n")
print(len(P))
