{"id": "C01", "title": "Every message survives the wire", "statement": "For every message object of every protocol type whose fields fit the wire format, deserializing the frames produced by serialize() gives back an equal message: same ids, same payload bytes, same argument list in the same order, same statuses, same counts.", "quantifier": "all messages of all 20 protocol types: any ids, any payload bytes, any number of arguments, functions, targets, graph nodes, results", "why_tests_cant": "lists, nested frames and payload contents are unbounded; tests sample a handful of shapes", "anchors": ["scaled/protocol/python/message.py:*.serialize/deserialize", "scaled/io/async_binder.py:send/routine"]}
{"id": "C02", "title": "Frames are self-describing", "statement": "The frame list sent for any message is accepted by the receiver's validity check (enough frames, known type tag), the tag selects the class that was sent, and no two different messages are ever sent as the same frames.", "quantifier": "all pairs of messages of all types", "why_tests_cant": "a confusion needs a particular pair of payloads of different types; the pair space is infinite", "anchors": ["scaled/protocol/python/message.py:MessageType,PROTOCOL", "scaled/io/async_binder.py:__is_valid_message", "scaled/io/async_connector.py:__is_valid_message"]}
{"id": "C03", "title": "Exactly which messages cannot be sent", "statement": "Sending a message fails if and only if a numeric field does not fit its fixed-width wire field (16-bit cpu permille and queue length, 32-bit counts, 64-bit rss), or the message is a graph with an empty function table. Every other message is sent.", "quantifier": "all messages of all types, all integers", "why_tests_cant": "the boundary is a predicate over unbounded integers and lists", "anchors": ["scaled/protocol/python/message.py:Heartbeat.serialize,GraphTask.serialize,BalanceRequest.serialize"]}
{"id": "C04", "title": "A malformed frame list cannot be mistaken for a message", "statement": "For arbitrary received frames, decoding either is refused (dropped or raises) or yields a message whose own encoding is decoded to that same message again (a graph without functions has no encoding and is the one exception); a graph decode always terminates and consumes all frames.", "quantifier": "all lists of byte strings", "why_tests_cant": "input space is all byte strings; fuzzing only samples it", "anchors": ["scaled/protocol/python/message.py:*.deserialize", "scaled/io/async_binder.py:routine"]}
{"id": "C05", "title": "IndexedQueue is a FIFO of unique items", "statement": "After any sequence of put, get and remove, get returns the oldest item still in the queue, remove(x) removes exactly x and keeps the order of the rest, len and membership are exact; provided the stored items have pairwise different hash values.", "quantifier": "all operation sequences of any length over any hashable items", "why_tests_cant": "linked-list pointer bugs show only after particular interleavings of head/middle/tail removals", "anchors": ["scaled/utility/queues/async_indexed_queue.py:IndexedQueue,_DoubleLinkedList,_IndexedDoubleLinkedQueue"]}
{"id": "C06", "title": "IndexedQueue misuse raises and changes nothing", "statement": "put of an item already queued raises KeyError, remove of an absent item raises KeyError, get on an empty queue raises QueueEmpty, and in each case the queue is unchanged.", "quantifier": "all reachable queue states and all items", "why_tests_cant": "needs all states, including after many removals", "anchors": ["scaled/utility/queues/async_indexed_queue.py:_IndexedDoubleLinkedQueue.put/get/remove"]}
{"id": "C07", "title": "The worker priority queue always yields a least loaded worker", "statement": "After any sequence of put, get, remove and decrease_priority, get returns the entry with the smallest (priority, worker id) among those stored, and exactly the stored entries can ever be returned.", "quantifier": "all operation sequences of any length (binary heap with in-place priority changes)", "why_tests_cant": "heap-order violations depend on heap shape; unbounded sizes", "anchors": ["scaled/utility/queues/async_priority_queue.py:PriorityQueue", "heapq:_siftdown,_siftup"]}
{"id": "C08", "title": "Priority changes are never lost", "statement": "After max_priority() is consulted, a later decrease_priority(w) still lowers w's stored priority by one and remove(w) still removes w.", "quantifier": "all operation sequences that include max_priority", "why_tests_cant": "needs the particular order consult / decrease without a get in between", "anchors": ["scaled/utility/queues/async_priority_queue.py:PriorityQueue.max_priority,decrease_priority,remove"]}
{"id": "C09", "title": "A task is assigned to at most one worker", "statement": "At any time every task known to the allocator is assigned to exactly one connected worker, and the per-worker task sets and the task-to-worker lookup agree.", "quantifier": "all sequences of add/remove worker, assign, remove task", "why_tests_cant": "history property over unbounded sequences", "anchors": ["scaled/scheduler/allocators/queued.py:QueuedAllocator"]}
{"id": "C10", "title": "A worker is never given more than its queue size", "statement": "No worker ever has more than per_worker_queue_size tasks assigned at the same time (for a non-negative queue size).", "quantifier": "all schedules of submissions, results, disconnects, balance responses", "why_tests_cant": "needs every interleaving; counts are kept in a separate heap", "anchors": ["scaled/scheduler/allocators/queued.py:assign_task,remove_task"]}
{"id": "C11", "title": "A worker with a free slot is usable", "statement": "If some connected worker has fewer than per_worker_queue_size tasks assigned, the scheduler treats it as available: assign_task succeeds and has_available_worker is true.", "quantifier": "all reachable allocator states", "why_tests_cant": "requires the load counter to be exact after every history", "anchors": ["scaled/scheduler/allocators/queued.py:has_available_worker,assign_task", "scaled/utility/queues/async_priority_queue.py:max_priority"]}
{"id": "C12", "title": "Tasks go to a least loaded worker", "statement": "A newly assigned task goes to a worker whose recorded load is minimal among connected workers, and its recorded load rises by exactly one.", "quantifier": "all reachable allocator states", "why_tests_cant": "universal over states", "anchors": ["scaled/scheduler/allocators/queued.py:assign_task"]}
{"id": "C13", "title": "Removing a worker hands back exactly its tasks", "statement": "Removing a worker returns precisely the tasks assigned to it, leaves no task assigned to it and does not touch other workers' tasks.", "quantifier": "all reachable allocator states, all workers", "why_tests_cant": "universal over states", "anchors": ["scaled/scheduler/allocators/queued.py:remove_worker"]}
{"id": "C14", "title": "Balance advice is sound", "statement": "Balance advice is non-empty only if some worker is idle while another has tasks; it names only workers above the mean, asks each for at least one and at most its assigned number of tasks, leaves each named worker at or below the mean but more than mean-1, and never asks for more in total than the idle and below-mean workers can absorb up to mean+1 each.", "quantifier": "all assignments of task counts to any number of workers", "why_tests_cant": "arithmetic claim over all count vectors", "anchors": ["scaled/scheduler/allocators/queued.py:balance"]}
{"id": "C15", "title": "Balance requests are debounced", "statement": "The scheduler sends balance requests at a routine tick iff load balancing is enabled, the current advice is non-empty and this is exactly the load_balance_trigger_times-th consecutive tick with the same advice; then it sends each named worker exactly its advised number.", "quantifier": "all sequences of ticks and advices, all trigger settings", "why_tests_cant": "unbounded sequences of ticks", "anchors": ["scaled/scheduler/worker_manager.py:__balance_request"]}
{"id": "C16", "title": "Every accepted task is answered exactly once or is still held", "statement": "For every task id that is not a graph node: the number of times the scheduler acknowledged it with SubmitOK to a client equals the number of TaskResult messages for it sent to that client plus one if the scheduler still holds it. In particular no accepted task is dropped and no result is delivered twice, as long as the scheduler is running.", "quantifier": "all message histories, worker deaths, timeouts, reroutes, cancels, routine interleavings (clients use fresh task ids)", "why_tests_cant": "history property over all interleavings and crash points of workers", "anchors": ["scaled/scheduler/task_manager.py:on_task_new,on_task_done,on_task_reroute,routine", "scaled/scheduler/worker_manager.py:__disconnect_worker,on_balance_response,on_task_done"]}
{"id": "C17", "title": "Results go to the client that submitted the task", "statement": "Every TaskResult the scheduler sends for a task goes to the client whose submission was acknowledged before, never to another client.", "quantifier": "all histories with any number of clients", "why_tests_cant": "needs all interleavings of clients", "anchors": ["scaled/scheduler/client_manager.py:on_task_new,on_task_done", "scaled/scheduler/task_manager.py:on_task_done"]}
{"id": "C18", "title": "A held task is waiting, being placed, or on exactly one connected worker", "statement": "At any time every task the scheduler holds is in exactly one of: the waiting queue, the placement step, or assigned to exactly one connected worker; and only held tasks are there.", "quantifier": "all reachable scheduler states", "why_tests_cant": "invariant over unbounded histories", "anchors": ["scaled/scheduler/task_manager.py:routine,on_task_reroute", "scaled/scheduler/allocators/queued.py:assign_task"]}
{"id": "C19", "title": "Losing a worker loses no task", "statement": "When a worker disconnects or times out, every task assigned to it is put back in the waiting queue, nothing else changes hands, and the worker gets no further task until it sends a heartbeat again.", "quantifier": "all reachable states, all crash points of workers, all set iteration orders", "why_tests_cant": "crash point and ordering are universally quantified", "anchors": ["scaled/scheduler/worker_manager.py:__disconnect_worker,__clean_workers,on_disconnect"]}
{"id": "C20", "title": "A balance response moves exactly the returned tasks", "statement": "On a balance response, exactly those returned tasks that the scheduler still considers assigned go back to the waiting queue; unknown ids are ignored.", "quantifier": "all reachable states and all id lists (duplicates, unknown ids)", "why_tests_cant": "arbitrary lists and states", "anchors": ["scaled/scheduler/worker_manager.py:on_balance_response"]}
{"id": "C21", "title": "Late and duplicate results are ignored", "statement": "A TaskResult for a task that is not currently assigned to any worker has no observable effect: nothing is sent to any client and no bookkeeping changes.", "quantifier": "all reachable states, all result messages", "why_tests_cant": "depends on arbitrary message races", "anchors": ["scaled/scheduler/worker_manager.py:on_task_done"]}
{"id": "C22", "title": "Cancelling a waiting task answers it and prevents its dispatch", "statement": "A cancel for a task in the waiting queue makes the scheduler send exactly one Canceled result to its client and forget the task, so it is never sent to a worker afterwards unless resubmitted; a cancel for an assigned task is forwarded to exactly the worker holding it.", "quantifier": "all reachable states", "why_tests_cant": "race between cancel and placement", "anchors": ["scaled/scheduler/task_manager.py:on_task_cancel", "scaled/scheduler/worker_manager.py:on_task_cancel"]}
{"id": "C23", "title": "A cancel of a held task is never silently ignored", "statement": "Whenever the scheduler holds a task, a cancel for it either yields a Canceled result or is forwarded to the worker that has it.", "quantifier": "all reachable states incl. the instant between dequeue and assignment", "why_tests_cant": "needs the exact moment when no worker is connected", "anchors": ["scaled/scheduler/task_manager.py:on_task_cancel,routine"]}
{"id": "C24", "title": "Submission replies are decided by function, capacity and queue limit", "statement": "A submitted task is answered with exactly one echo: FunctionNotExists iff its function is unknown; otherwise NoWorker iff no worker is available and a non-negative waiting limit is reached; otherwise SubmitOK, and only then is it queued.", "quantifier": "all states, tasks, limits", "why_tests_cant": "decision table over all states", "anchors": ["scaled/scheduler/task_manager.py:on_task_new"]}
{"id": "C25", "title": "Waiting queue limit is respected", "statement": "With a non-negative limit L, a submission while no worker is available never makes the waiting queue longer than L.", "quantifier": "all states, all L >= 0", "why_tests_cant": "boundary over all states", "anchors": ["scaled/scheduler/task_manager.py:on_task_new"]}
{"id": "C26", "title": "Tasks are dispatched in submission order when capacity exists", "statement": "While workers have free slots, waiting tasks are sent to workers in the order they were queued; a task is sent with the function and arguments that were submitted.", "quantifier": "all queue contents and schedules", "why_tests_cant": "ordering over unbounded queues", "anchors": ["scaled/scheduler/task_manager.py:routine", "scaled/utility/queues/async_indexed_queue.py"]}
{"id": "C27", "title": "Worker liveness follows heartbeats", "statement": "A worker is dropped by the cleanup routine iff more than worker_timeout_seconds passed since its last heartbeat; every heartbeat (re)registers the worker and is echoed exactly once.", "quantifier": "all heartbeat/clock sequences", "why_tests_cant": "time is universally quantified", "anchors": ["scaled/scheduler/worker_manager.py:on_heartbeat,__clean_workers"]}
{"id": "C28", "title": "The scheduler survives any well-formed traffic", "statement": "No sequence of well-formed messages from clients and workers (fresh ids, functions registered before use, acyclic graphs) makes the scheduler raise, i.e. terminate.", "quantifier": "all well-formed message histories and interleavings", "why_tests_cant": "one bad interleaving suffices; tests cannot enumerate", "anchors": ["scaled/scheduler/main.py:on_receive_message,get_loops", "scaled/scheduler/task_manager.py", "scaled/scheduler/worker_manager.py", "scaled/scheduler/graph_manager.py", "scaled/scheduler/function_manager.py"]}
{"id": "C29", "title": "Task statistics add up", "statement": "The number of accepted submissions equals success + failed + canceled + not_found plus the number of tasks still held; producing the status report never fails on bookkeeping lookups.", "quantifier": "all histories of whole systems, and of a scheduler whose workers report only statuses that end a task", "why_tests_cant": "history accounting", "anchors": ["scaled/scheduler/task_manager.py:statistics,on_task_done", "scaled/scheduler/worker_manager.py:statistics", "scaled/scheduler/function_manager.py:statistics"]}
{"id": "C30", "title": "A function in use is never dropped", "statement": "As long as the scheduler holds a task (or an unstarted graph node) that uses a function, that function stays available in the scheduler and a worker asking for it gets it; cleanup drops a function iff it is unused and idle for more than the retention time, and then tells every connected worker.", "quantifier": "all histories and clock values", "why_tests_cant": "race between cleanup and submissions", "anchors": ["scaled/scheduler/function_manager.py:routine,on_task_use_function,on_task_done_function"]}
{"id": "C31", "title": "A function id always means the bytes first registered", "statement": "Registering a known function id does not change its name or content; a worker's request returns exactly the content of the registration that created the entry.", "quantifier": "all request histories", "why_tests_cant": "histories with many clients registering", "anchors": ["scaled/scheduler/function_manager.py:__on_function_add,__on_function_request"]}
{"id": "C32", "title": "Deleting an unused function works", "statement": "A delete request for a registered function with no task using it removes it and is answered.", "quantifier": "all reachable states", "why_tests_cant": "state dependent", "anchors": ["scaled/scheduler/function_manager.py:__on_function_scheduler_delete"]}
{"id": "C33", "title": "A graph node starts only after its inputs, with their results", "statement": "The scheduler submits a graph node only after every node it depends on has succeeded, and the arguments sent are its data arguments and the dependencies' result bytes, in the declared order.", "quantifier": "all acyclic graphs of any size and shape, all completion orders, any other concurrent traffic", "why_tests_cant": "graph shapes times completion orders is unbounded", "anchors": ["scaled/scheduler/graph_manager.py:__check_one_graph,__get_argument,__get_task_result", "graphlib:TopologicalSorter"]}
{"id": "C34", "title": "Each graph node is started at most once", "statement": "During the life of a graph, every node is submitted at most once.", "quantifier": "all acyclic graphs, all completion orders", "why_tests_cant": "as above", "anchors": ["scaled/scheduler/graph_manager.py:__check_one_graph"]}
{"id": "C35", "title": "get() returns the value of the graph", "statement": "If every started node returns the value of its function on its arguments, then a graph answered with Success carries, for each requested target in order, the value obtained by evaluating the graph.", "quantifier": "all acyclic graphs, all functions, all completion orders, any concurrent traffic", "why_tests_cant": "semantic equality over all graphs and schedules", "anchors": ["scaled/scheduler/graph_manager.py:__finish_one_graph,__get_target_results,__get_task_result", "scaled/client.py:get"]}
{"id": "C36", "title": "A graph cannot get stuck", "statement": "While a graph is unanswered and not cancelled, at least one of its nodes is submitted and unfinished; so if every submitted node finishes, the graph is answered.", "quantifier": "all acyclic graphs, all completion orders", "why_tests_cant": "deadlock freedom over all graphs", "anchors": ["scaled/scheduler/graph_manager.py:__check_one_graph,on_task_done"]}
{"id": "C37", "title": "A failed node fails the whole graph once", "statement": "When a node fails, the client gets exactly one graph result with status Failed carrying that node's error, no further node of that graph is started, and its other running nodes are cancelled.", "quantifier": "all graphs, all failure points", "why_tests_cant": "failure point universally quantified", "anchors": ["scaled/scheduler/graph_manager.py:on_task_done,__clean_graph"]}
{"id": "C38", "title": "A finished graph leaves nothing behind", "statement": "After a graph is answered, the scheduler keeps no record of it, of its finished or unstarted nodes, nor any claim on its functions by them.", "quantifier": "all graphs, all outcomes", "why_tests_cant": "leaks show only over long histories", "anchors": ["scaled/scheduler/graph_manager.py:__clean_graph,__get_task_result"]}
{"id": "C39", "title": "Graphs may use an input twice", "statement": "A node that names the same upstream node more than once among its arguments is evaluated like any other node.", "quantifier": "all acyclic graphs with repeated arguments", "why_tests_cant": "input shape outside the test suite", "anchors": ["scaled/scheduler/graph_manager.py:__get_task_result", "scaled/utility/key_value_set.py:remove_value"]}
{"id": "C40", "title": "Cancelling a graph is always safe", "statement": "A graph cancel, at any moment, makes the scheduler forget the graph and cancel its running nodes, without harming the scheduler.", "quantifier": "all moments: before the graph is unpacked, while nodes wait, while they run, after it finished", "why_tests_cant": "needs particular moments", "anchors": ["scaled/scheduler/graph_manager.py:on_graph_task_cancel,__clean_graph", "scaled/scheduler/task_manager.py:on_task_cancel"]}
{"id": "C41", "title": "Keyword arguments are bound like a Python call", "statement": "submit(fn, *args, **kwargs) sends the positional argument list that Python's own binding of the call would give, for functions of positional parameters with defaults; it raises TypeError iff a required parameter is missing.", "quantifier": "all signatures, argument lists and keyword sets", "why_tests_cant": "combinatorial input space", "anchors": ["scaled/client.py:__convert_kwargs_to_args"]}
{"id": "C42", "title": "map returns one result per item, in order", "statement": "map(fn, items) returns the list of results of fn on each item in the order of items, for any iterable.", "quantifier": "all iterables (re-iterable and one-shot), any length", "why_tests_cant": "iterator kinds and unbounded length", "anchors": ["scaled/client.py:map"]}
{"id": "C43", "title": "get returns each requested key with its own value", "statement": "The dictionary returned by get has exactly the requested keys and each maps to the future/result of that node.", "quantifier": "all graphs and key lists, including repeated keys", "why_tests_cant": "key list shapes", "anchors": ["scaled/client.py:get,__construct_graph"]}
{"id": "C44", "title": "The graph sent is the graph given", "statement": "The graph message built by get denotes the user's graph: every node that is a call becomes one task with the same function and arguments (data nodes inlined, call nodes by reference), unknown keys or arguments raise KeyError and cycles raise CycleError before anything is sent.", "quantifier": "all user graphs", "why_tests_cant": "input space unbounded", "anchors": ["scaled/client.py:__split_data_and_graph,__check_graph,__construct_graph"]}
{"id": "C45", "title": "A result resolves exactly its own future", "statement": "A Success or Failed result for a task resolves the future returned by the submit that created the task, with that result, exactly once; unknown ids change nothing.", "quantifier": "all client histories", "why_tests_cant": "history property", "anchors": ["scaled/client.py:__on_task_result,submit"]}
{"id": "C46", "title": "A submitted task is never stranded in the client", "statement": "Every submitted task whose submission is not yet acknowledged is either on its way to the scheduler, or waits for a function registration whose request or answer is on its way, or its echo is on its way back.", "quantifier": "all interleavings of user thread and network thread, all network delays", "why_tests_cant": "thread interleavings", "anchors": ["scaled/client.py:submit,__on_buffer_task_send,__on_function_response,__on_task_echo"]}
{"id": "C47", "title": "A task is only sent after its function is known, and never twice at the same time", "statement": "The client sends a task only after the scheduler acknowledged its function, and never has two copies of a task in flight.", "quantifier": "all interleavings and network delays", "why_tests_cant": "needs the retry path under all races", "anchors": ["scaled/client.py:__on_buffer_task_send,__on_function_response,__on_task_echo"]}
{"id": "C48", "title": "Every future of a failed graph fails", "statement": "When a graph fails, every future returned by get for it raises the error.", "quantifier": "all graphs with any number of targets", "why_tests_cant": "needs multi-target failing graphs, non-blocking", "anchors": ["scaled/client.py:__on_graph_task_result"]}
{"id": "C49", "title": "disconnect resolves everything outstanding", "statement": "After disconnect, every outstanding future is resolved with ScaledDisconnect and a cancel was sent for each outstanding task and graph; without a disconnect the client does not end.", "quantifier": "all client states", "why_tests_cant": "state quantified", "anchors": ["scaled/client.py:__on_exit"]}
{"id": "C50", "title": "A worker runs one task at a time and answers the right one", "statement": "At any time at most one task is handed to the processor; a result is forwarded to the scheduler only if it is for that task, and then the next task may start.", "quantifier": "all interleavings of scheduler messages, processor messages and restarts", "why_tests_cant": "races between cancel, restart and result", "anchors": ["scaled/worker/agent/processor_manager.py:on_task,__on_internal_task_result"]}
{"id": "C51", "title": "A worker loses no task", "statement": "Every task a worker received is still queued, being handed over or running, unless it was answered to the scheduler with a result or returned in a balance response.", "quantifier": "all worker histories", "why_tests_cant": "history property", "anchors": ["scaled/worker/agent/task_manager.py", "scaled/worker/agent/processor_manager.py"]}
{"id": "C52", "title": "A task reported cancelled or not found is not run afterwards", "statement": "After a worker answers a cancel with Canceled or NotFound, it does not run that task later (unless it receives it again).", "quantifier": "all worker histories", "why_tests_cant": "race with the task waiting for the processor", "anchors": ["scaled/worker/agent/task_manager.py:on_cancel_task", "scaled/worker/agent/processor_manager.py:on_cancel_task"]}
{"id": "C53", "title": "No scheduler message kills a worker", "statement": "No well-formed message sequence from the scheduler (cancels for finished tasks, late function responses) makes the worker agent raise.", "quantifier": "all message races", "why_tests_cant": "needs crossing messages", "anchors": ["scaled/worker/agent/processor_manager.py:on_cancel_task,on_function_response"]}
{"id": "C54", "title": "Balancing returns only unstarted tasks", "statement": "On a balance request for n tasks the worker returns the min(n, queued) oldest queued tasks, none of which was started, and forgets exactly these.", "quantifier": "all worker states, all n", "why_tests_cant": "state quantified", "anchors": ["scaled/worker/agent/task_manager.py:on_balance_request"]}
{"id": "C55", "title": "The processor runs the requested function on the task's arguments", "statement": "Each task the processor answers with Success carries the result of the function content registered under the task's function id applied to the task's arguments in order; if the function raises, it answers Failed with that exception; each task is answered at most once.", "quantifier": "all message sequences incl. cache hits, misses, deletions", "why_tests_cant": "cache state histories", "anchors": ["scaled/worker/agent/processor/processor.py:__on_received_task,__on_receive_function_response,__process_task", "scaled/worker/agent/processor/cache_cleaner.py"]}
{"id": "C56", "title": "Worker function cache eviction", "statement": "The worker evicts a cached function only if it was unused for more than the retention time or the scheduler asked for it, and both of its tables stay in step.", "quantifier": "all operation sequences and clocks", "why_tests_cant": "time quantified", "anchors": ["scaled/worker/agent/processor/cache_cleaner.py:add_function,get_function,del_function,__clean_function"]}
{"id": "C57", "title": "Heartbeats never pile up and silence ends the worker", "statement": "A worker has at most one unanswered heartbeat; it raises the timeout at a check iff at least death_timeout_seconds passed since it last accepted an echo (or start).", "quantifier": "all sequences of ticks and echoes, all clocks", "why_tests_cant": "time quantified", "anchors": ["scaled/worker/agent/heartbeat_manager.py", "scaled/worker/agent/timeout_manager.py"]}
{"id": "C58", "title": "Addresses parse back to themselves", "statement": "Parsing the string form of a valid address gives the same address; parsing accepts exactly the documented shapes and rejects the rest with an error.", "quantifier": "all address values and all strings", "why_tests_cant": "string space", "anchors": ["scaled/utility/zmq_config.py:ZMQConfig"]}
{"id": "C59", "title": "OneToManyDict is a two-way index", "statement": "After any operations, value v belongs to key k in the forward view iff the reverse lookup of v is k; each value has one key, no key has an empty value set; a rejected operation changes nothing.", "quantifier": "all operation sequences", "why_tests_cant": "unbounded sequences", "anchors": ["scaled/utility/one_to_many_dict.py:OneToManyDict"]}
{"id": "C60", "title": "KeyValueDictSet is a relation", "statement": "KeyValueDictSet behaves like a finite relation: add/remove_value/remove_key change exactly the named pairs, a key is present iff it has a value.", "quantifier": "all operation sequences", "why_tests_cant": "unbounded sequences", "anchors": ["scaled/utility/key_value_set.py:KeyValueDictSet"]}
{"id": "C61", "title": "Display formatters are total where used and pick the right unit", "statement": "format_bytes shows the largest unit b/k/m/g/t in which the number is at least 1 (b below 1024) and raises iff the number is 1024^5 or more; format_microseconds similarly and raises iff 10^9 or more.", "quantifier": "all non-negative numbers", "why_tests_cant": "number range", "anchors": ["scaled/utility/formatter.py"]}
{"id": "C62", "title": "submit(...).result() is the function's value", "statement": "In a system of clients, one scheduler and workers connected by channels with arbitrary delay, if a submit future resolves with a value then the value is the function applied to the submitted arguments, whatever worker deaths, reroutes, duplicate executions and cancels happened.", "quantifier": "all system executions: any number of clients and workers, message delays, worker deaths, timeouts", "why_tests_cant": "global interleavings", "anchors": ["scaled/client.py", "scaled/scheduler/main.py", "scaled/worker/worker.py"]}
{"id": "C63", "title": "get(...) is the graph's value end to end", "statement": "In the same system, if get returns, every returned value is the value of that node of the user's graph.", "quantifier": "all system executions and graphs", "why_tests_cant": "global interleavings", "anchors": ["scaled/client.py", "scaled/scheduler/graph_manager.py", "scaled/worker/worker.py"]}
{"id": "C64", "title": "The processor answers every task it was given", "statement": "Whatever the function, the arguments and the exception are, the processor ends the work on a task by sending a result for it.", "quantifier": "all function contents, arguments, exceptions and message sequences", "why_tests_cant": "needs functions that cannot be loaded and exceptions that cannot be pickled", "anchors": ["scaled/worker/agent/processor/processor.py:__on_receive_function_response,__process_task"]}
{"id": "C65", "title": "The bytes on the wire are the documented ones", "statement": "Every sent message is its two-letter tag followed by exactly the documented frames: field order, number widths, byte order and alignment; a received message is only ever decoded under its own tag.", "quantifier": "all messages and all received frame lists", "why_tests_cant": "a symmetric change of encoder and decoder passes every round-trip test", "anchors": ["scaled/protocol/python/message.py", "scaled/io/async_connector.py:send", "scaled/io/async_binder.py:send"]}
{"id": "C66", "title": "The status report tells the truth", "statement": "The report has one row per connected worker with the number of tasks given and free, its last heartbeat and its age; one row per client with what it owns; one row per function in use with the number of uses.  A name can be reported iff it is a text in UTF-8.", "quantifier": "all executions", "why_tests_cant": "needs long runs with several clients, functions and worker deaths", "anchors": ["scaled/scheduler/worker_manager.py:statistics", "scaled/scheduler/client_manager.py:statistics", "scaled/scheduler/function_manager.py:statistics", "scaled/scheduler/status_reporter.py"]}
{"id": "C67", "title": "Function requests are answered exactly", "statement": "A check answers whether the function is registered; an add registers a new function or answers Duplicated; nothing else changes.", "quantifier": "all scheduler states and requests", "why_tests_cant": "state space", "anchors": ["scaled/scheduler/function_manager.py:on_function"]}
{"id": "C68", "title": "Every message the scheduler sends goes to a peer that prompted it", "statement": "Tasks, cancels, heartbeat echoes, balance requests and function deletions go only to peers that sent heartbeats; echoes and results go only to the peer that submitted the task or graph; other answers go to the peer that asked. So clients and workers never get a kind of message they cannot handle.", "quantifier": "all executions with any number of clients and workers", "why_tests_cant": "a misaddressed message needs a particular interleaving of several peers", "anchors": ["scaled/scheduler/main.py", "scaled/scheduler/task_manager.py", "scaled/scheduler/worker_manager.py", "scaled/scheduler/function_manager.py", "scaled/scheduler/graph_manager.py", "scaled/scheduler/client_manager.py"]}
{"id": "C69", "title": "A heartbeat tells the truth about the worker", "statement": "Every heartbeat carries the number of queued tasks, the latency shown by the last answered heartbeat, whether the processor has announced itself, whether it has a task, and whether the task lock is held; none is sent while one is unanswered.", "quantifier": "all histories of the worker agent", "why_tests_cant": "the fields change with every interleaving of scheduler and processor messages", "anchors": ["scaled/worker/agent/heartbeat_manager.py", "scaled/worker/agent/processor_manager.py", "scaled/worker/agent/task_manager.py"]}
{"id": "C70", "title": "The monitor is shown what happens", "statement": "The last status published for a task says where it is (waiting, with a worker, asked to stop, ended); statuses follow each other only in legal ways; running and canceling are published exactly with the dispatches and cancels sent, in order; names shown are those given for the task's function; every node of a graph is published with its kind and its inputs.", "quantifier": "all executions with any number of clients and workers", "why_tests_cant": "the stream spans the whole life of every task under every interleaving", "anchors": ["scaled/scheduler/task_manager.py:__send_monitor", "scaled/scheduler/graph_manager.py:__add_new_graph"]}
{"id": "C71", "title": "The scheduler's socket passes everything on and counts it", "statement": "As long as the scheduler process runs, the scheduler has handled exactly the messages that came in, in order, frames that are no message left out; what it said is on the wire in the documented layout, in order, and every message it says has a wire form; the counters in the status report are the numbers of messages of each type that came in and went out.", "quantifier": "all sequences of frames of any peers and routine turns", "why_tests_cant": "counters and encodings depend on the whole history; an unencodable message needs a particular state of the books", "anchors": ["scaled/io/async_binder.py:routine,send,statistics"]}
{"id": "C72", "title": "Malformed frames cannot end the scheduler", "statement": "Whatever frames a peer sends, the scheduler process survives; frames that do not read as a message have no effect.", "quantifier": "all lists of byte strings, in every state", "why_tests_cant": "the readable payloads are an infinite set with length fields and nested lists", "anchors": ["scaled/io/async_binder.py:routine,__is_valid_message", "scaled/protocol/python/message.py:*.deserialize"]}
{"id": "C73", "title": "The display shows every status", "statement": "Every status the scheduler publishes is shown: each figure in its cell, columns as wide as their widest cell, nothing drawn over something else, workers sorted by the chosen column with the greatest first and equal ones in their order; a terminal that is too small gets a note. States are shown in the order received until a message of unknown type arrives.", "quantifier": "all statuses, terminal sizes, keys and frame sequences", "why_tests_cant": "positions depend on the lengths of all cells and of four tables", "anchors": ["scaled/entry_points/top.py"]}
{"id": "C74", "title": "The connectors pass everything on and count it", "statement": "The callback of a connector gets exactly the messages that came in, in order, frames that are no message left out; what is handed over leaves in the documented layout and in order, and nothing else leaves; the statistics are the numbers of messages of each type received and sent; the exit callback is called once, after all messages.", "quantifier": "all sequences of frames, sends, stops and thread steps", "why_tests_cant": "sends come from another thread at any moment; what is lost depends on when the stop comes", "anchors": ["scaled/io/async_connector.py", "scaled/io/sync_connector.py"]}
{"id": "C75", "title": "A signal to the cluster stops its workers", "statement": "Whenever the master process of a cluster gets SIGINT or SIGTERM, it interrupts every worker that runs, and does not fail; it ends when it has waited for all its workers, each started once.", "quantifier": "all numbers of workers and all interleavings of start-up, signals and ends of workers", "why_tests_cant": "the handler runs between any two steps of start-up and join", "anchors": ["scaled/cluster/cluster.py:run,__destroy,__start_workers_and_run_forever"]}
{"id": "C76", "title": "Everything submitted can be finished", "statement": "While a worker is connected, no state is a dead end: turns of the routines and results of the workers lead on to a state in which no task is held, every submission of a single task has been refused or answered, and every graph that nobody cancelled has been answered.", "quantifier": "all reachable states, all values the workers answer with", "why_tests_cant": "a lost task shows only as an answer that never comes, after a history of any length", "anchors": ["scaled/scheduler/task_manager.py:routine,on_task_result", "scaled/scheduler/graph_manager.py:routine,on_task_done", "scaled/scheduler/worker_manager.py:assign_task_to_worker"]}
{"id": "C77", "title": "A worker says goodbye and leaves no processor behind", "statement": "Whenever a worker ends, it has told the scheduler that it leaves, exactly once and after everything else it sends, and all processors it started have been killed. It ends on SIGINT and when the scheduler has not answered a heartbeat for the death timeout, and at no other time.", "quantifier": "all sequences of messages from scheduler and processor, loop turns, clock values and signals", "why_tests_cant": "the end can come between any two events, and each handler may raise", "anchors": ["scaled/worker/worker.py:run,__get_loops,__register_signal,__destroy", "scaled/worker/agent/processor_manager.py:destroy,__kill", "scaled/utility/event_loop.py:create_async_loop_routine"]}
{"id": "C78", "title": "Every setting reaches the part it is for", "statement": "scaled_scheduler, scaled_cluster and scaled_top start exactly with the settings their command line asks for (options in any order, the last value of an option counting, documented defaults otherwise); everything else is refused with a usage message, apart from an address that is not tcp and a missing uvloop. All workers of a cluster get the settings of the cluster. SchedulerClusterCombo hands its settings, including the event loop, to scheduler and cluster. The monitor address of a scheduler can be given to scaled_top and belongs to one host and port only.", "quantifier": "all command lines (lists of arbitrary words), all argument values of SchedulerClusterCombo, all numbers of processors", "why_tests_cant": "command lines are unbounded lists; a value may repeat, be missing, look like an option or be given twice", "anchors": ["scaled/entry_points/scheduler.py:get_args,main", "scaled/entry_points/cluster.py:get_args,main", "scaled/entry_points/top.py:get_args,poke", "scaled/cluster/combo.py:__init__", "scaled/cluster/scheduler.py:__init__,run", "scaled/cluster/cluster.py:__start_workers_and_run_forever", "scaled/scheduler/main.py:__init__", "scaled/utility/event_loop.py:register_event_loop", "scaled/io/config.py"]}
{"id": "C79", "title": "The log goes where it is told to", "statement": "setup_logger makes one handler per place: the screen for '-' and '/dev/stdout', a file for every other name. A line is written to exactly these places, once each, if its level is at least the level of the log (and DEBUG); sockets and unknown levels are refused. A TimedLogger shows the elapsed time (below 2^53 ns) to the microsecond, and a ScopedLogger writes its two lines and passes on result or exception of its body.", "quantifier": "all lists of names, all levels, all readings of the clock", "why_tests_cant": "names may repeat or coincide with the internal name of a handler", "anchors": ["scaled/utility/logging/utility.py:setup_logger,__detect_log_types,__logging_config", "scaled/utility/logging/scoped_logger.py:TimedLogger,ScopedLogger", "scaled/utility/logging/decorators.py:log_function"]}
{"id": "C80", "title": "No message ends a client, and every answer resolves a future", "statement": "A client handles every message the scheduler sends it without its connector thread raising, and every TaskResult or GraphTaskResult for a task whose future is in the table resolves that future. Messages about nothing the client waits for change nothing.", "quantifier": "all histories of one client's calls and received messages; all executions of a scheduler with clients and workers", "why_tests_cant": "an exception ends the thread that resolves all futures; any interleaving of submit, cancel and messages can precede it", "anchors": ["scaled/client.py:__on_receive,__on_task_echo,__on_function_response,__on_task_result,__on_graph_task_result", "scaled/io/sync_connector.py:__run", "scaled/scheduler/task_manager.py:on_task_new"]}
{"id": "C81", "title": "The scheduler runs until a signal and ends tidily", "statement": "The scheduler process runs its six loops until it gets SIGINT or SIGTERM; from then on it handles and sends nothing, destroys both sockets and returns. It ends at no other time without an exception of a loop, and whenever it ends its sockets are destroyed. A loop does its work whenever its sleep is over; the routines that clean up and report run at most once a second.", "quantifier": "all interleavings of turns, frames, clock values, signals and passes of the event loop", "why_tests_cant": "a signal or an exception can come between any two turns; an exception reaches the process only after further passes of the event loop", "anchors": ["scaled/scheduler/main.py:get_loops,scheduler_main", "scaled/utility/event_loop.py:create_async_loop_routine", "scaled/entry_points/scheduler.py:main", "scaled/cluster/scheduler.py:run"]}
{"id": "C82", "title": "Shutting down scheduler and workers that were started together", "statement": "SchedulerClusterCombo.shutdown can be called at any time and any number of times without an exception; after it the scheduler has ended and every running worker has been interrupted. A combination whose constructor failed can be destroyed without an exception.", "quantifier": "all interleavings of start-up, steps and signals of the processes, every point at which the constructor can fail", "why_tests_cant": "the processes start in the background; shutdown can meet them in any state", "anchors": ["scaled/cluster/combo.py", "scaled/cluster/cluster.py", "scaled/cluster/scheduler.py"]}
{"id": "C83", "title": "The scheduler survives its own clients and workers", "statement": "In a system of scheduler, clients and workers of this code, no message that a client or worker sends and no routine makes the scheduler raise.", "quantifier": "every interleaving of any number of clients, workers and processors, lost, delayed and reordered messages, joining, leaving and silent workers, clients that end", "why_tests_cant": "an exception ends the scheduler process and with it every task of every client", "anchors": ["scaled/scheduler/main.py", "scaled/scheduler/worker_manager.py", "scaled/scheduler/graph_manager.py", "scaled/scheduler/task_manager.py", "scaled/client.py", "scaled/worker/worker.py"]}
{"id": "C84", "title": "No task is lost between scheduler and worker", "statement": "In every state of a system, a task that the scheduler counts as given to a worker is on the way to this worker, or held there (queued, in hand or with the processor), or its result or its return is on the way back to the scheduler.", "quantifier": "every interleaving of any number of clients, workers and processors, delayed and reordered messages, joining, leaving and silent workers, cancels, load balancing, graphs", "why_tests_cant": "a task that is nowhere while the scheduler waits for it is never finished and its client waits for ever; results, cancels, balancing and time-outs cross each other", "anchors": ["scaled/scheduler/worker_manager.py", "scaled/scheduler/task_manager.py", "scaled/scheduler/allocators/queued.py", "scaled/worker/agent/task_manager.py", "scaled/worker/agent/processor_manager.py"]}
{"id": "C85", "title": "No submitted task is lost or duplicated", "statement": "In every state of a system, there is exactly one copy of a task that a user submitted: with the client (in submit, waiting for the function, in the queue of the connector), on the way to the scheduler, refused with the refusal on the way back, held by the scheduler (waiting, being placed, or with a worker as in C84), or its result was sent to the client, where it is on the way or has arrived.", "quantifier": "every interleaving of the two threads of any number of clients, of workers and processors, delayed and reordered messages, refusals and resubmissions, cancels, clients that end", "why_tests_cant": "a task that is nowhere leaves its future unresolved for ever; a task that is in two places runs twice; the client's two threads, refusals and results cross each other", "anchors": ["scaled/client.py", "scaled/io/sync_connector.py", "scaled/scheduler/task_manager.py", "scaled/scheduler/client_manager.py", "scaled/scheduler/worker_manager.py"]}
{"id": "C86", "title": "No graph is lost", "statement": "In every state of a system, a graph that a user asked for is with the client, on the way to the scheduler, waiting there to be unpacked, or one of its nodes is with the scheduler or a worker as in C84 or was refused because of the limit on waiting tasks, or its result is on the way to the client or has arrived, or the client has ended and cancelled it.", "quantifier": "every interleaving of any number of clients, workers and processors, any graphs that get accepts, delayed and reordered messages, clients that end", "why_tests_cant": "a graph without a node at work is never answered and its client waits for ever in get", "anchors": ["scaled/client.py", "scaled/scheduler/graph_manager.py", "scaled/scheduler/task_manager.py", "scaled/scheduler/worker_manager.py"]}
{"id": "C87", "title": "A processor collects garbage in time", "statement": "A call of the memory cleaner collects garbage exactly if the last collection (or the start of the processor) is at least the configured interval ago, and gives memory back to the operating system exactly if it collects and the resident size reaches the configured threshold. If the clock does not go back, two collections are at least the interval apart.", "quantifier": "every sequence of calls, every reading of the clock and of the resident size, every interval and threshold, also negative ones", "why_tests_cant": "a processor that never collects grows until the machine has no memory left, one that collects at each call slows down the tasks", "anchors": ["scaled/worker/agent/processor/cache_cleaner.py"]}
{"id": "C88", "title": "The running task of a worker is somewhere", "statement": "The task that an agent counts as running is on the way to its current processor, or the processor works on it, or the processor waits for the function of the task and the question or its answer is under way (or the scheduler refused it as unknown), or its result is on the way back to the agent. The processor has no other task. When the loop of the agent waits for the processor, the announcement of the processor is under way; when it waits for the lock, a task runs.", "quantifier": "every state of every system of a scheduler, clients, workers and processors, messages arriving in any order", "why_tests_cant": "if the task of an agent is nowhere, the agent keeps its lock for ever, its queue is never served and all tasks that the scheduler gave it are lost", "anchors": ["scaled/worker/agent/processor_manager.py", "scaled/worker/agent/task_manager.py", "scaled/worker/agent/processor/processor.py", "scaled/scheduler/function_manager.py"]}
{"id": "C89", "title": "A task is run at most once", "statement": "In a whole system a task is given to at most one processor of one worker, at most once, and that processor answers it at most once.", "quantifier": "every run of every system of a scheduler, clients, workers and processors, messages arriving in any order", "why_tests_cant": "a task with an effect outside the system (a payment, a write to a file) that runs twice has its effect twice", "anchors": ["scaled/scheduler/worker_manager.py", "scaled/scheduler/task_manager.py", "scaled/worker/agent/task_manager.py", "scaled/worker/agent/processor_manager.py"]}
{"id": "C90", "title": "A system that comes to rest has answered everything", "statement": "When nothing is left to do in a system - every message arrived, no call of a user is unfinished, and the routines of the scheduler, the agents and the processors find nothing to do - every task and every graph that users submitted has its result, provided a worker is connected and a worker may have a task.", "quantifier": "every state of every system of a scheduler, clients, workers and processors, messages arriving in any order", "why_tests_cant": "otherwise a user waits for ever for a result that nobody works on: the system hangs", "anchors": ["scaled/client.py", "scaled/scheduler/task_manager.py", "scaled/scheduler/allocators/queued.py", "scaled/utility/queues/async_priority_queue.py", "scaled/scheduler/function_manager.py", "scaled/worker/agent/processor_manager.py"]}
{"id": "C91", "title": "Left alone, a system comes to rest", "statement": "If from some point on users make no calls, nobody joins or leaves and no timer fires, a system of a scheduler, clients, workers and processors does only finitely many things: no message goes round in circles, no task is passed on for ever. From every state such events lead to one in which nothing is left to do, and that is a system at rest (C90) unless a part of it ends with an exception.", "quantifier": "every infinite run and every reachable state of every system, messages arriving in any order", "why_tests_cant": "a loop of messages between parts would use the machine and the network without end though nobody asks for anything, and a task that is passed on for ever is never answered", "anchors": ["scaled/client.py", "scaled/scheduler/main.py", "scaled/scheduler/task_manager.py", "scaled/scheduler/graph_manager.py", "scaled/scheduler/worker_manager.py", "scaled/worker/worker.py", "scaled/worker/agent/processor_manager.py", "scaled/worker/agent/processor/processor.py"]}
{"id": "C92", "title": "Calls of a client return what their tasks returned, and one that fails harms no other", "statement": "`map` and a blocking `get` return the results of their own tasks in the order of the calls or keys, or raise what the first task without a result raises; `submit` and a `get` that does not block return new futures. After a call raised, the client can be used again, and the futures of other calls keep their chance of a result.", "quantifier": "every sequence of calls, cancellations, messages and steps of the two threads, also when the thread of the connector ends with an exception in the middle of a loop", "why_tests_cant": "a user who catches the exception of one failed task goes on with a client on which nothing is ever answered and waits for ever; other work is cancelled without being asked for", "anchors": ["scaled/client.py", "scaled/io/sync_connector.py"]}
{"id": "C93", "title": "Nodes of a graph are handed out in the order of their needs", "statement": "The sorter of the graph manager hands out every node once, and not before everything that it needs was reported done; a node that is not handed out or was reported before is not accepted; it stays active as long as a node is left and never gets stuck. A graph is refused with CycleError exactly if one of its nodes needs itself in the end.", "quantifier": "every graph, of any size and shape, and every order of reports", "why_tests_cant": "a task that starts before its arguments exist has nothing to work on; a sorter that gets stuck leaves a graph unanswered", "anchors": ["scaled/scheduler/graph_manager.py"]}
{"id": "C94", "title": "A call of the user brings what the functions give, through the whole system", "statement": "`map(f, xs)` returns a list as long as `xs` with what `f` returned on `xs[i]` at place `i`; if it raises what a task raised, this is what `f` raised on some `xs[i]`. A blocking `get` returns the given keys in order, each with the value of its node in the user's graph.", "quantifier": "every run of any number of clients and workers with one scheduler, with messages delayed, lost or out of order, workers lost and tasks rerouted", "why_tests_cant": "it is what the user of the library relies on: the cluster computes what the plain program would compute", "anchors": ["scaled/client.py", "scaled/scheduler/task_manager.py", "scaled/scheduler/graph_manager.py", "scaled/worker/agent/processor/processor.py"]}
{"id": "C95", "title": "A call that waits comes to an end", "statement": "When no worker with a task was given up, no worker was asked to cancel anything, there is a worker, and the system came to rest with right loads, then the future of every `submit` holds a result or an exception, the futures of every graph hold results or the first one an exception, and a `map` or blocking `get` that still waits ends after finitely many steps of the user's thread and one look of the connector at its stop flag, whether it returns or raises.", "quantifier": "every run of any number of clients and workers with one scheduler in which no message reaches a client inside its own `submit`", "why_tests_cant": "a call that never returns is the worst that can happen to the user", "anchors": ["scaled/client.py", "scaled/io/sync_connector.py", "scaled/scheduler/task_manager.py", "scaled/scheduler/graph_manager.py"]}
{"id": "C96", "title": "A worker survives what its tasks do", "statement": "Whatever a task's function does when it is called, the processor answers the task, and the worker goes on to its next task.", "quantifier": "every state of a system, every function and arguments; functions that return or raise", "why_tests_cant": "one task must not take away a worker and all tasks behind it", "anchors": ["scaled/worker/agent/processor/processor.py", "scaled/worker/agent/processor_manager.py", "scaled/worker/agent/task_manager.py"]}
{"id": "C97", "title": "A system that runs as it should answers every submitted task and every graph", "statement": "As long as workers and clients stay, nobody cancels, functions can be loaded and results and exceptions can be pickled, no handler fails, and after finitely many further messages and steps every task that was submitted has a future that holds its result or exception, and every future that get returned holds the value of its node; a map or a blocking get that waits then ends with these.", "quantifier": "every state that such a run can reach, any number of clients, workers, tasks and graphs; the functions of graphs return and are not taken away by the cache cleaner in the middle of a call; keys of get as in C63; no limit on waiting tasks (max waiting < 0), a worker with room; messages to one client arrive in order, and none while it is inside submit or get; the task routine gets its turn after every event that could feed it", "why_tests_cant": "whole-system liveness: it joins scheduler, agents, processors and clients, and needs every message handler on the way", "anchors": ["scaled/scheduler/task_manager.py", "scaled/scheduler/worker_manager.py", "scaled/scheduler/function_manager.py", "scaled/client/client.py", "scaled/worker/agent/task_manager.py", "scaled/worker/agent/processor_manager.py", "scaled/worker/agent/processor/processor.py"]}
{"id": "C98", "title": "The load that is shown is the load that was measured", "statement": "The share of a processor that psutil measures, to a tenth of a percent, is what a heartbeat carries and what the monitor shows; a heartbeat that was read and is written again carries the same value.", "quantifier": "all loads below 6553.6 percent, with the rounding of every float operation on the way", "why_tests_cant": "operators read the monitor; the message codec must not change values", "anchors": ["scaled/protocol/python/message.py", "scaled/worker/agent/heartbeat_manager.py", "scaled/utility/formatter.py", "scaled/scheduler/status_reporter.py", "scaled/entry_points/top.py"]}
{"id": "C99", "title": "Following the balance advice balances the workers", "statement": "When the workers give back what the balance advice asks for and the tasks are placed again, in any order, no worker has two tasks more than another, and then nothing more is asked for; whatever is given back, no worker ends with more than it had or more than the mean rounded up.", "quantifier": "every state that calls of the allocator can reach, every number of workers and tasks, every order of taking away and placing", "why_tests_cant": "otherwise balancing would move tasks round and round, or pile them up", "anchors": ["scaled/scheduler/allocators/queued.py", "scaled/scheduler/worker_manager.py"]}
{"id": "C100", "title": "The function that is sent is the function that was submitted", "statement": "submit, map and get send the function as it is at the moment of the call, however often and in whatever state it was submitted before; a function that cannot be sent raises and leaves the client as it was.", "quantifier": "every sequence of calls with any functions, which may change, may not be hashable and may not be picklable", "why_tests_cant": "a stale function gives plausible but wrong results, and only for objects that change between calls", "anchors": ["scaled/client.py"]}
{"id": "C101", "title": "Nothing is kept for what is finished", "statement": "At every moment each table of the scheduler is no larger than what is open: the tasks held, the graphs under way with their nodes, and the connected workers; when every task and graph has been answered, the scheduler keeps nothing of them, neither owners, places, nodes nor claims on functions; a client whose calls were answered and a worker whose tasks were answered or given back keep nothing of them either; and every fair run of a system in which everything goes as it should comes to a state in which nobody keeps anything.", "quantifier": "every execution of the scheduler, every configuration; every execution of a client, also with messages in the middle of calls; every execution of a worker; every system, and every fair run of an orderly one", "why_tests_cant": "a scheduler runs for weeks; whatever is left behind by each task ends its memory", "anchors": ["scaled/scheduler/task_manager.py", "scaled/scheduler/client_manager.py", "scaled/scheduler/graph_manager.py", "scaled/scheduler/function_manager.py", "scaled/scheduler/allocators/queued.py", "scaled/utility/one_to_many_dict.py", "scaled/client.py", "scaled/worker/agent/task_manager.py"]}
{"id": "C102", "title": "A worker and a scheduler that answer in time do not give each other up", "statement": "If a worker's loop gets to its heartbeat within h of its start and of every answer, and heartbeats and answers are under way no longer than d, then with h + 2d within the limits of both sides the scheduler never declares the worker dead after its first heartbeat, and the worker never ends for want of an answer, whatever else happens in the system. The bounds cannot be smaller.", "quantifier": "all timed executions of whole systems; clocks of the two machines may differ", "why_tests_cant": "two timers and three loops on two machines; a false alarm needs a particular timing of all of them", "anchors": ["scaled/worker/agent/heartbeat_manager.py", "scaled/worker/agent/timeout_manager.py", "scaled/scheduler/worker_manager.py:on_heartbeat,__clean_workers"]}
{"id": "C103", "title": "The cleaner outlives its look at the cached functions", "statement": "Whatever the main thread of a processor does meanwhile, the cleaner thread gets to the end of its look for idle functions and is not ended by it. Its list has each function at most once, only functions that were idle when it began, and all functions that are idle when it ends.", "quantifier": "every dictionary, also with holes left by deletions, every interleaving of the main thread's stamps and deletions with the steps of the iteration, every clock, every retention time that is not negative", "why_tests_cant": "when the thread is over no function is ever evicted and no garbage collected any more, and nobody is told", "anchors": ["scaled/worker/agent/processor/cache_cleaner.py:run,__clean_function,add_function,get_function,del_function"]}
{"id": "C104", "title": "The operations of the queues cost what their comments promise", "statement": "put, get and remove of the indexed queue look at and change a number of nodes that does not depend on the length of the queue. put, get, remove and decrease_priority of the priority queue look at and move a number of entries that grows with the logarithm of its length.", "quantifier": "every state of either queue, of every length, every item, every hash function and every order of the entries", "why_tests_cant": "every submitted, finished and returned task goes through these queues, and the scheduler is one thread; a wrong answer is not the only thing a queue can do to it", "anchors": ["scaled/utility/queues/async_indexed_queue.py:IndexedQueue,_DoubleLinkedList,_IndexedDoubleLinkedQueue", "scaled/utility/queues/async_priority_queue.py:PriorityQueue"]}
{"id": "C105", "title": "A processor that is of no more use is over", "statement": "The process of a processor is over when its main thread takes no message any more, and not before unless it is killed.", "quantifier": "every runtime, every task, every interleaving of the two threads, every moment at which a signal comes after the start", "why_tests_cant": "a process that only sleeps keeps its memory and its connection, the agent believes it has a processor, and a worker that waits for it at its end never ends", "anchors": ["scaled/worker/agent/processor/processor.py:run,__initialize,__run_forever", "scaled/worker/agent/processor/cache_cleaner.py:__init__,run,__clean_function", "scaled/worker/agent/processor_manager.py:__kill"]}
{"id": "C106", "title": "A worker that has ended is over as a process", "statement": "When a worker's loops have come to their end, in whatever way, its process and those of all its processors are over; before that its process is not over.", "quantifier": "every history of the worker, of its processors and of the signals that come after the start, every runtime", "why_tests_cant": "a cluster waits for its workers (C75), and whoever started the cluster waits for it; a process that waits for a processor nobody speaks to any more blocks them all", "anchors": ["scaled/worker/worker.py:run,__run_forever,__get_loops,__register_signal", "scaled/worker/agent/processor_manager.py:destroy,__kill,__start_new_processor", "scaled/worker/agent/processor/processor.py:Processor,run"]}
{"id": "C107", "title": "Nobody waits for a queue that has something", "statement": "While a coroutine waits in `get` of a queue, for every item in it there is another coroutine that was woken and will look; so the one coroutine that takes from a queue of the scheduler or of a worker waits only while the queue is empty, and at its next turn gets the item that is due. Items are given out in the order in which they were put, whoever waited for them and whatever was removed, taken at once or cancelled in between.", "quantifier": "every sequence of put, get, get_nowait, remove, turns of the event loop and cancellations, any number of coroutines; for the next turn one coroutine", "why_tests_cant": "the item can be removed, or taken by a balance request, between the moment the waiting routine is woken and the moment it runs", "anchors": ["scaled/utility/queues/async_indexed_queue.py:IndexedQueue", "scaled/utility/queues/async_priority_queue.py:PriorityQueue", "scaled/scheduler/task_manager.py:routine", "scaled/scheduler/graph_manager.py:routine", "scaled/worker/agent/task_manager.py:routine", "scaled/scheduler/allocators/queued.py:assign_task"]}
{"id": "C108", "title": "A worker signals and measures its own processor only", "statement": "The number to which a worker sends SIGTERM and the number whose figures it puts into its heartbeats belong to the processor that it started last, and that process was not waited for, so that no other process can have the number; neither call meets a number that does not exist; and when a processor is started, every processor that had ended before is waited for.", "quantifier": "every history of the worker, every moment at which a processor ends, every choice of free process numbers by the operating system", "why_tests_cant": "a signal to a number that was given away kills a stranger, and os.kill or psutil raises for a number that nobody has, which would end the worker; the scheduler and the monitor show the figures as those of the worker", "anchors": ["scaled/worker/agent/processor_manager.py:initialize,restart_processor,destroy,__kill,__start_new_processor", "scaled/worker/agent/heartbeat_manager.py:set_processor_pid,routine"]}
{"id": "C109", "title": "A worker that dies of an exception dies silently", "statement": "A handler of a worker that raises has sent nothing, neither to the scheduler nor to the processor, and has killed and started no processor, also if it had already changed its own tables when it raised.", "quantifier": "every state of the worker, every message and every turn of its loops, handlers as sequences of assignments that stay when a later statement raises", "why_tests_cant": "the scheduler learns of the death of such a worker only by its silence (C27) and gives its tasks to others; an answer that was sent before the exception would make it count a task as done that a dead worker held, and a processor started by it would be left behind (C77)", "anchors": ["scaled/worker/worker.py:__on_receive_external", "scaled/worker/agent/task_manager.py:on_task_new,on_cancel_task,on_balance_request,__processing_task", "scaled/worker/agent/processor_manager.py:on_task,on_function_request,on_function_response,on_cancel_task,restart_processor,__on_internal_task_result,__on_internal_function_request", "scaled/worker/agent/heartbeat_manager.py:routine,on_heartbeat_echo", "scaled/worker/agent/timeout_manager.py:routine"]}
{"id": "C110", "title": "A call that is refused leaves nothing behind", "statement": "If submit, map or get raises before it waits for results, because the function or an argument cannot be pickled, arguments are missing, or a graph is not in order, then nothing was submitted: the client has no new task, no new future and no new message to send. If it does not raise it submitted exactly what was asked for.", "quantifier": "every state of the client, every function with or without a hash, a signature and a pickled form, all arguments and keywords, all iterables that can be iterated twice, all graphs and keys", "why_tests_cant": "the caller gets an exception and no future; work submitted nevertheless is computed for nobody, cannot be cancelled, and its entries stay in the tables of the client; a caller that corrects the arguments and calls again has it done twice", "anchors": ["scaled/client.py:submit,map,get,__get_function_id,__convert_kwargs_to_args,__split_data_and_graph,__check_graph,__construct_graph"]}
{"id": "C111", "title": "Balancing keeps the interval that was set", "statement": "Between two times at which the scheduler asks workers to give tasks back there are at least load_balance_seconds seconds; with a setting of 0 or less it never asks.", "quantifier": "every execution of the scheduler in which the turns of the worker manager are at least a second apart, every setting of load_balance_seconds and load_balance_trigger_times", "why_tests_cant": "the settings are documented as the number of seconds for load balancing, 0 for none (io/config.py 27-32); somebody who sets a long interval does so because moving tasks is expensive", "anchors": ["scaled/scheduler/worker_manager.py:routine,__balance_request", "scaled/scheduler/main.py:get_loops", "scaled/io/config.py", "scaled/utility/event_loop.py:create_async_loop_routine"]}
{"id": "C112", "title": "A clock that is set ends nobody", "statement": "Setting the clock of a machine forward or back makes no worker raise and makes neither the scheduler nor a worker give up a peer that answers.", "quantifier": "every reachable state of an agent and of the scheduler, every reading of the clock, every history of heartbeats and answers", "why_tests_cant": "intervals are measured with time.time and time.time_ns, which jump when the clock of the machine is set; time.monotonic does not", "anchors": ["scaled/worker/agent/heartbeat_manager.py:on_heartbeat_echo,routine", "scaled/worker/agent/timeout_manager.py:update_last_seen_time,routine", "scaled/scheduler/worker_manager.py:__clean_workers", "scaled/protocol/python/message.py:Heartbeat"]}
