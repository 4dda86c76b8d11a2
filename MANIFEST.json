{
 "claims": [
  {
   "property": "C01",
   "status": "proved",
   "theorems": [
    "Verif.Props.C01_roundtrip"
   ],
   "note": "All message types; values within the ranges of the struct fields."
  },
  {
   "property": "C02",
   "status": "proved",
   "theorems": [
    "Verif.Props.C02_decode_encode",
    "Verif.Props.C02_binder_decode",
    "Verif.Props.C02_binder_encode",
    "Verif.Props.C02_injective"
   ],
   "note": ""
  },
  {
   "property": "C03",
   "status": "proved",
   "theorems": [
    "Verif.Props.C03_sendable"
   ],
   "note": "Exact characterisation of what serialize() accepts."
  },
  {
   "property": "C04",
   "status": "proved",
   "theorems": [
    "Verif.Props.C04_decode_stable",
    "Verif.Props.C04_graph_loop_total"
   ],
   "note": "A decoded frame re-encodes, except a graph message with an empty function table (C03)."
  },
  {
   "property": "C05",
   "status": "proved",
   "theorems": [
    "Verif.Props.C05_fifo",
    "Verif.Props.C05_hash_collision"
   ],
   "note": "Holds for items with different hashes; C05_hash_collision shows the hypothesis is needed."
  },
  {
   "property": "C06",
   "status": "proved",
   "theorems": [
    "Verif.Props.C06_errors",
    "Verif.Props.C06_unchanged",
    "Verif.Props.C06_object"
   ],
   "note": ""
  },
  {
   "property": "C07",
   "status": "partial",
   "theorems": [
    "Verif.Props.C07_least_first_partial",
    "Verif.Props.C07_least_meaning",
    "Verif.Props.C07_put_twice",
    "Verif.Props.C07_below_zero",
    "Verif.Props.C07_object"
   ],
   "note": "false of the code for data that are put twice and for priorities below zero; proved for all other sequences, and the allocator makes no others"
  },
  {
   "property": "C08",
   "status": "partial",
   "theorems": [
    "Verif.Props.C08_lost_update",
    "Verif.Props.C08_second_decrease_raises",
    "Verif.Props.C08_remove_raises",
    "Verif.Props.C08_no_lost_update_partial"
   ],
   "note": "False of the code: max_priority leaves a stale locator. Partial: sequences that do not touch a looked-at entry before get."
  },
  {
   "property": "C09",
   "status": "proved",
   "theorems": [
    "Verif.Props.C09_one_worker"
   ],
   "note": ""
  },
  {
   "property": "C10",
   "status": "proved",
   "theorems": [
    "Verif.Props.C10_queue_size"
   ],
   "note": ""
  },
  {
   "property": "C11",
   "status": "partial",
   "theorems": [
    "Verif.Props.C11_free_slot_refused",
    "Verif.Props.C11_free_slot_usable_partial",
    "Verif.Props.C11_consult_partial"
   ],
   "note": "False of the code: after has_available_worker (called on every submission) finished tasks are not counted down. Partial: histories without that call, and histories where an assignment follows each such call before anything else changes."
  },
  {
   "property": "C12",
   "status": "proved",
   "theorems": [
    "Verif.Props.C12_least_recorded"
   ],
   "note": ""
  },
  {
   "property": "C13",
   "status": "proved",
   "theorems": [
    "Verif.Props.C13_remove_worker",
    "Verif.Props.C13_remove_worker_raises"
   ],
   "note": "For calls that return; C13_remove_worker_raises shows that the call may raise after has_available_worker."
  },
  {
   "property": "C14",
   "status": "partial",
   "theorems": [
    "Verif.Props.C14_asks_for_too_much",
    "Verif.Props.C14_balance_partial",
    "Verif.Props.C14_floats"
   ],
   "note": "Last clause is false of the code: rounding up makes every busy worker give a task. All other clauses proved, with a weaker bound on the total."
  },
  {
   "property": "C59",
   "status": "proved",
   "theorems": [
    "Verif.Props.C59_one_to_many",
    "Verif.Props.C59_unchanged",
    "Verif.Props.C59_object",
    "Verif.Props.C59_views"
   ],
   "note": ""
  },
  {
   "property": "C60",
   "status": "proved",
   "theorems": [
    "Verif.Props.C60_key_value_set",
    "Verif.Props.C60_unchanged",
    "Verif.Props.C60_object",
    "Verif.Props.C60_views"
   ],
   "note": ""
  },
  {
   "property": "C16",
   "status": "proved",
   "theorems": [
    "Verif.Props.C16_exactly_once"
   ],
   "note": "For all executions in which clients choose ids properly (Spec.Allowed)."
  },
  {
   "property": "C17",
   "status": "proved",
   "theorems": [
    "Verif.Props.C17_right_client",
    "Verif.Props.C17_echo_first"
   ],
   "note": ""
  },
  {
   "property": "C18",
   "status": "proved",
   "theorems": [
    "Verif.Props.C18_one_place"
   ],
   "note": ""
  },
  {
   "property": "C28",
   "status": "partial",
   "theorems": [
    "Verif.Props.C28_scheduler_dies",
    "Verif.Props.C28_exact",
    "Verif.Props.C28_survives_partial",
    "Verif.Props.C28_prompt_partial"
   ],
   "note": "False of the code (13 executions). Partial: exactly the situations listed in Fatal raise (an equivalence); fewer situations when the task routine gets its turns (Spec.Prompt)."
  },
  {
   "property": "C29",
   "status": "proved",
   "theorems": [
    "Verif.Props.C29_statistics",
    "Verif.Props.C29_system",
    "Verif.Props.C29_other_worker"
   ],
   "note": "the equation of the counters for all histories in which workers report statuses that end a task; the workers of this project report no others (C29_system)"
  },
  {
   "property": "C33",
   "status": "proved",
   "theorems": [
    "Verif.Props.C33_after_inputs"
   ],
   "note": ""
  },
  {
   "property": "C34",
   "status": "proved",
   "theorems": [
    "Verif.Props.C34_at_most_once"
   ],
   "note": ""
  },
  {
   "property": "C35",
   "status": "proved",
   "theorems": [
    "Verif.Props.C35_graph_value"
   ],
   "note": ""
  },
  {
   "property": "C36",
   "status": "partial",
   "theorems": [
    "Verif.Props.C36_stuck",
    "Verif.Props.C36_not_stuck_partial"
   ],
   "note": "False of the code when a node is refused with NoWorker. Partial: executions without a waiting limit."
  },
  {
   "property": "C37",
   "status": "partial",
   "theorems": [
    "Verif.Props.C37_failure_kills",
    "Verif.Props.C37_notFound_kills",
    "Verif.Props.C37_failed_node_partial",
    "Verif.Props.C37_reason"
   ],
   "note": "False of the code: a failure while another node waits raises KeyError. Partial: whenever the event is handled without exception."
  },
  {
   "property": "C38",
   "status": "partial",
   "theorems": [
    "Verif.Props.C38_claim_leaks",
    "Verif.Props.C38_no_residue_partial"
   ],
   "note": "False of the code: a node refused with NoWorker leaves its function claimed. Partial: executions without a waiting limit."
  },
  {
   "property": "C39",
   "status": "partial",
   "theorems": [
    "Verif.Props.C39_repeated_input_kills",
    "Verif.Props.C39_inputs_partial"
   ],
   "note": "False of the code: a node that names an input twice raises KeyError. Partial: nodes that name each input once."
  },
  {
   "property": "C40",
   "status": "partial",
   "theorems": [
    "Verif.Props.C40_cancel_kills",
    "Verif.Props.C40_cancel_partial"
   ],
   "note": "False of the code: cancelling while a node waits, or an unknown graph, raises. Partial: otherwise."
  },
  {
   "property": "C15",
   "status": "partial",
   "theorems": [
    "Verif.Props.C15_never_sends",
    "Verif.Props.C15_trigger_one_silent",
    "Verif.Props.C15_debounced_partial"
   ],
   "note": "False of the code for trigger setting 1, which never sends. Partial: all other settings."
  },
  {
   "property": "C19",
   "status": "partial",
   "theorems": [
    "Verif.Props.C19_leaving_kills",
    "Verif.Props.C19_worker_lost_partial",
    "Verif.Props.C19_prompt_partial"
   ],
   "note": "False of the code: a worker whose queue entry is out of date cannot be removed (AssertionError). Partial: whenever the event is handled without exception. Also proved without that restriction for all executions in which the task routine gets its turns (Spec.Prompt) and the waiting limit is not 0."
  },
  {
   "property": "C20",
   "status": "partial",
   "theorems": [
    "Verif.Props.C20_return_kills",
    "Verif.Props.C20_balance_response_partial",
    "Verif.Props.C20_prompt_partial"
   ],
   "note": "False of the code: two returned tasks after has_available_worker raise ValueError. Partial: whenever the event is handled without exception. Also proved without that restriction for all executions in which the task routine gets its turns (Spec.Prompt) and the waiting limit is not 0."
  },
  {
   "property": "C21",
   "status": "proved",
   "theorems": [
    "Verif.Props.C21_late_result"
   ],
   "note": ""
  },
  {
   "property": "C27",
   "status": "proved",
   "theorems": [
    "Verif.Props.C27_liveness"
   ],
   "note": ""
  },
  {
   "property": "C22",
   "status": "partial",
   "theorems": [
    "Verif.Props.C22_cancel_partial",
    "Verif.Props.C22_waiting_node",
    "Verif.Props.C22_waiting_node_kills"
   ],
   "note": "Proved for single tasks, and forwarding for all tasks. False of the code for a waiting node of a graph while another one waits (KeyError)."
  },
  {
   "property": "C23",
   "status": "partial",
   "theorems": [
    "Verif.Props.C23_cancel_lost",
    "Verif.Props.C23_cancel_partial"
   ],
   "note": "False of the code: a cancel of the task that is taken from the queue while nobody is connected does nothing. Partial: all other tasks."
  },
  {
   "property": "C24",
   "status": "partial",
   "theorems": [
    "Verif.Props.C24_idle_worker_refused",
    "Verif.Props.C24_prompt_limit",
    "Verif.Props.C24_decision_partial",
    "Verif.Props.C24_prompt_partial"
   ],
   "note": "Exact decision table with the recorded loads. False of the code for the real loads: an idle worker may be recorded as full. The real loads are right in all executions in which the task routine gets its turns (Spec.Prompt) and the waiting limit is not 0."
  },
  {
   "property": "C25",
   "status": "proved",
   "theorems": [
    "Verif.Props.C25_limit"
   ],
   "note": ""
  },
  {
   "property": "C26",
   "status": "partial",
   "theorems": [
    "Verif.Props.C26_order_inverted",
    "Verif.Props.C26_idle_forever",
    "Verif.Props.C26_turn_partial",
    "Verif.Props.C26_turns",
    "Verif.Props.C26_prompt_partial"
   ],
   "note": "Exact turn of the task routine with the recorded loads. False of the code for the real loads: a later task overtakes, or an idle worker never gets a task again. The real loads are right in all executions in which the task routine gets its turns (Spec.Prompt) and the waiting limit is not 0."
  },
  {
   "property": "C30",
   "status": "proved",
   "theorems": [
    "Verif.Props.C30_needed_kept"
   ],
   "note": ""
  },
  {
   "property": "C31",
   "status": "proved",
   "theorems": [
    "Verif.Props.C31_function_fixed"
   ],
   "note": ""
  },
  {
   "property": "C32",
   "status": "partial",
   "theorems": [
    "Verif.Props.C32_delete_kills",
    "Verif.Props.C32_delete_partial"
   ],
   "note": "False of the code in every state: deleting an unused function raises ValueError. Partial: unknown functions and functions in use."
  },
  {
   "property": "C50",
   "status": "proved",
   "theorems": [
    "Verif.Props.C50_one_task",
    "Verif.Props.C50_no_overlap",
    "Verif.Props.C50_next_starts",
    "Verif.Props.C50_killed"
   ],
   "note": ""
  },
  {
   "property": "C51",
   "status": "proved",
   "theorems": [
    "Verif.Props.C51_accounted",
    "Verif.Props.C51_told",
    "Verif.Props.C51_system"
   ],
   "note": ""
  },
  {
   "property": "C52",
   "status": "partial",
   "theorems": [
    "Verif.Props.C52_not_found_runs",
    "Verif.Props.C52_canceled",
    "Verif.Props.C52_not_found_partial"
   ],
   "note": "Proved for Canceled. False of the code for NotFound: a task that waits for the processor is reported NotFound and runs."
  },
  {
   "property": "C53",
   "status": "partial",
   "theorems": [
    "Verif.Props.C53_late_cancel",
    "Verif.Props.C53_late_function",
    "Verif.Props.C53_kills_partial",
    "Verif.Props.C53_inside",
    "Verif.Props.C53_overfull",
    "Verif.Props.C53_system_partial",
    "Verif.Props.C53_system_dies"
   ],
   "note": "False of the code: a late cancel or function response raises AttributeError, a task that is given out again KeyError. Partial: the exact set of messages that raise, alone and in a system."
  },
  {
   "property": "C54",
   "status": "proved",
   "theorems": [
    "Verif.Props.C54_balance",
    "Verif.Props.C54_unstarted"
   ],
   "note": ""
  },
  {
   "property": "C57",
   "status": "proved",
   "theorems": [
    "Verif.Props.C57_one_open",
    "Verif.Props.C57_timeout"
   ],
   "note": ""
  },
  {
   "property": "C55",
   "status": "partial",
   "theorems": [
    "Verif.Props.C55_evicted_under_task",
    "Verif.Props.C55_answers_partial",
    "Verif.Props.C55_answers_exactly",
    "Verif.Props.C55_once"
   ],
   "note": "Success carries the right result and answers are unique in all executions. False of the code for failures: the cleaner can evict the function under a task, which then fails with TypeError. Exact if the two threads do not meet."
  },
  {
   "property": "C56",
   "status": "partial",
   "theorems": [
    "Verif.Props.C56_evicted_in_use",
    "Verif.Props.C56_left_behind",
    "Verif.Props.C56_gone",
    "Verif.Props.C56_evict_partial",
    "Verif.Props.C56_evict_alone"
   ],
   "note": "False of the code: a function used after the cleaner looked is evicted, and a record without a function is left behind. Full statement if the two threads do not meet."
  },
  {
   "property": "C64",
   "status": "partial",
   "theorems": [
    "Verif.Props.C64_unloadable",
    "Verif.Props.C64_unpicklable",
    "Verif.Props.C64_second_response",
    "Verif.Props.C64_dies_partial",
    "Verif.Props.C64_progress",
    "Verif.Props.C64_announced",
    "Verif.Props.C64_system_second"
   ],
   "note": "False of the code: a function that cannot be loaded, or an exception that cannot be pickled, ends the process. Partial: exactly these cases."
  },
  {
   "property": "C45",
   "status": "partial",
   "theorems": [
    "Verif.Props.C45_resolves_partial",
    "Verif.Props.C45_own",
    "Verif.Props.C45_final",
    "Verif.Props.C45_unknown",
    "Verif.Props.C45_lost",
    "Verif.Props.C45_echo_race",
    "Verif.Props.C45_cancelled_kills"
   ],
   "note": "A resolved future carries its own task's result, once. False of the code: the future is registered after the task is sent, so its result can be lost or its echo can kill the thread; a future the user cancelled kills the thread when its result comes."
  },
  {
   "property": "C46",
   "status": "partial",
   "theorems": [
    "Verif.Props.C46_partial",
    "Verif.Props.C46_stranded"
   ],
   "note": "Proved if the two threads do not meet inside a submit. False of the code otherwise: a task buffered while the function response is handled is never sent."
  },
  {
   "property": "C47",
   "status": "proved",
   "theorems": [
    "Verif.Props.C47_known",
    "Verif.Props.C47_once"
   ],
   "note": ""
  },
  {
   "property": "C48",
   "status": "partial",
   "theorems": [
    "Verif.Props.C48_failed_partial",
    "Verif.Props.C48_success",
    "Verif.Props.C48_first_only"
   ],
   "note": "Proved for success. False of the code for failure: only the first future of the graph is resolved."
  },
  {
   "property": "C49",
   "status": "partial",
   "theorems": [
    "Verif.Props.C49_partial",
    "Verif.Props.C49_resolves",
    "Verif.Props.C49_cancelled",
    "Verif.Props.C49_late",
    "Verif.Props.C49_asked",
    "Verif.Props.C49_over"
   ],
   "note": "Proved if no open future was cancelled by the user. False of the code otherwise, and for a future registered after the exit."
  },
  {
   "property": "C41",
   "status": "partial",
   "theorems": [
    "Verif.Props.C41_bind_partial",
    "Verif.Props.C41_missing",
    "Verif.Props.C41_keyword_only_lost",
    "Verif.Props.C41_unknown_accepted",
    "Verif.Props.C41_positional_only_by_keyword"
   ],
   "note": "Proved for keywords that name positional parameters. False of the code for keyword-only parameters, whose values are dropped, and for keywords that Python rejects."
  },
  {
   "property": "C42",
   "status": "partial",
   "theorems": [
    "Verif.Props.C42_calls_partial",
    "Verif.Props.C42_results",
    "Verif.Props.C42_own",
    "Verif.Props.C42_iterator"
   ],
   "note": "Proved for iterables that can be iterated twice. False of the code for iterators: the check uses them up and nothing is submitted."
  },
  {
   "property": "C43",
   "status": "partial",
   "theorems": [
    "Verif.Props.C43_partial",
    "Verif.Props.C43_stands",
    "Verif.Props.C43_any",
    "Verif.Props.C43_exact",
    "Verif.Props.C43_repeated_key"
   ],
   "note": "Proved for different keys, with an exact condition for repeated keys. False of the code in general: a repeated key shifts the futures; which future is returned for which key is proved for all keys (C43_stands, C43_any)."
  },
  {
   "property": "C44",
   "status": "proved",
   "theorems": [
    "Verif.Props.C44_rejected",
    "Verif.Props.C44_same",
    "Verif.Props.C44_value"
   ],
   "note": ""
  },
  {
   "property": "C58",
   "status": "partial",
   "theorems": [
    "Verif.Props.C58_accepts",
    "Verif.Props.C58_rejects",
    "Verif.Props.C58_roundtrip_partial",
    "Verif.Props.C58_colon",
    "Verif.Props.C58_any_number",
    "Verif.Props.C58_number",
    "Verif.Props.C58_address"
   ],
   "note": "Proved for hosts without colon. False of the code for tcp hosts with a colon, which are accepted but not parsed back."
  },
  {
   "property": "C61",
   "status": "proved",
   "theorems": [
    "Verif.Props.C61_bytes",
    "Verif.Props.C61_bytes_total",
    "Verif.Props.C61_microseconds",
    "Verif.Props.C61_no_sign",
    "Verif.Props.C61_seconds",
    "Verif.Props.C61_integer",
    "Verif.Props.C61_groups",
    "Verif.Props.C61_size_tenths",
    "Verif.Props.C61_lag_tenths"
   ],
   "note": ""
  },
  {
   "property": "C62",
   "status": "proved",
   "theorems": [
    "Verif.Props.C62_value",
    "Verif.Props.C62_exception"
   ],
   "note": "The whole system; ids from uuid1 are new, hashes of the functions in use differ."
  },
  {
   "property": "C63",
   "status": "partial",
   "theorems": [
    "Verif.Props.C63_value_partial",
    "Verif.Props.C63_value_any",
    "Verif.Props.C63_repeated_key"
   ],
   "note": "Holds if the first keys, as many as there are targets, are different; with other repeated keys get returns futures of other nodes; C63_value_any says for all keys which node's value is returned."
  },
  {
   "property": "C65",
   "status": "proved",
   "theorems": [
    "Verif.Props.C65_layout",
    "Verif.Props.C65_tag",
    "Verif.Props.C65_no_class",
    "Verif.Props.C65_dropped",
    "Verif.Props.C65_bad_word",
    "Verif.Props.C65_heartbeat_read"
   ],
   "note": ""
  },
  {
   "property": "C66",
   "status": "partial",
   "theorems": [
    "Verif.Props.C66_rows",
    "Verif.Props.C66_functions_partial",
    "Verif.Props.C66_same_name",
    "Verif.Props.C66_text"
   ],
   "note": "Workers and clients exactly. The function table is keyed by name, so it is right only for functions in use whose names differ; false of the code otherwise."
  },
  {
   "property": "C67",
   "status": "proved",
   "theorems": [
    "Verif.Props.C67_check",
    "Verif.Props.C67_add"
   ],
   "note": ""
  },
  {
   "property": "C68",
   "status": "proved",
   "theorems": [
    "Verif.Props.C68_prompted",
    "Verif.Props.C68_client",
    "Verif.Props.C68_worker",
    "Verif.Props.C68_kinds"
   ],
   "note": ""
  },
  {
   "property": "C69",
   "status": "proved",
   "theorems": [
    "Verif.Props.C69_heartbeat",
    "Verif.Props.C69_latency",
    "Verif.Props.C69_echo",
    "Verif.Props.C69_latency_back",
    "Verif.Props.C69_echo_back",
    "Verif.Props.C69_latency_long"
   ],
   "note": "The code computes the latency with floats; that is exact below 2^53 nanoseconds (C69_latency; C69_latency_back if the clock was set back), and the model of the agent computes it exactly."
  },
  {
   "property": "C70",
   "status": "proved",
   "theorems": [
    "Verif.Props.C70_status",
    "Verif.Props.C70_traffic",
    "Verif.Props.C70_names",
    "Verif.Props.C70_graph",
    "Verif.Props.C70_system"
   ],
   "note": "Status order and traffic for executions in which workers end tasks only with final statuses (a worker may put any status into a result)."
  },
  {
   "property": "C71",
   "status": "proved",
   "theorems": [
    "Verif.Props.C71_books",
    "Verif.Props.C71_order",
    "Verif.Props.C71_sendable",
    "Verif.Props.C71_asks",
    "Verif.Props.C71_serves"
   ],
   "note": "C71_books needs no assumption; the others are for clients that use fresh ids (`Spec.Allowed`) and a queue size that fits 32 bits"
  },
  {
   "property": "C72",
   "status": "partial",
   "theorems": [
    "Verif.Props.C72_decoded",
    "Verif.Props.C72_malformed_kills",
    "Verif.Props.C72_partial"
   ],
   "note": "false of the code: a proper tag with an unreadable payload ends the scheduler; proved exactly which payloads can be read, that everything else is ignored, and that readable messages fail only in the scheduler itself"
  },
  {
   "property": "C73",
   "status": "partial",
   "theorems": [
    "Verif.Props.C73_screen_partial",
    "Verif.Props.C73_not_shown",
    "Verif.Props.C73_lag_ends",
    "Verif.Props.C73_watch",
    "Verif.Props.C73_truncate",
    "Verif.Props.C73_merge",
    "Verif.Props.C73_concat",
    "Verif.Props.C73_sign"
   ],
   "note": "false of the code: a lag of 1000 s or a size of 1024t ends the display; everything else is proved to be drawn as specified"
  },
  {
   "property": "C74",
   "status": "partial",
   "theorems": [
    "Verif.Props.C74_async_heard",
    "Verif.Props.C74_async_goes_on",
    "Verif.Props.C74_async_silent",
    "Verif.Props.C74_async_sent",
    "Verif.Props.C74_pipe",
    "Verif.Props.C74_sync_sent_partial",
    "Verif.Props.C74_sync_heard",
    "Verif.Props.C74_sync_flush",
    "Verif.Props.C74_sent_not_counted",
    "Verif.Props.C74_dropped",
    "Verif.Props.C74_unknown"
   ],
   "note": "false of the code: a stop drops what is still in the queue, and the sync connector never counts what it sends; everything else holds for all interleavings"
  },
  {
   "property": "C75",
   "status": "partial",
   "theorems": [
    "Verif.Props.C75_signal_exact",
    "Verif.Props.C75_obeyed_partial",
    "Verif.Props.C75_ended",
    "Verif.Props.C75_ends",
    "Verif.Props.C75_lost",
    "Verif.Props.C75_start_raises",
    "Verif.Props.C75_survivor",
    "Verif.Props.C75_one_worker"
   ],
   "note": "false of the code: signals during start-up, after the end of a worker, and SIGTERM to a cluster of one worker; C75_signal_exact says what a signal does at every moment"
  },
  {
   "property": "C76",
   "status": "partial",
   "theorems": [
    "Verif.Props.C76_can_finish_partial"
   ],
   "note": "executions in which the task routine gets its turns, a limit that is not 0, graphs without a defect; elsewhere it is false (C36_stuck, C28_scheduler_dies)"
  },
  {
   "property": "C77",
   "status": "partial",
   "theorems": [
    "Verif.Props.C77_goodbye_partial",
    "Verif.Props.C77_orphan_exact",
    "Verif.Props.C77_when",
    "Verif.Props.C77_final",
    "Verif.Props.C77_orphan"
   ],
   "note": "false of the code for ends by an exception or by SIGTERM; C77_when says which events these are, C77_orphan_exact what is left behind"
  },
  {
   "property": "C78",
   "status": "partial",
   "theorems": [
    "Verif.Props.C78_scheduler",
    "Verif.Props.C78_scheduler_help",
    "Verif.Props.C78_scheduler_stops",
    "Verif.Props.C78_cluster",
    "Verif.Props.C78_cluster_stops",
    "Verif.Props.C78_workers",
    "Verif.Props.C78_workers_begin",
    "Verif.Props.C78_config",
    "Verif.Props.C78_top",
    "Verif.Props.C78_combo_partial",
    "Verif.Props.C78_combo_loop",
    "Verif.Props.C78_combo_run",
    "Verif.Props.C78_combo_defaults",
    "Verif.Props.C78_combo_error",
    "Verif.Props.C78_monitor",
    "Verif.Props.C78_name"
   ],
   "note": "false of the code for the event loop of a combination: its scheduler always uses the built-in one (C78_combo_loop)"
  },
  {
   "property": "C79",
   "status": "partial",
   "theorems": [
    "Verif.Props.C79_lines_partial",
    "Verif.Props.C79_once",
    "Verif.Props.C79_socket",
    "Verif.Props.C79_clash",
    "Verif.Props.C79_level",
    "Verif.Props.C79_elapsed",
    "Verif.Props.C79_not_begun",
    "Verif.Props.C79_scope"
   ],
   "note": "false of the code for a file called console beside the screen (C79_clash)"
  },
  {
   "property": "C80",
   "status": "partial",
   "theorems": [
    "Verif.Props.C80_kills_partial",
    "Verif.Props.C80_system",
    "Verif.Props.C80_nothing",
    "Verif.Props.C80_unresolved",
    "Verif.Props.C80_pending",
    "Verif.Props.C80_no_worker",
    "Verif.Props.C80_refused",
    "Verif.Props.C80_unloadable",
    "Verif.Props.C80_no_target",
    "Verif.Props.C80_nothing_asked"
   ],
   "note": "false of the code: NoWorker echoes, results that cannot be loaded and the failure of a graph of which nothing was asked end the thread, answers that a task is canceled or not found resolve nothing; the theorems say exactly which messages do"
  },
  {
   "property": "C81",
   "status": "partial",
   "theorems": [
    "Verif.Props.C81_signal",
    "Verif.Props.C81_ends_partial",
    "Verif.Props.C81_turns",
    "Verif.Props.C81_process",
    "Verif.Props.C81_hidden",
    "Verif.Props.C81_left_open",
    "Verif.Props.C81_raises"
   ],
   "note": "false of the code: an exception of a loop leaves the sockets open, and SchedulerProcess handles no signal; proved for scaled_scheduler and signals, and in full what ends the process otherwise"
  },
  {
   "property": "C82",
   "status": "partial",
   "theorems": [
    "Verif.Props.C82_shutdown_partial",
    "Verif.Props.C82_failed_init",
    "Verif.Props.C82_early",
    "Verif.Props.C82_one_worker"
   ],
   "note": "false of the code: an early shutdown is lost, one worker fails on the signal, a failed constructor makes the destructor raise; proved for the rest"
  },
  {
   "property": "C83",
   "status": "partial",
   "theorems": [
    "Verif.Props.C83_exact",
    "Verif.Props.C83_dies",
    "Verif.Props.C83_goodbye"
   ],
   "note": "false of the code: ten ways in which a system of this code ends its own scheduler; proved: exactly which events do it, so that all others are handled"
  },
  {
   "property": "C84",
   "status": "proved",
   "theorems": [
    "Verif.Props.C84_located"
   ],
   "note": ""
  },
  {
   "property": "C85",
   "status": "proved",
   "theorems": [
    "Verif.Props.C85_traced",
    "Verif.Props.C85_once"
   ],
   "note": ""
  },
  {
   "property": "C86",
   "status": "proved",
   "theorems": [
    "Verif.Props.C86_graph_traced"
   ],
   "note": ""
  },
  {
   "property": "C87",
   "status": "proved",
   "theorems": [
    "Verif.Props.C87_exact",
    "Verif.Props.C87_apart"
   ],
   "note": ""
  },
  {
   "property": "C88",
   "status": "partial",
   "theorems": [
    "Verif.Props.C88_running_partial",
    "Verif.Props.C88_alone_partial",
    "Verif.Props.C88_ready",
    "Verif.Props.C88_lock",
    "Verif.Props.C88_begins",
    "Verif.Props.C88_twice",
    "Verif.Props.C88_runs_anyway"
   ],
   "note": "false of the code for a worker that was given a task twice, which happens to a worker that the scheduler counted as lost: the result of a killed processor is taken for that of the next one (C88_twice), and a cancelled task is run all the same (C88_runs_anyway); proved for workers that were given no task twice"
  },
  {
   "property": "C89",
   "status": "partial",
   "theorems": [
    "Verif.Props.C89_given_partial",
    "Verif.Props.C89_run_partial",
    "Verif.Props.C89_toldOnce",
    "Verif.Props.C89_running",
    "Verif.Props.C89_given_up",
    "Verif.Props.C89_twice"
   ],
   "note": "false of the code: a task whose worker the scheduler gives up is sent to another worker while the first one still runs it; proved: at most once while the worker that has the task is not given up, and what gives a worker up"
  },
  {
   "property": "C90",
   "status": "partial",
   "theorems": [
    "Verif.Props.C90_rests_partial",
    "Verif.Props.C90_answered_partial",
    "Verif.Props.C90_graph_partial",
    "Verif.Props.C90_idle_partial",
    "Verif.Props.C90_placed_partial",
    "Verif.Props.C90_functions_partial",
    "Verif.Props.C90_hang",
    "Verif.Props.C90_stranded",
    "Verif.Props.C90_stuck"
   ],
   "note": "false of the code: the recorded load of a worker can be too high for ever (C90_hang), a task can be left behind in the client (C90_stranded) and a processor can wait for a function that the scheduler forgot (C90_stuck); C90_rests_partial proves that nothing else keeps a task, C90_answered_partial that without them every task is answered"
  },
  {
   "property": "C91",
   "status": "proved",
   "theorems": [
    "Verif.Props.C91_settles",
    "Verif.Props.C91_still",
    "Verif.Props.C91_rests",
    "Verif.Props.C91_rest_still",
    "Verif.Props.C91_answered"
   ],
   "note": ""
  },
  {
   "property": "C92",
   "status": "partial",
   "theorems": [
    "Verif.Props.C92_get",
    "Verif.Props.C92_futures",
    "Verif.Props.C92_next",
    "Verif.Props.C92_map",
    "Verif.Props.C92_map_own",
    "Verif.Props.C92_submit",
    "Verif.Props.C92_accepted",
    "Verif.Props.C92_raises",
    "Verif.Props.C92_mute",
    "Verif.Props.C92_stuck",
    "Verif.Props.C92_stuck_get",
    "Verif.Props.C92_collateral",
    "Verif.Props.C92_half",
    "Verif.Props.C92_exit_half",
    "Verif.Props.C92_echo_left",
    "Verif.Props.C92_graph_left"
   ],
   "note": "false of the code: a call that raises disconnects the client, other futures get ScaledDisconnect or nothing, and every later map or get waits for ever; proved: what the calls return or raise otherwise, and that this is what happens after every raise"
  },
  {
   "property": "C93",
   "status": "proved",
   "theorems": [
    "Verif.Props.C93_ready",
    "Verif.Props.C93_order",
    "Verif.Props.C93_done",
    "Verif.Props.C93_active",
    "Verif.Props.C93_goes_on",
    "Verif.Props.C93_cycle"
   ],
   "note": ""
  },
  {
   "property": "C94",
   "status": "partial",
   "theorems": [
    "Verif.Props.C94_map",
    "Verif.Props.C94_map_raises",
    "Verif.Props.C94_get_partial",
    "Verif.Props.C94_get_any"
   ],
   "note": "false of the code for repeated keys of get (C63_repeated_key), for which C94_get_any says what is returned; proved in full for map"
  },
  {
   "property": "C95",
   "status": "partial",
   "theorems": [
    "Verif.Props.C95_submit",
    "Verif.Props.C95_graph",
    "Verif.Props.C95_ends",
    "Verif.Props.C95_map",
    "Verif.Props.C95_get_partial",
    "Verif.Props.C95_repeated_key"
   ],
   "note": "false of the code for a repeated first key of get (C95_repeated_key); proved in full for submit and map once the system went well to its rest; what keeps a system from that is C90"
  },
  {
   "property": "C96",
   "status": "partial",
   "theorems": [
    "Verif.Props.C96_blocks",
    "Verif.Props.C96_stuck",
    "Verif.Props.C96_cancel",
    "Verif.Props.C96_answers_partial"
   ],
   "note": "false of the code: a function that raises what is not an Exception or cannot be pickled ends the processor, and the worker then brings no result of any task until that task is cancelled; proved for all other functions"
  },
  {
   "property": "C97",
   "status": "proved",
   "theorems": [
    "Verif.Props.C97_fine",
    "Verif.Props.C97_rests",
    "Verif.Props.C97_stops",
    "Verif.Props.C97_quiet",
    "Verif.Props.C97_nodes",
    "Verif.Props.C97_settles",
    "Verif.Props.C97_answered",
    "Verif.Props.C97_value",
    "Verif.Props.C97_stopped",
    "Verif.Props.C97_every",
    "Verif.Props.C97_fair_run",
    "Verif.Props.C97_map",
    "Verif.Props.C97_get"
   ],
   "note": "submit, map and get; the range leaves out what C63, C80, C90, C91, C95 and C96 show to go wrong"
  },
  {
   "property": "C98",
   "status": "partial",
   "theorems": [
    "Verif.Props.C98_shown",
    "Verif.Props.C98_scheduler",
    "Verif.Props.C98_sent_partial",
    "Verif.Props.C98_screen_partial",
    "Verif.Props.C98_less",
    "Verif.Props.C98_rewrite_partial",
    "Verif.Props.C98_rewritten",
    "Verif.Props.C98_overflow"
   ],
   "note": "false of the code: int() cuts off what rounding lost, so a worker's load can be sent as a tenth of a percent less; proved that it is never worse, and exact for the scheduler's own load"
  },
  {
   "property": "C99",
   "status": "partial",
   "theorems": [
    "Verif.Props.C99_level_partial",
    "Verif.Props.C99_not_level",
    "Verif.Props.C99_enough",
    "Verif.Props.C99_again",
    "Verif.Props.C99_no_worse_partial"
   ],
   "note": "false of the code: a worker whose recorded load is too high (C11) stays idle when the advice is followed, and with fewer tasks than workers some are always asked for; proved when every question for a free worker is followed by a placement, and that no load gets worse"
  },
  {
   "property": "C100",
   "status": "partial",
   "theorems": [
    "Verif.Props.C100_sent",
    "Verif.Props.C100_same_partial",
    "Verif.Props.C100_graph_partial",
    "Verif.Props.C100_stale",
    "Verif.Props.C100_kept"
   ],
   "note": "false of the code: the client remembers the pickled function, so an object that is called like a function, or a method of an object, is sent as it was at its first submission (C100_stale); proved for functions that do not change, and exactly what is sent in all cases"
  },
  {
   "property": "C101",
   "status": "partial",
   "theorems": [
    "Verif.Props.C101_bounded_partial",
    "Verif.Props.C101_nothing_partial",
    "Verif.Props.C101_answered",
    "Verif.Props.C101_claim_kept",
    "Verif.Props.C101_client_tables",
    "Verif.Props.C101_client",
    "Verif.Props.C101_agent",
    "Verif.Props.C101_agent_size",
    "Verif.Props.C101_system",
    "Verif.Props.C101_oneAnswer",
    "Verif.Props.C101_client_system",
    "Verif.Props.C101_well",
    "Verif.Props.C101_stopped",
    "Verif.Props.C101_forgets",
    "Verif.Props.C101_every"
   ],
   "note": "false of the code for one table: a node that was refused with NoWorker keeps its claim on its function after its graph has failed (C101_claim_kept), so the bound on claims counts refusals; all other tables are bounded by what is open, without conditions; for clients and workers: what their tables hold, and that they are empty when everything was answered; and for whole systems in which everything goes as it should: in every fair run there comes a moment from which on nobody, client, scheduler or worker, keeps anything of what was asked for"
  },
  {
   "property": "C102",
   "status": "proved",
   "theorems": [
    "Verif.Props.C102_kept",
    "Verif.Props.C102_lives",
    "Verif.Props.C102_sharp"
   ],
   "note": ""
  },
  {
   "property": "C103",
   "status": "partial",
   "theorems": [
    "Verif.Props.C103_uses",
    "Verif.Props.C103_dead",
    "Verif.Props.C103_steady_partial",
    "Verif.Props.C103_alone",
    "Verif.Props.C103_main",
    "Verif.Props.C103_dies",
    "Verif.Props.C103_happens"
   ],
   "note": "false as it stands: a function that comes or goes during the look ends the thread (C103_dies, C103_happens); C103_dead says exactly when"
  },
  {
   "property": "C104",
   "status": "partial",
   "theorems": [
    "Verif.Props.C104_indexed_put",
    "Verif.Props.C104_indexed_get",
    "Verif.Props.C104_indexed_remove",
    "Verif.Props.C104_put",
    "Verif.Props.C104_get",
    "Verif.Props.C104_decrease_partial",
    "Verif.Props.C104_remove_partial",
    "Verif.Props.C104_index_linear"
   ],
   "note": "false of the code for remove and decrease_priority: list.index looks at all entries before the one it finds (C104_index_linear); proved for the indexed queue, for put and get, and for everything else these two do"
  },
  {
   "property": "C105",
   "status": "partial",
   "theorems": [
    "Verif.Props.C105_over",
    "Verif.Props.C105_look",
    "Verif.Props.C105_main_first_partial",
    "Verif.Props.C105_terminate_partial",
    "Verif.Props.C105_exact",
    "Verif.Props.C105_unasked",
    "Verif.Props.C105_lingers",
    "Verif.Props.C105_stays",
    "Verif.Props.C105_interrupted"
   ],
   "note": "false of the code: the cleaner is no daemon and never comes to an end by itself, so a processor whose main thread is over stays as a process until it is killed (C105_stays, C105_interrupted); C105_exact says when it does"
  },
  {
   "property": "C106",
   "status": "partial",
   "theorems": [
    "Verif.Props.C106_running",
    "Verif.Props.C106_quit_partial",
    "Verif.Props.C106_exact",
    "Verif.Props.C106_waits",
    "Verif.Props.C106_hangs",
    "Verif.Props.C106_replaced",
    "Verif.Props.C106_begins",
    "Verif.Props.C106_terminated"
   ],
   "note": "false of the code: a worker that ends by an exception waits for its last processor, which nobody ends (C106_hangs); proved for workers that quit, and exactly when the process is over otherwise"
  },
  {
   "property": "C107",
   "status": "proved",
   "theorems": [
    "Verif.Props.C107_indexed",
    "Verif.Props.C107_priority",
    "Verif.Props.C107_plain",
    "Verif.Props.C107_turn",
    "Verif.Props.C107_turn_graphs",
    "Verif.Props.C107_turn_workers",
    "Verif.Props.C107_order",
    "Verif.Props.C107_overtaken"
   ],
   "note": ""
  },
  {
   "property": "C108",
   "status": "proved",
   "theorems": [
    "Verif.Props.C108_safe",
    "Verif.Props.C108_signals",
    "Verif.Props.C108_figures",
    "Verif.Props.C108_read",
    "Verif.Props.C108_collected"
   ],
   "note": "Linux: psutil reads the figures of a process that has ended and was not waited for"
  },
  {
   "property": "C109",
   "status": "proved",
   "theorems": [
    "Verif.Props.C109_same",
    "Verif.Props.C109_silent"
   ],
   "note": ""
  },
  {
   "property": "C110",
   "status": "partial",
   "theorems": [
    "Verif.Props.C110_submit",
    "Verif.Props.C110_submitted",
    "Verif.Props.C110_steps",
    "Verif.Props.C110_map_partial",
    "Verif.Props.C110_mapped",
    "Verif.Props.C110_get",
    "Verif.Props.C110_got",
    "Verif.Props.C110_graph",
    "Verif.Props.C110_map_half"
   ],
   "note": "Proved for submit and get. False of the code for map: the items before the first one that is refused were submitted (C110_map_half); C110_map_partial says exactly what was."
  },
  {
   "property": "C111",
   "status": "partial",
   "theorems": [
    "Verif.Props.C111_off",
    "Verif.Props.C111_apart",
    "Verif.Props.C111_interval_partial",
    "Verif.Props.C111_switch",
    "Verif.Props.C111_too_often"
   ],
   "note": "Proved that a setting of 0 switches balancing off and that questions are at least load_balance_trigger_times seconds apart. False of the code otherwise: a positive load_balance_seconds is never used as a time (C111_switch, C111_too_often)."
  },
  {
   "property": "C112",
   "status": "partial",
   "theorems": [
    "Verif.Props.C112_steady_partial",
    "Verif.Props.C112_back",
    "Verif.Props.C112_set_back",
    "Verif.Props.C112_worker",
    "Verif.Props.C112_scheduler"
   ],
   "note": "False of the code: a clock set back between a heartbeat and its answer makes the latency negative, and the next heartbeat raises struct.error (C112_back, C112_set_back); one set forward past a timeout makes both sides give up living peers (C112_worker, C112_scheduler). Proved for clocks that are not set while an answer is awaited, and that setting them back makes nobody give up a peer."
  }
 ]
}
