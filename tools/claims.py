c("C01", "proved", ["C01_roundtrip"], "All message types; values within the ranges of the struct fields.")
c("C02", "proved", ["C02_decode_encode", "C02_binder_decode", "C02_binder_encode", "C02_injective"])
c("C03", "proved", ["C03_sendable"], "Exact characterisation of what serialize() accepts.")
c("C04", "proved", ["C04_decode_stable", "C04_graph_loop_total"],
  "A decoded frame re-encodes, except a graph message with an empty function table (C03).")
c("C05", "proved", ["C05_fifo", "C05_hash_collision"],
  "Holds for items with different hashes; C05_hash_collision shows the hypothesis is needed.")
c("C06", "proved", ["C06_errors", "C06_unchanged", "C06_object"])
c("C07", "partial", ["C07_least_first_partial", "C07_least_meaning", "C07_put_twice", "C07_below_zero", "C07_object"],
  "false of the code for data that are put twice and for priorities below zero; proved for all other sequences, and the allocator makes no others")
c("C08", "partial", ["C08_lost_update", "C08_second_decrease_raises", "C08_remove_raises", "C08_no_lost_update_partial"],
  "False of the code: max_priority leaves a stale locator. Partial: sequences that do not touch a looked-at entry before get.")
c("C09", "proved", ["C09_one_worker"])
c("C10", "proved", ["C10_queue_size"])
c("C11", "partial", ["C11_free_slot_refused", "C11_free_slot_usable_partial", "C11_consult_partial"],
  "False of the code: after has_available_worker (called on every submission) finished tasks are not counted down. Partial: histories without that call, and histories where an assignment follows each such call before anything else changes.")
c("C12", "proved", ["C12_least_recorded"])
c("C13", "proved", ["C13_remove_worker", "C13_remove_worker_raises"],
  "For calls that return; C13_remove_worker_raises shows that the call may raise after has_available_worker.")
c("C14", "partial", ["C14_asks_for_too_much", "C14_balance_partial", "C14_floats"],
  "Last clause is false of the code: rounding up makes every busy worker give a task. All other clauses proved, with a weaker bound on the total.")
c("C59", "proved", ["C59_one_to_many", "C59_unchanged", "C59_object", "C59_views"])
c("C60", "proved", ["C60_key_value_set", "C60_unchanged", "C60_object", "C60_views"])
c("C16", "proved", ["C16_exactly_once"], "For all executions in which clients choose ids properly (Spec.Allowed).")
c("C17", "proved", ["C17_right_client", "C17_echo_first"])
c("C18", "proved", ["C18_one_place"])
c("C28", "partial", ["C28_scheduler_dies", "C28_exact", "C28_survives_partial", "C28_prompt_partial"],
  "False of the code (13 executions). Partial: exactly the situations listed in Fatal raise (an equivalence); fewer situations when the task routine gets its turns (Spec.Prompt).")
c("C29", "proved", ["C29_statistics", "C29_system", "C29_other_worker"], "the equation of the counters for all histories in which workers report statuses that end a task; the workers of this project report no others (C29_system)")
c("C33", "proved", ["C33_after_inputs"])
c("C34", "proved", ["C34_at_most_once"])
c("C35", "proved", ["C35_graph_value"])
c("C36", "partial", ["C36_stuck", "C36_not_stuck_partial"],
  "False of the code when a node is refused with NoWorker. Partial: executions without a waiting limit.")
c("C37", "partial", ["C37_failure_kills", "C37_notFound_kills", "C37_failed_node_partial", "C37_reason"],
  "False of the code: a failure while another node waits raises KeyError. Partial: whenever the event is handled without exception.")
c("C38", "partial", ["C38_claim_leaks", "C38_no_residue_partial"],
  "False of the code: a node refused with NoWorker leaves its function claimed. Partial: executions without a waiting limit.")
c("C39", "partial", ["C39_repeated_input_kills", "C39_inputs_partial"],
  "False of the code: a node that names an input twice raises KeyError. Partial: nodes that name each input once.")
c("C40", "partial", ["C40_cancel_kills", "C40_cancel_partial"],
  "False of the code: cancelling while a node waits, or an unknown graph, raises. Partial: otherwise.")
c("C15", "partial", ["C15_never_sends", "C15_trigger_one_silent", "C15_debounced_partial"],
  "False of the code for trigger setting 1, which never sends. Partial: all other settings.")
c("C19", "partial", ["C19_leaving_kills", "C19_worker_lost_partial", "C19_prompt_partial"],
  "False of the code: a worker whose queue entry is out of date cannot be removed (AssertionError). Partial: whenever the event is handled without exception. Also proved without that restriction for all executions in which the task routine gets its turns (Spec.Prompt) and the waiting limit is not 0.")
c("C20", "partial", ["C20_return_kills", "C20_balance_response_partial", "C20_prompt_partial"],
  "False of the code: two returned tasks after has_available_worker raise ValueError. Partial: whenever the event is handled without exception. Also proved without that restriction for all executions in which the task routine gets its turns (Spec.Prompt) and the waiting limit is not 0.")
c("C21", "proved", ["C21_late_result"])
c("C27", "proved", ["C27_liveness"])
c("C22", "partial", ["C22_cancel_partial", "C22_waiting_node", "C22_waiting_node_kills"],
  "Proved for single tasks, and forwarding for all tasks. False of the code for a waiting node of a graph while another one waits (KeyError).")
c("C23", "partial", ["C23_cancel_lost", "C23_cancel_partial"],
  "False of the code: a cancel of the task that is taken from the queue while nobody is connected does nothing. Partial: all other tasks.")
c("C24", "partial", ["C24_idle_worker_refused", "C24_prompt_limit", "C24_decision_partial", "C24_prompt_partial"],
  "Exact decision table with the recorded loads. False of the code for the real loads: an idle worker may be recorded as full. The real loads are right in all executions in which the task routine gets its turns (Spec.Prompt) and the waiting limit is not 0.")
c("C25", "proved", ["C25_limit"])
c("C26", "partial", ["C26_order_inverted", "C26_idle_forever", "C26_turn_partial", "C26_turns", "C26_prompt_partial"],
  "Exact turn of the task routine with the recorded loads. False of the code for the real loads: a later task overtakes, or an idle worker never gets a task again. The real loads are right in all executions in which the task routine gets its turns (Spec.Prompt) and the waiting limit is not 0.")
c("C30", "proved", ["C30_needed_kept"])
c("C31", "proved", ["C31_function_fixed"])
c("C32", "partial", ["C32_delete_kills", "C32_delete_partial"],
  "False of the code in every state: deleting an unused function raises ValueError. Partial: unknown functions and functions in use.")
c("C50", "proved", ["C50_one_task", "C50_no_overlap", "C50_next_starts", "C50_killed"])
c("C51", "proved", ["C51_accounted", "C51_told", "C51_system"])
c("C52", "partial", ["C52_not_found_runs", "C52_canceled", "C52_not_found_partial"],
  "Proved for Canceled. False of the code for NotFound: a task that waits for the processor is reported NotFound and runs.")
c("C53", "partial", ["C53_late_cancel", "C53_late_function", "C53_kills_partial", "C53_inside", "C53_overfull", "C53_system_partial", "C53_system_dies"],
  "False of the code: a late cancel or function response raises AttributeError, a task that is given out again KeyError. Partial: the exact set of messages that raise, alone and in a system.")
c("C54", "proved", ["C54_balance", "C54_unstarted"])
c("C57", "proved", ["C57_one_open", "C57_timeout"])
c("C55", "partial", ["C55_evicted_under_task", "C55_answers_partial", "C55_answers_exactly", "C55_once"],
  "Success carries the right result and answers are unique in all executions. False of the code for failures: the cleaner can evict the function under a task, which then fails with TypeError. Exact if the two threads do not meet.")
c("C56", "partial", ["C56_evicted_in_use", "C56_left_behind", "C56_gone", "C56_evict_partial", "C56_evict_alone"],
  "False of the code: a function used after the cleaner looked is evicted, and a record without a function is left behind. Full statement if the two threads do not meet.")
c("C64", "partial", ["C64_unloadable", "C64_unpicklable", "C64_second_response", "C64_dies_partial", "C64_progress", "C64_announced", "C64_system_second"],
  "False of the code: a function that cannot be loaded, or an exception that cannot be pickled, ends the process. Partial: exactly these cases.")
c("C45", "partial", ["C45_resolves_partial", "C45_own", "C45_final", "C45_unknown", "C45_lost", "C45_echo_race", "C45_cancelled_kills"],
  "A resolved future carries its own task's result, once. False of the code: the future is registered after the task is sent, so its result can be lost or its echo can kill the thread; a future the user cancelled kills the thread when its result comes.")
c("C46", "partial", ["C46_partial", "C46_stranded"],
  "Proved if the two threads do not meet inside a submit. False of the code otherwise: a task buffered while the function response is handled is never sent.")
c("C47", "proved", ["C47_known", "C47_once"])
c("C48", "partial", ["C48_failed_partial", "C48_success", "C48_first_only"],
  "Proved for success. False of the code for failure: only the first future of the graph is resolved.")
c("C49", "partial", ["C49_partial", "C49_resolves", "C49_cancelled", "C49_late", "C49_asked", "C49_over"],
  "Proved if no open future was cancelled by the user. False of the code otherwise, and for a future registered after the exit.")
c("C41", "partial", ["C41_bind_partial", "C41_missing", "C41_keyword_only_lost", "C41_unknown_accepted", "C41_positional_only_by_keyword"],
  "Proved for keywords that name positional parameters. False of the code for keyword-only parameters, whose values are dropped, and for keywords that Python rejects.")
c("C42", "partial", ["C42_calls_partial", "C42_results", "C42_own", "C42_iterator"],
  "Proved for iterables that can be iterated twice. False of the code for iterators: the check uses them up and nothing is submitted.")
c("C43", "partial", ["C43_partial", "C43_stands", "C43_any", "C43_exact", "C43_repeated_key"],
  "Proved for different keys, with an exact condition for repeated keys. False of the code in general: a repeated key shifts the futures; which future is returned for which key is proved for all keys (C43_stands, C43_any).")
c("C44", "proved", ["C44_rejected", "C44_same", "C44_value"])
c("C58", "partial", ["C58_accepts", "C58_rejects", "C58_roundtrip_partial", "C58_colon", "C58_any_number", "C58_number", "C58_address"],
  "Proved for hosts without colon. False of the code for tcp hosts with a colon, which are accepted but not parsed back.")
c("C61", "proved", ["C61_bytes", "C61_bytes_total", "C61_microseconds", "C61_no_sign", "C61_seconds", "C61_integer", "C61_groups", "C61_size_tenths", "C61_lag_tenths"])
c("C62", "proved", ["C62_value", "C62_exception"], "The whole system; ids from uuid1 are new, hashes of the functions in use differ.")
c("C63", "partial", ["C63_value_partial", "C63_value_any", "C63_repeated_key"], "Holds if the first keys, as many as there are targets, are different; with other repeated keys get returns futures of other nodes; C63_value_any says for all keys which node's value is returned.")
c("C65", "proved", ["C65_layout", "C65_tag", "C65_no_class", "C65_dropped", "C65_bad_word", "C65_heartbeat_read"])
c("C66", "partial", ["C66_rows", "C66_functions_partial", "C66_same_name", "C66_text"],
  "Workers and clients exactly. The function table is keyed by name, so it is right only for functions in use whose names differ; false of the code otherwise.")
c("C67", "proved", ["C67_check", "C67_add"])
c("C68", "proved", ["C68_prompted", "C68_client", "C68_worker", "C68_kinds"])
c("C69", "proved", ["C69_heartbeat", "C69_latency", "C69_echo", "C69_latency_back", "C69_echo_back", "C69_latency_long"], "The code computes the latency with floats; that is exact below 2^53 nanoseconds (C69_latency; C69_latency_back if the clock was set back), and the model of the agent computes it exactly.")
c("C70", "proved", ["C70_status", "C70_traffic", "C70_names", "C70_graph", "C70_system"],
  "Status order and traffic for executions in which workers end tasks only with final statuses (a worker may put any status into a result).")
c("C71", "proved", ["C71_books", "C71_order", "C71_sendable", "C71_asks", "C71_serves"],
  "C71_books needs no assumption; the others are for clients that use fresh ids (`Spec.Allowed`) and a queue size that fits 32 bits")
c("C72", "partial", ["C72_decoded", "C72_malformed_kills", "C72_partial"],
  "false of the code: a proper tag with an unreadable payload ends the scheduler; proved exactly which payloads can be read, that everything else is ignored, and that readable messages fail only in the scheduler itself")
c("C73", "partial", ["C73_screen_partial", "C73_not_shown", "C73_lag_ends", "C73_watch", "C73_truncate", "C73_merge", "C73_concat", "C73_sign"],
  "false of the code: a lag of 1000 s or a size of 1024t ends the display; everything else is proved to be drawn as specified")
c("C74", "partial", ["C74_async_heard", "C74_async_goes_on", "C74_async_silent", "C74_async_sent", "C74_pipe", "C74_sync_sent_partial", "C74_sync_heard", "C74_sync_flush", "C74_sent_not_counted", "C74_dropped", "C74_unknown"],
  "false of the code: a stop drops what is still in the queue, and the sync connector never counts what it sends; everything else holds for all interleavings")
c("C75", "partial", ["C75_signal_exact", "C75_obeyed_partial", "C75_ended", "C75_ends", "C75_lost", "C75_start_raises", "C75_survivor", "C75_one_worker"],
  "false of the code: signals during start-up, after the end of a worker, and SIGTERM to a cluster of one worker; C75_signal_exact says what a signal does at every moment")
c("C76", "partial", ["C76_can_finish_partial"],
  "executions in which the task routine gets its turns, a limit that is not 0, graphs without a defect; elsewhere it is false (C36_stuck, C28_scheduler_dies)")
c("C77", "partial", ["C77_goodbye_partial", "C77_orphan_exact", "C77_when", "C77_final", "C77_orphan"],
  "false of the code for ends by an exception or by SIGTERM; C77_when says which events these are, C77_orphan_exact what is left behind")
c("C78", "partial", ["C78_scheduler", "C78_scheduler_help", "C78_scheduler_stops", "C78_cluster", "C78_cluster_stops", "C78_workers", "C78_workers_begin", "C78_config", "C78_top", "C78_combo_partial", "C78_combo_loop", "C78_combo_run", "C78_combo_defaults", "C78_combo_error", "C78_monitor", "C78_name"],
  "false of the code for the event loop of a combination: its scheduler always uses the built-in one (C78_combo_loop)")
c("C79", "partial", ["C79_lines_partial", "C79_once", "C79_socket", "C79_clash", "C79_level", "C79_elapsed", "C79_not_begun", "C79_scope"],
  "false of the code for a file called console beside the screen (C79_clash)")
c("C80", "partial", ["C80_kills_partial", "C80_system", "C80_nothing", "C80_unresolved", "C80_pending", "C80_no_worker", "C80_refused", "C80_unloadable", "C80_no_target", "C80_nothing_asked"],
  "false of the code: NoWorker echoes, results that cannot be loaded and the failure of a graph of which nothing was asked end the thread, answers that a task is canceled or not found resolve nothing; the theorems say exactly which messages do")
c("C81", "partial", ["C81_signal", "C81_ends_partial", "C81_turns", "C81_process", "C81_hidden", "C81_left_open", "C81_raises"],
  "false of the code: an exception of a loop leaves the sockets open, and SchedulerProcess handles no signal; proved for scaled_scheduler and signals, and in full what ends the process otherwise")
c("C82", "partial", ["C82_shutdown_partial", "C82_failed_init", "C82_early", "C82_one_worker"],
  "false of the code: an early shutdown is lost, one worker fails on the signal, a failed constructor makes the destructor raise; proved for the rest")
c("C83", "partial", ["C83_exact", "C83_dies", "C83_goodbye"],
  "false of the code: ten ways in which a system of this code ends its own scheduler; proved: exactly which events do it, so that all others are handled")
c("C84", "proved", ["C84_located"])
c("C85", "proved", ["C85_traced", "C85_once"])
c("C86", "proved", ["C86_graph_traced"])
c("C87", "proved", ["C87_exact", "C87_apart"])
c("C88", "partial", ["C88_running_partial", "C88_alone_partial", "C88_ready", "C88_lock", "C88_begins", "C88_twice", "C88_runs_anyway"],
  "false of the code for a worker that was given a task twice, which happens to a worker that the scheduler counted as lost: the result of a killed processor is taken for that of the next one (C88_twice), and a cancelled task is run all the same (C88_runs_anyway); proved for workers that were given no task twice")
c("C89", "partial", ["C89_given_partial", "C89_run_partial", "C89_toldOnce", "C89_running", "C89_given_up", "C89_twice"],
  "false of the code: a task whose worker the scheduler gives up is sent to another worker while the first one still runs it; proved: at most once while the worker that has the task is not given up, and what gives a worker up")
c("C90", "partial", ["C90_rests_partial", "C90_answered_partial", "C90_graph_partial", "C90_idle_partial", "C90_placed_partial", "C90_functions_partial", "C90_hang", "C90_stranded", "C90_stuck"],
  "false of the code: the recorded load of a worker can be too high for ever (C90_hang), a task can be left behind in the client (C90_stranded) and a processor can wait for a function that the scheduler forgot (C90_stuck); C90_rests_partial proves that nothing else keeps a task, C90_answered_partial that without them every task is answered")
c("C91", "proved", ["C91_settles", "C91_still", "C91_rests", "C91_rest_still", "C91_answered"])
c("C92", "partial", ["C92_get", "C92_futures", "C92_next", "C92_map", "C92_map_own", "C92_submit", "C92_accepted", "C92_raises", "C92_mute", "C92_stuck", "C92_stuck_get", "C92_collateral", "C92_half", "C92_exit_half", "C92_echo_left", "C92_graph_left"],
  "false of the code: a call that raises disconnects the client, other futures get ScaledDisconnect or nothing, and every later map or get waits for ever; proved: what the calls return or raise otherwise, and that this is what happens after every raise")
c("C93", "proved", ["C93_ready", "C93_order", "C93_done", "C93_active", "C93_goes_on", "C93_cycle"])
c("C94", "partial", ["C94_map", "C94_map_raises", "C94_get_partial", "C94_get_any"],
  "false of the code for repeated keys of get (C63_repeated_key), for which C94_get_any says what is returned; proved in full for map")
c("C95", "partial", ["C95_submit", "C95_graph", "C95_ends", "C95_map", "C95_get_partial", "C95_repeated_key"],
  "false of the code for a repeated first key of get (C95_repeated_key); proved in full for submit and map once the system went well to its rest; what keeps a system from that is C90")
c("C96", "partial", ["C96_blocks", "C96_stuck", "C96_cancel", "C96_answers_partial"],
  "false of the code: a function that raises what is not an Exception or cannot be pickled ends the processor, and the worker then brings no result of any task until that task is cancelled; proved for all other functions")
c("C97", "proved", ["C97_fine", "C97_rests", "C97_stops", "C97_quiet", "C97_nodes", "C97_settles", "C97_answered", "C97_value", "C97_stopped", "C97_every", "C97_fair_run", "C97_map", "C97_get"],
  "submit, map and get; the range leaves out what C63, C80, C90, C91, C95 and C96 show to go wrong")
c("C98", "partial", ["C98_shown", "C98_scheduler", "C98_sent_partial", "C98_screen_partial", "C98_less", "C98_rewrite_partial", "C98_rewritten", "C98_overflow"],
  "false of the code: int() cuts off what rounding lost, so a worker's load can be sent as a tenth of a percent less; proved that it is never worse, and exact for the scheduler's own load")
c("C99", "partial", ["C99_level_partial", "C99_not_level", "C99_enough", "C99_again", "C99_no_worse_partial"],
  "false of the code: a worker whose recorded load is too high (C11) stays idle when the advice is followed, and with fewer tasks than workers some are always asked for; proved when every question for a free worker is followed by a placement, and that no load gets worse")
c("C100", "partial", ["C100_sent", "C100_same_partial", "C100_graph_partial", "C100_stale", "C100_kept"],
  "false of the code: the client remembers the pickled function, so an object that is called like a function, or a method of an object, is sent as it was at its first submission (C100_stale); proved for functions that do not change, and exactly what is sent in all cases")
c("C101", "partial", ["C101_bounded_partial", "C101_nothing_partial", "C101_answered", "C101_claim_kept", "C101_client_tables", "C101_client", "C101_agent", "C101_agent_size", "C101_system",
  "C101_oneAnswer", "C101_client_system", "C101_well", "C101_stopped", "C101_forgets", "C101_every"],
  "false of the code for one table: a node that was refused with NoWorker keeps its claim on its function after its graph has failed (C101_claim_kept), so the bound on claims counts refusals; all other tables are bounded by what is open, without conditions; for clients and workers: what their tables hold, and that they are empty when everything was answered; and for whole systems in which everything goes as it should: in every fair run there comes a moment from which on nobody, client, scheduler or worker, keeps anything of what was asked for")
c("C102", "proved", ["C102_kept", "C102_lives", "C102_sharp"])
c("C103", "partial", ["C103_uses", "C103_dead", "C103_steady_partial", "C103_alone", "C103_main", "C103_dies", "C103_happens"],
  "false as it stands: a function that comes or goes during the look ends the thread (C103_dies, C103_happens); C103_dead says exactly when")
c("C104", "partial", ["C104_indexed_put", "C104_indexed_get", "C104_indexed_remove", "C104_put", "C104_get", "C104_decrease_partial", "C104_remove_partial", "C104_index_linear"],
  "false of the code for remove and decrease_priority: list.index looks at all entries before the one it finds (C104_index_linear); proved for the indexed queue, for put and get, and for everything else these two do")
c("C105", "partial", ["C105_over", "C105_look", "C105_main_first_partial", "C105_terminate_partial", "C105_exact", "C105_unasked", "C105_lingers", "C105_stays", "C105_interrupted"],
  "false of the code: the cleaner is no daemon and never comes to an end by itself, so a processor whose main thread is over stays as a process until it is killed (C105_stays, C105_interrupted); C105_exact says when it does")
c("C106", "partial", ["C106_running", "C106_quit_partial", "C106_exact", "C106_waits", "C106_hangs", "C106_replaced", "C106_begins", "C106_terminated"],
  "false of the code: a worker that ends by an exception waits for its last processor, which nobody ends (C106_hangs); proved for workers that quit, and exactly when the process is over otherwise")
c("C107", "proved", ["C107_indexed", "C107_priority", "C107_plain", "C107_turn", "C107_turn_graphs", "C107_turn_workers", "C107_order", "C107_overtaken"])
c("C108", "proved", ["C108_safe", "C108_signals", "C108_figures", "C108_read", "C108_collected"], "Linux: psutil reads the figures of a process that has ended and was not waited for")
c("C109", "proved", ["C109_same", "C109_silent"])
c("C110", "partial", ["C110_submit", "C110_submitted", "C110_steps", "C110_map_partial", "C110_mapped", "C110_get", "C110_got", "C110_graph", "C110_map_half"],
  "Proved for submit and get. False of the code for map: the items before the first one that is refused were submitted (C110_map_half); C110_map_partial says exactly what was.")
c("C111", "partial", ["C111_off", "C111_apart", "C111_interval_partial", "C111_switch", "C111_too_often"],
  "Proved that a setting of 0 switches balancing off and that questions are at least load_balance_trigger_times seconds apart. False of the code otherwise: a positive load_balance_seconds is never used as a time (C111_switch, C111_too_often).")
c("C112", "partial", ["C112_steady_partial", "C112_back", "C112_set_back", "C112_worker", "C112_scheduler"],
  "False of the code: a clock set back between a heartbeat and its answer makes the latency negative, and the next heartbeat raises struct.error (C112_back, C112_set_back); one set forward past a timeout makes both sides give up living peers (C112_worker, C112_scheduler). Proved for clocks that are not set while an answer is awaited, and that setting them back makes nobody give up a peer.")
