# Axioms

Output of `#print axioms` for every theorem named in MANIFEST.json (written by `tools/gen_manifest.py`).

| theorem | property | axioms |
|---|---|---|
| `Verif.Props.C01_roundtrip` | C01 | propext, Classical.choice, Quot.sound |
| `Verif.Props.C02_binder_decode` | C02 | propext, Classical.choice, Quot.sound |
| `Verif.Props.C02_binder_encode` | C02 | propext, Classical.choice, Quot.sound |
| `Verif.Props.C02_decode_encode` | C02 | propext, Classical.choice, Quot.sound |
| `Verif.Props.C02_injective` | C02 | propext, Classical.choice, Quot.sound |
| `Verif.Props.C03_sendable` | C03 | propext, Classical.choice, Quot.sound |
| `Verif.Props.C04_decode_stable` | C04 | propext, Classical.choice, Quot.sound |
| `Verif.Props.C04_graph_loop_total` | C04 | propext, Quot.sound |
| `Verif.Props.C05_fifo` | C05 | propext, Classical.choice, Quot.sound |
| `Verif.Props.C05_hash_collision` | C05 | propext, Classical.choice, Quot.sound |
| `Verif.Props.C06_errors` | C06 | propext, Classical.choice, Quot.sound |
| `Verif.Props.C06_object` | C06 | propext, Classical.choice, Quot.sound |
| `Verif.Props.C06_unchanged` | C06 | propext, Classical.choice, Quot.sound |
| `Verif.Props.C07_below_zero` | C07 | propext, Classical.choice, Quot.sound |
| `Verif.Props.C07_least_first_partial` | C07 | propext, Classical.choice, Quot.sound |
| `Verif.Props.C07_least_meaning` | C07 | propext, Classical.choice, Quot.sound |
| `Verif.Props.C07_object` | C07 | propext, Classical.choice, Quot.sound |
| `Verif.Props.C07_put_twice` | C07 | propext, Classical.choice, Quot.sound |
| `Verif.Props.C08_lost_update` | C08 | propext, Classical.choice, Quot.sound |
| `Verif.Props.C08_no_lost_update_partial` | C08 | propext, Classical.choice, Quot.sound |
| `Verif.Props.C08_remove_raises` | C08 | propext, Classical.choice, Quot.sound |
| `Verif.Props.C08_second_decrease_raises` | C08 | propext, Classical.choice, Quot.sound |
| `Verif.Props.C09_one_worker` | C09 | propext, Classical.choice, Quot.sound |
| `Verif.Props.C100_graph_partial` | C100 | propext, Classical.choice, Quot.sound |
| `Verif.Props.C100_kept` | C100 | propext, Classical.choice, Quot.sound |
| `Verif.Props.C100_same_partial` | C100 | propext, Classical.choice, Quot.sound |
| `Verif.Props.C100_sent` | C100 | propext, Classical.choice, Quot.sound |
| `Verif.Props.C100_stale` | C100 | propext, Classical.choice, Quot.sound |
| `Verif.Props.C101_agent` | C101 | propext, Classical.choice, Quot.sound |
| `Verif.Props.C101_agent_size` | C101 | propext, Classical.choice, Quot.sound |
| `Verif.Props.C101_answered` | C101 | propext, Classical.choice, Quot.sound |
| `Verif.Props.C101_bounded_partial` | C101 | propext, Classical.choice, Quot.sound |
| `Verif.Props.C101_claim_kept` | C101 | propext, Classical.choice, Quot.sound |
| `Verif.Props.C101_client` | C101 | propext, Classical.choice, Quot.sound |
| `Verif.Props.C101_client_system` | C101 | propext, Classical.choice, Quot.sound |
| `Verif.Props.C101_client_tables` | C101 | propext, Classical.choice, Quot.sound |
| `Verif.Props.C101_every` | C101 | propext, Classical.choice, Quot.sound |
| `Verif.Props.C101_forgets` | C101 | propext, Classical.choice, Quot.sound |
| `Verif.Props.C101_nothing_partial` | C101 | propext, Classical.choice, Quot.sound |
| `Verif.Props.C101_oneAnswer` | C101 | propext, Classical.choice, Quot.sound |
| `Verif.Props.C101_stopped` | C101 | propext, Classical.choice, Quot.sound |
| `Verif.Props.C101_system` | C101 | propext, Classical.choice, Quot.sound |
| `Verif.Props.C101_well` | C101 | propext, Classical.choice, Quot.sound |
| `Verif.Props.C102_kept` | C102 | propext, Classical.choice, Quot.sound |
| `Verif.Props.C102_lives` | C102 | propext, Classical.choice, Quot.sound |
| `Verif.Props.C102_sharp` | C102 | propext, Classical.choice, Quot.sound |
| `Verif.Props.C103_alone` | C103 | propext, Quot.sound |
| `Verif.Props.C103_dead` | C103 | propext, Quot.sound |
| `Verif.Props.C103_dies` | C103 | propext, Quot.sound |
| `Verif.Props.C103_happens` | C103 | propext, Classical.choice, Quot.sound |
| `Verif.Props.C103_main` | C103 | propext, Classical.choice, Quot.sound |
| `Verif.Props.C103_steady_partial` | C103 | propext, Classical.choice, Quot.sound |
| `Verif.Props.C103_uses` | C103 | propext, Classical.choice, Quot.sound |
| `Verif.Props.C104_decrease_partial` | C104 | propext, Classical.choice, Quot.sound |
| `Verif.Props.C104_get` | C104 | propext, Quot.sound |
| `Verif.Props.C104_index_linear` | C104 | propext, Classical.choice, Quot.sound |
| `Verif.Props.C104_indexed_get` | C104 | propext, Classical.choice, Quot.sound |
| `Verif.Props.C104_indexed_put` | C104 | propext, Classical.choice, Quot.sound |
| `Verif.Props.C104_indexed_remove` | C104 | propext, Classical.choice, Quot.sound |
| `Verif.Props.C104_put` | C104 | propext, Classical.choice, Quot.sound |
| `Verif.Props.C104_remove_partial` | C104 | propext, Classical.choice, Quot.sound |
| `Verif.Props.C105_exact` | C105 | propext, Classical.choice, Quot.sound |
| `Verif.Props.C105_interrupted` | C105 | propext, Classical.choice, Quot.sound |
| `Verif.Props.C105_lingers` | C105 | propext, Classical.choice, Quot.sound |
| `Verif.Props.C105_look` | C105 | propext, Classical.choice, Quot.sound |
| `Verif.Props.C105_main_first_partial` | C105 | propext, Classical.choice, Quot.sound |
| `Verif.Props.C105_over` | C105 | propext, Classical.choice, Quot.sound |
| `Verif.Props.C105_stays` | C105 | propext, Classical.choice, Quot.sound |
| `Verif.Props.C105_terminate_partial` | C105 | propext, Classical.choice, Quot.sound |
| `Verif.Props.C105_unasked` | C105 | propext, Classical.choice, Quot.sound |
| `Verif.Props.C106_begins` | C106 | propext, Classical.choice, Quot.sound |
| `Verif.Props.C106_exact` | C106 | propext, Classical.choice, Quot.sound |
| `Verif.Props.C106_hangs` | C106 | propext, Classical.choice, Quot.sound |
| `Verif.Props.C106_quit_partial` | C106 | propext, Classical.choice, Quot.sound |
| `Verif.Props.C106_replaced` | C106 | propext, Classical.choice, Quot.sound |
| `Verif.Props.C106_running` | C106 | propext, Classical.choice, Quot.sound |
| `Verif.Props.C106_terminated` | C106 | propext, Classical.choice, Quot.sound |
| `Verif.Props.C106_waits` | C106 | propext, Classical.choice, Quot.sound |
| `Verif.Props.C107_indexed` | C107 | propext, Classical.choice, Quot.sound |
| `Verif.Props.C107_order` | C107 | propext, Classical.choice, Quot.sound |
| `Verif.Props.C107_overtaken` | C107 | propext, Classical.choice, Quot.sound |
| `Verif.Props.C107_plain` | C107 | propext, Classical.choice, Quot.sound |
| `Verif.Props.C107_priority` | C107 | propext, Classical.choice, Quot.sound |
| `Verif.Props.C107_turn` | C107 | propext, Classical.choice, Quot.sound |
| `Verif.Props.C107_turn_graphs` | C107 | propext, Classical.choice, Quot.sound |
| `Verif.Props.C107_turn_workers` | C107 | propext, Classical.choice, Quot.sound |
| `Verif.Props.C108_collected` | C108 | propext, Classical.choice, Quot.sound |
| `Verif.Props.C108_figures` | C108 | propext, Classical.choice, Quot.sound |
| `Verif.Props.C108_read` | C108 | propext, Classical.choice, Quot.sound |
| `Verif.Props.C108_safe` | C108 | propext, Classical.choice, Quot.sound |
| `Verif.Props.C108_signals` | C108 | propext, Classical.choice, Quot.sound |
| `Verif.Props.C109_same` | C109 | propext, Classical.choice, Quot.sound |
| `Verif.Props.C109_silent` | C109 | propext, Classical.choice, Quot.sound |
| `Verif.Props.C10_queue_size` | C10 | propext, Classical.choice, Quot.sound |
| `Verif.Props.C110_get` | C110 | propext, Classical.choice, Quot.sound |
| `Verif.Props.C110_got` | C110 | propext, Classical.choice, Quot.sound |
| `Verif.Props.C110_graph` | C110 | propext, Classical.choice, Quot.sound |
| `Verif.Props.C110_map_half` | C110 | propext, Classical.choice, Quot.sound |
| `Verif.Props.C110_map_partial` | C110 | propext, Classical.choice, Quot.sound |
| `Verif.Props.C110_mapped` | C110 | propext, Classical.choice, Quot.sound |
| `Verif.Props.C110_steps` | C110 | propext, Classical.choice, Quot.sound |
| `Verif.Props.C110_submit` | C110 | propext, Classical.choice, Quot.sound |
| `Verif.Props.C110_submitted` | C110 | propext, Classical.choice, Quot.sound |
| `Verif.Props.C111_apart` | C111 | propext, Classical.choice, Quot.sound |
| `Verif.Props.C111_interval_partial` | C111 | propext, Classical.choice, Quot.sound |
| `Verif.Props.C111_off` | C111 | propext, Classical.choice, Quot.sound |
| `Verif.Props.C111_switch` | C111 | propext, Classical.choice, Quot.sound |
| `Verif.Props.C111_too_often` | C111 | propext, Classical.choice, Quot.sound |
| `Verif.Props.C112_back` | C112 | propext, Classical.choice, Quot.sound |
| `Verif.Props.C112_scheduler` | C112 | propext, Classical.choice, Quot.sound |
| `Verif.Props.C112_set_back` | C112 | propext, Classical.choice, Quot.sound |
| `Verif.Props.C112_steady_partial` | C112 | propext, Classical.choice, Quot.sound |
| `Verif.Props.C112_worker` | C112 | propext, Classical.choice, Quot.sound |
| `Verif.Props.C11_consult_partial` | C11 | propext, Classical.choice, Quot.sound |
| `Verif.Props.C11_free_slot_refused` | C11 | propext, Classical.choice, Quot.sound |
| `Verif.Props.C11_free_slot_usable_partial` | C11 | propext, Classical.choice, Quot.sound |
| `Verif.Props.C12_least_recorded` | C12 | propext, Classical.choice, Quot.sound |
| `Verif.Props.C13_remove_worker` | C13 | propext, Classical.choice, Quot.sound |
| `Verif.Props.C13_remove_worker_raises` | C13 | propext, Classical.choice, Quot.sound |
| `Verif.Props.C14_asks_for_too_much` | C14 | propext, Classical.choice, Quot.sound |
| `Verif.Props.C14_balance_partial` | C14 | propext, Classical.choice, Quot.sound |
| `Verif.Props.C14_floats` | C14 | propext, Classical.choice, Quot.sound |
| `Verif.Props.C15_debounced_partial` | C15 | propext, Classical.choice, Quot.sound |
| `Verif.Props.C15_never_sends` | C15 | propext, Classical.choice, Quot.sound |
| `Verif.Props.C15_trigger_one_silent` | C15 | propext, Classical.choice, Quot.sound |
| `Verif.Props.C16_exactly_once` | C16 | propext, Classical.choice, Quot.sound |
| `Verif.Props.C17_echo_first` | C17 | propext, Classical.choice, Quot.sound |
| `Verif.Props.C17_right_client` | C17 | propext, Classical.choice, Quot.sound |
| `Verif.Props.C18_one_place` | C18 | propext, Classical.choice, Quot.sound |
| `Verif.Props.C19_leaving_kills` | C19 | propext, Classical.choice, Quot.sound |
| `Verif.Props.C19_prompt_partial` | C19 | propext, Classical.choice, Quot.sound |
| `Verif.Props.C19_worker_lost_partial` | C19 | propext, Classical.choice, Quot.sound |
| `Verif.Props.C20_balance_response_partial` | C20 | propext, Classical.choice, Quot.sound |
| `Verif.Props.C20_prompt_partial` | C20 | propext, Classical.choice, Quot.sound |
| `Verif.Props.C20_return_kills` | C20 | propext, Classical.choice, Quot.sound |
| `Verif.Props.C21_late_result` | C21 | propext, Classical.choice, Quot.sound |
| `Verif.Props.C22_cancel_partial` | C22 | propext, Classical.choice, Quot.sound |
| `Verif.Props.C22_waiting_node` | C22 | propext, Classical.choice, Quot.sound |
| `Verif.Props.C22_waiting_node_kills` | C22 | propext, Classical.choice, Quot.sound |
| `Verif.Props.C23_cancel_lost` | C23 | propext, Classical.choice, Quot.sound |
| `Verif.Props.C23_cancel_partial` | C23 | propext, Classical.choice, Quot.sound |
| `Verif.Props.C24_decision_partial` | C24 | propext, Classical.choice, Quot.sound |
| `Verif.Props.C24_idle_worker_refused` | C24 | propext, Classical.choice, Quot.sound |
| `Verif.Props.C24_prompt_limit` | C24 | propext, Classical.choice, Quot.sound |
| `Verif.Props.C24_prompt_partial` | C24 | propext, Classical.choice, Quot.sound |
| `Verif.Props.C25_limit` | C25 | propext, Classical.choice, Quot.sound |
| `Verif.Props.C26_idle_forever` | C26 | propext, Classical.choice, Quot.sound |
| `Verif.Props.C26_order_inverted` | C26 | propext, Classical.choice, Quot.sound |
| `Verif.Props.C26_prompt_partial` | C26 | propext, Classical.choice, Quot.sound |
| `Verif.Props.C26_turn_partial` | C26 | propext, Classical.choice, Quot.sound |
| `Verif.Props.C26_turns` | C26 | propext, Classical.choice, Quot.sound |
| `Verif.Props.C27_liveness` | C27 | propext, Classical.choice, Quot.sound |
| `Verif.Props.C28_exact` | C28 | propext, Classical.choice, Quot.sound |
| `Verif.Props.C28_prompt_partial` | C28 | propext, Classical.choice, Quot.sound |
| `Verif.Props.C28_scheduler_dies` | C28 | propext, Classical.choice, Quot.sound |
| `Verif.Props.C28_survives_partial` | C28 | propext, Classical.choice, Quot.sound |
| `Verif.Props.C29_other_worker` | C29 | propext, Classical.choice, Quot.sound |
| `Verif.Props.C29_statistics` | C29 | propext, Classical.choice, Quot.sound |
| `Verif.Props.C29_system` | C29 | propext, Classical.choice, Quot.sound |
| `Verif.Props.C30_needed_kept` | C30 | propext, Classical.choice, Quot.sound |
| `Verif.Props.C31_function_fixed` | C31 | propext, Classical.choice, Quot.sound |
| `Verif.Props.C32_delete_kills` | C32 | propext, Classical.choice, Quot.sound |
| `Verif.Props.C32_delete_partial` | C32 | propext, Classical.choice, Quot.sound |
| `Verif.Props.C33_after_inputs` | C33 | propext, Classical.choice, Quot.sound |
| `Verif.Props.C34_at_most_once` | C34 | propext, Classical.choice, Quot.sound |
| `Verif.Props.C35_graph_value` | C35 | propext, Classical.choice, Quot.sound |
| `Verif.Props.C36_not_stuck_partial` | C36 | propext, Classical.choice, Quot.sound |
| `Verif.Props.C36_stuck` | C36 | propext, Classical.choice, Quot.sound |
| `Verif.Props.C37_failed_node_partial` | C37 | propext, Classical.choice, Quot.sound |
| `Verif.Props.C37_failure_kills` | C37 | propext, Classical.choice, Quot.sound |
| `Verif.Props.C37_notFound_kills` | C37 | propext, Classical.choice, Quot.sound |
| `Verif.Props.C37_reason` | C37 | propext, Classical.choice, Quot.sound |
| `Verif.Props.C38_claim_leaks` | C38 | propext, Classical.choice, Quot.sound |
| `Verif.Props.C38_no_residue_partial` | C38 | propext, Classical.choice, Quot.sound |
| `Verif.Props.C39_inputs_partial` | C39 | propext, Classical.choice, Quot.sound |
| `Verif.Props.C39_repeated_input_kills` | C39 | propext, Classical.choice, Quot.sound |
| `Verif.Props.C40_cancel_kills` | C40 | propext, Classical.choice, Quot.sound |
| `Verif.Props.C40_cancel_partial` | C40 | propext, Classical.choice, Quot.sound |
| `Verif.Props.C41_bind_partial` | C41 | propext, Classical.choice, Quot.sound |
| `Verif.Props.C41_keyword_only_lost` | C41 | propext, Classical.choice, Quot.sound |
| `Verif.Props.C41_missing` | C41 | propext, Classical.choice, Quot.sound |
| `Verif.Props.C41_positional_only_by_keyword` | C41 | propext, Classical.choice, Quot.sound |
| `Verif.Props.C41_unknown_accepted` | C41 | propext, Classical.choice, Quot.sound |
| `Verif.Props.C42_calls_partial` | C42 | propext, Classical.choice, Quot.sound |
| `Verif.Props.C42_iterator` | C42 | none |
| `Verif.Props.C42_own` | C42 | propext, Classical.choice, Quot.sound |
| `Verif.Props.C42_results` | C42 | propext, Quot.sound |
| `Verif.Props.C43_any` | C43 | propext, Classical.choice, Quot.sound |
| `Verif.Props.C43_exact` | C43 | propext, Classical.choice, Quot.sound |
| `Verif.Props.C43_partial` | C43 | propext, Classical.choice, Quot.sound |
| `Verif.Props.C43_repeated_key` | C43 | propext, Classical.choice, Quot.sound |
| `Verif.Props.C43_stands` | C43 | propext, Classical.choice, Quot.sound |
| `Verif.Props.C44_rejected` | C44 | propext, Classical.choice, Quot.sound |
| `Verif.Props.C44_same` | C44 | propext, Classical.choice, Quot.sound |
| `Verif.Props.C44_value` | C44 | propext, Classical.choice, Quot.sound |
| `Verif.Props.C45_cancelled_kills` | C45 | propext, Classical.choice, Quot.sound |
| `Verif.Props.C45_echo_race` | C45 | propext, Classical.choice, Quot.sound |
| `Verif.Props.C45_final` | C45 | propext, Classical.choice, Quot.sound |
| `Verif.Props.C45_lost` | C45 | propext, Classical.choice, Quot.sound |
| `Verif.Props.C45_own` | C45 | propext, Classical.choice, Quot.sound |
| `Verif.Props.C45_resolves_partial` | C45 | propext, Classical.choice, Quot.sound |
| `Verif.Props.C45_unknown` | C45 | propext, Classical.choice, Quot.sound |
| `Verif.Props.C46_partial` | C46 | propext, Classical.choice, Quot.sound |
| `Verif.Props.C46_stranded` | C46 | propext, Classical.choice, Quot.sound |
| `Verif.Props.C47_known` | C47 | propext, Classical.choice, Quot.sound |
| `Verif.Props.C47_once` | C47 | propext, Classical.choice, Quot.sound |
| `Verif.Props.C48_failed_partial` | C48 | propext, Classical.choice, Quot.sound |
| `Verif.Props.C48_first_only` | C48 | propext, Classical.choice, Quot.sound |
| `Verif.Props.C48_success` | C48 | propext, Classical.choice, Quot.sound |
| `Verif.Props.C49_asked` | C49 | propext, Classical.choice, Quot.sound |
| `Verif.Props.C49_cancelled` | C49 | propext, Classical.choice, Quot.sound |
| `Verif.Props.C49_late` | C49 | propext, Classical.choice, Quot.sound |
| `Verif.Props.C49_over` | C49 | propext, Classical.choice, Quot.sound |
| `Verif.Props.C49_partial` | C49 | propext, Classical.choice, Quot.sound |
| `Verif.Props.C49_resolves` | C49 | propext, Classical.choice, Quot.sound |
| `Verif.Props.C50_killed` | C50 | propext |
| `Verif.Props.C50_next_starts` | C50 | propext, Classical.choice, Quot.sound |
| `Verif.Props.C50_no_overlap` | C50 | propext, Classical.choice, Quot.sound |
| `Verif.Props.C50_one_task` | C50 | propext, Classical.choice, Quot.sound |
| `Verif.Props.C51_accounted` | C51 | propext, Classical.choice, Quot.sound |
| `Verif.Props.C51_system` | C51 | propext, Classical.choice, Quot.sound |
| `Verif.Props.C51_told` | C51 | propext, Classical.choice, Quot.sound |
| `Verif.Props.C52_canceled` | C52 | propext, Classical.choice, Quot.sound |
| `Verif.Props.C52_not_found_partial` | C52 | propext, Classical.choice, Quot.sound |
| `Verif.Props.C52_not_found_runs` | C52 | propext, Classical.choice, Quot.sound |
| `Verif.Props.C53_inside` | C53 | propext, Classical.choice, Quot.sound |
| `Verif.Props.C53_kills_partial` | C53 | propext, Classical.choice, Quot.sound |
| `Verif.Props.C53_late_cancel` | C53 | propext, Classical.choice, Quot.sound |
| `Verif.Props.C53_late_function` | C53 | propext, Classical.choice, Quot.sound |
| `Verif.Props.C53_overfull` | C53 | propext, Classical.choice, Quot.sound |
| `Verif.Props.C53_system_dies` | C53 | propext, Classical.choice, Quot.sound |
| `Verif.Props.C53_system_partial` | C53 | propext, Classical.choice, Quot.sound |
| `Verif.Props.C54_balance` | C54 | propext, Classical.choice, Quot.sound |
| `Verif.Props.C54_unstarted` | C54 | propext, Classical.choice, Quot.sound |
| `Verif.Props.C55_answers_exactly` | C55 | propext, Classical.choice, Quot.sound |
| `Verif.Props.C55_answers_partial` | C55 | propext, Classical.choice, Quot.sound |
| `Verif.Props.C55_evicted_under_task` | C55 | propext, Classical.choice, Quot.sound |
| `Verif.Props.C55_once` | C55 | propext, Classical.choice, Quot.sound |
| `Verif.Props.C56_evict_alone` | C56 | propext, Classical.choice, Quot.sound |
| `Verif.Props.C56_evict_partial` | C56 | propext, Classical.choice, Quot.sound |
| `Verif.Props.C56_evicted_in_use` | C56 | propext, Classical.choice, Quot.sound |
| `Verif.Props.C56_gone` | C56 | propext, Classical.choice, Quot.sound |
| `Verif.Props.C56_left_behind` | C56 | propext, Classical.choice, Quot.sound |
| `Verif.Props.C57_one_open` | C57 | propext, Classical.choice, Quot.sound |
| `Verif.Props.C57_timeout` | C57 | propext, Classical.choice, Quot.sound |
| `Verif.Props.C58_accepts` | C58 | propext, Classical.choice, Quot.sound |
| `Verif.Props.C58_address` | C58 | propext |
| `Verif.Props.C58_any_number` | C58 | propext |
| `Verif.Props.C58_colon` | C58 | propext |
| `Verif.Props.C58_number` | C58 | propext, Quot.sound |
| `Verif.Props.C58_rejects` | C58 | propext |
| `Verif.Props.C58_roundtrip_partial` | C58 | propext, Classical.choice, Quot.sound |
| `Verif.Props.C59_object` | C59 | propext, Classical.choice, Quot.sound |
| `Verif.Props.C59_one_to_many` | C59 | propext, Classical.choice, Quot.sound |
| `Verif.Props.C59_unchanged` | C59 | propext, Classical.choice, Quot.sound |
| `Verif.Props.C59_views` | C59 | propext, Classical.choice, Quot.sound |
| `Verif.Props.C60_key_value_set` | C60 | propext, Classical.choice, Quot.sound |
| `Verif.Props.C60_object` | C60 | propext, Classical.choice, Quot.sound |
| `Verif.Props.C60_unchanged` | C60 | propext, Classical.choice, Quot.sound |
| `Verif.Props.C60_views` | C60 | propext, Classical.choice, Quot.sound |
| `Verif.Props.C61_bytes` | C61 | propext, Classical.choice, Quot.sound |
| `Verif.Props.C61_bytes_total` | C61 | propext, Classical.choice, Quot.sound |
| `Verif.Props.C61_groups` | C61 | propext, Quot.sound |
| `Verif.Props.C61_integer` | C61 | propext, Classical.choice, Quot.sound |
| `Verif.Props.C61_lag_tenths` | C61 | propext, Classical.choice, Quot.sound |
| `Verif.Props.C61_microseconds` | C61 | propext, Classical.choice, Quot.sound |
| `Verif.Props.C61_no_sign` | C61 | propext, Classical.choice, Quot.sound |
| `Verif.Props.C61_seconds` | C61 | propext, Quot.sound |
| `Verif.Props.C61_size_tenths` | C61 | propext, Classical.choice, Quot.sound |
| `Verif.Props.C62_exception` | C62 | propext, Classical.choice, Quot.sound |
| `Verif.Props.C62_value` | C62 | propext, Classical.choice, Quot.sound |
| `Verif.Props.C63_repeated_key` | C63 | propext, Classical.choice, Quot.sound |
| `Verif.Props.C63_value_any` | C63 | propext, Classical.choice, Quot.sound |
| `Verif.Props.C63_value_partial` | C63 | propext, Classical.choice, Quot.sound |
| `Verif.Props.C64_announced` | C64 | propext, Classical.choice, Quot.sound |
| `Verif.Props.C64_dies_partial` | C64 | propext, Classical.choice, Quot.sound |
| `Verif.Props.C64_progress` | C64 | propext, Classical.choice, Quot.sound |
| `Verif.Props.C64_second_response` | C64 | propext, Classical.choice, Quot.sound |
| `Verif.Props.C64_system_second` | C64 | propext, Classical.choice, Quot.sound |
| `Verif.Props.C64_unloadable` | C64 | propext, Classical.choice, Quot.sound |
| `Verif.Props.C64_unpicklable` | C64 | propext, Classical.choice, Quot.sound |
| `Verif.Props.C65_bad_word` | C65 | propext, Classical.choice, Quot.sound |
| `Verif.Props.C65_dropped` | C65 | propext, Classical.choice, Quot.sound |
| `Verif.Props.C65_heartbeat_read` | C65 | propext, Classical.choice, Quot.sound |
| `Verif.Props.C65_layout` | C65 | propext, Quot.sound |
| `Verif.Props.C65_no_class` | C65 | propext, Classical.choice, Quot.sound |
| `Verif.Props.C65_tag` | C65 | propext, Classical.choice, Quot.sound |
| `Verif.Props.C66_functions_partial` | C66 | propext, Classical.choice, Quot.sound |
| `Verif.Props.C66_rows` | C66 | propext, Classical.choice, Quot.sound |
| `Verif.Props.C66_same_name` | C66 | propext, Classical.choice, Quot.sound |
| `Verif.Props.C66_text` | C66 | propext, Classical.choice, Quot.sound |
| `Verif.Props.C67_add` | C67 | propext, Classical.choice, Quot.sound |
| `Verif.Props.C67_check` | C67 | propext, Classical.choice, Quot.sound |
| `Verif.Props.C68_client` | C68 | propext, Classical.choice, Quot.sound |
| `Verif.Props.C68_kinds` | C68 | propext, Classical.choice, Quot.sound |
| `Verif.Props.C68_prompted` | C68 | propext, Classical.choice, Quot.sound |
| `Verif.Props.C68_worker` | C68 | propext, Classical.choice, Quot.sound |
| `Verif.Props.C69_echo` | C69 | propext, Classical.choice, Quot.sound |
| `Verif.Props.C69_echo_back` | C69 | propext, Classical.choice, Quot.sound |
| `Verif.Props.C69_heartbeat` | C69 | propext, Classical.choice, Quot.sound |
| `Verif.Props.C69_latency` | C69 | propext, Classical.choice, Quot.sound |
| `Verif.Props.C69_latency_back` | C69 | propext, Classical.choice, Quot.sound |
| `Verif.Props.C69_latency_long` | C69 | none |
| `Verif.Props.C70_graph` | C70 | propext, Classical.choice, Quot.sound |
| `Verif.Props.C70_names` | C70 | propext, Classical.choice, Quot.sound |
| `Verif.Props.C70_status` | C70 | propext, Classical.choice, Quot.sound |
| `Verif.Props.C70_system` | C70 | propext, Classical.choice, Quot.sound |
| `Verif.Props.C70_traffic` | C70 | propext, Classical.choice, Quot.sound |
| `Verif.Props.C71_asks` | C71 | propext, Classical.choice, Quot.sound |
| `Verif.Props.C71_books` | C71 | propext, Classical.choice, Quot.sound |
| `Verif.Props.C71_order` | C71 | propext, Classical.choice, Quot.sound |
| `Verif.Props.C71_sendable` | C71 | propext, Classical.choice, Quot.sound |
| `Verif.Props.C71_serves` | C71 | propext, Classical.choice, Quot.sound |
| `Verif.Props.C72_decoded` | C72 | propext, Classical.choice, Quot.sound |
| `Verif.Props.C72_malformed_kills` | C72 | propext, Classical.choice, Quot.sound |
| `Verif.Props.C72_partial` | C72 | propext, Classical.choice, Quot.sound |
| `Verif.Props.C73_concat` | C73 | propext, Quot.sound |
| `Verif.Props.C73_lag_ends` | C73 | propext, Classical.choice, Quot.sound |
| `Verif.Props.C73_merge` | C73 | propext, Quot.sound |
| `Verif.Props.C73_not_shown` | C73 | propext, Classical.choice, Quot.sound |
| `Verif.Props.C73_screen_partial` | C73 | propext, Classical.choice, Quot.sound |
| `Verif.Props.C73_sign` | C73 | propext |
| `Verif.Props.C73_truncate` | C73 | propext, Quot.sound |
| `Verif.Props.C73_watch` | C73 | propext, Classical.choice, Quot.sound |
| `Verif.Props.C74_async_goes_on` | C74 | propext, Classical.choice, Quot.sound |
| `Verif.Props.C74_async_heard` | C74 | propext, Classical.choice, Quot.sound |
| `Verif.Props.C74_async_sent` | C74 | propext, Classical.choice, Quot.sound |
| `Verif.Props.C74_async_silent` | C74 | propext, Classical.choice, Quot.sound |
| `Verif.Props.C74_dropped` | C74 | propext, Classical.choice, Quot.sound |
| `Verif.Props.C74_pipe` | C74 | propext, Classical.choice, Quot.sound |
| `Verif.Props.C74_sent_not_counted` | C74 | propext, Classical.choice, Quot.sound |
| `Verif.Props.C74_sync_flush` | C74 | propext, Classical.choice, Quot.sound |
| `Verif.Props.C74_sync_heard` | C74 | propext, Classical.choice, Quot.sound |
| `Verif.Props.C74_sync_sent_partial` | C74 | propext, Classical.choice, Quot.sound |
| `Verif.Props.C74_unknown` | C74 | propext, Classical.choice, Quot.sound |
| `Verif.Props.C75_ended` | C75 | propext, Classical.choice, Quot.sound |
| `Verif.Props.C75_ends` | C75 | propext, Quot.sound |
| `Verif.Props.C75_lost` | C75 | propext |
| `Verif.Props.C75_obeyed_partial` | C75 | propext, Classical.choice, Quot.sound |
| `Verif.Props.C75_one_worker` | C75 | propext |
| `Verif.Props.C75_signal_exact` | C75 | propext, Classical.choice, Quot.sound |
| `Verif.Props.C75_start_raises` | C75 | propext |
| `Verif.Props.C75_survivor` | C75 | propext |
| `Verif.Props.C76_can_finish_partial` | C76 | propext, Classical.choice, Quot.sound |
| `Verif.Props.C77_final` | C77 | propext, Classical.choice, Quot.sound |
| `Verif.Props.C77_goodbye_partial` | C77 | propext, Classical.choice, Quot.sound |
| `Verif.Props.C77_orphan` | C77 | propext, Classical.choice, Quot.sound |
| `Verif.Props.C77_orphan_exact` | C77 | propext, Classical.choice, Quot.sound |
| `Verif.Props.C77_when` | C77 | propext, Classical.choice, Quot.sound |
| `Verif.Props.C78_cluster` | C78 | propext, Classical.choice, Quot.sound |
| `Verif.Props.C78_cluster_stops` | C78 | propext, Classical.choice, Quot.sound |
| `Verif.Props.C78_combo_defaults` | C78 | propext, Classical.choice, Quot.sound |
| `Verif.Props.C78_combo_error` | C78 | propext, Classical.choice, Quot.sound |
| `Verif.Props.C78_combo_loop` | C78 | propext, Classical.choice, Quot.sound |
| `Verif.Props.C78_combo_partial` | C78 | propext, Classical.choice, Quot.sound |
| `Verif.Props.C78_combo_run` | C78 | propext, Classical.choice, Quot.sound |
| `Verif.Props.C78_config` | C78 | none |
| `Verif.Props.C78_monitor` | C78 | propext, Classical.choice, Quot.sound |
| `Verif.Props.C78_name` | C78 | propext, Quot.sound |
| `Verif.Props.C78_scheduler` | C78 | propext, Classical.choice, Quot.sound |
| `Verif.Props.C78_scheduler_help` | C78 | propext, Classical.choice, Quot.sound |
| `Verif.Props.C78_scheduler_stops` | C78 | propext, Classical.choice, Quot.sound |
| `Verif.Props.C78_top` | C78 | propext, Classical.choice, Quot.sound |
| `Verif.Props.C78_workers` | C78 | propext, Classical.choice, Quot.sound |
| `Verif.Props.C78_workers_begin` | C78 | propext, Classical.choice, Quot.sound |
| `Verif.Props.C79_clash` | C79 | propext, Classical.choice, Quot.sound |
| `Verif.Props.C79_elapsed` | C79 | propext, Classical.choice, Quot.sound |
| `Verif.Props.C79_level` | C79 | propext, Classical.choice, Quot.sound |
| `Verif.Props.C79_lines_partial` | C79 | propext, Classical.choice, Quot.sound |
| `Verif.Props.C79_not_begun` | C79 | none |
| `Verif.Props.C79_once` | C79 | propext, Classical.choice, Quot.sound |
| `Verif.Props.C79_scope` | C79 | none |
| `Verif.Props.C79_socket` | C79 | propext, Classical.choice, Quot.sound |
| `Verif.Props.C80_kills_partial` | C80 | propext, Classical.choice, Quot.sound |
| `Verif.Props.C80_no_target` | C80 | propext, Classical.choice, Quot.sound |
| `Verif.Props.C80_no_worker` | C80 | propext, Classical.choice, Quot.sound |
| `Verif.Props.C80_nothing` | C80 | propext, Classical.choice, Quot.sound |
| `Verif.Props.C80_nothing_asked` | C80 | propext, Classical.choice, Quot.sound |
| `Verif.Props.C80_pending` | C80 | propext, Classical.choice, Quot.sound |
| `Verif.Props.C80_refused` | C80 | propext, Classical.choice, Quot.sound |
| `Verif.Props.C80_system` | C80 | propext, Classical.choice, Quot.sound |
| `Verif.Props.C80_unloadable` | C80 | propext, Classical.choice, Quot.sound |
| `Verif.Props.C80_unresolved` | C80 | propext, Classical.choice, Quot.sound |
| `Verif.Props.C81_ends_partial` | C81 | propext, Classical.choice, Quot.sound |
| `Verif.Props.C81_hidden` | C81 | propext, Classical.choice, Quot.sound |
| `Verif.Props.C81_left_open` | C81 | propext, Classical.choice, Quot.sound |
| `Verif.Props.C81_process` | C81 | propext, Classical.choice, Quot.sound |
| `Verif.Props.C81_raises` | C81 | propext, Classical.choice, Quot.sound |
| `Verif.Props.C81_signal` | C81 | propext, Classical.choice, Quot.sound |
| `Verif.Props.C81_turns` | C81 | propext, Classical.choice, Quot.sound |
| `Verif.Props.C82_early` | C82 | propext, Classical.choice, Quot.sound |
| `Verif.Props.C82_failed_init` | C82 | propext, Classical.choice, Quot.sound |
| `Verif.Props.C82_one_worker` | C82 | propext, Classical.choice, Quot.sound |
| `Verif.Props.C82_shutdown_partial` | C82 | propext, Classical.choice, Quot.sound |
| `Verif.Props.C83_dies` | C83 | propext, Classical.choice, Quot.sound |
| `Verif.Props.C83_exact` | C83 | propext, Classical.choice, Quot.sound |
| `Verif.Props.C83_goodbye` | C83 | propext, Classical.choice, Quot.sound |
| `Verif.Props.C84_located` | C84 | propext, Classical.choice, Quot.sound |
| `Verif.Props.C85_once` | C85 | propext, Classical.choice, Quot.sound |
| `Verif.Props.C85_traced` | C85 | propext, Classical.choice, Quot.sound |
| `Verif.Props.C86_graph_traced` | C86 | propext, Classical.choice, Quot.sound |
| `Verif.Props.C87_apart` | C87 | propext, Classical.choice, Quot.sound |
| `Verif.Props.C87_exact` | C87 | propext, Classical.choice, Quot.sound |
| `Verif.Props.C88_alone_partial` | C88 | propext, Classical.choice, Quot.sound |
| `Verif.Props.C88_begins` | C88 | propext, Classical.choice, Quot.sound |
| `Verif.Props.C88_lock` | C88 | propext, Classical.choice, Quot.sound |
| `Verif.Props.C88_ready` | C88 | propext, Classical.choice, Quot.sound |
| `Verif.Props.C88_running_partial` | C88 | propext, Classical.choice, Quot.sound |
| `Verif.Props.C88_runs_anyway` | C88 | propext, Classical.choice, Quot.sound |
| `Verif.Props.C88_twice` | C88 | propext, Classical.choice, Quot.sound |
| `Verif.Props.C89_given_partial` | C89 | propext, Classical.choice, Quot.sound |
| `Verif.Props.C89_given_up` | C89 | propext, Classical.choice, Quot.sound |
| `Verif.Props.C89_run_partial` | C89 | propext, Classical.choice, Quot.sound |
| `Verif.Props.C89_running` | C89 | propext, Classical.choice, Quot.sound |
| `Verif.Props.C89_toldOnce` | C89 | propext, Classical.choice, Quot.sound |
| `Verif.Props.C89_twice` | C89 | propext, Classical.choice, Quot.sound |
| `Verif.Props.C90_answered_partial` | C90 | propext, Classical.choice, Quot.sound |
| `Verif.Props.C90_functions_partial` | C90 | propext, Classical.choice, Quot.sound |
| `Verif.Props.C90_graph_partial` | C90 | propext, Classical.choice, Quot.sound |
| `Verif.Props.C90_hang` | C90 | propext, Classical.choice, Quot.sound |
| `Verif.Props.C90_idle_partial` | C90 | propext, Classical.choice, Quot.sound |
| `Verif.Props.C90_placed_partial` | C90 | propext, Classical.choice, Quot.sound |
| `Verif.Props.C90_rests_partial` | C90 | propext, Classical.choice, Quot.sound |
| `Verif.Props.C90_stranded` | C90 | propext, Classical.choice, Quot.sound |
| `Verif.Props.C90_stuck` | C90 | propext, Classical.choice, Quot.sound |
| `Verif.Props.C91_answered` | C91 | propext, Classical.choice, Quot.sound |
| `Verif.Props.C91_rest_still` | C91 | propext, Classical.choice, Quot.sound |
| `Verif.Props.C91_rests` | C91 | propext, Classical.choice, Quot.sound |
| `Verif.Props.C91_settles` | C91 | propext, Classical.choice, Quot.sound |
| `Verif.Props.C91_still` | C91 | propext, Classical.choice, Quot.sound |
| `Verif.Props.C92_accepted` | C92 | propext, Classical.choice, Quot.sound |
| `Verif.Props.C92_collateral` | C92 | propext, Classical.choice, Quot.sound |
| `Verif.Props.C92_echo_left` | C92 | propext, Classical.choice, Quot.sound |
| `Verif.Props.C92_exit_half` | C92 | propext, Classical.choice, Quot.sound |
| `Verif.Props.C92_futures` | C92 | propext, Classical.choice, Quot.sound |
| `Verif.Props.C92_get` | C92 | propext, Classical.choice, Quot.sound |
| `Verif.Props.C92_graph_left` | C92 | propext, Classical.choice, Quot.sound |
| `Verif.Props.C92_half` | C92 | propext, Classical.choice, Quot.sound |
| `Verif.Props.C92_map` | C92 | propext, Classical.choice, Quot.sound |
| `Verif.Props.C92_map_own` | C92 | propext, Classical.choice, Quot.sound |
| `Verif.Props.C92_mute` | C92 | propext, Classical.choice, Quot.sound |
| `Verif.Props.C92_next` | C92 | propext, Classical.choice, Quot.sound |
| `Verif.Props.C92_raises` | C92 | propext, Classical.choice, Quot.sound |
| `Verif.Props.C92_stuck` | C92 | propext, Classical.choice, Quot.sound |
| `Verif.Props.C92_stuck_get` | C92 | propext, Classical.choice, Quot.sound |
| `Verif.Props.C92_submit` | C92 | propext, Classical.choice, Quot.sound |
| `Verif.Props.C93_active` | C93 | propext, Classical.choice, Quot.sound |
| `Verif.Props.C93_cycle` | C93 | propext, Classical.choice, Quot.sound |
| `Verif.Props.C93_done` | C93 | propext, Classical.choice, Quot.sound |
| `Verif.Props.C93_goes_on` | C93 | propext, Classical.choice, Quot.sound |
| `Verif.Props.C93_order` | C93 | propext, Classical.choice, Quot.sound |
| `Verif.Props.C93_ready` | C93 | propext, Classical.choice, Quot.sound |
| `Verif.Props.C94_get_any` | C94 | propext, Classical.choice, Quot.sound |
| `Verif.Props.C94_get_partial` | C94 | propext, Classical.choice, Quot.sound |
| `Verif.Props.C94_map` | C94 | propext, Classical.choice, Quot.sound |
| `Verif.Props.C94_map_raises` | C94 | propext, Classical.choice, Quot.sound |
| `Verif.Props.C95_ends` | C95 | propext, Classical.choice, Quot.sound |
| `Verif.Props.C95_get_partial` | C95 | propext, Classical.choice, Quot.sound |
| `Verif.Props.C95_graph` | C95 | propext, Classical.choice, Quot.sound |
| `Verif.Props.C95_map` | C95 | propext, Classical.choice, Quot.sound |
| `Verif.Props.C95_repeated_key` | C95 | propext, Classical.choice, Quot.sound |
| `Verif.Props.C95_submit` | C95 | propext, Classical.choice, Quot.sound |
| `Verif.Props.C96_answers_partial` | C96 | propext, Classical.choice, Quot.sound |
| `Verif.Props.C96_blocks` | C96 | propext, Classical.choice, Quot.sound |
| `Verif.Props.C96_cancel` | C96 | propext, Classical.choice, Quot.sound |
| `Verif.Props.C96_stuck` | C96 | propext, Classical.choice, Quot.sound |
| `Verif.Props.C97_answered` | C97 | propext, Classical.choice, Quot.sound |
| `Verif.Props.C97_every` | C97 | propext, Classical.choice, Quot.sound |
| `Verif.Props.C97_fair_run` | C97 | propext, Classical.choice, Quot.sound |
| `Verif.Props.C97_fine` | C97 | propext, Classical.choice, Quot.sound |
| `Verif.Props.C97_get` | C97 | propext, Classical.choice, Quot.sound |
| `Verif.Props.C97_map` | C97 | propext, Classical.choice, Quot.sound |
| `Verif.Props.C97_nodes` | C97 | propext, Classical.choice, Quot.sound |
| `Verif.Props.C97_quiet` | C97 | propext, Classical.choice, Quot.sound |
| `Verif.Props.C97_rests` | C97 | propext, Classical.choice, Quot.sound |
| `Verif.Props.C97_settles` | C97 | propext, Classical.choice, Quot.sound |
| `Verif.Props.C97_stopped` | C97 | propext, Classical.choice, Quot.sound |
| `Verif.Props.C97_stops` | C97 | propext, Classical.choice, Quot.sound |
| `Verif.Props.C97_value` | C97 | propext, Classical.choice, Quot.sound |
| `Verif.Props.C98_less` | C98 | propext, Classical.choice, Quot.sound |
| `Verif.Props.C98_overflow` | C98 | propext, Classical.choice, Quot.sound |
| `Verif.Props.C98_rewrite_partial` | C98 | propext, Classical.choice, Quot.sound |
| `Verif.Props.C98_rewritten` | C98 | none |
| `Verif.Props.C98_scheduler` | C98 | propext, Classical.choice, Quot.sound |
| `Verif.Props.C98_screen_partial` | C98 | propext, Classical.choice, Quot.sound |
| `Verif.Props.C98_sent_partial` | C98 | propext, Classical.choice, Quot.sound |
| `Verif.Props.C98_shown` | C98 | propext, Classical.choice, Quot.sound |
| `Verif.Props.C99_again` | C99 | propext, Classical.choice, Quot.sound |
| `Verif.Props.C99_enough` | C99 | propext, Classical.choice, Quot.sound |
| `Verif.Props.C99_level_partial` | C99 | propext, Classical.choice, Quot.sound |
| `Verif.Props.C99_no_worse_partial` | C99 | propext, Classical.choice, Quot.sound |
| `Verif.Props.C99_not_level` | C99 | propext, Classical.choice, Quot.sound |
