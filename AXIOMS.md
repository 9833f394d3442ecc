# Axioms the theorems depend on

Made by `tools/axioms.py` with `#print axioms`; 454 theorems.

## no axioms

* C21_method_text
* C21_method_text_injective
* C21_status_table

## propext

* C18_predefined_headers
* C19_addition
* C21_status_lookup
* C31_duplicate_false
* C33_other_writer_loses
* C38_closed
* C47_poisoned_false
* C51_sibling_false
* C67_closed_false
* C67_drop_lost_false
* C67_script_partial
* C67_truncated_false
* C72_resend_false
* C74_client_false

## Quot.sound, propext

* C01_client_ignores_grouping
* C01_request_parse_ignores_grouping
* C01_request_session_ignores_grouping
* C01_response_parse_ignores_grouping
* C01_server_ignores_grouping
* C02_character_false
* C02_headers_false
* C03_ignored_text_false
* C03_lost_bytes_false
* C12_held_line
* C12_held_line_response
* C12_line_accepted
* C12_line_sound
* C13_paused_false
* C16_first_call_partial
* C16_first_response_partial
* C16_headers_false
* C16_release_partial
* C16_release_response_partial
* C20_fields_exist_unique
* C20_request_line
* C20_request_not_text
* C20_response_not_text
* C21_reasons
* C21_registered
* C21_status_unknown
* C23_first_decides
* C23_registered
* C24_exact
* C27_insert
* C27_lookup
* C27_remove
* C28_next_key
* C29_dispatch
* C29_no_panic
* C30_hang_up_partial
* C30_server_close_false
* C31_reorder_false
* C37_refused_false
* C39_header_order
* C39_request
* C39_response
* C40_not_lost
* C40_received_in_order_partial
* C40_started_in_order_partial
* C40_started_order_false
* C42_lost_false
* C42_panics_false
* C44_panics_false
* C47_starved_false
* C51_plain_partial
* C51_traversal_false
* C52_content_type
* C52_listener
* C52_race_false
* C52_stable_partial
* C53_prompt_partial
* C53_stale_ready_false
* C53_stale_token_false
* C55_one_request_false
* C55_remote_false
* C59_stuck_false
* C61_workers
* C63_coding_false
* C63_lengths_false
* C63_name_false
* C64_body_false
* C64_name_false
* C64_response_false
* C64_target_false
* C64_value_false
* C66_announced_false
* C67_drop
* C67_no_early_data
* C67_streams
* C70_twice_false
* C71_cut_off_false
* C71_no_spurious_end
* C71_spurious_end_false
* C73_no_return
* C73_panics_false
* C73_serves_partial
* C73_start
* C75_http
* C75_name
* C75_timeout_false
* C76_twice_false
* C77_tls_blocked_false
* C77_tls_waits
* C77_waits
* C81_prefix_false
* C84_serial
* C84_starved_false
* C88_profile_false
* C88_timing_false
* C89_below
* C89_delivered
* C89_not_before
* C89_reached
* C89_read_bytes
* C89_read_to_end
* C89_read_until

## Classical.choice, Quot.sound, propext

* C01_threads_ignore_grouping
* C02_body_false
* C02_clean_calls_partial
* C02_clean_calls_response_partial
* C02_cuts_partial
* C02_pauses_next_partial
* C02_pauses_partial
* C02_pauses_response_partial
* C02_plain_partial
* C02_request_received_partial
* C03_ascii_partial
* C03_reading_unique
* C03_resumed_partial
* C03_single_call_partial
* C04_request_accepted
* C04_request_accepted_iff
* C04_response_accepted
* C05_exact_consumption
* C05_pipelined
* C06_needed
* C06_round_trip
* C06_through_writer
* C07_closed
* C07_round_trip
* C08_chunked_decodes
* C09_chunked_sound_partial
* C09_lost_bytes_false
* C09_resumed_partial
* C10_framing
* C10_framing_unique
* C10_names
* C10_request
* C10_request_refused
* C10_response
* C10_response_refused
* C11_ascii_partial
* C11_lost_header_false
* C11_single_call_partial
* C12_accepted_lines
* C13_debug_partial
* C13_release_unbounded_false
* C13_response_partial
* C13_single_call_partial
* C14_chunked_false
* C14_debug_partial
* C14_length_partial
* C14_response_partial
* C14_single_call_partial
* C15_half_false
* C15_max_false
* C15_pieces_partial
* C15_single_call_iff
* C16_chunks_false
* C16_resumed_partial
* C17_request_parse_returns
* C17_response_parse_returns
* C18_header_equal_iff_same_text
* C18_header_text_is_lower_case
* C18_header_text_round_trip
* C19_contains_value
* C19_first_value
* C19_lookup_after_additions
* C20_request_outcome_unique
* C20_request_refused
* C20_response_refused
* C20_status_line
* C20_status_outcome_unique
* C22_between_partial
* C22_cut_false
* C22_failed_partial
* C22_middle_partial
* C22_one_character_false
* C25_flat
* C26_routing_no_panic
* C26_server
* C26_strip
* C28_count
* C28_key_bound
* C29_listener_token
* C31_in_order_partial
* C31_response_partial
* C32_blocked
* C32_drains
* C32_repeated
* C33_response_complete
* C33_write_complete
* C34_answered_partial
* C34_cut_false
* C34_only_answers_partial
* C34_order_false
* C34_plain_partial
* C35_cut_false
* C35_first_line
* C35_refused_partial
* C35_rejected_partial
* C36_asked_partial
* C36_broken_partial
* C36_close_field
* C36_closes
* C36_reasons_partial
* C37_close_false
* C37_delivered_partial
* C38_limit_false
* C38_panic_false
* C38_spurious_partial
* C40_at_most_once
* C40_eventually_run
* C40_one_worker
* C41_returns
* C41_waits
* C42_fewer_panics_partial
* C43_asks
* C43_exclusive
* C43_serial
* C43_serial_pure
* C44_busy_false
* C44_eventually_partial
* C44_no_lost_wakeup_partial
* C44_returns_partial
* C44_settles_partial
* C45_at_most_twice
* C45_once
* C45_once_opened
* C45_sent
* C45_tcp
* C46_calls_partial
* C46_calls_sent_partial
* C46_calls_streams_partial
* C46_garbled_false
* C46_history_partial
* C46_late_false
* C46_reconnect_false
* C46_streams_partial
* C47_available
* C47_exclusive
* C47_in_flight
* C47_looks_on
* C47_scan_partial
* C47_serial
* C48_answered
* C48_attempt
* C48_connecting
* C48_other
* C48_returns
* C48_success
* C49_body
* C49_described
* C49_status
* C50_closed_partial
* C50_unrouted_false
* C52_one_worker_partial
* C54_client_in_order
* C55_blame_partial
* C55_outage_false
* C55_release_partial
* C56_created_later_false
* C57_conversation_partial
* C58_client_any
* C58_client_halves
* C58_server_halves
* C58_server_reads
* C58_server_writes_partial
* C59_handled_partial
* C60_end_to_end_partial
* C60_server_partial
* C61_alive
* C61_client_partial
* C61_site
* C62_answered_partial
* C62_idle_partial
* C62_sent_partial
* C63_both_false
* C63_case_false
* C63_plain_partial
* C63_refused_false
* C63_sign_false
* C63_sound_partial
* C64_received
* C64_reflected_partial
* C64_request_partial
* C64_request_paused_partial
* C64_response_partial
* C65_both_false
* C65_case_false
* C65_no_content_false
* C65_not_modified_false
* C65_plain_partial
* C65_refused_false
* C65_sound_partial
* C66_kept_partial
* C66_output_false
* C66_sent_kept_false
* C67_client
* C67_server_partial
* C68_conversation_partial
* C68_tls_conversation_partial
* C68_tls_roomy_partial
* C68_unrouted_false
* C69_events_partial
* C69_occupied_false
* C70_at_least_once_partial
* C70_at_most_twice_partial
* C71_client
* C71_only_answers_partial
* C71_server
* C71_tls_client
* C71_tls_server_partial
* C72_body_false
* C72_request_partial
* C72_response_partial
* C72_server_partial
* C73_answered_partial
* C73_finished
* C73_interrupted_false
* C73_panicked_false
* C73_returns
* C74_close_false
* C74_closes_partial
* C74_keeps_partial
* C74_old_false
* C75_address_false
* C75_https
* C76_at_most_twice
* C76_calls_partial
* C76_calls_sent_partial
* C76_client
* C76_close_notify
* C76_handshake_false
* C76_right_partial
* C76_sent_partial
* C76_tls
* C77_answered_partial
* C77_mild
* C77_tls_answered_partial
* C78_answered_partial
* C78_any
* C78_asks
* C78_blame_partial
* C78_close_notify
* C78_exclusive
* C78_kept_partial
* C78_release_partial
* C78_served_partial
* C78_tls
* C78_tls_answered_partial
* C78_tls_open_partial
* C78_tls_served_partial
* C78_tls_waits
* C78_waits
* C79_any_chunks_debug_false
* C79_any_chunks_release_false
* C79_any_partial
* C79_chunks_debug_false
* C79_chunks_release_false
* C79_cut_off_partial
* C79_endless_refused
* C79_eventually_partial
* C79_garbage_false
* C79_idle_partial
* C79_lines_debug_false
* C79_lines_release_false
* C79_one_call
* C79_release_false
* C79_server_partial
* C79_slow_bounded_partial
* C79_slow_line_partial
* C79_tests_partial
* C79_tls_eventually_partial
* C79_tls_idle_partial
* C79_tls_server_partial
* C79_tls_tests_partial
* C79_unfinished
* C80_looked
* C80_tls_answered_partial
* C80_tls_drained_partial
* C80_tls_roomy
* C80_tls_sent_partial
* C80_tls_served_partial
* C81_any
* C81_count
* C81_made
* C81_not_tls
* C81_tls
* C82_tests_partial
* C82_tls_tests_partial
* C83_any_partial
* C83_calls_any_partial
* C83_calls_tls_partial
* C83_tls_partial
* C84_any_partial
* C84_available
* C84_calls_any_partial
* C84_calls_partial
* C84_calls_tls_partial
* C84_exclusive
* C84_in_flight
* C84_looks_on
* C84_poisoned_false
* C84_right_partial
* C84_scan_partial
* C84_tls
* C84_tls_partial
* C85_any
* C85_any_ended
* C85_any_hangup_partial
* C85_asked_partial
* C85_ended_partial
* C85_hangup_partial
* C85_let_go
* C85_refused_partial
* C85_tls
* C85_tls_asked_partial
* C85_tls_asked_sent_partial
* C85_tls_emptied_partial
* C85_tls_ended_partial
* C85_tls_ended_roomy_partial
* C85_tls_let_go
* C85_tls_refused_partial
* C85_tls_refused_sent_partial
* C86_cut_off
* C86_holds
* C86_reads
* C86_shared
* C87_any_queue_false
* C87_any_reasons_partial
* C87_queue_false
* C87_reasons_partial
* C88_any_same_partial
* C88_closed_partial
* C88_eventually_partial
* C88_idle_partial
* C88_others_partial
* C88_refused_partial
* C88_same_partial
* C88_tls_same_partial
