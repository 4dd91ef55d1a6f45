# Axioms of every theorem in MANIFEST.json

Generated with `#print axioms`. No other axiom occurs.

## no axioms

* C02: move_transfers_content
* C103: C103_error_loses_bytes, C103_empty_first_buffer
* C110: C110_long_times_wrap, C110_before_init, C110_usec10_wrong
* C12: C12_capacity_short
* C122: C122_closed_is_uds, C122_crash_case
* C127: C127_stale, C127_category, C127_filled
* C13: C13_truncated
* C131: C131_case
* C135: C135_back_refuted
* C136: C136_back_refuted, C136_case_calls
* C137: C137_min_refuted
* C139: C139_case, C139_case_refuted
* C16: C16_null_sink
* C17: C17_empty_array_ub
* C18: C18_deterministic
* C37: C37_no_round_trip, C37_show_min
* C39: C39_base_resize_fill_refuted, C39_move_wrong_resource
* C75: C75_ipv6
* C77: C77_change_ignored, C77_table_moves
* C78: C78_second_not_tried, C78_uds_path
* C82: C82_unique, C82_twice
* C85: C85_instr_divides
* C99: C99_error_loses_bytes, C99_offset_ignored, C99_mixture, C99_size_unknown

## propext

* C05: parseT_wrong_with_x86_shl, parse64Fast_misreads_encode32, encodingLength_overestimates
* C06: parse64Safe_reads_out_of_bounds
* C09: mpsc_empty_may_miss_completed_push
* C100: C100_error_loses_bytes, C100_offset_ignored
* C102: C102_rotation_loses, C102_same_second
* C103: C103_truncated
* C107: C107_failure_hidden, C107_not_signed_again
* C110: C110_never_more
* C111: C111_user_data, C111_accept_refused
* C112: C112_wrong_file_case
* C114: C114_collide, C114_collide_case
* C115: C115_early_return, C115_overlap
* C117: C117_case, C117_cleared, C117_other_callback, C117_out_of_range
* C118: C118_again, C118_index_drifts
* C119: C119_wakes_all, C119_case
* C12: C12_find_empty
* C120: C120_alert_not_sent, C120_spins
* C122: C122_crash, C122_create_twice, C122_case
* C123: C123_case, C123_rules
* C125: C125_move, C125_self_assign, C125_case
* C126: C126_rounds
* C127: C127_write, C127_case
* C131: C131_response, C131_concurrent_refuted
* C132: C132_unregistered, C132_register_fails, C132_zero_refuted, C132_huge_refuted, C132_case, C132_case_valid
* C134: C134_drains, C134_twice_refuted, C134_case
* C15: C15_nonvacuous
* C16: C16_prefix_empty_entry_looks_like_eof
* C18: C18_error, C18_cut_crlf_keeps_cr
* C23: C23_cancel_nonblocking_partial
* C24: C24_kind, C24_kind_ret
* C25: C25_never_stuck
* C27: C27_never_stuck
* C30: C30_epoll_wrong_callback
* C31: C31_refusal_loses_index
* C32: C32_remove_then_run_ub, C32_id_reused
* C33: C33_dispatch_from_background_ub, C33_dispatch_to_background_ub
* C34: C34_max_refuted, C34_remote_notify_lost
* C39: C39_second_push_overflows, C39_empty_ctor_overflows, C39_move_elements
* C43: C43_large_ring_aliases
* C44: C44_error
* C54: C54_error_cancelled
* C55: C55_connect_lies, C55_double_close
* C61: C61_release, C61_downgrade, C61_spurious_fails, C61_promotion_starves
* C62: C62_stays_registered
* C63: C63_late_event, C63_use_after_free
* C68: C68_epoll_spurious_call
* C72: C72_second_run_doubles, C72_race_repeats
* C73: C73_stable
* C74: C74_no_retry, C74_zero, C74_rest_taken, C74_reconnect_plain
* C75: C75_domain_default
* C76: C76_zero, C76_rest_left, C76_wrong_connection
* C77: C77_found, C77_failure, C77_v4_missed, C77_shared_race
* C78: C78_uds
* C79: C79_connect_again
* C80: C80_async_eagain, C80_cross_talk, C80_cross_talk_retry, C80_shutdown_partial, C80_recv_ignores_shutdown
* C83: C83_served, C83_race, C83_crash
* C84: C84_plain_fails, C84_changed
* C85: C85_bucket_power_of_two_fails, C85_zero_is_undefined
* C87: C87_orders_needed
* C88: C88_orders_needed
* C89: C89_code_fails, C89_acquire_needed, C89_exchange_needed
* C90: C90_orders_needed
* C91: C91_code_races, C91_release_needed
* C92: C92_orders_needed
* C93: C93_code_races, C93_code_races_free
* C94: C94_bound_needed
* C95: C95_getfor_races, C95_getfor_races_in_loop
* C96: C96_waitfor_races

## Quot.sound, propext

* C04: zero_length_request_overlaps
* C05: encode_is_shortest, encodeFast_extends_encode, encodingLength_exact_partial
* C06: parse64Safe_in_bounds_partial
* C09: mpsc_fifo, mpsc_quiescent_pop
* C10: spsc_fifo, spsc_no_slot_race, spsc_reports, spsc_observers
* C100: C100_no_abort, C100_gcs_aborts, C100_azure_retries
* C101: C101_block_ids, C101_block_id_length
* C102: C102_text, C102_names, C102_urgent, C102_buffered, C102_flush, C102_size, C102_failed_write, C102_dead
* C108: C108_ttl_text
* C109: C109_seed
* C110: C110_conversion_partial
* C111: C111_what_is_seen, C111_faithful_partial, C111_4GiB_is_nothing
* C112: C112_wrong_file, C112_sizes_cut
* C113: C113_murmur, C113_str_partial, C113_str_truncated, C113_fingerprint
* C114: C114_tuples_partial
* C115: C115_nested
* C116: C116_case, C116_gap, C116_starved, C116_drop_leaks
* C118: C118_transform, C118_map, C118_withIndex, C118_wrap, C118_unique
* C12: C12_iterator_out
* C120: C120_connects_first, C120_case, C120_prefix
* C122: C122_owns, C122_calls_own, C122_failure_closes, C122_open, C122_uds_partial, C122_path_length, C122_released
* C123: C123_hooks
* C124: C124_case
* C125: C125_crash
* C126: C126_first_exact
* C127: C127_adapter_partial, C127_closed, C127_response, C127_copied, C127_stops
* C128: C128_budget_set, C128_minimum, C128_yield_keeps, C128_yield_gives, C128_round_ends, C128_result, C128_callbacks_starve, C128_case, C128_case_round, C128_case_sleep
* C13: C13_total
* C131: C131_solo_partial
* C132: C132_register
* C134: C134_case_error
* C135: C135_hour_refuted, C135_names_refuted, C135_frequency_refuted, C135_case
* C136: C136_ratio_partial, C136_between, C136_not_too_often, C136_runs, C136_exactly, C136_back_runs, C136_often_refuted, C136_poll_refuted, C136_case
* C137: C137_small, C137_large
* C139: C139_years_refuted
* C14: C14_error_drops_count
* C140: C140_all, C140_one, C140_resume, C140_invisible_partial, C140_depth_refuted, C140_case
* C15: C15_write_returns, C15_empty_write_is_error
* C16: C16_prefix_source_lawful, C16_string_sink, C16_string_sink_lawful
* C17: C17_eof_never_completes
* C19: C19_notify_one_two_waiters, C19_epoch_wrap
* C23: C23_cancel_not_final, C23_waiter_lost, C23_cancel_races
* C25: C25_pusher_left_blocked, C25_popper_left_blocked
* C26: C26_getref_two_waiters_hang, C26_getfor_steals_wakeup, C26_done_and_reset, C26_done_two_waiters_hang
* C27: C27_task_lost
* C28: C28_prompt
* C29: C29_other_producer_delays, C29_hidden_behind_claim
* C32: C32_due_runs, C32_rests
* C36: C36_decode_partial, C36_unambiguous, C36_empty_ub, C36_huge_ub, C36_http_encode_ub
* C37: C37_off_by_one, C37_overflow_undefined
* C38: C38_total
* C40: C40_short_tail_overflows
* C42: C42_fill_buf, C42_write_some_partial, C42_write_some_repeats_first, C42_write_some_refuted
* C43: C43_consecutive
* C51: C51_timed_wait_corrupts
* C52: C52_eof_hides_data
* C54: C54_hook_misses_leftover, C54_hook_forgotten
* C57: C57_deferred_write_sent_twice, C57_deferred_read_overwrites, C57_two_deferred_crash, C57_write_after_try_send_crash, C57_try_recv_during_write_crash, C57_close_reports_zero
* C58: C58_write_reports_lost_data, C58_deferred_behind_fiber_lost
* C60: C60_chunk, C60_advance, C60_empty_vector_crash, C60_empty_buffer_crash
* C61: C61_others_untouched
* C64: C64_paused
* C65: C65_list_stable, C65_visit_goes_on, C65_gate_goes_on, C65_livelock
* C66: C66_all_threads, C66_missed, C66_twice
* C67: C67_never_told, C67_survives, C67_use_after_free, C67_unlinked_again, C67_foreign_list, C67_list_freed
* C69: C69_idle_worker_not_used, C69_task_lost
* C71: C71_one_thread, C71_lost, C71_out_of_bounds, C71_boundary, C71_gauge_sum
* C72: C72_next_in_pool, C72_round_robin
* C74: C74_copies, C74_stale
* C75: C75_connected, C75_idle_loss, C75_domain_partial
* C76: C76_back_clean
* C77: C77_prefers_v4_partial, C77_own_channel, C77_shared_channel_partial, C77_loop_partial
* C79: C79_closed, C79_no_leak, C79_shutdown, C79_create, C79_accept
* C80: C80_once, C80_no_eagain, C80_fits, C80_shutdown_stays
* C81: C81_register
* C82: C82_pieces, C82_from_buffer_partial, C82_buffer_error
* C85: C85_mulhi
* C86: C86_lost_wakeup, C86_relaxed_lost
* C97: C97_orders_needed
* C98: C98_zero_part_size, C98_nothing_written
* C99: C99_empty_object_error, C99_empty_object_endless, C99_overflow

## Classical.choice, Quot.sound, propext

* C01: ringBuffer_is_bounded_fifo, ringBuffer_fifo_from_any_position
* C02: ioBuf_is_byte_queue
* C03: ensureCapacity_contract, reserve_contract, shrinkTo_contract, generation_stable
* C04: segments_disjoint, request_succeeds, return_frees_exactly
* C05: parseT_roundtrip_partial, parseT_roundtrip_if_shift_saturates, parse64Fast_roundtrip_partial, parse64Safe_roundtrip_partial, parseLength_of_first_byte, parseT_undefined
* C07: zigZag_decode_encode, zigZag_encode_decode, zigZag_code
* C08: mpmc_fifo, mpmc_exclusive_cells, mpmc_failure_reports, mpmc_failure_exact, mpmc_observers, mpmc_single_consumer_fifo
* C09: mpsc_reports, mpsc_empty_quiescent
* C100: C100_read, C100_in_order_partial
* C101: C101_reads_unique, C101_gcs_get, C101_gcs_upload, C101_gcs_list, C101_azure_object, C101_azure_list, C101_s3_object_partial, C101_s3_question_mark, C101_s3_percent, C101_s3_list, C101_s3_signed_path, C101_s3_signature_differs, C101_s3_signed_query, C101_s3_value
* C102: C102_lines, C102_while_logging, C102_no_time_limit
* C103: C103_read, C103_stream
* C104: C104_registry, C104_value, C104_page_partial, C104_injection, C104_nan
* C105: C105_aws_accepted_partial, C105_aws_resign_partial, C105_aws_stale_token, C105_azure_accepted_partial, C105_azure_resign, C105_bearer, C105_sas_partial, C105_sas_nosig, C105_azure_bad_key
* C106: C106_gcs, C106_gcs_error, C106_s3, C106_s3_error, C106_azure, C106_azure_error, C106_gcs_buckets_partial, C106_gcs_buckets_stops, C106_gcs_crash, C106_gcs_empty_body, C106_s3_buckets, C106_azure_containers_partial, C106_azure_containers_first_page
* C107: C107_one_refresh, C107_refreshed, C107_token_partial, C107_own, C107_timeout, C107_no_deadlock
* C108: C108_settings, C108_endpoint, C108_connection_key, C108_connection_sas, C108_connection_endpoint, C108_inferred, C108_one_kind, C108_fails, C108_account, C108_account_endpoint, C108_other_account, C108_key_source, C108_env_key, C108_env_endpoint, C108_token_request, C108_token, C108_refresh, C108_defined_partial, C108_requested_drops_endpoint, C108_no_scheme_plain, C108_other_key, C108_empty_body
* C109: C109_splitmix, C109_period, C109_all_states, C109_even, C109_jump, C109_jump_not_2_64, C109_jump_table, C109_streams_partial, C109_streams_overlap
* C11: C11_exact, C11_bucket, C11_extremes, C11_extremes_any, C11_negative_max, C11_order_free, C11_merge, C11_merge_add, C11_total, C11_total_decay, C11_average, C11_percentiles, C11_percentile_mono, C11_percentile
* C110: C110_round_trip_partial, C110_counted, C110_usec1_partial, C110_overloaded_partial, C110_long_work_unseen, C110_usec10_a_tenth
* C112: C112_made, C112_operations_partial, C112_close
* C113: C113_no_collision, C113_int
* C115: C115_concurrent, C115_serial_partial
* C116: C116_one_shot, C116_only_while_held, C116_persistent, C116_released
* C117: C117_arrival, C117_calls_partial
* C118: C118_array
* C119: C119_fifo, C119_once, C119_no_lost_wakeup, C119_progress_partial, C119_local, C119_migrate_deadlock
* C12: C12_create, C12_dictionary_partial, C12_find, C12_unique, C12_calls_return, C12_capacity, C12_ids_stable, C12_never_relocates, C12_compact_false, C12_compact_loses
* C120: C120_streams_partial, C120_success, C120_errors, C120_connects_once, C120_no_spin
* C121: C121_entries_partial, C121_duplicates, C121_totals, C121_case, C121_qps
* C124: C124_counters, C124_no_underflow, C124_fatal, C124_lists
* C125: C125_owner, C125_none_lost, C125_joined_finished
* C126: C126_range_partial, C126_monotone_partial, C126_frequent_partial, C126_every_item_partial, C126_case
* C128: C128_wait_partial, C128_budget, C128_share, C128_only_within
* C129: C129_read, C129_read_patch, C129_two_numbers, C129_accepts, C129_supported, C129_newer, C129_case, C129_case_form
* C13: C13_disjoint, C13_aligned, C13_memory
* C130: C130_first, C130_none, C130_asked, C130_asked_order, C130_url, C130_bad_bucket, C130_distinct, C130_default, C130_case
* C131: C131_case_solo
* C132: C132_disjoint_partial, C132_size, C132_available, C132_return, C132_unmap
* C133: C133_name_partial, C133_base, C133_base_name, C133_total, C133_cut_refuted, C133_suffix_refuted, C133_case, C133_case_hyp
* C134: C134_data_partial, C134_not_lost, C134_end_last, C134_reset_refuted, C134_called_after_reset_refuted, C134_freed_refuted, C134_sign_refuted, C134_nobufs_refuted, C134_crashes
* C135: C135_counts_partial, C135_sum, C135_names
* C137: C137_scaled_partial, C137_close, C137_thousand_refuted, C137_case
* C138: C138_row_partial, C138_table_partial, C138_cell, C138_markup_refuted, C138_case
* C139: C139_value, C139_unit_partial, C139_month_refuted, C139_sixty_refuted
* C14: C14_read_at_least, C14_read
* C15: C15_write
* C16: C16_bytes_source_lawful, C16_buf_source_lawful, C16_collect, C16_buf_sink
* C17: C17_exact_partial, C17_progress
* C18: C18_lines_partial, C18_short_read_cuts_line, C18_limit_not_applied
* C19: C19_no_lost_wakeup, C19_no_lost_wakeup_single, C19_notification_progress, C19_quiescent, C19_await_result, C19_no_crash
* C20: C20_mutual_exclusion, C20_critical_sections, C20_not_stranded, C20_blocked_only_by_holder, C20_never_stuck, C20_try_lock, C20_never_bad
* C21: C21_no_race, C21_no_window, C21_notify_all, C21_notify_takes, C21_notify_wakes, C21_no_lost_wakeup
* C22: C22_dec_allowed, C22_true_only_at_zero, C22_false_only_if_cancelled, C22_timeout_only_timed, C22_no_stranded_waiter, C22_quiescent, C22_no_crash
* C23: C23_full_cycle, C23_last_arrival, C23_released, C23_cancel_partial, C23_never_bad
* C24: C24_exclusion, C24_reader_not_stranded, C24_writer_not_stranded_partial, C24_quiescent_reader, C24_quiescent_partial, C24_free, C24_try_lock_shared_strands_writer
* C25: C25_no_deadlock, C25_push_delivers, C25_delivery, C25_queue_order, C25_fifo, C25_closed, C25_close_wakes, C25_pop_wakes_partial, C25_no_deadlock_partial
* C26: C26_future_value, C26_future_once, C26_future_not_before, C26_future_timeout_only_timed, C26_future_single_waiter, C26_getref_returns, C26_done_only_after_notify, C26_done_single_waiter, C26_done_returns
* C27: C27_order, C27_taken_executed, C27_drained_partial, C27_add_wakes, C27_run_wakes, C27_all_executed
* C28: C28_returns_after_end, C28_asleep_is_listed, C28_never_late, C28_returns, C28_wake
* C29: C29_someone_in_call, C29_no_missed_wakeup_partial, C29_wakes, C29_all_processed
* C30: C30_uring_right_callback, C30_uring_once, C30_uring_kept, C30_uring_multishot_moved, C30_epoll_armed, C30_epoll_callback_partial, C30_epoll_exact_partial
* C31: C31_register_fresh, C31_translate, C31_unregister, C31_count, C31_finds_free_partial
* C32: C32_table, C32_add_fresh, C32_remove_exact, C32_safe_partial, C32_ub_iff, C32_round_robin, C32_visited_partial
* C33: C33_one_place, C33_right_queue, C33_no_ub_partial, C33_migrate_from_background_crashes, C33_fifo, C33_front_is_high, C33_nothing_lost, C33_dispatcher_kept, C33_not_early, C33_deadline_order, C33_early_wake, C33_early_wake_remote
* C34: C34_timeout_iff_partial, C34_no_timeout_notified, C34_timeout_expired, C34_max_always_timeout
* C35: C35_window_sums
* C36: C36_encode, C36_decode_malformed_partial, C36_round_trip_partial, C36_encode_injective, C36_http_encode_partial
* C37: C37_accepts, C37_accepts_only, C37_exact_partial, C37_near, C37_reads_past_view, C37_odd_suffix, C37_counterexamples, C37_show
* C38: C38_advance, C38_is_empty
* C39: C39_array_partial, C39_reserve_partial, C39_other_sizes_overflow, C39_ctor_size_partial, C39_ctor_fill_partial, C39_ctor_range_partial, C39_base_resize_fill_bytes
* C40: C40_read_partial, C40_uring_read_partial, C40_read_ends
* C41: C41_reports, C41_all_pairs_partial, C41_line_without_separator_hides_rest, C41_last_line_lost, C41_find_nth
* C42: C42_object
* C43: C43_exact_bytes, C43_disjoint
* C44: C44_whole_file, C44_posix_file
* C45: C45_any_split_partial, C45_short_args_partial, C45_header_cuts_partial, C45_whole, C45_two_packets_partial, C45_inline_partial, C45_overflow, C45_dangling, C45_lone_byte
* C46: C46_once, C46_not_early, C46_alive, C46_last_destroys, C46_never_bad, C46_overflow
* C47: C47_ini_parse_partial, C47_header_comment_lost, C47_ini_section
* C48: C48_parts, C48_compose, C48_ipv6_cut, C48_query_in_host
* C49: C49_file_write, C49_file_read_partial, C49_file_read_past_end_hangs
* C50: C50_parse_query, C50_split_query
* C51: C51_exclusion_partial
* C52: C52_stream, C52_writes, C52_reader_wakes, C52_writer_wakes, C52_shutdown_unblocks, C52_close_hangs, C52_eof_partial, C52_no_crash
* C53: C53_once, C53_all_answered, C53_progress
* C54: C54_arrival_announced_partial, C54_remembered, C54_hook_only_registered, C54_hook_removed, C54_error_once, C54_error_heard
* C55: C55_connected_partial, C55_failed_closed
* C56: C56_cipher_stream, C56_one_writer, C56_one_reader, C56_plain_text, C56_blocking_write, C56_blocking_read, C56_non_blocking
* C57: C57_async_read, C57_pending, C57_no_crash_partial, C57_async_write_partial, C57_input_position_partial
* C58: C58_no_self_deadlock, C58_flags, C58_resume_moves, C58_write_flushed_partial, C58_shutdown_waits, C58_deferred_partial, C58_shutdown_needs_peer
* C59: C59_try_send, C59_try_recv, C59_wake, C59_drain_kept
* C60: C60_push
* C61: C61_writer_excludes, C61_one_upgrader, C61_try_lock_shared, C61_try_lock_upgrade, C61_try_lock, C61_promote, C61_no_new_readers, C61_clean
* C62: C62_once, C62_not_after_cancel, C62_reported, C62_delivered, C62_memory_safe, C62_freed, C62_cancel_own
* C63: C63_no_event_after_del_partial, C63_reported, C63_delivered, C63_one_poll, C63_freed_once, C63_memory_safe_partial, C63_del_own
* C64: C64_counter, C64_accepts, C64_rejects, C64_limit_step, C64_limit, C64_start_once, C64_close_once
* C65: C65_no_move, C65_gate_closed, C65_gate_open, C65_page, C65_lists, C65_in_list, C65_pages, C65_enters
* C66: C66_once_partial
* C67: C67_safe_partial, C67_told_partial, C67_all_ended_partial, C67_progress_partial, C67_list_found
* C68: C68_safe, C68_no_call_after_cancel, C68_no_expiry_after_cancel, C68_one_call_per_expiry, C68_calls_le_expiries, C68_one_timer, C68_removal_hits_own, C68_removal_effective, C68_record_freed, C68_record_lives, C68_round, C68_epoll_safe, C68_epoll_cancel, C68_epoll_not_lost, C68_epoll_calls_partial
* C69: C69_order, C69_once, C69_batch_in_bounds, C69_pinned, C69_rotation, C69_first_with_room, C69_sleep_reason, C69_no_lost_wakeup, C69_await, C69_waits_for_start, C69_shutdown_returns, C69_drained_partial
* C70: C70_read_partial, C70_sequential, C70_seek_hangs, C70_hang_iff, C70_hit, C70_disjoint, C70_close, C70_prefetch_error, C70_wrong_bytes
* C71: C71_value_partial, C71_exact_partial, C71_numbered, C71_iterate_partial
* C72: C72_pinned, C72_found_once, C72_balanced, C72_second_run_leaks, C72_await_all, C72_await_progress
* C73: C73_same_bytes, C73_interned, C73_copied_once
* C74: C74_own_response_partial, C74_once_partial
* C75: C75_exclusive, C75_count_partial, C75_oldest, C75_destroy_partial
* C76: C76_result, C76_success, C76_refresh_iff, C76_signed
* C77: C77_polled_partial
* C78: C78_listens, C78_no_error_partial, C78_error, C78_v6_next, C78_silent_failure, C78_v4_first, C78_wait, C78_wait_returns, C78_wait_blocks
* C79: C79_handle, C79_distinct, C79_close
* C80: C80_sent_partial, C80_received_partial
* C81: C81_denied, C81_allowed, C81_credentials, C81_callback_partial, C81_arguments, C81_unknown, C81_shadowed
* C83: C83_inside, C83_sent_partial
* C84: C84_shows, C84_take, C84_substr, C84_moved, C84_one_value, C84_same
* C85: C85_portable_divides, C85_divide, C85_algorithms, C85_bucket, C85_bucket_prime
* C86: C86_asleep_partial, C86_with_exchange
* C87: C87_fifo, C87_values, C87_not_empty, C87_not_full
* C88: C88_fifo, C88_single_consumer, C88_value, C88_not_empty, C88_not_full, C88_empty, C88_full
* C89: C89_fifo_partial, C89_value_partial, C89_empty_partial, C89_not_empty_partial
* C90: C90_no_race, C90_exclusion, C90_refines, C90_fail_only_stale
* C91: C91_exclusion, C91_no_race_partial
* C92: C92_no_race, C92_wait_done, C92_no_lost_wakeup, C92_next_round
* C93: C93_no_race_partial, C93_woken_partial, C93_late_partial, C93_queue_no_race, C93_ended, C93_no_lost_wakeup, C93_all_woken, C93_release_needed
* C94: C94_no_race, C94_no_use_after_free, C94_alive, C94_once, C94_no_leak, C94_orders_needed
* C95: C95_no_race_partial, C95_repaired, C95_once, C95_not_before, C95_fence_needed
* C96: C96_with_fence_partial
* C97: C97_no_lost_wakeup, C97_notify_all, C97_notify_none, C97_queue, C97_all_woken, C97_one_woken, C97_no_waiters, C97_code
* C98: C98_object, C98_all_written, C98_write_returns, C98_part_sizes, C98_retried, C98_repeated_write_doubles
* C99: C99_in_order_partial, C99_read, C99_returns
