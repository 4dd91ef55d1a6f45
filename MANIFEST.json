{"claims": [
{"property": "C01", "status": "proved", "theorems": ["Verif.RingBuffer.ringBuffer_is_bounded_fifo", "Verif.RingBuffer.ringBuffer_fifo_from_any_position"], "note": "All capacities 2^k (k<=31), all histories."},
{"property": "C02", "status": "proved", "theorems": ["Verif.IoBuf.ioBuf_is_byte_queue", "Verif.IoBuf.move_transfers_content"], "note": "All in-contract histories; move construction/assignment."},
{"property": "C03", "status": "proved", "theorems": ["Verif.IoBuf.ensureCapacity_contract", "Verif.IoBuf.reserve_contract", "Verif.IoBuf.shrinkTo_contract", "Verif.IoBuf.generation_stable"], "note": "Capacity contracts for every state; append buffer stable while generation unchanged."},
{"property": "C04", "status": "proved", "theorems": ["Verif.SegmentPool.segments_disjoint", "Verif.SegmentPool.request_succeeds", "Verif.SegmentPool.return_frees_exactly", "Verif.SegmentPool.zero_length_request_overlaps"], "note": "Every pool size and history without zero-length requests, as the property says; zero_length_request_overlaps shows that the restriction is needed."},
{"property": "C05", "status": "partial", "theorems": ["Verif.Flit.encode_is_shortest", "Verif.Flit.parseT_roundtrip_partial", "Verif.Flit.parseT_roundtrip_if_shift_saturates", "Verif.Flit.parse64Fast_roundtrip_partial", "Verif.Flit.parse64Safe_roundtrip_partial", "Verif.Flit.parseLength_of_first_byte", "Verif.Flit.encodeFast_extends_encode", "Verif.Flit.encodingLength_exact_partial", "Verif.Flit.parseT_undefined", "Verif.Flit.parseT_wrong_with_x86_shl", "Verif.Flit.parse64Fast_misreads_encode32", "Verif.Flit.encodingLength_overestimates"], "note": "Round trip holds unless the encoding has exactly sizeof(T) bytes; there the decoder shifts by the word width (undefined), proved."},
{"property": "C06", "status": "partial", "theorems": ["Verif.Flit.parse64Safe_in_bounds_partial", "Verif.Flit.parse64Safe_reads_out_of_bounds"], "note": "False for 8-byte ranges starting with 0 and for empty ranges (witnesses); proved otherwise."},
{"property": "C07", "status": "proved", "theorems": ["Verif.Flit.zigZag_decode_encode", "Verif.Flit.zigZag_encode_decode", "Verif.Flit.zigZag_code"], "note": "Every width."},
{"property": "C08", "status": "proved", "theorems": ["Verif.Mpmc.mpmc_fifo", "Verif.Mpmc.mpmc_exclusive_cells", "Verif.Mpmc.mpmc_failure_reports", "Verif.Mpmc.mpmc_failure_exact", "Verif.Mpmc.mpmc_observers", "Verif.Mpmc.mpmc_single_consumer_fifo"], "note": "Any number of threads, every capacity 2^k, every interleaving (SC atomics, unbounded counters)."},
{"property": "C09", "status": "proved", "theorems": ["Verif.Mpsc.mpsc_fifo", "Verif.Mpsc.mpsc_reports", "Verif.Mpsc.mpsc_quiescent_pop", "Verif.Mpsc.mpsc_empty_quiescent", "Verif.Mpsc.mpsc_empty_may_miss_completed_push"], "note": "Any number of producers, every interleaving (SC atomics), node reuse included."},
{"property": "C10", "status": "proved", "theorems": ["Verif.Spsc.spsc_fifo", "Verif.Spsc.spsc_no_slot_race", "Verif.Spsc.spsc_reports", "Verif.Spsc.spsc_observers"], "note": "Every size, every interleaving (SC atomics)."},
{"property": "C100", "status": "partial", "theorems": ["Verif.CloudRead.C100_read", "Verif.CloudRead.C100_in_order_partial", "Verif.CloudRead.C100_no_abort", "Verif.CloudRead.C100_gcs_aborts", "Verif.CloudRead.C100_azure_retries", "Verif.CloudRead.C100_error_loses_bytes", "Verif.CloudRead.C100_offset_ignored"], "note": "Proved for sequential reads as long as none fails and the answers have a length; the rest is refuted by witnesses."},
{"property": "C101", "status": "partial", "theorems": ["Verif.CloudUrl.C101_reads_unique", "Verif.CloudUrl.C101_gcs_get", "Verif.CloudUrl.C101_gcs_upload", "Verif.CloudUrl.C101_gcs_list", "Verif.CloudUrl.C101_azure_object", "Verif.CloudUrl.C101_azure_list", "Verif.CloudUrl.C101_block_ids", "Verif.CloudUrl.C101_block_id_length", "Verif.CloudUrl.C101_s3_object_partial", "Verif.CloudUrl.C101_s3_question_mark", "Verif.CloudUrl.C101_s3_percent", "Verif.CloudUrl.C101_s3_list", "Verif.CloudUrl.C101_s3_signed_path", "Verif.CloudUrl.C101_s3_signature_differs", "Verif.CloudUrl.C101_s3_signed_query", "Verif.CloudUrl.C101_s3_value"], "note": "Full for Google and Azure. For Amazon objects the key is sent unencoded, so keys with ?, # or % address another object (C101_s3_question_mark, C101_s3_percent), and keys and prefixes with one of !*() get a signature over a path that is not the prescribed one (C101_s3_signed_path gives the exact condition). Block names are equally long up to 9999 only (C101_block_id_length)."},
{"property": "C102", "status": "partial", "theorems": ["Verif.FileLog.C102_lines", "Verif.FileLog.C102_while_logging", "Verif.FileLog.C102_text", "Verif.FileLog.C102_names", "Verif.FileLog.C102_urgent", "Verif.FileLog.C102_buffered", "Verif.FileLog.C102_flush", "Verif.FileLog.C102_size", "Verif.FileLog.C102_failed_write", "Verif.FileLog.C102_dead", "Verif.FileLog.C102_no_time_limit", "Verif.FileLog.C102_rotation_loses", "Verif.FileLog.C102_same_second"], "note": "Proved as long as no call for the file has failed and the clock does not go back; C102_failed_write and C102_dead say what happens when writing fails. Not true: buffered messages may stay buffered for any time (C102_no_time_limit), a failing fclose at rotation loses lines silently (C102_rotation_loses), a file that is full within the second of its opening grows on (C102_same_second; C102_size gives the bound per opening)."},
{"property": "C103", "status": "partial", "theorems": ["Verif.Zstd.C103_read", "Verif.Zstd.C103_stream", "Verif.Zstd.C103_error_loses_bytes", "Verif.Zstd.C103_empty_first_buffer", "Verif.Zstd.C103_truncated"], "note": "Proved for complete streams and an upstream source that does not fail, given the contract of the library (Spec.Contract). Not true: a truncated stream ends without an error (C103_truncated), an upstream error loses what the call had decompressed (C103_error_loses_bytes), an empty first buffer looks like the end (C103_empty_first_buffer)."},
{"property": "C104", "status": "partial", "theorems": ["Verif.Varz.C104_registry", "Verif.Varz.C104_value", "Verif.Varz.C104_int", "Verif.Varz.C104_int_case", "Verif.Varz.C104_page_partial", "Verif.Varz.C104_injection", "Verif.Varz.C104_nan"], "note": "The registry is proved in full. The page is proved to be the JSON text of the variables when names, texts and doubles can be printed as they are, and the text of an integer denotes it (C104_int); not true otherwise: a text with quotes forges further members (C104_injection) and nan is no JSON (C104_nan)."},
{"property": "C105", "status": "partial", "theorems": ["Verif.CloudSign.C105_aws_accepted_partial", "Verif.CloudSign.C105_aws_resign_partial", "Verif.CloudSign.C105_aws_stale_token", "Verif.CloudSign.C105_azure_accepted_partial", "Verif.CloudSign.C105_azure_resign", "Verif.CloudSign.C105_bearer", "Verif.CloudSign.C105_sas_partial", "Verif.CloudSign.C105_sas_nosig", "Verif.CloudSign.C105_azure_bad_key"], "note": "Accepted for Amazon if values of signed headers have no two spaces in a row and names have none of !*(); for Azure if the request has none of the nine other headers that the signature covers, and no empty argument. New credentials without a session token leave the old token in the request; a key of Azure that is not base64 is a CHECK failure; a shared access signature without sig is added again."},
{"property": "C106", "status": "partial", "theorems": ["Verif.CloudList.C106_gcs", "Verif.CloudList.C106_gcs_error", "Verif.CloudList.C106_s3", "Verif.CloudList.C106_s3_error", "Verif.CloudList.C106_azure", "Verif.CloudList.C106_azure_error", "Verif.CloudList.C106_gcs_buckets_partial", "Verif.CloudList.C106_gcs_buckets_stops", "Verif.CloudList.C106_gcs_crash", "Verif.CloudList.C106_gcs_empty_body", "Verif.CloudList.C106_s3_buckets", "Verif.CloudList.C106_azure_containers_partial", "Verif.CloudList.C106_azure_containers_first_page"], "note": "Proved for objects of all three services. The listing of buckets of Google ends at an empty page though there are others, and that of containers of Azure after the first page; an unexpected reply of Google is a failed CHECK or undefined behaviour."},
{"property": "C107", "status": "partial", "theorems": ["Verif.AwsRefresh.C107_one_refresh", "Verif.AwsRefresh.C107_refreshed", "Verif.AwsRefresh.C107_token_partial", "Verif.AwsRefresh.C107_own", "Verif.AwsRefresh.C107_timeout", "Verif.AwsRefresh.C107_no_deadlock", "Verif.AwsRefresh.C107_failure_hidden", "Verif.AwsRefresh.C107_not_signed_again"], "note": "RefreshToken returns no error to a waiting fiber although the refresh of the other failed; RefreshIfExpiring returns false to a fiber that waited for a successful refresh, so that its request is not signed again."},
{"property": "C108", "status": "partial", "theorems": ["Verif.AzureCreds.C108_settings", "Verif.AzureCreds.C108_endpoint", "Verif.AzureCreds.C108_connection_key", "Verif.AzureCreds.C108_connection_sas", "Verif.AzureCreds.C108_connection_endpoint", "Verif.AzureCreds.C108_inferred", "Verif.AzureCreds.C108_one_kind", "Verif.AzureCreds.C108_fails", "Verif.AzureCreds.C108_account", "Verif.AzureCreds.C108_account_endpoint", "Verif.AzureCreds.C108_other_account", "Verif.AzureCreds.C108_key_source", "Verif.AzureCreds.C108_env_key", "Verif.AzureCreds.C108_env_endpoint", "Verif.AzureCreds.C108_token_request", "Verif.AzureCreds.C108_token", "Verif.AzureCreds.C108_refresh", "Verif.AzureCreds.C108_defined_partial", "Verif.AzureCreds.C108_ttl_text", "Verif.AzureCreds.C108_requested_drops_endpoint", "Verif.AzureCreds.C108_no_scheme_plain", "Verif.AzureCreds.C108_other_key", "Verif.AzureCreds.C108_empty_body"], "note": "Proved for every environment: the settings of a connection string, the endpoint, the order of sources, one kind of credentials, the account asked for, the request to the metadata service, the refresh. Not so: the endpoint of the connection string is dropped when an account is asked for; an empty body from the metadata service is undefined behaviour."},
{"property": "C109", "status": "partial", "theorems": ["Verif.Random.C109_splitmix", "Verif.Random.C109_seed", "Verif.Random.C109_period", "Verif.Random.C109_all_states", "Verif.Random.C109_even", "Verif.Random.C109_jump", "Verif.Random.C109_jump_not_2_64", "Verif.Random.C109_jump_table", "Verif.Random.C109_streams_partial", "Verif.Random.C109_streams_overlap"], "note": "All but what is said of jump: it is not equivalent to 2^64 calls (C109_jump_not_2_64) but to another number (C109_jump); the subsequences do not overlap as long as they are fewer than 5866919815217226374 jumps apart (C109_streams_partial), a bound that is exact (C109_streams_overlap); with the table published for the rotations used it is 2^64 calls (C109_jump_table)."},
{"property": "C11", "status": "proved", "theorems": ["Verif.Histogram.C11_exact", "Verif.Histogram.C11_bucket", "Verif.Histogram.C11_extremes", "Verif.Histogram.C11_extremes_any", "Verif.Histogram.C11_negative_max", "Verif.Histogram.C11_order_free", "Verif.Histogram.C11_merge", "Verif.Histogram.C11_merge_add", "Verif.Histogram.C11_total", "Verif.Histogram.C11_total_decay", "Verif.Histogram.C11_average", "Verif.Histogram.C11_percentiles", "Verif.Histogram.C11_percentile_mono", "Verif.Histogram.C11_percentile"], "note": "Over exact rationals instead of doubles. min/max are the true extremes for samples in [0, 1e200]; outside that range C11_extremes_any says what they are and C11_negative_max shows the deviation."},
{"property": "C110", "status": "partial", "theorems": ["Verif.Cycle.C110_conversion_partial", "Verif.Cycle.C110_round_trip_partial", "Verif.Cycle.C110_never_more", "Verif.Cycle.C110_long_times_wrap", "Verif.Cycle.C110_before_init", "Verif.Cycle.C110_counted", "Verif.Cycle.C110_usec1_partial", "Verif.Cycle.C110_overloaded_partial", "Verif.Cycle.C110_long_work_unseen", "Verif.Cycle.C110_usec10_a_tenth", "Verif.Cycle.C110_usec10_wrong"], "note": "Conversions are exact while the product fits 64 bits and never report more than the time; Usec1ms and IsOverloaded are right while the time of the millisecond is under 2^32 cycles. The saturation does not happen (C110_long_work_unseen), Usec10ms is about one millisecond (C110_usec10_a_tenth, C110_usec10_wrong) and long times wrap around (C110_long_times_wrap)."},
{"property": "C111", "status": "partial", "theorems": ["Verif.Sqe.C111_user_data", "Verif.Sqe.C111_what_is_seen", "Verif.Sqe.C111_faithful_partial", "Verif.Sqe.C111_4GiB_is_nothing", "Verif.Sqe.C111_accept_refused"], "note": "All requests for lengths below 4 GiB, except accept with a length, which is refused (C111_accept_refused). Longer lengths are cut (C111_what_is_seen, C111_4GiB_is_nothing). The kernel's reading of an entry is an assumption, from its documentation."},
{"property": "C112", "status": "partial", "theorems": ["Verif.Sqe.C112_made", "Verif.Sqe.C112_operations_partial", "Verif.Sqe.C112_wrong_file", "Verif.Sqe.C112_wrong_file_case", "Verif.Sqe.C112_sizes_cut", "Verif.Sqe.C112_close"], "note": "Opening, all operations but two, GetFd and Close. ReadFixed and FSync of a registered file act on another (C112_wrong_file); sizes over 4 GiB are cut (C112_sizes_cut); descriptor zero is not closed."},
{"property": "C113", "status": "partial", "theorems": ["Verif.Hash.C113_murmur", "Verif.Hash.C113_no_collision", "Verif.Hash.C113_int", "Verif.Hash.C113_str_partial", "Verif.Hash.C113_str_truncated", "Verif.Hash.C113_fingerprint"], "note": "Equality with the published function, the reads, the absence of collisions and the fingerprints are proved for all inputs. Partial because a string of 4 GiB or more is cut to its size modulo 2^32: C113_str_truncated."},
{"property": "C114", "status": "partial", "theorems": ["Verif.Hash.C114_tuples_partial", "Verif.Hash.C114_collide", "Verif.Hash.C114_collide_case"], "note": "Proved when at most one field is a string or an optional integer. Two adjacent strings, or optionals, collide whatever the hash function: C114_collide."},
{"property": "C115", "status": "partial", "theorems": ["Verif.Init.C115_concurrent", "Verif.Init.C115_serial_partial", "Verif.Init.C115_nested", "Verif.Init.C115_early_return", "Verif.Init.C115_overlap"], "note": "Proved when guards are constructed and destroyed one at a time, in any nesting. With two threads a constructor returns before the initializers have run (C115_early_return), and initializers can run while destructors do (C115_overlap)."},
{"property": "C116", "status": "partial", "theorems": ["Verif.Subs.C116_one_shot", "Verif.Subs.C116_only_while_held", "Verif.Subs.C116_persistent", "Verif.Subs.C116_released", "Verif.Subs.C116_case", "Verif.Subs.C116_gap", "Verif.Subs.C116_starved", "Verif.Subs.C116_drop_leaks"], "note": "Proved for notifyAll. Partial because of what the code leaves to its callers: a notification inside subscribe_persistent is missed (C116_gap, as its comment says), notify in a release build starves whoever is behind a persistent waiter (C116_starved), and Drop leaves the count of waiters too high for ever (C116_drop_leaks)."},
{"property": "C117", "status": "partial", "theorems": ["Verif.Signals.C117_arrival", "Verif.Signals.C117_calls_partial", "Verif.Signals.C117_case", "Verif.Signals.C117_cleared", "Verif.Signals.C117_other_callback", "Verif.Signals.C117_out_of_range"], "note": "Proved unless a signal is cleared while a callback of it is pending; the exceptions are proved as witnesses."},
{"property": "C118", "status": "partial", "theorems": ["Verif.Iter.C118_array", "Verif.Iter.C118_transform", "Verif.Iter.C118_map", "Verif.Iter.C118_withIndex", "Verif.Iter.C118_wrap", "Verif.Iter.C118_unique", "Verif.Iter.C118_again", "Verif.Iter.C118_index_drifts"], "note": "For loops and iterators without state are proved; as forward iterators those of WithIndex are refuted."},
{"property": "C119", "status": "partial", "theorems": ["Verif.TaskQ.C119_fifo", "Verif.TaskQ.C119_once", "Verif.TaskQ.C119_no_lost_wakeup", "Verif.TaskQ.C119_wakes_all", "Verif.TaskQ.C119_progress_partial", "Verif.TaskQ.C119_local", "Verif.TaskQ.C119_migrate_deadlock", "Verif.TaskQ.C119_case"], "note": "Proved except for proactors whose dispatcher is in the loop of Migrate, where a deadlock is proved."},
{"property": "C12", "status": "partial", "theorems": ["Verif.Cuckoo.C12_create", "Verif.Cuckoo.C12_dictionary_partial", "Verif.Cuckoo.C12_find", "Verif.Cuckoo.C12_unique", "Verif.Cuckoo.C12_calls_return", "Verif.Cuckoo.C12_capacity", "Verif.Cuckoo.C12_capacity_short", "Verif.Cuckoo.C12_ids_stable", "Verif.Cuckoo.C12_never_relocates", "Verif.Cuckoo.C12_compact_false", "Verif.Cuckoo.C12_compact_loses", "Verif.Cuckoo.C12_find_empty", "Verif.Cuckoo.C12_iterator_out"], "note": "Refinement to a dictionary (first insertion wins) for every constructor capacity, growth function and history of SetEmptyKey, Insert, find, Reserve, SetGrowth, Clear, Compact and size in which no Compact answered false, with the exact prime computation, both hash functions, RollPending, Grow, and the exhaustive search of Compact (termination and CHECKs proved). Missing: histories after a Compact that answered false: there the property is false, C12_compact_false proves that a key has been lost and C12_compact_loses gives a history. Also proved: calls return, no key twice, Insert never relocates (shifts limit is 0 for odd bucket counts), ids stable until growth, constructor allocates less than asked, iterator reads out of bounds. Bucket numbers do not wrap at 32 bits in the model."},
{"property": "C120", "status": "partial", "theorems": ["Verif.TlsHand.C120_streams_partial", "Verif.TlsHand.C120_success", "Verif.TlsHand.C120_errors", "Verif.TlsHand.C120_connects_once", "Verif.TlsHand.C120_connects_first", "Verif.TlsHand.C120_no_spin", "Verif.TlsHand.C120_alert_not_sent", "Verif.TlsHand.C120_case", "Verif.TlsHand.C120_spins", "Verif.TlsHand.C120_prefix"], "note": "Proved for every engine; that alerts are sent before an error is returned is false (C120_alert_not_sent)"},
{"property": "C121", "status": "partial", "theorems": ["Verif.VarzAvg.C121_entries_partial", "Verif.VarzAvg.C121_duplicates", "Verif.VarzAvg.C121_totals", "Verif.VarzAvg.C121_case", "Verif.VarzAvg.C121_qps"], "note": "Exact contents of every read proved; that every key has one entry is false (C121_duplicates counts them)"},
{"property": "C122", "status": "partial", "theorems": ["Verif.SockBase.C122_owns", "Verif.SockBase.C122_calls_own", "Verif.SockBase.C122_failure_closes", "Verif.SockBase.C122_open", "Verif.SockBase.C122_uds_partial", "Verif.SockBase.C122_closed_is_uds", "Verif.SockBase.C122_path_length", "Verif.SockBase.C122_crash", "Verif.SockBase.C122_crash_case", "Verif.SockBase.C122_released", "Verif.SockBase.C122_create_twice", "Verif.SockBase.C122_case"], "note": "Ownership proved for all histories; that IsUDS is right on closed sockets and that Listen does not crash is false"},
{"property": "C123", "status": "proved", "theorems": ["Verif.Hooks.C123_hooks", "Verif.Hooks.C123_case", "Verif.Hooks.C123_rules"], "note": "The events of each fiber follow an automaton; hooks that switch themselves, and ExecuteOnFiberStack, are left out."},
{"property": "C124", "status": "proved", "theorems": ["Verif.SchedCount.C124_counters", "Verif.SchedCount.C124_no_underflow", "Verif.SchedCount.C124_fatal", "Verif.SchedCount.C124_lists", "Verif.SchedCount.C124_case"], "note": "Only workers migrate, which the code does not check; 2^32 fibers are not reached."},
{"property": "C125", "status": "proved", "theorems": ["Verif.FiberHandle.C125_owner", "Verif.FiberHandle.C125_none_lost", "Verif.FiberHandle.C125_joined_finished", "Verif.FiberHandle.C125_crash", "Verif.FiberHandle.C125_move", "Verif.FiberHandle.C125_self_assign", "Verif.FiberHandle.C125_case"], "note": "Assigning a handle that holds a fiber to itself crashes (C125_self_assign); Join is one step here."},
{"property": "C126", "status": "partial", "theorems": ["Verif.Zipf.C126_range_partial", "Verif.Zipf.C126_monotone_partial", "Verif.Zipf.C126_frequent_partial", "Verif.Zipf.C126_every_item_partial", "Verif.Zipf.C126_rounds", "Verif.Zipf.C126_first_exact", "Verif.Zipf.C126_case"], "note": "Over exact reals; rounding of doubles is left out except that of min, which makes Next return items below min from 2^53+1 on (C126_rounds)."},
{"property": "C127", "status": "partial", "theorems": ["Verif.AwsHttp.C127_adapter_partial", "Verif.AwsHttp.C127_stale", "Verif.AwsHttp.C127_category", "Verif.AwsHttp.C127_write", "Verif.AwsHttp.C127_closed", "Verif.AwsHttp.C127_response", "Verif.AwsHttp.C127_copied", "Verif.AwsHttp.C127_filled", "Verif.AwsHttp.C127_case", "Verif.AwsHttp.C127_stops"], "note": "The adapter does not clear the caller's error on success (C127_stale) and loses the category of errors (C127_category)."},
{"property": "C128", "status": "partial", "theorems": ["Verif.Share.C128_wait_partial", "Verif.Share.C128_budget", "Verif.Share.C128_budget_set", "Verif.Share.C128_share", "Verif.Share.C128_minimum", "Verif.Share.C128_only_within", "Verif.Share.C128_yield_keeps", "Verif.Share.C128_yield_gives", "Verif.Share.C128_round_ends", "Verif.Share.C128_result", "Verif.Share.C128_callbacks_starve", "Verif.Share.C128_case", "Verif.Share.C128_case_round", "Verif.Share.C128_case_sleep"], "note": "Bounded wait is in terms of normal running time (C128_wait_partial); C128_callbacks_starve shows it has no bound when callbacks keep the loop busy and no normal fiber runs. Share, budget, minimum and yield contracts are proved. Exact arithmetic; switches without Preempt are in Sched."},
{"property": "C129", "status": "proved", "theorems": ["Verif.Kernel.C129_read", "Verif.Kernel.C129_read_patch", "Verif.Kernel.C129_two_numbers", "Verif.Kernel.C129_accepts", "Verif.Kernel.C129_supported", "Verif.Kernel.C129_newer", "Verif.Kernel.C129_case", "Verif.Kernel.C129_case_form"], "note": "The table of first versions is from the io_uring manual pages. Releases of fewer than three numbers stop the process (C129_two_numbers). Setup and registration calls are taken to succeed."},
{"property": "C13", "status": "proved", "theorems": ["Verif.Arena.C13_disjoint", "Verif.Arena.C13_aligned", "Verif.Arena.C13_memory", "Verif.Arena.C13_total", "Verif.Arena.C13_truncated"], "note": "For requests of 1 to 2^32-1 bytes, as the class documents; C13_truncated shows that larger requests get too small a block."},
{"property": "C130", "status": "proved", "theorems": ["Verif.AwsConf.C130_first", "Verif.AwsConf.C130_none", "Verif.AwsConf.C130_asked", "Verif.AwsConf.C130_asked_order", "Verif.AwsConf.C130_url", "Verif.AwsConf.C130_bad_bucket", "Verif.AwsConf.C130_distinct", "Verif.AwsConf.C130_default", "Verif.AwsConf.C130_case"], "note": "Answers of SDK providers and the SDK's own endpoint resolution are parameters. A Bucket parameter that is not a string stops the process (C130_bad_bucket)."},
{"property": "C131", "status": "partial", "theorems": ["Verif.Profilez.C131_solo_partial", "Verif.Profilez.C131_response", "Verif.Profilez.C131_concurrent_refuted", "Verif.Profilez.C131_case", "Verif.Profilez.C131_case_solo"], "note": "True for requests one at a time (C131_solo_partial). False for concurrent ones: the shared suffix is unprotected (C131_concurrent_refuted). C131_response holds always."},
{"property": "C132", "status": "partial", "theorems": ["Verif.RegBuf.C132_disjoint_partial", "Verif.RegBuf.C132_size", "Verif.RegBuf.C132_available", "Verif.RegBuf.C132_unregistered", "Verif.RegBuf.C132_register", "Verif.RegBuf.C132_register_fails", "Verif.RegBuf.C132_return", "Verif.RegBuf.C132_unmap", "Verif.RegBuf.C132_zero_refuted", "Verif.RegBuf.C132_huge_refuted", "Verif.RegBuf.C132_case", "Verif.RegBuf.C132_case_valid"], "note": "Proved for sizes from 1 byte to 16 TB less a page. False of the code outside: a request of size 0 leads to overlapping slices (C132_zero_refuted), and a size of 2^44 is cut to 32 bits, so that the slice reaches beyond the registered memory (C132_huge_refuted)."},
{"property": "C133", "status": "partial", "theorems": ["Verif.ProgName.C133_name_partial", "Verif.ProgName.C133_base", "Verif.ProgName.C133_base_name", "Verif.ProgName.C133_total", "Verif.ProgName.C133_cut_refuted", "Verif.ProgName.C133_suffix_refuted", "Verif.ProgName.C133_case", "Verif.ProgName.C133_case_hyp"], "note": "Proved for paths of at most 2038 characters that do not end in ' (deleted)'. False of the code for paths over 2048 characters, which are cut silently (C133_cut_refuted), and for a file really called 'x (deleted)' (C133_suffix_refuted)."},
{"property": "C134", "status": "partial", "theorems": ["Verif.RecvHook.C134_data_partial", "Verif.RecvHook.C134_not_lost", "Verif.RecvHook.C134_end_last", "Verif.RecvHook.C134_drains", "Verif.RecvHook.C134_reset_refuted", "Verif.RecvHook.C134_called_after_reset_refuted", "Verif.RecvHook.C134_freed_refuted", "Verif.RecvHook.C134_twice_refuted", "Verif.RecvHook.C134_sign_refuted", "Verif.RecvHook.C134_nobufs_refuted", "Verif.RecvHook.C134_crashes", "Verif.RecvHook.C134_case", "Verif.RecvHook.C134_case_error"], "note": "Proved: the data, its order, that the hook is not lost, that the end comes once and last, and the ways in which the program can die. False of the code: register_recv_multishot_ is never set, so ResetOnRecvHook does nothing (C134_reset_refuted), the callback is called after reset, close and destruction (C134_called_after_reset_refuted), the destroyed socket is used (C134_freed_refuted) and a second registration is accepted (C134_twice_refuted); error codes are negative (C134_sign_refuted); ENOBUFS stops the program (C134_nobufs_refuted)."},
{"property": "C135", "status": "partial", "theorems": ["Verif.SwitchStat.C135_counts_partial", "Verif.SwitchStat.C135_sum", "Verif.SwitchStat.C135_names", "Verif.SwitchStat.C135_back_refuted", "Verif.SwitchStat.C135_hour_refuted", "Verif.SwitchStat.C135_names_refuted", "Verif.SwitchStat.C135_frequency_refuted", "Verif.SwitchStat.C135_case"], "note": "Proved for a cycle counter that increases and a known frequency; the total time for runs below 2^32 microseconds. False of the code when the counter goes back (C135_back_refuted, against the comment in the code), for runs of 71.6 minutes (C135_hour_refuted), for GetPastFiberNames after a multiple of eight switches (C135_names_refuted), and when the frequency is not known (C135_frequency_refuted)."},
{"property": "C136", "status": "partial", "theorems": ["Verif.Load.C136_ratio_partial", "Verif.Load.C136_between", "Verif.Load.C136_back_refuted", "Verif.Load.C136_not_too_often", "Verif.Load.C136_runs", "Verif.Load.C136_exactly", "Verif.Load.C136_back_runs", "Verif.Load.C136_often_refuted", "Verif.Load.C136_poll_refuted", "Verif.Load.C136_case", "Verif.Load.C136_case_calls"], "note": "Proved for a counter that does not go back: the ratio is the waiting share of a window longer than the period, between 0 and 1, and tasks run exactly when 10 microseconds have passed since the last run. False of the code when the counter goes back: the ratio can be far above 1, the tasks run at every call without end, and ShouldPollL2Tasks stays false."},
{"property": "C137", "status": "partial", "theorems": ["Verif.HumanNum.C137_small", "Verif.HumanNum.C137_scaled_partial", "Verif.HumanNum.C137_close", "Verif.HumanNum.C137_thousand_refuted", "Verif.HumanNum.C137_min_refuted", "Verif.HumanNum.C137_large", "Verif.HumanNum.C137_case"], "note": "Unit, sign, error bound and exactness below 1000 are proved for all integers and any rounding of ties. False of the code: negating the smallest integer is undefined, and numbers just below a unit are shown as 1000.00 of the smaller one (999999 as 1000.00k)."},
{"property": "C138", "status": "partial", "theorems": ["Verif.HtmlTable.C138_row_partial", "Verif.HtmlTable.C138_table_partial", "Verif.HtmlTable.C138_cell", "Verif.HtmlTable.C138_markup_refuted", "Verif.HtmlTable.C138_case"], "note": "Proved when no cell contains a < : the text of a row or a table determines header, rows and cells. False of the code otherwise: cells are not escaped, and a cell can close its own cell and open another."},
{"property": "C139", "status": "partial", "theorems": ["Verif.Elapsed.C139_value", "Verif.Elapsed.C139_unit_partial", "Verif.Elapsed.C139_month_refuted", "Verif.Elapsed.C139_sixty_refuted", "Verif.Elapsed.C139_years_refuted", "Verif.Elapsed.C139_case", "Verif.Elapsed.C139_case_refuted"], "note": "Proved for whole nanoseconds below 999.5 years, with exact arithmetic, apart from the range of 30 to 30.44 days. False of the code there (less than one month is shown), from 999.5 years on (exponent notation), and just below a minute and an hour (60 s, 60 min are shown). Double rounding is not modelled."},
{"property": "C14", "status": "proved", "theorems": ["Verif.Io.C14_read_at_least", "Verif.Io.C14_read", "Verif.Io.C14_error_drops_count"], "note": "ReadAtLeast/Read over any lawful source. Also shown: on error the caller does not learn how many bytes were consumed."},
{"property": "C140", "status": "partial", "theorems": ["Verif.OnStack.C140_all", "Verif.OnStack.C140_one", "Verif.OnStack.C140_resume", "Verif.OnStack.C140_invisible_partial", "Verif.OnStack.C140_depth_refuted", "Verif.OnStack.C140_case"], "note": "All proved apart from the last part, which is false of the code: every run leaves a call on the stack of each suspended fiber until that fiber is resumed. Boost's resume_with is modelled as documented; the end of fibers is left out."},
{"property": "C15", "status": "proved", "theorems": ["Verif.Io.C15_write", "Verif.Io.C15_write_returns", "Verif.Io.C15_empty_write_is_error", "Verif.Io.C15_nonvacuous"], "note": "Sink::Write over any lawful sink (short writes, EINTR, errors); returns whenever interruptions are bounded. Writing only empty vectors is reported as io_error (shown)."},
{"property": "C16", "status": "proved", "theorems": ["Verif.Io.C16_bytes_source_lawful", "Verif.Io.C16_buf_source_lawful", "Verif.Io.C16_prefix_source_lawful", "Verif.Io.C16_collect", "Verif.Io.C16_prefix_empty_entry_looks_like_eof", "Verif.Io.C16_string_sink", "Verif.Io.C16_string_sink_lawful", "Verif.Io.C16_buf_sink", "Verif.Io.C16_null_sink"], "note": "BytesSource, BufSource, PrefixSource lawful for nonempty vectors and any reading pattern; StringSink, BufSink append. PrefixSource with an empty first entry reports 0 (shown)."},
{"property": "C17", "status": "partial", "theorems": ["Verif.Io.C17_exact_partial", "Verif.Io.C17_progress", "Verif.Io.C17_eof_never_completes", "Verif.Io.C17_empty_array_ub"], "note": "Exactly one callback whenever the transfer ends, exact byte range at every moment. Missing and refuted: completion when completions move 0 bytes (AsyncRead at end of stream reissues for ever)."},
{"property": "C18", "status": "partial", "theorems": ["Verif.Lines.C18_lines_partial", "Verif.Lines.C18_deterministic", "Verif.Lines.C18_error", "Verif.Lines.C18_short_read_cuts_line", "Verif.Lines.C18_cut_crlf_keeps_cr", "Verif.Lines.C18_limit_not_applied"], "note": "Proved for sources that fill the page with every read but the last (short reads may end with LF) and never cut a CR LF pair between reads. In the other cases the property is false: three theorems give the counterexamples, including the line length limit."},
{"property": "C19", "status": "proved", "theorems": ["Verif.EventCount.C19_no_lost_wakeup", "Verif.EventCount.C19_no_lost_wakeup_single", "Verif.EventCount.C19_notification_progress", "Verif.EventCount.C19_quiescent", "Verif.EventCount.C19_await_result", "Verif.EventCount.C19_no_crash", "Verif.EventCount.C19_notify_one_two_waiters", "Verif.EventCount.C19_epoch_wrap"], "note": "Arbitrary shared state, conditions, numbers of fibers, await and await_until. NoWrap (fewer than 2^32 notifications during one registration, fewer than 2^32 fibers) is shown necessary by C19_epoch_wrap; notifyAll or a single waiter is shown necessary by C19_notify_one_two_waiters."},
{"property": "C20", "status": "proved", "theorems": ["Verif.Sync.C20_mutual_exclusion", "Verif.Sync.C20_critical_sections", "Verif.Sync.C20_not_stranded", "Verif.Sync.C20_blocked_only_by_holder", "Verif.Sync.C20_never_stuck", "Verif.Sync.C20_try_lock", "Verif.Sync.C20_never_bad"], "note": "Programs that follow the contract; mutual exclusion and try_lock for all of them, the wait-queue theorems for programs without timed waits (see C51)."},
{"property": "C21", "status": "proved", "theorems": ["Verif.Sync.C21_no_race", "Verif.Sync.C21_no_window", "Verif.Sync.C21_notify_all", "Verif.Sync.C21_notify_takes", "Verif.Sync.C21_notify_wakes", "Verif.Sync.C21_no_lost_wakeup"], "note": "CondVar::wait with a Mutex, any number of fibers. Persistent/callback waiters and NoOpLock not modelled."},
{"property": "C22", "status": "proved", "theorems": ["Verif.BlockingCounter.C22_dec_allowed", "Verif.BlockingCounter.C22_true_only_at_zero", "Verif.BlockingCounter.C22_false_only_if_cancelled", "Verif.BlockingCounter.C22_timeout_only_timed", "Verif.BlockingCounter.C22_no_stranded_waiter", "Verif.BlockingCounter.C22_quiescent", "Verif.BlockingCounter.C22_no_crash"], "note": "Usage rules as guards: Dec not below zero, count below 2^63, Start only at count zero. Fewer than 2^32 notifications during one registration. OnCompletion callbacks not modelled."},
{"property": "C23", "status": "partial", "theorems": ["Verif.Barrier.C23_full_cycle", "Verif.Barrier.C23_last_arrival", "Verif.Barrier.C23_released", "Verif.Barrier.C23_cancel_partial", "Verif.Barrier.C23_cancel_nonblocking_partial", "Verif.Barrier.C23_never_bad", "Verif.Barrier.C23_cancel_not_final", "Verif.Barrier.C23_waiter_lost", "Verif.Barrier.C23_cancel_races"], "note": "Full-cycle, last-arrival and release theorems hold below 2^64-1 arrivals. 'Cancel is final' is false (C23_cancel_not_final, C23_waiter_lost) and Cancel's notify_all races (C23_cancel_races)."},
{"property": "C24", "status": "partial", "theorems": ["Verif.SharedMutex.C24_exclusion", "Verif.SharedMutex.C24_reader_not_stranded", "Verif.SharedMutex.C24_writer_not_stranded_partial", "Verif.SharedMutex.C24_quiescent_reader", "Verif.SharedMutex.C24_quiescent_partial", "Verif.SharedMutex.C24_free", "Verif.SharedMutex.C24_try_lock_shared_strands_writer", "Verif.SharedMutex.C24_kind", "Verif.SharedMutex.C24_kind_ret"], "note": "Exclusion and reader wake-up proved with try_lock_shared; writer wake-up proved when try_lock_shared is not called directly, and refuted when it is (C24_try_lock_shared_strands_writer)."},
{"property": "C25", "status": "partial", "theorems": ["Verif.Channel.C25_no_deadlock", "Verif.Channel.C25_push_delivers", "Verif.Channel.C25_delivery", "Verif.Channel.C25_queue_order", "Verif.Channel.C25_fifo", "Verif.Channel.C25_never_stuck", "Verif.Channel.C25_closed", "Verif.Channel.C25_close_wakes", "Verif.Channel.C25_pop_wakes_partial", "Verif.Channel.C25_no_deadlock_partial", "Verif.Channel.C25_pusher_left_blocked", "Verif.Channel.C25_popper_left_blocked"], "note": "Delivery, order and closing hold for any number of fibers; Push returns only with its item in the queue (C25_push_delivers); a blocked popper is always woken by closing, and by an item when there is one consumer; with one consumer and any number of producers they are never all asleep (C25_no_deadlock). 'No pusher stays blocked when it could proceed' is false (C25_pusher_left_blocked), and with several consumers so is the popper side (C25_popper_left_blocked)."},
{"property": "C26", "status": "partial", "theorems": ["Verif.Future.C26_future_value", "Verif.Future.C26_future_once", "Verif.Future.C26_future_not_before", "Verif.Future.C26_future_timeout_only_timed", "Verif.Future.C26_future_single_waiter", "Verif.Future.C26_getref_returns", "Verif.Future.C26_getref_two_waiters_hang", "Verif.Future.C26_getfor_steals_wakeup", "Verif.Future.C26_done_only_after_notify", "Verif.Future.C26_done_single_waiter", "Verif.Future.C26_done_returns", "Verif.Future.C26_done_and_reset", "Verif.Future.C26_done_two_waiters_hang"], "note": "Values, at-most-once and never-before hold for every schedule; the wake-up half holds for one waiting consumer at a time. Refuted for several: GetRef with two blocked consumers, Get next to a timed-out GetFor, Done with two waiters each leave a fiber blocked for ever (theorems *_hang, C26_getfor_steals_wakeup)."},
{"property": "C27", "status": "partial", "theorems": ["Verif.FiberQueue.C27_order", "Verif.FiberQueue.C27_taken_executed", "Verif.FiberQueue.C27_never_stuck", "Verif.FiberQueue.C27_drained_partial", "Verif.FiberQueue.C27_add_wakes", "Verif.FiberQueue.C27_run_wakes", "Verif.FiberQueue.C27_all_executed", "Verif.FiberQueue.C27_task_lost"], "note": "Order and exactly-once hold; nothing is left behind while Run sleeps; adders and Run are always woken. 'Every task accepted before Shutdown is executed' is false (C27_task_lost); C27_drained_partial has the extra hypothesis that no task is added between Run's failed dequeue and its look at the closed flag."},
{"property": "C28", "status": "proved", "theorems": ["Verif.Join.C28_returns_after_end", "Verif.Join.C28_asleep_is_listed", "Verif.Join.C28_never_late", "Verif.Join.C28_returns", "Verif.Join.C28_prompt", "Verif.Join.C28_wake"], "note": "One target fiber and any number of joiners; sequentially consistent atomics. Progress is stated as: once the function has returned, steps already under way lead every Join to its return, and no further call is needed."},
{"property": "C29", "status": "partial", "theorems": ["Verif.Proactor.C29_someone_in_call", "Verif.Proactor.C29_no_missed_wakeup_partial", "Verif.Proactor.C29_wakes", "Verif.Proactor.C29_all_processed", "Verif.Proactor.C29_other_producer_delays", "Verif.Proactor.C29_hidden_behind_claim"], "note": "Proved: a sleeping proactor with unprocessed work implies a producer still inside its call, whose own next steps raise the event; with all calls complete there is no missed wake-up and the loop processes everything. Bound: fewer than 2^31 additions to the 32 bit sequence number per loop iteration. The strict statement (each completed call is processed although other producers are stalled) is refuted by C29_other_producer_delays and C29_hidden_behind_claim."},
{"property": "C30", "status": "partial", "theorems": ["Verif.Completion.C30_uring_right_callback", "Verif.Completion.C30_uring_once", "Verif.Completion.C30_uring_kept", "Verif.Completion.C30_uring_multishot_moved", "Verif.Completion.C30_epoll_armed", "Verif.Completion.C30_epoll_callback_partial", "Verif.Completion.C30_epoll_exact_partial", "Verif.Completion.C30_epoll_wrong_callback"], "note": "io_uring: proved (right callback, exactly one final call, entries never shared). epoll: event of a live registration is delivered; an event of a disarmed registration can reach a newly armed callback (C30_epoll_wrong_callback), so the epoll half is partial. Finding: a multishot callback can be moved while it runs."},
{"property": "C31", "status": "partial", "theorems": ["Verif.DirectFd.C31_register_fresh", "Verif.DirectFd.C31_translate", "Verif.DirectFd.C31_unregister", "Verif.DirectFd.C31_count", "Verif.DirectFd.C31_finds_free_partial", "Verif.DirectFd.C31_refusal_loses_index"], "note": "All histories incl. kernel refusals for freshness, translation, release, count. Finding an existing free index is proved while the kernel refused nothing; refuted after a refusal (C31_refusal_loses_index)."},
{"property": "C32", "status": "partial", "theorems": ["Verif.OnIdle.C32_table", "Verif.OnIdle.C32_add_fresh", "Verif.OnIdle.C32_remove_exact", "Verif.OnIdle.C32_safe_partial", "Verif.OnIdle.C32_ub_iff", "Verif.OnIdle.C32_remove_then_run_ub", "Verif.OnIdle.C32_id_reused", "Verif.OnIdle.C32_round_robin", "Verif.OnIdle.C32_visited_partial", "Verif.OnIdle.C32_due_runs", "Verif.OnIdle.C32_rests"], "note": "Id table, exact removal, round robin, rest times proved for all histories. Refuted: RemoveOnIdleTask outside the idle loop leaves the cursor out of bounds (C32_remove_then_run_ub); ids are reused (C32_id_reused). Partial: safety without outside removals; visiting over consecutive passes. Callbacks that call AddOnIdleTask not modelled."},
{"property": "C33", "status": "partial", "theorems": ["Verif.Sched.C33_one_place", "Verif.Sched.C33_right_queue", "Verif.Sched.C33_no_ub_partial", "Verif.Sched.C33_dispatch_from_background_ub", "Verif.Sched.C33_dispatch_to_background_ub", "Verif.Sched.C33_migrate_from_background_crashes", "Verif.Sched.C33_fifo", "Verif.Sched.C33_front_is_high", "Verif.Sched.C33_nothing_lost", "Verif.Sched.C33_dispatcher_kept", "Verif.Sched.C33_not_early", "Verif.Sched.C33_deadline_order", "Verif.Sched.C33_early_wake", "Verif.Sched.C33_early_wake_remote"], "note": "Needs Launch::dispatch only between fibers of the same ready queue and no Migrate from a background fiber; C33_dispatch_from_background_ub, C33_dispatch_to_background_ub and C33_migrate_from_background_crashes show what happens otherwise. The dispatch loop may call the scheduler in any order."},
{"property": "C34", "status": "partial", "theorems": ["Verif.Sched.C34_timeout_iff_partial", "Verif.Sched.C34_no_timeout_notified", "Verif.Sched.C34_timeout_expired", "Verif.Sched.C34_max_always_timeout", "Verif.Sched.C34_max_refuted", "Verif.Sched.C34_remote_notify_lost"], "note": "False for the deadline time_point::max() (C34_max_always_timeout, C34_max_refuted) and for notifications from other threads that the dispatcher processes after the timer (C34_remote_notify_lost). Proved for the rest: a timeout is reported iff the timer ended the wait first."},
{"property": "C35", "status": "proved", "theorems": ["Verif.Sliding.C35_window_sums"], "note": "Proved for every window size, sequence of calls and clock behaviour, including a clock that goes back. The counter type is modelled as the integers."},
{"property": "C36", "status": "partial", "theorems": ["Verif.Url.C36_encode", "Verif.Url.C36_decode_partial", "Verif.Url.C36_decode_malformed_partial", "Verif.Url.C36_unambiguous", "Verif.Url.C36_round_trip_partial", "Verif.Url.C36_encode_injective", "Verif.Url.C36_empty_ub", "Verif.Url.C36_huge_ub", "Verif.Url.C36_http_encode_partial", "Verif.Url.C36_http_encode_ub"], "note": "Encoding is proved for every string. Decoding and the round trip are proved except for two cases in which the code has undefined behaviour, both proved: an empty text decoded onto an empty string, and texts of 4 GiB or more. util::http::UrlEncode is proved for ASCII and proved undefined for other bytes."},
{"property": "C37", "status": "partial", "theorems": ["Verif.Human.C37_accepts", "Verif.Human.C37_accepts_only", "Verif.Human.C37_exact_partial", "Verif.Human.C37_near", "Verif.Human.C37_off_by_one", "Verif.Human.C37_overflow_undefined", "Verif.Human.C37_reads_past_view", "Verif.Human.C37_odd_suffix", "Verif.Human.C37_counterexamples", "Verif.Human.C37_show", "Verif.Human.C37_no_round_trip", "Verif.Human.C37_show_min"], "note": "Accepted language proved in both directions and the value is the number times the unit, rounded; exact for whole numbers below 2^52, even ones below 2^53 and every double from there on. False as stated: odd whole numbers in [2^52, 2^53) come out one too large, values of 2^63 or more are undefined behaviour instead of rejected, memory behind the view is read, 1BiB is accepted. strtod is a parameter."},
{"property": "C38", "status": "proved", "theorems": ["Verif.Io.C38_advance", "Verif.Io.C38_is_empty", "Verif.Io.C38_total"], "note": "AdvanceIovec, IsEmptyIovec, GetIovecTotalBytes for all arrays."},
{"property": "C39", "status": "partial", "theorems": ["Verif.PodArray.C39_array_partial", "Verif.PodArray.C39_reserve_partial", "Verif.PodArray.C39_other_sizes_overflow", "Verif.PodArray.C39_second_push_overflows", "Verif.PodArray.C39_ctor_size_partial", "Verif.PodArray.C39_ctor_fill_partial", "Verif.PodArray.C39_ctor_range_partial", "Verif.PodArray.C39_empty_ctor_overflows", "Verif.PodArray.C39_base_resize_fill_refuted", "Verif.PodArray.C39_base_resize_fill_bytes", "Verif.PodArray.C39_move_elements", "Verif.PodArray.C39_move_wrong_resource"], "note": "Proved for every element size that is a power of two (the list refinement, all operations, constructors asked for at least one element). For every other element size the claim is proved false: enough push_back calls write outside the allocation. Also proved: the constructors asked for zero elements of a type larger than the alignment overflow on the first push_back; the one-argument resize_fill clears bytes instead of elements; the move constructor returns the memory to the wrong resource."},
{"property": "C40", "status": "partial", "theorems": ["Verif.Posix.C40_read_partial", "Verif.Posix.C40_uring_read_partial", "Verif.Posix.C40_read_ends", "Verif.Posix.C40_short_tail_overflows"], "note": "Proved for a kernel whose preadv may be short anywhere but whose pread into one buffer is short only at the end of the file. Without that hypothesis the claim is false (C40_short_tail_overflows): the helper that finishes an entry asks for its full length again after a short read and writes past the vector. The io_uring reader has the same loop."},
{"property": "C41", "status": "partial", "theorems": ["Verif.Proc.C41_reports", "Verif.Proc.C41_all_pairs_partial", "Verif.Proc.C41_line_without_separator_hides_rest", "Verif.Proc.C41_last_line_lost", "Verif.Proc.C41_find_nth"], "note": "C41_reports says exactly what is reported for every file, chunking and failure. The property itself holds for files whose lines all end with LF and have the separator; otherwise it is false, with two counterexamples proved."},
{"property": "C42", "status": "partial", "theorems": ["Verif.Cloud.C42_fill_buf", "Verif.Cloud.C42_write_some_partial", "Verif.Cloud.C42_write_some_repeats_first", "Verif.Cloud.C42_write_some_refuted", "Verif.Cloud.C42_object"], "note": "Holds for writes with one vector entry, through part boundaries, upload and close of the S3, GCS and Azure writers. False for several entries (C42_write_some_refuted): WriteSome writes the first entry once per entry."},
{"property": "C43", "status": "proved", "theorems": ["Verif.BufRing.C43_exact_bytes", "Verif.BufRing.C43_disjoint", "Verif.BufRing.C43_consecutive", "Verif.BufRing.C43_large_ring_aliases"], "note": "Kernel side follows io_uring_setup_buf_ring(3); n divides 65536, storage at most 4 GiB (C43_large_ring_aliases shows the limit is needed)."},
{"property": "C44", "status": "proved", "theorems": ["Verif.Posix.C44_whole_file", "Verif.Posix.C44_error", "Verif.Posix.C44_posix_file"], "note": "Whole file for every size, given full positional reads (as the property says); C44_posix_file discharges that for PosixReadFile."},
{"property": "C45", "status": "partial", "theorems": ["Verif.Resp.C45_any_split_partial", "Verif.Resp.C45_short_args_partial", "Verif.Resp.C45_header_cuts_partial", "Verif.Resp.C45_whole", "Verif.Resp.C45_two_packets_partial", "Verif.Resp.C45_inline_partial", "Verif.Resp.C45_overflow", "Verif.Resp.C45_dangling", "Verif.Resp.C45_lone_byte"], "note": "Proved for every request and every split: the server gets exactly the request unless the parser writes outside a block; it does not for arguments of at most 30 bytes, for packets that do not end inside an argument, and for whole requests; inline requests in packets of at least two bytes. Proved false in general: a long argument cut by a packet overflows its block, an argument may point into a buffer already given back, and the last byte of an inline request arriving alone is not recognised."},
{"property": "C46", "status": "proved", "theorems": ["Verif.Join.C46_once", "Verif.Join.C46_not_early", "Verif.Join.C46_alive", "Verif.Join.C46_last_destroys", "Verif.Join.C46_never_bad", "Verif.Join.C46_overflow"], "note": "Holds while fewer than 2^32 - 1 handles exist at a time; C46_overflow shows that the bound is needed."},
{"property": "C47", "status": "partial", "theorems": ["Verif.Text.C47_ini_parse_partial", "Verif.Text.C47_header_comment_lost", "Verif.Text.C47_ini_section"], "note": "ParseIniSection is proved in full. ini::Parse is proved for files in which no header is separated by white space from a comment on its line; for such a header the property is false (C47_header_comment_lost)."},
{"property": "C48", "status": "proved", "theorems": ["Verif.Text.C48_parts", "Verif.Text.C48_compose", "Verif.Text.C48_ipv6_cut", "Verif.Text.C48_query_in_host"], "note": "Splitting and recombination are proved for every string. Two theorems record inputs whose split is not what RFC 3986 says."},
{"property": "C49", "status": "partial", "theorems": ["Verif.Io.C49_file_write", "Verif.Io.C49_file_read_partial", "Verif.Io.C49_file_read_past_end_hangs"], "note": "Write exact for all short writes; Read exact on success. Missing and refuted: Read past the end of the file never returns."},
{"property": "C50", "status": "proved", "theorems": ["Verif.Text.C50_parse_query", "Verif.Text.C50_split_query"], "note": "Proved in full."},
{"property": "C51", "status": "partial", "theorems": ["Verif.Sync.C51_exclusion_partial", "Verif.Sync.C51_timed_wait_corrupts"], "note": "False: C51_timed_wait_corrupts. What holds is mutual exclusion."},
{"property": "C52", "status": "partial", "theorems": ["Verif.EpollSock.C52_stream", "Verif.EpollSock.C52_writes", "Verif.EpollSock.C52_reader_wakes", "Verif.EpollSock.C52_writer_wakes", "Verif.EpollSock.C52_shutdown_unblocks", "Verif.EpollSock.C52_close_hangs", "Verif.EpollSock.C52_eof_hides_data", "Verif.EpollSock.C52_eof_partial", "Verif.EpollSock.C52_no_crash"], "note": "Byte streams, write counts, wakeups, Shutdown and CHECK-freedom are proved. Close without Shutdown hangs a reader and unix sockets report an error before the last bytes (negations); the end-of-stream theorem is for TCP without local shutdown."},
{"property": "C53", "status": "proved", "theorems": ["Verif.EpollSock.C53_once", "Verif.EpollSock.C53_all_answered", "Verif.EpollSock.C53_progress"], "note": ""},
{"property": "C54", "status": "partial", "theorems": ["Verif.EpollSock.C54_hook_misses_leftover", "Verif.EpollSock.C54_hook_forgotten", "Verif.EpollSock.C54_arrival_announced_partial", "Verif.EpollSock.C54_remembered", "Verif.EpollSock.C54_hook_only_registered", "Verif.EpollSock.C54_hook_removed", "Verif.EpollSock.C54_error_once", "Verif.EpollSock.C54_error_cancelled", "Verif.EpollSock.C54_error_heard"], "note": "Two histories where a hook is not called although bytes wait (negations); arrivals after the registration, removal and error callbacks are proved."},
{"property": "C55", "status": "partial", "theorems": ["Verif.EpollSock.C55_connect_lies", "Verif.EpollSock.C55_double_close", "Verif.EpollSock.C55_connected_partial", "Verif.EpollSock.C55_failed_closed"], "note": "False with a Shutdown during the attempt and with a Close before a timeout (negations); proved without Shutdown."},
{"property": "C56", "status": "proved", "theorems": ["Verif.Tls.C56_cipher_stream", "Verif.Tls.C56_one_writer", "Verif.Tls.C56_one_reader", "Verif.Tls.C56_plain_text", "Verif.Tls.C56_blocking_write", "Verif.Tls.C56_blocking_read", "Verif.Tls.C56_non_blocking"], "note": "all histories"},
{"property": "C57", "status": "partial", "theorems": ["Verif.Tls.C57_async_read", "Verif.Tls.C57_pending", "Verif.Tls.C57_no_crash_partial", "Verif.Tls.C57_async_write_partial", "Verif.Tls.C57_input_position_partial", "Verif.Tls.C57_deferred_write_sent_twice", "Verif.Tls.C57_deferred_read_overwrites", "Verif.Tls.C57_two_deferred_crash", "Verif.Tls.C57_write_after_try_send_crash", "Verif.Tls.C57_try_recv_during_write_crash", "Verif.Tls.C57_close_reports_zero"], "note": "Reads: all histories. Writes, absence of crashes and input position: histories in which no request is deferred. Deferral re-encrypts data, overwrites input or fails a CHECK; a close in mid-write reports 0."},
{"property": "C58", "status": "partial", "theorems": ["Verif.Tls.C58_no_self_deadlock", "Verif.Tls.C58_flags", "Verif.Tls.C58_resume_moves", "Verif.Tls.C58_write_flushed_partial", "Verif.Tls.C58_write_reports_lost_data", "Verif.Tls.C58_shutdown_waits", "Verif.Tls.C58_deferred_partial", "Verif.Tls.C58_deferred_behind_fiber_lost", "Verif.Tls.C58_shutdown_needs_peer"], "note": "No self-deadlock and Shutdown: all histories. Flushing: unless a write below failed (negation: a write that waits for another's flush ignores its failure). Deferred requests: without blocking fibers (negation: one deferred behind a fiber is never resumed)."},
{"property": "C59", "status": "proved", "theorems": ["Verif.Tls.C59_try_send", "Verif.Tls.C59_try_recv", "Verif.Tls.C59_wake", "Verif.Tls.C59_drain_kept"], "note": "all histories"},
{"property": "C60", "status": "proved", "theorems": ["Verif.Tls.C60_push", "Verif.Tls.C60_chunk", "Verif.Tls.C60_advance", "Verif.Tls.C60_empty_vector_crash", "Verif.Tls.C60_empty_buffer_crash"], "note": "non-empty vectors; empty ones fail a CHECK (shown)"},
{"property": "C61", "status": "proved", "theorems": ["Verif.RWSpin.C61_writer_excludes", "Verif.RWSpin.C61_one_upgrader", "Verif.RWSpin.C61_try_lock_shared", "Verif.RWSpin.C61_try_lock_upgrade", "Verif.RWSpin.C61_try_lock", "Verif.RWSpin.C61_promote", "Verif.RWSpin.C61_others_untouched", "Verif.RWSpin.C61_release", "Verif.RWSpin.C61_downgrade", "Verif.RWSpin.C61_no_new_readers", "Verif.RWSpin.C61_clean", "Verif.RWSpin.C61_spurious_fails", "Verif.RWSpin.C61_promotion_starves"], "note": "Exclusion, exactness of every try call, clean-up and downgrade for all interleavings of fewer than 2^29 threads; starvation of a promotion is shown possible."},
{"property": "C62", "status": "proved", "theorems": ["Verif.UPoll.C62_once", "Verif.UPoll.C62_not_after_cancel", "Verif.UPoll.C62_reported", "Verif.UPoll.C62_delivered", "Verif.UPoll.C62_memory_safe", "Verif.UPoll.C62_freed", "Verif.UPoll.C62_cancel_own", "Verif.UPoll.C62_stays_registered"], "note": "Every schedule of sockets, other requests and kernel; a callback that was called stays registered (C62_stays_registered)."},
{"property": "C63", "status": "partial", "theorems": ["Verif.UPoll.C63_no_event_after_del_partial", "Verif.UPoll.C63_reported", "Verif.UPoll.C63_delivered", "Verif.UPoll.C63_one_poll", "Verif.UPoll.C63_freed_once", "Verif.UPoll.C63_memory_safe_partial", "Verif.UPoll.C63_del_own", "Verif.UPoll.C63_late_event", "Verif.UPoll.C63_use_after_free"], "note": "Delivery, one poll, removal of the own poll and single free are proved. No call after EpollDel holds unless the poll was armed again or failed (C63_late_event refutes the rest); memory safety holds unless the kernel fails a poll (C63_use_after_free)."},
{"property": "C64", "status": "proved", "theorems": ["Verif.Listener.C64_counter", "Verif.Listener.C64_accepts", "Verif.Listener.C64_rejects", "Verif.Listener.C64_paused", "Verif.Listener.C64_limit_step", "Verif.Listener.C64_limit", "Verif.Listener.C64_start_once", "Verif.Listener.C64_close_once"], "note": "Sequentially consistent model of the accept loop and the connections of one listener."},
{"property": "C65", "status": "proved", "theorems": ["Verif.Listener.C65_no_move", "Verif.Listener.C65_gate_closed", "Verif.Listener.C65_gate_open", "Verif.Listener.C65_list_stable", "Verif.Listener.C65_page", "Verif.Listener.C65_lists", "Verif.Listener.C65_in_list", "Verif.Listener.C65_pages", "Verif.Listener.C65_visit_goes_on", "Verif.Listener.C65_enters", "Verif.Listener.C65_gate_goes_on", "Verif.Listener.C65_livelock"], "note": "Exclusion, pages, stability and the conditions under which each side goes on are proved for all runs; C65_livelock shows that no bound on the waiting can be given."},
{"property": "C66", "status": "partial", "theorems": ["Verif.Listener.C66_once_partial", "Verif.Listener.C66_all_threads", "Verif.Listener.C66_missed", "Verif.Listener.C66_twice"], "note": "Proved for connections that stay on their thread; false for connections that migrate during the call (C66_missed, C66_twice)."},
{"property": "C67", "status": "partial", "theorems": ["Verif.Listener.C67_safe_partial", "Verif.Listener.C67_told_partial", "Verif.Listener.C67_all_ended_partial", "Verif.Listener.C67_progress_partial", "Verif.Listener.C67_list_found", "Verif.Listener.C67_never_told", "Verif.Listener.C67_survives", "Verif.Listener.C67_use_after_free", "Verif.Listener.C67_unlinked_again", "Verif.Listener.C67_foreign_list", "Verif.Listener.C67_list_freed"], "note": "Proved for runs in which no migration is under way during the shutdown; with migrations the property is false (six concrete runs)."},
{"property": "C68", "status": "partial", "theorems": ["Verif.Periodic.C68_safe", "Verif.Periodic.C68_no_call_after_cancel", "Verif.Periodic.C68_no_expiry_after_cancel", "Verif.Periodic.C68_one_call_per_expiry", "Verif.Periodic.C68_calls_le_expiries", "Verif.Periodic.C68_one_timer", "Verif.Periodic.C68_removal_hits_own", "Verif.Periodic.C68_removal_effective", "Verif.Periodic.C68_record_freed", "Verif.Periodic.C68_record_lives", "Verif.Periodic.C68_round", "Verif.Periodic.Epoll.C68_epoll_safe", "Verif.Periodic.Epoll.C68_epoll_cancel", "Verif.Periodic.Epoll.C68_epoll_not_lost", "Verif.Periodic.Epoll.C68_epoll_calls_partial", "Verif.Periodic.Epoll.C68_epoll_spurious_call"], "note": "io_uring: proved. epoll: proved except that a task may be called without an expiry if callbacks disarm files during dispatch (C68_epoll_spurious_call), hence partial. Kernel model: submissions are taken in order, a removal finds its timer if it is armed. CancelPeriodic only outside the loop, as its comment requires. Fewer than 2^32 tasks."},
{"property": "C69", "status": "partial", "theorems": ["Verif.FQPool.C69_order", "Verif.FQPool.C69_once", "Verif.FQPool.C69_batch_in_bounds", "Verif.FQPool.C69_pinned", "Verif.FQPool.C69_rotation", "Verif.FQPool.C69_first_with_room", "Verif.FQPool.C69_sleep_reason", "Verif.FQPool.C69_no_lost_wakeup", "Verif.FQPool.C69_await", "Verif.FQPool.C69_waits_for_start", "Verif.FQPool.C69_idle_worker_not_used", "Verif.FQPool.C69_shutdown_returns", "Verif.FQPool.C69_drained_partial", "Verif.FQPool.C69_task_lost"], "note": "Everything but the last sentence is proved. A task added before Shutdown may be lost (C69_task_lost); C69_drained_partial excludes that race. An event count is an epoch and a queue operation is one step here; C18, C06 and C27 model them access by access."},
{"property": "C70", "status": "partial", "theorems": ["Verif.FiberFile.C70_read_partial", "Verif.FiberFile.C70_sequential", "Verif.FiberFile.C70_seek_hangs", "Verif.FiberFile.C70_hang_iff", "Verif.FiberFile.C70_hit", "Verif.FiberFile.C70_disjoint", "Verif.FiberFile.C70_close", "Verif.FiberFile.C70_prefetch_error", "Verif.FiberFile.C70_wrong_bytes"], "note": "Sequential reading is proved for all sizes and timings. False in general: seeking waits for ever (C70_seek_hangs, exact condition in C70_hang_iff) and a failed prefetch gives other bytes (C70_prefetch_error, C70_wrong_bytes)."},
{"property": "C71", "status": "partial", "theorems": ["Verif.Metrics.C71_value_partial", "Verif.Metrics.C71_exact_partial", "Verif.Metrics.C71_numbered", "Verif.Metrics.C71_iterate_partial", "Verif.Metrics.C71_one_thread", "Verif.Metrics.C71_lost", "Verif.Metrics.C71_out_of_bounds", "Verif.Metrics.C71_boundary", "Verif.Metrics.C71_gauge_sum"], "note": "Exact while no thread's table shrinks and keys do not clash; always so with one thread (C71_one_thread). False in general: C71_lost, C71_out_of_bounds, C71_boundary, C71_gauge_sum."},
{"property": "C72", "status": "partial", "theorems": ["Verif.Pool.C72_pinned", "Verif.Pool.C72_found_once", "Verif.Pool.C72_balanced", "Verif.Pool.C72_second_run_leaks", "Verif.Pool.C72_second_run_doubles", "Verif.Pool.C72_next_in_pool", "Verif.Pool.C72_round_robin", "Verif.Pool.C72_race_repeats", "Verif.Pool.C72_await_all", "Verif.Pool.C72_await_progress"], "note": "Running a pool again is refuted. How a function gets to each thread is taken from C27 and C29."},
{"property": "C73", "status": "proved", "theorems": ["Verif.Pool.C73_same_bytes", "Verif.Pool.C73_interned", "Verif.Pool.C73_copied_once", "Verif.Pool.C73_stable"], "note": "The lock is one step (C61)."},
{"property": "C74", "status": "partial", "theorems": ["Verif.Http.C74_own_response_partial", "Verif.Http.C74_once_partial", "Verif.Http.C74_copies", "Verif.Http.C74_stale", "Verif.Http.C74_no_retry", "Verif.Http.C74_zero", "Verif.Http.C74_rest_taken", "Verif.Http.C74_reconnect_plain"], "note": "Proved for one try and responses below the limit; refuted for more tries."},
{"property": "C75", "status": "partial", "theorems": ["Verif.Http.C75_exclusive", "Verif.Http.C75_count_partial", "Verif.Http.C75_oldest", "Verif.Http.C75_connected", "Verif.Http.C75_destroy_partial", "Verif.Http.C75_idle_loss", "Verif.Http.C75_domain_partial", "Verif.Http.C75_domain_default", "Verif.Http.C75_ipv6"], "note": "Counting needs that idle clients are not closed; IPv6 domains are refuted."},
{"property": "C76", "status": "partial", "theorems": ["Verif.Http.C76_result", "Verif.Http.C76_success", "Verif.Http.C76_zero", "Verif.Http.C76_refresh_iff", "Verif.Http.C76_signed", "Verif.Http.C76_back_clean", "Verif.Http.C76_rest_left", "Verif.Http.C76_wrong_connection"], "note": "Rounds, result and signatures are proved; the state of returned connections is refuted in two cases."},
{"property": "C77", "status": "partial", "theorems": ["Verif.Dns.C77_found", "Verif.Dns.C77_failure", "Verif.Dns.C77_prefers_v4_partial", "Verif.Dns.C77_v4_missed", "Verif.Dns.C77_own_channel", "Verif.Dns.C77_shared_channel_partial", "Verif.Dns.C77_shared_race", "Verif.Dns.C77_polled_partial", "Verif.Dns.C77_change_ignored", "Verif.Dns.C77_table_moves", "Verif.Dns.C77_loop_partial"], "note": "Resolving with an own channel is proved; the shared channel, changing masks, sockets opened in the loop and the preference of IPv4 are refuted in general."},
{"property": "C78", "status": "partial", "theorems": ["Verif.Accept.C78_listens", "Verif.Accept.C78_no_error_partial", "Verif.Accept.C78_error", "Verif.Accept.C78_v6_next", "Verif.Accept.C78_silent_failure", "Verif.Accept.C78_v4_first", "Verif.Accept.C78_second_not_tried", "Verif.Accept.C78_uds", "Verif.Accept.C78_uds_path", "Verif.Accept.C78_wait", "Verif.Accept.C78_wait_returns", "Verif.Accept.C78_wait_blocks"], "note": "No error means listening only if a socket can be created for some address; refuted otherwise (C78_silent_failure)."},
{"property": "C79", "status": "partial", "theorems": ["Verif.USock.C79_handle", "Verif.USock.C79_closed", "Verif.USock.C79_distinct", "Verif.USock.C79_no_leak", "Verif.USock.C79_close", "Verif.USock.C79_shutdown", "Verif.USock.C79_create", "Verif.USock.C79_accept", "Verif.USock.C79_connect_again"], "note": "All but repeating a failed Connect, which is refuted (C79_connect_again)."},
{"property": "C80", "status": "partial", "theorems": ["Verif.USock.C80_once", "Verif.USock.C80_no_eagain", "Verif.USock.C80_async_eagain", "Verif.USock.C80_fits", "Verif.USock.C80_sent_partial", "Verif.USock.C80_received_partial", "Verif.USock.C80_cross_talk", "Verif.USock.C80_cross_talk_retry", "Verif.USock.C80_shutdown_partial", "Verif.USock.C80_shutdown_stays", "Verif.USock.C80_recv_ignores_shutdown"], "note": "Streams for programs that close a socket only when no call on it is in progress; refuted otherwise (C80_cross_talk). Recv after Shutdown refuted."},
{"property": "C81", "status": "partial", "theorems": ["Verif.HttpSrv.C81_denied", "Verif.HttpSrv.C81_allowed", "Verif.HttpSrv.C81_credentials", "Verif.HttpSrv.C81_callback_partial", "Verif.HttpSrv.C81_arguments", "Verif.HttpSrv.C81_unknown", "Verif.HttpSrv.C81_register", "Verif.HttpSrv.C81_shadowed"], "note": "Callbacks registered on built in paths are shadowed (C81_shadowed); the rest is proved for all servers and requests."},
{"property": "C82", "status": "partial", "theorems": ["Verif.HttpSrv.C82_unique", "Verif.HttpSrv.C82_pieces", "Verif.HttpSrv.C82_from_buffer_partial", "Verif.HttpSrv.C82_buffer_error", "Verif.HttpSrv.C82_twice"], "note": "Proved for the socket loop and for one buffer call followed by the loop; false for two buffer calls (C82_twice)."},
{"property": "C83", "status": "partial", "theorems": ["Verif.HttpSrv.C83_inside", "Verif.HttpSrv.C83_sent_partial", "Verif.HttpSrv.C83_served", "Verif.HttpSrv.C83_race", "Verif.HttpSrv.C83_crash"], "note": "Proved for what the name leads to when it is checked; the file sent is the checked one only if the file system does not change in between (C83_race)."},
{"property": "C84", "status": "proved", "theorems": ["Verif.Sso.C84_shows", "Verif.Sso.C84_take", "Verif.Sso.C84_substr", "Verif.Sso.C84_moved", "Verif.Sso.C84_one_value", "Verif.Sso.C84_same", "Verif.Sso.C84_plain_fails", "Verif.Sso.C84_changed"], "note": "Strings that are changed in place count as new ones; what views do then is shown in C84_changed."},
{"property": "C85", "status": "proved", "theorems": ["Verif.Divide.C85_instr_divides", "Verif.Divide.C85_portable_divides", "Verif.Divide.C85_mulhi", "Verif.Divide.C85_divide", "Verif.Divide.C85_algorithms", "Verif.Divide.C85_bucket", "Verif.Divide.C85_bucket_prime", "Verif.Divide.C85_bucket_power_of_two_fails", "Verif.Divide.C85_zero_is_undefined"], "note": "For bucket counts that are powers of two FromHash is wrong (witness), tables use odd primes of at least 17. Signed and vector variants are not modelled."},
{"property": "C86", "status": "partial", "theorems": ["Verif.WakeRA.C86_asleep_partial", "Verif.WakeRA.C86_lost_wakeup", "Verif.WakeRA.C86_with_exchange", "Verif.WakeRA.C86_relaxed_lost"], "note": "The code can lose a wake-up under the C++ memory model (witness). Proved: only if the announcement was overwritten by the reset; never if the reset is an exchange."},
{"property": "C87", "status": "proved", "theorems": ["Verif.SpscRA.C87_fifo", "Verif.SpscRA.C87_values", "Verif.SpscRA.C87_not_empty", "Verif.SpscRA.C87_not_full", "Verif.SpscRA.C87_orders_needed"], "note": "All executions of the release/acquire memory; fifo, values, failure reports, and the orders are necessary."},
{"property": "C88", "status": "proved", "theorems": ["Verif.MpmcRA.C88_fifo", "Verif.MpmcRA.C88_single_consumer", "Verif.MpmcRA.C88_value", "Verif.MpmcRA.C88_not_empty", "Verif.MpmcRA.C88_not_full", "Verif.MpmcRA.C88_empty", "Verif.MpmcRA.C88_full", "Verif.MpmcRA.C88_orders_needed"], "note": "All orders as in the source; numbers do not wrap (as in C08)."},
{"property": "C89", "status": "partial", "theorems": ["Verif.MpscRA.C89_fifo_partial", "Verif.MpscRA.C89_value_partial", "Verif.MpscRA.C89_empty_partial", "Verif.MpscRA.C89_not_empty_partial", "Verif.MpscRA.C89_code_fails", "Verif.MpscRA.C89_acquire_needed", "Verif.MpscRA.C89_exchange_needed"], "note": "Proved with a release store in MPSC_intrusive_store_next. The code's relaxed store (fiber_interface.h 214) is refuted by C89_code_fails: the C++ model lets the consumer read an old link of the node it was led to. On x86 the exchange before it is a full barrier, so the run of C89_code_fails cannot happen there unless the compiler reorders the accesses; other hardware was not examined. Hand-over of nodes between threads outside the queue is assumed to synchronise."},
{"property": "C90", "status": "proved", "theorems": ["Verif.RWSpinRA.C90_no_race", "Verif.RWSpinRA.C90_exclusion", "Verif.RWSpinRA.C90_refines", "Verif.RWSpinRA.C90_fail_only_stale", "Verif.RWSpinRA.C90_orders_needed"], "note": "Orders as in the source. A compare_exchange_strong may fail on an old value, as the C++ standard allows."},
{"property": "C91", "status": "partial", "theorems": ["Verif.SharedRA.C91_exclusion", "Verif.SharedRA.C91_no_race_partial", "Verif.SharedRA.C91_code_races", "Verif.SharedRA.C91_release_needed"], "note": "Exclusion holds. Freedom from races is false of the code, whose unlocks are relaxed (C91_code_races); proved with release in both unlocks, and release in only one is shown not to be enough."},
{"property": "C92", "status": "proved", "theorems": ["Verif.BlockRA.C92_no_race", "Verif.BlockRA.C92_wait_done", "Verif.BlockRA.C92_no_lost_wakeup", "Verif.BlockRA.C92_next_round", "Verif.BlockRA.C92_orders_needed"], "note": "For the orders of the code and all that are as strong in four places; each of the four is shown to be needed (C92_orders_needed). Start, Cancel and time limits are not part of this model; C19 and C22 have the event count and the counter over sequentially consistent memory."},
{"property": "C93", "status": "partial", "theorems": ["Verif.JoinRA.C93_no_race_partial", "Verif.JoinRA.C93_woken_partial", "Verif.JoinRA.C93_late_partial", "Verif.JoinRA.C93_queue_no_race", "Verif.JoinRA.C93_ended", "Verif.JoinRA.C93_no_lost_wakeup", "Verif.JoinRA.C93_all_woken", "Verif.JoinRA.C93_code_races", "Verif.JoinRA.C93_code_races_free", "Verif.JoinRA.C93_release_needed"], "note": "False for the code: Terminate's fetch_or is acquire only, Join may return before its release. Proved with release there; for the code as it is for joiners that were suspended or come after Terminate. No lost wake-up, exclusive list and no early return are proved for the code."},
{"property": "C94", "status": "proved", "theorems": ["Verif.RefRA.C94_no_race", "Verif.RefRA.C94_no_use_after_free", "Verif.RefRA.C94_alive", "Verif.RefRA.C94_once", "Verif.RefRA.C94_no_leak", "Verif.RefRA.C94_orders_needed", "Verif.RefRA.C94_bound_needed"], "note": "For fewer than 2^32 handles; C94_bound_needed shows that the bound is needed. C94_orders_needed: the release and the fence are both necessary."},
{"property": "C95", "status": "partial", "theorems": ["Verif.FutRA.C95_no_race_partial", "Verif.FutRA.C95_repaired", "Verif.FutRA.C95_once", "Verif.FutRA.C95_not_before", "Verif.FutRA.C95_getfor_races", "Verif.FutRA.C95_getfor_races_in_loop", "Verif.FutRA.C95_fence_needed"], "note": "False for GetFor: await_until has no acquire fence (C95_getfor_races, C95_getfor_races_in_loop). Proved without calls of GetFor, and for all calls with the fence (C95_repaired); C95_fence_needed says exactly when there is no race."},
{"property": "C96", "status": "partial", "theorems": ["Verif.BlockRA.C96_waitfor_races", "Verif.BlockRA.C96_with_fence_partial"], "note": "False for the code (C96_waitfor_races): await_until has no acquire fence. Proved with the fence; the time limit itself is not part of this model."},
{"property": "C97", "status": "proved", "theorems": ["Verif.ECRA.C97_no_lost_wakeup", "Verif.ECRA.C97_notify_all", "Verif.ECRA.C97_notify_none", "Verif.ECRA.C97_queue", "Verif.ECRA.C97_all_woken", "Verif.ECRA.C97_one_woken", "Verif.ECRA.C97_no_waiters", "Verif.ECRA.C97_code", "Verif.ECRA.C97_orders_needed"], "note": "For the orders of the code and all that are as strong in two places, both shown to be needed. One key per thread; no persistent subscriptions (C19 has them over sequentially consistent memory)."},
{"property": "C98", "status": "proved", "theorems": ["Verif.S3File.C98_object", "Verif.S3File.C98_all_written", "Verif.S3File.C98_write_returns", "Verif.S3File.C98_part_sizes", "Verif.S3File.C98_retried", "Verif.S3File.C98_repeated_write_doubles", "Verif.S3File.C98_zero_part_size", "Verif.S3File.C98_nothing_written"], "note": "For a part size above 0."},
{"property": "C99", "status": "partial", "theorems": ["Verif.S3File.C99_in_order_partial", "Verif.S3File.C99_read", "Verif.S3File.C99_returns", "Verif.S3File.C99_error_loses_bytes", "Verif.S3File.C99_offset_ignored", "Verif.S3File.C99_empty_object_error", "Verif.S3File.C99_empty_object_endless", "Verif.S3File.C99_overflow", "Verif.S3File.C99_mixture", "Verif.S3File.C99_size_unknown"], "note": "Proved for sequential reads as long as none fails; offsets, errors, and empty objects are refuted by witnesses."}
]}
