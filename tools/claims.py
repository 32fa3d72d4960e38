c("C17","partial","Calls","tuple_none tuple_one tuple_prefix_partial tuple_order_refuted tuple_future_refuted tuple_not_silently_wrong tuple_cancelled",
  "In full false of the code (order/future refutations); proved for tuples whose awaitables form the prefix.")
c("C18","proved","Calls","batch_single_impl batch_single_impl_fail batch_single_impl_fail_async batch_batch_impl batch_whole_list batch_empty single_via_batch_none single_via_batch single_direct")
c("C19","partial","Calls","batch_accepts_iff batch_message Xoscar.Local.batch_mixed_refuted",
  "Proved for references to actors of other processes; a reference held in the pool's own process accepts any mixture and runs one method on all of it (refuted).")
c("C32","partial","Ports","processIndices_nodup_partial processIndex_shared_refuted processIndex_collision_iff",
  "Unique within one pool; across processes refuted.")
c("C33","proved","Addr","ext_with_port ext_bare_host ext_wrong_ports ext_schemes")
c("C34","partial","Ports","getNextPort_free getNextPort_complete getNextPort_exhausted getNextPort_never_systemError getNextPort_state calls_distinct getNextPort_any",
  "Free and distinct are proved; the documented SystemError is never raised (refuted).")
c("C35","partial","Addr","fix_replaces fix_keeps_concrete fix_keeps_local fix_idempotent isZero_v4 isZero_plain_host isZero_v6 isZero_v6_other isZero_scheme fix_v4 fix_scheme_refuted fix_brackets_refuted",
  "The scheme prefix is lost (refuted).")
c("C36","proved","Calls","refEq_iff refEq_refl refEq_symm refEq_trans refEq_hash refEq_str refEq_str_bytes unpickle_equal toStr_toBinary toBinary_toStr unpickle_local made_remote toStr_total toBinary_total")
c("C37","partial","Dispatch","dispatch_most_specific_partial dispatch_exact dispatch_stale_refuted dispatch_lazy dispatch_lazy_once registerLazy_used dispatch_wrong_only_partial dispatch_plain_named_partial",
  "A stale inherit cache entry defeats it (refuted).")
c("C38","partial","Dispatch","register_decodable unregister_keeps_others_partial unregister_shared_refuted roundtrip_iff roundtrip_distinct register_ok_iff failed_register_refuted",
  "False for a class registered for two types and after a registration that raised (refuted); for every history, exactly when a type with a serializer of its own still makes the round trip: roundtrip_iff.")
c("C41","partial","Calls","error_identity cancel_identity cancel_text_refuted error_at_home",
  "Proved for every class and number of hops, except that the text of a CancelledError is lost (refuted).")
c("C42","proved","Stats","window_callback stream_callbacks new_accepts new_callbacks")
c("C43","partial","Stats","slow_report_sound slow_report_top9_partial slow_report_top10_refuted counter_exact most_calls_report slow_calls_report slow_calls_slowest_refuted",
  "Keeps the slowest 9, not 10 (refuted).")
c("C44","proved","Stats","chain_warnings chain_off")
c("C50","partial","Retry","call_exact endless_iff limited plain_exhausted coroutine_exhausted_refuted last_sleep_refuted",
  "Exact characterization of what a call does and how it ends, for both wrappers. Refuted: the coroutine wrapper returns None when its attempts are used up (the exceptions are lost); both also sleep after the last attempt; with no attempt allowed the plain wrapper raises AssertionError.")
c("C07","proved","Wire","send_recv_stream frame_isSome_iff truncated_frame foreign_version_refused size_of_frame reader_prefix reader_complete cancelled_recv_desync",
  "cloudpickle of headers is a parameter with the round-trip law. cancelled_recv_desync documents that a recv cancelled half-way loses framing.")
c("C08","proved","Wire","concurrent_senders_whole_frames concurrent_senders_received cancelled_senders_whole_frames cancel_touches_one")
c("C09","proved","Shm","handshake_not_torn handshake_complete handshake_too_long handshake_two_phases",
  "Stores reach memory in program order of the three slice assignments (any byte order inside one).")
c("C10","proved","CopyTo","copy_delivers copy_equal copy_check")
c("C11","partial","CopyTo","blocks_bounded_partial block_size_used blocks_bounded_single blocks_unbounded_refuted file_blocks_bounded",
  "False of the code (exact fit forgets the current size); holds when no proper prefix of sizes is a multiple of block_size.")
c("C12","partial","CopyTo","copy_error_ignored_refuted copy_files_error_ignored_refuted copy_connection_failure_partial copy_files_connection_failure_partial",
  "False of the code: error replies are ignored; connection failures are reported.")
c("C13","proved","CopyTo","copy_files_delivers")
c("C14","proved","ActorLock","mutual_exclusion")
c("C15","proved","ActorLock","grants_in_order grants_then_waiting_in_order lock_held_iff free_actor_starts_at_once waiting_is_queued waiter_gets_lock",
  "asyncio.Lock is transcribed from CPython.")
c("C16","proved","ActorLock","generator_protocol yielded_does_not_hold free_actor_starts_at_once mutual_exclusion")
c("C20","proved","Caller","reply_matches reply_delivered answered_once stray_reply_fails_all_calls",
  "stray_reply_fails_all_calls records a deviation: a reply with an unknown id fails every pending call with KeyError.")
c("C21","partial","Caller","no_hang_partial cancelled_call_hangs_others_refuted bad_reply_to_cancelled_hangs_others_refuted bad_reply_delivered stopped_caller_hangs_refuted stopped_after_listener_partial death_exact before_order",
  "The full claim is false of the code: a cancelled pending call crashes the listener and the others hang, and calls pending when the caller is stopped hang if the listener is cancelled before it notices. Proved for all histories without cancellation/undecodable replies, and for stopping when the listener gets to run first.")
c("C01","proved","Serial","roundtrip_acyclic bytes_subclass_fails header_short alone_is_buffer","finite acyclic graphs; str/bytes subclasses excluded (their class is lost: bytes_subclass_fails)")
c("C02","proved","Serial","sharing_kept_acyclic shared_empty_dict_splits","empty plain dicts are not kept shared, shown by shared_empty_dict_splits")
c("C03","proved","Serial","spawn_equivalent","for every set of serializers")
c("C04","partial","Serial","roundtrip_cyclic_partial sharing_kept_cyclic_partial cyclic_with_shared_empty_dict_fails cycle_through_tuple_fails","false in full: shown wrong for cycles next to an empty dict occurring twice and for cycles through a tuple; proved for all other cyclic graphs")
c("C05","proved","Serial","message_roundtrip message_fields_kept","all 13 classes, forward messages nested to any depth, any supported payload graph")
c("C06","partial","Serial","undecodable_reported_against_own_id unloadable_payload_reported raised_is_own_id unsupported_protocol_rejected nested_unknown_serializer_escapes unknown_serializer_reported",
  "proved for every payload made by the core serializers and every receiver-side unpickler; false in full: a failing component below an object whose serializer is unknown to the receiver makes a raw KeyError escape (nested_unknown_serializer_escapes); the protocol is checked by the sender only")
c("C22","proved","Pool","history_ok one_live_actor while_live while_dead refused_changes_nothing reply_means destroy_succeeds",
  "One pool, any interleaving of tasks; main/sub pool overrides are C25.")
c("C23","partial","Pool","failed_constructor_leaves_nothing_partial failed_post_create_leaves_actor_refuted failed_post_create_blocks_uid_refuted",
  "False of the code when __post_create__ fails (refuted); holds when the constructor fails.")
c("C24","partial","Pool","removed_once destroy_exclusive_partial concurrent_destroy_hook_twice_refuted stale_destroy_removes_new_actor_refuted",
  "At most one success holds always; the rest is false for overlapping destroys (refuted) and proved for non-overlapping ones.")
c("C46","proved","Pool","running_iff cancel_running_call cancel_not_running only_cancel_touches_others cancelled_tell Xoscar.Wait.not_cancelled Xoscar.Wait.cancelled_wait Xoscar.Wait.cancelled_remote Xoscar.Wait.cancelled_after_end Xoscar.Wait.cancelled_reply Xoscar.Wait.cancel_request_failed Xoscar.Wait.cancelled_twice",
  "Caller side in Xoscar.Wait.")
c("C48","proved","Pool","every_request_one_reply at_most_one_reply request_progresses reply_means reply_is_outcome self_cancel_reply reply_message_unanswered any_outcome",
  "Handlers of ActorPoolBase; what user code does while awaited is arbitrary.")
c("C49","partial","Life","never_restarted start_after_stop start_before_stop join_after_stop join_returns_iff stop_stops stop_any_time sub_join_after_stop_ended main_join_before_stop_ended_refuted main_failed_stop_leaves_servers_refuted sub_start_during_stop_refuted start_outcome stop_outcome stop_goes_on",
  "join of a main pool returns before stop ends, a failing stop leaves servers up, start during a sub pool's stop is accepted (refuted); the rest proved.")
c("C27","proved","Config","alloc_address alloc_main alloc_random alloc_random_sub alloc_process_index alloc_label alloc_idle",
  "Over every configuration reachable by the configuration API (Hist) and every random choice.")
c("C28","partial","Config","mapping_exact processIndex_exact externalAddresses_all externalAddresses_label processIndexes_nodup sample_hist remove_leaves_addresses_refuted reset_internal_stale_refuted readd_index_stale_refuted",
  "Proved for histories of the shapes the pools produce; three call shapes leave stale entries (refuted).")
c("C29","proved","Router","internal_spec add_remove_restores add_resolves given_open client_one_key cached_client_current_partial shared_key_lost_refuted removed_proxy_stays_refuted stale_client_cached_refuted add_remove_live lock_per_thread lock_taken lock_fresh dest_exact uncached_connects uncached_private",
  "Everything in the statement is proved; the implicit claim that cached clients and proxy entries follow router changes is refuted in two situations.")
c("C30","partial","Router","removed_not_routable_partial removed_not_routable_sub removed_still_routable_main_refuted",
  "Holds for the pool's own router everywhere and for the process-wide router of sub pools; refuted for the process-wide router of the main process.")
c("C31","partial","Router","host_of getProxy_spec getProxy_ne getProxies_chain chain_unique getProxies_terminates_partial chain_no_repeat getProxies_diverges_refuted wildcard_diverges_refuted",
  "Choice and chain proved; termination holds iff the chain ends, refuted for cyclic configurations.")
c("C25","partial","Directory","directory_exact_partial actor_ref_exact_partial never_forgotten_partial sample_seq ghost_of_failed_create_refuted ghost_of_failed_hook_refuted half_made_actor_refuted wrong_actor_destroyed_refuted ghost_of_race_refuted recreated_actor_destroyed_refuted forgotten_by_failed_destroy_refuted forgotten_by_lost_destroy_refuted destroy_ok callFailed_remote",
  "Exact for histories with one request at a time, ids not shared between pools, creations sent to sub pools and destructions passed on to them not failing; under any interleaving nothing created is forgotten. Each restriction is shown necessary by a refutation.")
c("C26","partial","Directory","idle_exclusive_seq_partial idle_found_seq_partial idle_exclusive_partial placeholder_lost_refuted placeholder_leaked_refuted strategy_overwritten_refuted double_after_failed_destroy_refuted",
  "Exclusivity and completeness with one request at a time; exclusivity under any interleaving when only this strategy is used; four ways to break it (refuted).")
c("C39","partial","Lru","after_invalidate after_clear close_waits answer_own_key size_le evicts_lru called_cached shares failure_not_served counts closed_refuses cancelled_served_refuted close_ends closed_iff open_close close_after_clear_refuted",
  "False only for cancelled evaluations, which are served again with cache_exceptions off (refuted); everything else proved for every sequence of calls, completions, invalidations, clears, closes and opens.")
c("C40","partial","Gen","destroyed_refused iterate_partial released_partial iterate_stateless_partial answered owner error_swallowed error_swallowed_refuted concurrent_next_destroys_refuted cancelled_next_loses_item_refuted cancelled_next_destroys_refuted cancelled_next_ends_refuted two_owners_refuted can_destroy one_answer one_at_a_time concurrent_next",
  "Proved for every producer whose error text does not contain 'StopIteration' and every interleaving without cancelled requests; error texts with 'StopIteration' are swallowed, cancelled requests lose items (refuted).")
c("C51","partial","Dummy","wake_once running_registered close_ends delivered received_prefix recv_oldest waiting_gets after_close send_accepted one_server connect_spec create_running stop_closes_partial pending_recv_hangs_refuted accepted_lost_refuted stop_leaves_open_refuted handler_ignored_refuted waiting_iff recv_waits links_distinct begins finishes collected_stays_open_refuted cancel_frees",
  "Order, exactly once, and failure after close proved for every interleaving; a pending recv is never woken by close, accepted but unread messages are lost on close, and a connection whose handler has not started survives its server's stop (refuted).")
c("C52","partial","Store","atomic_map add_running_sum responses_own answered_last once asked real_time wait_after_keys waits_atomic_partial wait_answered_partial set_not_visible badLin_not_atomic wait_after_delete wait_hangs stale_answer second_wait_early dead_watcher reused_watcher get_lost add_lost stoll_exact wrap_exact stored_number closes_exact",
  "The server is an atomic map for every interleaving of any number of clients (waits apart: unconditional; with waits: without deletions). A client sees its own answer, each request takes effect at most once and in real-time order, as long as no client read times out and watchers stay. Refuted: set returns before it takes effect, waits with deleted keys, waits hanging on a key created by compare-set, stale answers after a timeout, dead watchers.")
c("C47","proved","Collective","accepted_iff rejected_alike positions same_name non_member group_of_ranks different_names nccl_exchange_iff nccl_exchange_refuted demoHash_ok group_made_iff",
  "For every world size, rank list in any order and history of earlier calls; sha1 enters as an arbitrary function (no-collision assumed only where a name is looked up). Also found: an nccl group exchanges its communicator id by group ranks taken as global ranks, which works only for the first ranks of the job (nccl_exchange_iff).")
c("C45","partial","Recovery","records_kept restarted_up recovery_complete_partial recovery_ends_partial restart_retried no_wake_while_recovering woken_after_recovery_partial check_wakes record_aborts pending_create_aborts woken_before_notice woken_after_abort wait_without_recovery appended_not_recovered down_again_and_again records_exact recovery_history_partial monitor_goes_on loss_forgets answered_records forget_aborts lost_is_lost wait_waits aborts_why","Proved: on a run in which nothing is recorded in the pool while it is being recovered, a recovery that finishes has re-sent every recorded creation and each actor exists or its failure was recorded; it does finish; a failed restart is retried; nobody is woken while recovering; waiters are woken only after a completed recovery, an aborted one, or a look before the death was noticed. The unconditional statement is false of the code: refuted by the concrete runs record_aborts, pending_create_aborts, woken_before_notice, woken_after_abort, wait_without_recovery, appended_not_recovered, down_again_and_again.")
c("C53","proved","Nd","array_roundtrip array_refused array_bytes_sent array_layout_kept object_pickled",
  "NumPy's flags, ravel, ascontiguousarray, constructor and dtype.descr are transcribed; titles, metadata, sub-array dtypes left out; arrays of objects are pickled; instances of ndarray subclasses arrive as plain arrays (as in C01).")
c("C54","proved","Nd","csr_roundtrip csr_arrays",
  "")
c("C55","partial","Tensor","cpu_roundtrip cpu_sent_iff scalar_grad_refuted cuda_receives cuda_roundtrip_partial cuda_slice_refuted cupy_roundtrip",
  "CPU tensors that are sent arrive unchanged, but a scalar tensor that requires a gradient cannot be sent (refuted); a GPU tensor that starts inside its storage silently arrives as other elements (refuted); everything else proved.")
c("C56","partial","Transport","bytes_intact bytes_delivered flush_progress split_write_iff typed_view_refuted ofBytes_isBytes all_can_be_sent",
  "Proved for all buffers of bytes (everything but typed views); a PyTorch tensor in main memory is sent as a typed view and loses bytes when the socket takes part of it (refuted). asyncio's selector transport; uvloop not modelled.")
c("C57","partial","ErrSer","picklable_arrives unpicklable_arrives unloadable_reported send_failure_reported bad_result_reported result_arrives no_reply_iff always_reply_partial no_reply_refuted unsendable_iff unprintable_iff unprintable_reported",
  "Exact characterisation of the calls that get no reply: printing the error must raise an error that cannot be sent (refuted by example).")
c("C58","partial","Forward","send_iff delivered wire_id cancel_delivered_partial ends_partial first_hop direct kill_direct kill_main kill_at_gateway kill_through_gateway_refuted kill_stops_gateway_refuted cancel_ignores_proxies_refuted wait_recovered_at_gateway_refuted gateways_loop_refuted wildcard_loop_refuted kill_wildcard_refuted remote_iff kill_unreachable wait_recovered_wrong_pool wait_recovered_main_pool wait_recovered_self",
  "Calls are delivered correctly through any proxies when the routes end; routes that do not end, and cancel, kill and recovery requests through proxies or to wildcard-bound main pools, are wrong (refuted).")
c("C59","proved","Create","check_iff check_error not_accepted created created_hist allocate_same",
  "")
c("C60","partial","Create","start_error_iff failed_start_leaves_processes failed_start_refuted started_ok listed_iff listed_running_partial remove_exact sampleRun_run failed_append_refuted starting_pool_offered_refuted removed_actor_exists_refuted append_taken_address_refuted",
  "Holds for histories without failed starts, when none is under way; failed starts leave processes or configuration entries behind, records of removed actors stay (refuted).")
c("C61","partial","WaitFor","result_of_call timer_always cancels_le arrives_partial caller_cancel_refuted falsy_exception_refuted zero_timeout_refuted",
  "Results and timeouts are right; but cancelling the waiting task does not cancel the call, an exception object that is false is never delivered, and with timeout 0 a finished call's result is not returned (refuted for every run).")
c("C62","partial","Gloo","allreduce_correct reduce_correct allgather_correct gather_correct alltoall_correct broadcast_correct reduce_scatter_correct scatter_value_partial scatter_safe_partial scatter_overflow bitwise_refused other_type_refused written_window scatter_needs_lists_everywhere short_recv_overwritten strided_wrong",
  "Seven of the eight operations are right for contiguous arrays of the documented sizes. scatter passes the sum of the sizes as the size of each part and writes past the end of recv_data in every group of two or more (refuted); arrays that are too small or not contiguous are not refused (refuted).")
c("C63","partial","Marker","marker_right marker_answers_iff_partial simple_marker guard_refuted or_guard_refuted major_only unknown_name in_refused",
  "Every answer is the right one; an answer is given exactly when all operands of all and/or have a meaning, also those that do not matter. The guard `has_cuda and cuda_version >= \"12.1\"` therefore raises TypeError on every machine without CUDA (refuted).")
c("C64","partial","Reqs","substitute_correct_partial substitute_twice_refuted filter_correct_partial extras_lost_refuted resolve_correct process_correct_partial system_marked_refuted",
  "Proved except for items with a standard marker that also have extras or a URL (these are lost, refuted for every such item), values that contain the placeholder of a later variable (substituted again, refuted), and system packages with a marker (never installed, refuted).")
c("C65","partial","Plan","install_holds_partial install_all extras_refuted url_refuted from_refuted two_requirements_refuted shadowed_refuted url_without_dependencies plan_ignores_options options_spec create_env_spec",
  "Names and versions: proved for index packages when no distribution is on the path twice. Refuted: extras and URLs of installed packages are ignored, packages that do not come from an index are dropped from the plan, two requirements for one package can contradict each other through the constraint, shadowed distributions, dependencies of URLs; the plan ignores the index options.")
c("C66","partial","Metric","counter_total gauge_last meter_conserves meter_time meter_due histogram_windows histogram_due counter_value_partial counter_value_direct_partial before_init_refuted reinit_refuted reinit_direct init_once prom_counter_partial tags_mixed_refuted same_name_refuted tags_changed_refuted counter_life_partial fresh_metric labels_spec prom_metric wrong_tags raises_exact exported_unique console_tags",
  "The arithmetic of all four kinds is right. Refuted: records before init_metrics are lost, a second initialisation resets counters, prometheus counters mix their tags, a second metric of the same prometheus name is never exported, the caller's dict is changed.")
c("C67","partial","Local","remote_denotes local_call_partial local_call_exact local_call_prompt local_ref_exists cycle_debug_no_local tell_partial remote_tell local_tell batch_partial stale_refuted stopped_refuted hidden_refuted hidden_iff tell_refuted batch_method_refuted batch_mixed_refuted pool_gone remote_tell_hidden",
  "Agreement holds exactly when a destroyed actor's object has been freed. Refuted: local references keep calling a destroyed actor that is still in memory, even when its uid has a new actor; actors of a stopped pool stay callable locally; underscore methods, tell to a missing actor and batches of other methods differ.")
c("C68","partial","Front","scheme_url scheme_default scheme_exact served_partial one_context contexts_differ unknown_scheme no_address reregister_refuted setup_cluster_partition setup_cluster_none setup_cluster_unknown setup_cluster_half_refuted",
  "Refuted: a backend registered again after first use of its scheme is ignored; setup_cluster with an unknown scheme has already set up the others.")
c("C69","partial","Front","actor_uid_partial actor_uid_default actor_uid_other empty_uid_refuted ref_positional ref_bytes_address ref_keywords ref_uid_only ref_of_ref ref_no_uid ref_other_keywords ref_two_addresses ref_has_uid uid_keyword_ignored_refuted proxy_keyword_ignored_refuted surplus_ignored_refuted ref_types",
  "Refuted: an empty uid is replaced by a random one; conflicting uid or proxy keywords and surplus positional arguments are silently ignored.")
c("C70","partial","Refs","leads_to_own leads_to_nothing_else create_answer copy_touches_only copy_reaches_buffers copy_reaches_files copy_returns copy_refusals reference_does_not_keep_refuted foreign_address_refuted mixed_kinds_refuted buffers_answer files_answer",
  "References always lead to their own object and nothing else is ever written. Refuted: copy_to returns although a buffer is gone (a reference does not keep it), the reference was made with another pool's address, or references of both kinds are listed (only the first one's kind is served).")
c("C71","partial","Procs","stop_ends stop_bounded graceful kill_own_only stop_all_ends stop_all_raises watch_exact second_watcher stop_request_failed_refuted descendants_left_refuted stranger_killed_refuted main_ended_unnoticed_refuted term_iff",
  "The process of a stopped sub pool has always ended (if SIGKILL works), in bounded time. Refuted: processes it started get no signal; whoever got its pid meanwhile is killed; a stop request failing in an unforeseen way leaves it; a main process that is a zombie or whose pid was reused is taken to be running.")
c("C72","partial","Impl","registration_in_force plain implemented_partial implemented_once failure_reported circle result_reachable subclass_initialised_twice_refuted key_error_swallowed_refuted chain_exact all_key_errors",
  "Class of the object: exact. Refuted: an implementation that subclasses the class it is registered for is initialised twice; a KeyError of its __init__ is swallowed and an object of the replaced class is made.")
c("C73","partial","Wrap","responsible gone_iff kept_partial released_partial exactly_in_use_partial collection_ends collection_free two_holders_refuted lost_message_leaks_refuted crash_leaks_refuted collection_hangs_refuted destroy_works arrives_once used_after_arrival",
  "Exact for iterators handed over at most once by each holder with nothing lost. Refuted: handed over twice it is destroyed under the second holder; a lost message or ended process leaks it; collecting it in a process that the method holding the actor's lock needs (always in the actor's own process) hangs both for ever.")
c("C74","partial","Ucx","delivers_partial senders_whole_partial concurrent_delivers_partial done_means_written size_mismatch_breaks foreign_data_closes empty_buffer_breaks_refuted empty_copy_hangs_refuted unknown_buffer_breaks_refuted cancelled_send_breaks_refuted format part_waits wrong_size_closes undecodable_closes unknown_buffer_answer",
  "Proved for jobs without empty buffers whose copies fit, and no cancelled send. Refuted: an empty buffer is sent but not received (or, if UCX drops it, copied buffers of size 0 are waited for for ever); a copy to an unknown buffer or of another size, and a cancelled send, break the connection of all callers, and copy_to reports success.")
c("C75","partial","Cycle","deadlock_warned warned_iff_partial deadlock_forever crosswise_deadlock_refuted stateless_warned_refuted background_warned_refuted exclusive acts_iff",
  "Proved: a call to an actor that waits for it is always warned about, never starts, and (without background tasks) nothing else is warned about. Refuted: two call chains that wait crosswise deadlock without a warning; calls back to a StatelessActor, and calls from background tasks started by a method that has ended, are warned about although they complete.")
c("C76","partial","Conns","given_open one_connection_partial reused_partial leads_right_partial once_right next_enters stale_route_refuted forgotten_open_refuted",
  "Connections given are always open, the thread's own and listened to. One per destination only while the router is not changed (each change forgets the open ones: refuted otherwise); they lead where the router says only if it was never changed while somebody asked for a connection: otherwise a connection to the old address gets into the new cache (refuted).")
c("C77","partial","Closer","closed_once finalizer_goes_on closed_partial no_failure_partial failed_never start_twice_refuted loop_stopped_refuted",
  "Closed at most once and never early in every run. Closed at all only if no thread ends while another sets up the close thread: otherwise a finalizer fails and its connections stay open, or the close loop is stopped and no connections of any thread are closed from then on (both refuted).")
c("C78","partial","AioFile","one_after_the_other alone_like_sync iteration iteration_alone lines_unique closed_stays closes written cancel_partial cancel_loses_refuted order_refuted after_exit_refuted file_ops",
  "Results and iteration are right for every interleaving. Refuted: a cancelled readline that a thread has taken loses the line; calls not awaited one by one may be done in another order; after `async with` every call raises AttributeError instead of the closed file's ValueError.")
c("C79","partial","Subproc","decode_text decode_scalars decode_by_lines clean_iff clean_plain clean_sublist clean_nested_refuted lines_unique delivered so_far sent_is_script all_delivered over_means_ended left_behind_refuted outcome_kept never_stuck_partial good_terminal runs_end dead_reader refused_line_hangs_refuted",
  "Delivery, order, waiting and termination hold for every schedule as long as the terminal takes every line. Refuted: log free of control sequences (nested ones survive); if the terminal refuses a line (encoding), the reader dies, the command blocks on the full pipe and the statement never ends; the statement also waits for processes the command left behind.")
c("C80","partial","Order","small_never_overtaken_partial awaited_in_order_partial started_once started_called made_issued issued_lane none_lost one_at_a_time proxy_reorders large_overtaken two_lanes_reorder local_call_overtakes_tell",
  "Order holds for messages below the threshold of serialize_with_spawn on one connection, through any number of proxies, awaited or not; and for awaited tells and calls of any size over a direct connection or a local reference. Refuted otherwise: a larger message is serialized in a thread pool and overtaken (in a proxy even if the tell was awaited); two connections (threads, reconnect) are not ordered; with a local reference an awaited call overtakes an earlier tell that was not awaited.")
c("C81","partial","Delay","not_early at_most_once tasks_requests without_delay_never outcome ended_final cancel_prevents cancel_possible can_be_made value_told silent_only_refused late_value_refuted local_differs default_delay_refuted",
  "Once, never early, cancellable, outcome and log: proved for every history. Refuted: the arguments are those at the time of the tell, not of the call; with the default delay=None no tell is ever made; local references raise ActorNotExist without a log entry where others end well.")
c("C82","proved","Link","arrives can_be_sent arrives_or_reported all_arrive",
  "Supported payloads (C01-C05's), messages without cycles or without shared empty dicts; buffers of the host (not CUDA); the frame format holds the header (2^64 bytes, 16-bit compression tag).")
c("C83","proved","Linear","linearizable order_stays can_complete started_once locked_waits unlocked_refuted failed_either",
  "Holds for methods that take the lock; unlocked_refuted: one call without it (no_lock, StatelessActor, __post_create__) suffices to lose an update; failed_either: an error at the caller does not tell whether the method ran. What a method returns as awaitables and is evaluated after the lock is released (C17) counts as not taking the lock.")
c("C84","partial","StoreWire","request_roundtrip request_waits response_roundtrip response_waits wire_injective handled_prefix handled_all dropped_done blocked_unfinished served stalled_client_refuted half_answer_refuted updates_handled reset_terminates_refuted server_gone_spins_refuted request_exact waits_iff refused_iff refused_dropped unknown_refused",
  "The transport part is proved. Refuted: the server's single thread blocks inside a half-received request, so a client that stalls there stops the service for everybody; a client whose recv times out within an answer reads the remainder as the next answer; a reset connection ends the client's process (exception leaves a thread); a closed one makes the thread spin.")
c("C85","partial","Nccl","gather_correct gather_flat_refuted gather_matrices_refuted gather_buffer_everywhere_refuted scatter_correct scatter_list_everywhere_refuted alltoall_correct alltoall_flat_refuted alltoall_checked reduce_correct allreduce_correct allgather_correct allgather_short_refuted broadcast_correct broadcast_none_refuted reduce_scatter_correct reduce_scatter_uneven_refuted bitwise_refused id_roundtrip id_refused request_served split_request_refuted",
  "Correct for receive buffers of the expected shape. Refuted: gather accepts only a (world, n) buffer (flat ones and matrices raise after the group was started), every rank needs buffers it does not use, uneven reduce_scatter, bitwise reductions; a store request cut by TCP is not served. That the communicator id of a group reaches only groups of the first ranks is C47 (nccl_exchange_iff). Not modelled: the default group's operations (cupyx).")
c("C86","partial","Watch","period_iff not_early warnings_bounded disabled_silent left_silent prompt_exact reload_json check_iff check_again unpatched_never settings_filters settings_times split_join split_pieces not_itself empty_filter_refuted trailing_semicolon_refuted reload_one",
  "Everything but one thing: an empty exclude filter, which an empty XOSCAR_DEBUG_ASYNCIO_TASK_EXCLUDE_FILTERS or one with a trailing semicolon yields, matches every task and silences the detector.")
c("C87","partial","Meet","connected_first timeout_means useless_means gives_up waits_for_server connect_ok short_timeout_refuted server_first server_waits_partial all_came_partial poll_decides looks_soon others_return not_a_barrier_refuted silent_timeout_refuted restart_counts_twice_refuted attempt_decides",
  "Connecting is right for timeouts of a second and more (Python always uses 300 s); a timeout of 0 ('no timeout') or below a second never connects (refuted). The server's process waits for as many counts as ranks, but returns without an error when its time is over, a restarted rank is counted again, and the other ranks do not wait at all (refuted). Not modelled: the end of the server's process, gloo's full mesh.")
c("C88","partial","Reach","class_exact unknown_scheme_refuted own_class endpoint_exact roundtrip socketAddress_inj ucx_roundtrip ucx_case_refuted reaches_own reaches_exact announces reached_is_live not_after_end create_exact start_exact overlap_exact create_reserves_refuted index_read index_roundtrip dials undisturbed restart own_address reached_means reached_or_refused never_again stop_removes takeover takeover_refuted stop_cuts_off_refuted bind_exact",
  "TCP: full. Unix sockets: a server reached at its address as long as no other server uses its index (or a file of another kind its name); two servers with one index take each other's name (refuted). Unknown schemes raise TypeError instead of ValueError, upper-case UCX addresses keep their prefix in the host (refuted). Hosts are canonical IP addresses of one machine; name lookup and timeouts are not modelled.")
c("C89","partial","Prof","content_expected kept_operators pop_returns sums reads popped_changes_refuted logs_profiled loop_ends one_logger_partial two_loggers_refuted through_number use_gives",
  "Data: full (for uses that go through ProfilingData[...]; kept operators act at their place or nowhere). That popped data stay as they are is refuted: kept operators change them. One logging loop is proved if a task is initialised again only when nothing of its earlier loops is left, and refuted in general: the late done-callback of an earlier loop removes the newer loop from the table, pop then does not cancel it and two loops log after the next init. Option parsing, dictionaries given to set and a missing event loop are left out.")
c("C90","partial","Ids","makes one_stream first_seed later_keeps sub_pool_seed places_apart unique_partial fork_refuted same_seed_refuted port_reseeds_refuted",
  "Uniqueness is proved under the hypotheses that no process is forked after it made ids and that the 64 bit seeds drawn differ; both are needed: after a fork parent and child make the same ids, and two processes whose users call random.seed alike before the first id make the same ids for ever. The generators themselves (Mersenne Twisters) are parameters; negative lengths are left out.")
c("C91","partial","InitPg","joined_iff joined other_process refused reasons stays own_data child_refuted device_refuted rank_refuted failed_refuted reasons_args",
  "Positive part full in the model. Refuted: a process started by one that has joined inherits the environment and silently acts as the parent's rank, with its own buffers never filled; a negative device_id passes if the environment names a device and is then used; ranks outside 0..world-1 are not refused; after an init that failed to connect calls report a missing actor. The connection of the group is an input; the data moved are C62/C85.")
c("C92","partial","Gpu","context_exact listing no_driver count_exact count_stays count_shown info_index info_stays index_uuid index_uuid_unknown info_uuid_refuted fork_refuted broken_refuted version_iff context_sound index_uuid_library info_library info_negative status_exact status_sound status_unknown status_wsl_partial status_wsl_refuted status_busy_refuted status_fork_refuted status_stale_refuted",
  "Refuted: in a child forked from a process that had the libraries the call raises TypeError if NVML is gone; a library that could not be initialised once is not tried again; uuid entries in CUDA_VISIBLE_DEVICES make get_device_info raise; entries after one that there is not are counted although CUDA hides them; the count and the information never change again; the CUDA version text is wrong for every minor version but 0. On the Windows subsystem the status is that of the card of CUDA's number, not of the device, and is missing whenever the card says how busy it is; a device NVML does not know by CUDA's uuid has none; a forked child gets the parent's devices, also after it chose others. Not modelled: the other WSL branches, CUDA_DEVICE_ORDER.")
c("C93","partial","Lazy","names_like_classes_partial broken_blocks broken_stays earlier_names_work registering_import later_registration_refuted unregister_name_refuted unregister_class_refuted pool_needs_all import_runs_once unregister_name_works unregister_class_works reload_all_keeps reload_all_settles",
  "Proved when all names can be imported and no class is registered both by name and otherwise. Refuted: one name that cannot be imported makes every lookup of a class not itself registered or cached raise, for ever (broken_blocks, broken_stays) and keeps pools from being created (pool_needs_all); an older registration by name overrides a newer one by class; unregistering a resolved name, or the class of an unresolved one, has no effect; a module registering a name while imported makes the lookup raise RuntimeError.")
c("C94","partial","LazyMod","hooks_once access_iff access_ends access_binds not_importable given placeholder_raises adding_hook late_hook_refuted raising_hook_refuted touching_hook_refuted touching_once_refuted refused_items",
  "Proved for hooks that just work. Refuted: a hook decorated after the name was bound to the module is never run; a raising hook makes every access through the lazy object raise, the hooks before it running again each time and those after it never; a hook that uses the lazy object recurses for ever, or makes the others run twice. Not modelled: what else a module's import does; the object's own attributes (__class__, __dict__).")
c("C95","partial","Raise","classes handlers text origin standard module_traceback attributes attributes_only passes_on answered cmember_refuted default_refuted address_refuted repr_refuted group_refuted blame_refuted cancelled_refuted",
  "Proved: classes, except clauses, arguments, causes, text, origin, instance attributes, slots, class attributes, properties of these. Refuted: members of the C struct (OSError.errno, SystemExit.code) read as never set; an instance attribute with a class default (a dataclass field) reads as the default; an attribute named address or pid is replaced; repr shows no arguments; for an ExceptionGroup, or any class whose __new__ wants arguments or that refuses subclasses, the caller gets a TypeError, later blamed on the wrong pool; a CancelledError loses subclass, arguments and attributes. Not modelled: classes with a __getattr__ or a __new__ that sets state; pickling of the error (C57).")
c("C96","partial","Netstat","cols_iff netstat_iff psutil_free psutil_any netstat_free netstat_found v6_refuted path_refuted type_refuted foreign_refuted",
  "Proved for psutil, and for netstat lines with a dot. Refuted: lines without a dot are skipped, so that on Windows IPv6 listeners are not seen; one line in which a name with a dot precedes the ports (Unix socket paths) makes get_next_port raise ValueError; with netstat the socket type is ignored; where the local endpoint has no port the foreign port is taken. Not modelled: decoding of the output, the endless repetition of a netstat that times out.")
c("C97","partial","Spawn","started parameters failed removed refused shares_fate orphan ends no_limit_refuted cancel_refuted thread_refuted late_refuted sigint_refuted runs_iff failed_nothing_left",
  "Proved but for: a cancelled start leaves the sub pool running (refuted); a child that neither ends nor reports makes the start wait for ever (refuted); on Linux the sub pool is killed as soon as the thread that started it ends, although the main process lives (refuted: PR_SET_PDEATHSIG is about threads); a main process that dies between fork and prctl leaves the child until its own check, and the segment for good (refuted); parameters that pickle to 10232 bytes or more are refused, which limits the number of sub pools; SIGINT is blocked in every sub pool whatever suspend_sigint says. The bytes of the segment are C09. Not modelled: Windows; pid reuse (C71).")
c("C98","partial","Uv","install_returns install_raises cancel_ends cancel_stops cancel_idle fails_only_in_a_race signals signals_running cancel_goes_on race_refuted concurrent_refuted early_refuted unrecorded_refuted late_refuted unsignalled_refuted",
  "Proved for installations that follow each other, but for: cancel_install raises AttributeError when the installation ends while it runs, and only then (refuted, characterized); a cancel during the dry run of skip_installed or between Popen and the record is lost (refuted); it may signal an installation that began after it was called, or wait for one it has not signalled (refuted); with concurrent installations on one manager one that ends hides the others from cancel_install (refuted). Not modelled: asynchronous exceptions.")
c("C99","partial","Venv","created refused refused_unchanged untouched removed last_decides available which_uv lib_path known available_refuted python_refuted lib_refuted python_path_refuted remove_refuted clear_refuted available_set",
  "Proved but for: is_available looks at PATH while the commands prefer the binary of the package uv, and trusts XOSCAR_UV_PATH blindly (refuted both ways); with an environment there python_path is ignored without a word (refuted); get_lib_path uses the version of the running interpreter, not of the environment's (refuted, characterized); get_python_path answers for any directory (refuted); remove_env ignores errors (refuted); exists='clear' with a failing uv leaves no environment (refuted). Not modelled: Windows (where bin/python is wrong too), links.")
c("C100","partial","Home","actorRef_leads actorRef_finds created_leads_partial created_then_asked iterator_leads_partial fix_text created_refuted iterator_refuted created_replaces_none",
  "actor_ref proved (with the repair linked to the text function of C35). create_actor and iterators: proved exactly when they lead back — pool bound to a particular host, or used on the actor's own machine; refuted for pools bound to a wildcard used from another machine: create_actor does not repair the address in its result and IteratorWrapper keeps the actor's own address, so calls go to the consumer's own machine, possibly to another actor of the same uid; asking actor_ref afterwards repairs the former. Not modelled: proxies (C58), which IteratorWrapper does not keep either.")
c("C101","partial","Sizes","parse_iff reads_once word_refuted exponent_refuted nvml_exact wsl_partial wsl_refuted",
  "Accepted texts characterised exactly. Part of the claim is refuted of the code: any word beginning with a unit's letter is that unit (5 gremlins = 5 GiB; anything before a final percent sign is ignored), numbers with an exponent are refused. Under the Windows subsystem a status is proved only where nvidia-smi writes N/A for utilizations: otherwise int() of an XML element raises TypeError. Not modelled: binary rounding and overflow of floats, digits and white space outside ASCII, the driver calls.")
c("C102","partial","Bind","call_iff decorated_exactly bind_iff_partial bind_refuses_partial either_way replay slash_refuted underscore_refuted",
  "Proved for all signatures and calls, but for: a keyword argument with the name of a positional-only parameter (refuted: bind accepts it where the method does not, and refuses it where **kw would take it); methods with a parameter that begins with an underscore cannot be decorated (refuted, characterized). Functions implemented in C, for which the binder may be None, are not modelled.")
c("C103","partial","NoLock","plain_exact extensible_exact override_exact inherited above_refuted batch_mark_refuted generator_refuted",
  "Exact characterization proved. Part of the claim is refuted of the code: no_lock above @extensible or @m.batch does nothing; a mark on the batch implementation unlocks the single method too (and the other way round); on an async generator method it has no effect. What holding the lock means is C14 to C16.")
c("C104","partial","UcxInit","context_iff environment_kept once settings_partial settings_refuted",
  "CUDA context, environment and once-only proved in full. That UCX has the settings asked for is refuted (settings_refuted); settings_partial says exactly when it does: only if each was in the external environment already. Assumes that UCX reads options given to ucp.init and the C environment only.")
c("C105","partial","AioEvent","is_set_exact true_means_set false_means_late at_most_once set_wakes given_up_early all_end_partial exhausting pulse_missed_refuted given_up_stays_refuted exhausted_refuted mp_false_refuted",
  "What a wait returns, that a set wakes the waits that have reached a thread, and that everything ends as long as every wait has a time limit or its event is set: proved. Refuted: a wait still in the executor's queue misses a set that is cleared at once; a cancelled wait keeps its thread until the event is set, and as many of them as the executor has threads stop all large messages and file operations of the process; a multiprocessing.Event may give False without a time limit.")
c("C106","partial","Mlx","arrives arrives_iff name_refuted format_refuted length_checked",
  "Proved for every layout, exactly for the types MLX has under the name it prints for them. Refuted: a type whose printed name is no attribute of mlx.core (bool is printed so, the attribute is bool_, as far as known without MLX here) is sent but can never be received; the conversion of buffers with another format (mlx.py 60-63) always fails: the numpy type it computes is then looked up as an attribute name. MLX's own operations (reshape, view) are taken as documented.")
