{
 "claims": [
  {
   "property": "C01",
   "status": "proved",
   "theorems": [
    "Xoscar.Serial.roundtrip_acyclic",
    "Xoscar.Serial.bytes_subclass_fails",
    "Xoscar.Serial.header_short",
    "Xoscar.Serial.alone_is_buffer"
   ],
   "note": "finite acyclic graphs; str/bytes subclasses excluded (their class is lost: bytes_subclass_fails)"
  },
  {
   "property": "C02",
   "status": "proved",
   "theorems": [
    "Xoscar.Serial.sharing_kept_acyclic",
    "Xoscar.Serial.shared_empty_dict_splits"
   ],
   "note": "empty plain dicts are not kept shared, shown by shared_empty_dict_splits"
  },
  {
   "property": "C03",
   "status": "proved",
   "theorems": [
    "Xoscar.Serial.spawn_equivalent"
   ],
   "note": "for every set of serializers"
  },
  {
   "property": "C04",
   "status": "partial",
   "theorems": [
    "Xoscar.Serial.roundtrip_cyclic_partial",
    "Xoscar.Serial.sharing_kept_cyclic_partial",
    "Xoscar.Serial.cyclic_with_shared_empty_dict_fails",
    "Xoscar.Serial.cycle_through_tuple_fails"
   ],
   "note": "false in full: shown wrong for cycles next to an empty dict occurring twice and for cycles through a tuple; proved for all other cyclic graphs"
  },
  {
   "property": "C05",
   "status": "proved",
   "theorems": [
    "Xoscar.Serial.message_roundtrip",
    "Xoscar.Serial.message_fields_kept"
   ],
   "note": "all 13 classes, forward messages nested to any depth, any supported payload graph"
  },
  {
   "property": "C06",
   "status": "partial",
   "theorems": [
    "Xoscar.Serial.undecodable_reported_against_own_id",
    "Xoscar.Serial.unloadable_payload_reported",
    "Xoscar.Serial.raised_is_own_id",
    "Xoscar.Serial.unsupported_protocol_rejected",
    "Xoscar.Serial.nested_unknown_serializer_escapes",
    "Xoscar.Serial.unknown_serializer_reported"
   ],
   "note": "proved for every payload made by the core serializers and every receiver-side unpickler; false in full: a failing component below an object whose serializer is unknown to the receiver makes a raw KeyError escape (nested_unknown_serializer_escapes); the protocol is checked by the sender only"
  },
  {
   "property": "C07",
   "status": "proved",
   "theorems": [
    "Xoscar.Wire.send_recv_stream",
    "Xoscar.Wire.frame_isSome_iff",
    "Xoscar.Wire.truncated_frame",
    "Xoscar.Wire.foreign_version_refused",
    "Xoscar.Wire.size_of_frame",
    "Xoscar.Wire.reader_prefix",
    "Xoscar.Wire.reader_complete",
    "Xoscar.Wire.cancelled_recv_desync"
   ],
   "note": "cloudpickle of headers is a parameter with the round-trip law. cancelled_recv_desync documents that a recv cancelled half-way loses framing."
  },
  {
   "property": "C08",
   "status": "proved",
   "theorems": [
    "Xoscar.Wire.concurrent_senders_whole_frames",
    "Xoscar.Wire.concurrent_senders_received",
    "Xoscar.Wire.cancelled_senders_whole_frames",
    "Xoscar.Wire.cancel_touches_one"
   ],
   "note": ""
  },
  {
   "property": "C09",
   "status": "proved",
   "theorems": [
    "Xoscar.Shm.handshake_not_torn",
    "Xoscar.Shm.handshake_complete",
    "Xoscar.Shm.handshake_too_long",
    "Xoscar.Shm.handshake_two_phases"
   ],
   "note": "Stores reach memory in program order of the three slice assignments (any byte order inside one)."
  },
  {
   "property": "C10",
   "status": "proved",
   "theorems": [
    "Xoscar.CopyTo.copy_delivers",
    "Xoscar.CopyTo.copy_equal",
    "Xoscar.CopyTo.copy_check"
   ],
   "note": ""
  },
  {
   "property": "C11",
   "status": "partial",
   "theorems": [
    "Xoscar.CopyTo.blocks_bounded_partial",
    "Xoscar.CopyTo.block_size_used",
    "Xoscar.CopyTo.blocks_bounded_single",
    "Xoscar.CopyTo.blocks_unbounded_refuted",
    "Xoscar.CopyTo.file_blocks_bounded"
   ],
   "note": "False of the code (exact fit forgets the current size); holds when no proper prefix of sizes is a multiple of block_size."
  },
  {
   "property": "C12",
   "status": "partial",
   "theorems": [
    "Xoscar.CopyTo.copy_error_ignored_refuted",
    "Xoscar.CopyTo.copy_files_error_ignored_refuted",
    "Xoscar.CopyTo.copy_connection_failure_partial",
    "Xoscar.CopyTo.copy_files_connection_failure_partial"
   ],
   "note": "False of the code: error replies are ignored; connection failures are reported."
  },
  {
   "property": "C13",
   "status": "proved",
   "theorems": [
    "Xoscar.CopyTo.copy_files_delivers"
   ],
   "note": ""
  },
  {
   "property": "C14",
   "status": "proved",
   "theorems": [
    "Xoscar.ActorLock.mutual_exclusion"
   ],
   "note": ""
  },
  {
   "property": "C15",
   "status": "proved",
   "theorems": [
    "Xoscar.ActorLock.grants_in_order",
    "Xoscar.ActorLock.grants_then_waiting_in_order",
    "Xoscar.ActorLock.lock_held_iff",
    "Xoscar.ActorLock.free_actor_starts_at_once",
    "Xoscar.ActorLock.waiting_is_queued",
    "Xoscar.ActorLock.waiter_gets_lock"
   ],
   "note": "asyncio.Lock is transcribed from CPython."
  },
  {
   "property": "C16",
   "status": "proved",
   "theorems": [
    "Xoscar.ActorLock.generator_protocol",
    "Xoscar.ActorLock.yielded_does_not_hold",
    "Xoscar.ActorLock.free_actor_starts_at_once",
    "Xoscar.ActorLock.mutual_exclusion"
   ],
   "note": ""
  },
  {
   "property": "C17",
   "status": "partial",
   "theorems": [
    "Xoscar.Calls.tuple_none",
    "Xoscar.Calls.tuple_one",
    "Xoscar.Calls.tuple_prefix_partial",
    "Xoscar.Calls.tuple_order_refuted",
    "Xoscar.Calls.tuple_future_refuted",
    "Xoscar.Calls.tuple_not_silently_wrong",
    "Xoscar.Calls.tuple_cancelled"
   ],
   "note": "In full false of the code (order/future refutations); proved for tuples whose awaitables form the prefix."
  },
  {
   "property": "C18",
   "status": "proved",
   "theorems": [
    "Xoscar.Calls.batch_single_impl",
    "Xoscar.Calls.batch_single_impl_fail",
    "Xoscar.Calls.batch_single_impl_fail_async",
    "Xoscar.Calls.batch_batch_impl",
    "Xoscar.Calls.batch_whole_list",
    "Xoscar.Calls.batch_empty",
    "Xoscar.Calls.single_via_batch_none",
    "Xoscar.Calls.single_via_batch",
    "Xoscar.Calls.single_direct"
   ],
   "note": ""
  },
  {
   "property": "C19",
   "status": "partial",
   "theorems": [
    "Xoscar.Calls.batch_accepts_iff",
    "Xoscar.Calls.batch_message",
    "Xoscar.Local.batch_mixed_refuted"
   ],
   "note": "Proved for references to actors of other processes; a reference held in the pool's own process accepts any mixture and runs one method on all of it (refuted)."
  },
  {
   "property": "C20",
   "status": "proved",
   "theorems": [
    "Xoscar.Caller.reply_matches",
    "Xoscar.Caller.reply_delivered",
    "Xoscar.Caller.answered_once",
    "Xoscar.Caller.stray_reply_fails_all_calls"
   ],
   "note": "stray_reply_fails_all_calls records a deviation: a reply with an unknown id fails every pending call with KeyError."
  },
  {
   "property": "C21",
   "status": "partial",
   "theorems": [
    "Xoscar.Caller.no_hang_partial",
    "Xoscar.Caller.cancelled_call_hangs_others_refuted",
    "Xoscar.Caller.bad_reply_to_cancelled_hangs_others_refuted",
    "Xoscar.Caller.bad_reply_delivered",
    "Xoscar.Caller.stopped_caller_hangs_refuted",
    "Xoscar.Caller.stopped_after_listener_partial",
    "Xoscar.Caller.death_exact",
    "Xoscar.Caller.before_order"
   ],
   "note": "The full claim is false of the code: a cancelled pending call crashes the listener and the others hang, and calls pending when the caller is stopped hang if the listener is cancelled before it notices. Proved for all histories without cancellation/undecodable replies, and for stopping when the listener gets to run first."
  },
  {
   "property": "C22",
   "status": "proved",
   "theorems": [
    "Xoscar.Pool.history_ok",
    "Xoscar.Pool.one_live_actor",
    "Xoscar.Pool.while_live",
    "Xoscar.Pool.while_dead",
    "Xoscar.Pool.refused_changes_nothing",
    "Xoscar.Pool.reply_means",
    "Xoscar.Pool.destroy_succeeds"
   ],
   "note": "One pool, any interleaving of tasks; main/sub pool overrides are C25."
  },
  {
   "property": "C23",
   "status": "partial",
   "theorems": [
    "Xoscar.Pool.failed_constructor_leaves_nothing_partial",
    "Xoscar.Pool.failed_post_create_leaves_actor_refuted",
    "Xoscar.Pool.failed_post_create_blocks_uid_refuted"
   ],
   "note": "False of the code when __post_create__ fails (refuted); holds when the constructor fails."
  },
  {
   "property": "C24",
   "status": "partial",
   "theorems": [
    "Xoscar.Pool.removed_once",
    "Xoscar.Pool.destroy_exclusive_partial",
    "Xoscar.Pool.concurrent_destroy_hook_twice_refuted",
    "Xoscar.Pool.stale_destroy_removes_new_actor_refuted"
   ],
   "note": "At most one success holds always; the rest is false for overlapping destroys (refuted) and proved for non-overlapping ones."
  },
  {
   "property": "C25",
   "status": "partial",
   "theorems": [
    "Xoscar.Directory.directory_exact_partial",
    "Xoscar.Directory.actor_ref_exact_partial",
    "Xoscar.Directory.never_forgotten_partial",
    "Xoscar.Directory.sample_seq",
    "Xoscar.Directory.ghost_of_failed_create_refuted",
    "Xoscar.Directory.ghost_of_failed_hook_refuted",
    "Xoscar.Directory.half_made_actor_refuted",
    "Xoscar.Directory.wrong_actor_destroyed_refuted",
    "Xoscar.Directory.ghost_of_race_refuted",
    "Xoscar.Directory.recreated_actor_destroyed_refuted",
    "Xoscar.Directory.forgotten_by_failed_destroy_refuted",
    "Xoscar.Directory.forgotten_by_lost_destroy_refuted",
    "Xoscar.Directory.destroy_ok",
    "Xoscar.Directory.callFailed_remote"
   ],
   "note": "Exact for histories with one request at a time, ids not shared between pools, creations sent to sub pools and destructions passed on to them not failing; under any interleaving nothing created is forgotten. Each restriction is shown necessary by a refutation."
  },
  {
   "property": "C26",
   "status": "partial",
   "theorems": [
    "Xoscar.Directory.idle_exclusive_seq_partial",
    "Xoscar.Directory.idle_found_seq_partial",
    "Xoscar.Directory.idle_exclusive_partial",
    "Xoscar.Directory.placeholder_lost_refuted",
    "Xoscar.Directory.placeholder_leaked_refuted",
    "Xoscar.Directory.strategy_overwritten_refuted",
    "Xoscar.Directory.double_after_failed_destroy_refuted"
   ],
   "note": "Exclusivity and completeness with one request at a time; exclusivity under any interleaving when only this strategy is used; four ways to break it (refuted)."
  },
  {
   "property": "C27",
   "status": "proved",
   "theorems": [
    "Xoscar.Config.alloc_address",
    "Xoscar.Config.alloc_main",
    "Xoscar.Config.alloc_random",
    "Xoscar.Config.alloc_random_sub",
    "Xoscar.Config.alloc_process_index",
    "Xoscar.Config.alloc_label",
    "Xoscar.Config.alloc_idle"
   ],
   "note": "Over every configuration reachable by the configuration API (Hist) and every random choice."
  },
  {
   "property": "C28",
   "status": "partial",
   "theorems": [
    "Xoscar.Config.mapping_exact",
    "Xoscar.Config.processIndex_exact",
    "Xoscar.Config.externalAddresses_all",
    "Xoscar.Config.externalAddresses_label",
    "Xoscar.Config.processIndexes_nodup",
    "Xoscar.Config.sample_hist",
    "Xoscar.Config.remove_leaves_addresses_refuted",
    "Xoscar.Config.reset_internal_stale_refuted",
    "Xoscar.Config.readd_index_stale_refuted"
   ],
   "note": "Proved for histories of the shapes the pools produce; three call shapes leave stale entries (refuted)."
  },
  {
   "property": "C29",
   "status": "proved",
   "theorems": [
    "Xoscar.Router.internal_spec",
    "Xoscar.Router.add_remove_restores",
    "Xoscar.Router.add_resolves",
    "Xoscar.Router.given_open",
    "Xoscar.Router.client_one_key",
    "Xoscar.Router.cached_client_current_partial",
    "Xoscar.Router.shared_key_lost_refuted",
    "Xoscar.Router.removed_proxy_stays_refuted",
    "Xoscar.Router.stale_client_cached_refuted",
    "Xoscar.Router.add_remove_live",
    "Xoscar.Router.lock_per_thread",
    "Xoscar.Router.lock_taken",
    "Xoscar.Router.lock_fresh",
    "Xoscar.Router.dest_exact",
    "Xoscar.Router.uncached_connects",
    "Xoscar.Router.uncached_private"
   ],
   "note": "Everything in the statement is proved; the implicit claim that cached clients and proxy entries follow router changes is refuted in two situations."
  },
  {
   "property": "C30",
   "status": "partial",
   "theorems": [
    "Xoscar.Router.removed_not_routable_partial",
    "Xoscar.Router.removed_not_routable_sub",
    "Xoscar.Router.removed_still_routable_main_refuted"
   ],
   "note": "Holds for the pool's own router everywhere and for the process-wide router of sub pools; refuted for the process-wide router of the main process."
  },
  {
   "property": "C31",
   "status": "partial",
   "theorems": [
    "Xoscar.Router.host_of",
    "Xoscar.Router.getProxy_spec",
    "Xoscar.Router.getProxy_ne",
    "Xoscar.Router.getProxies_chain",
    "Xoscar.Router.chain_unique",
    "Xoscar.Router.getProxies_terminates_partial",
    "Xoscar.Router.chain_no_repeat",
    "Xoscar.Router.getProxies_diverges_refuted",
    "Xoscar.Router.wildcard_diverges_refuted"
   ],
   "note": "Choice and chain proved; termination holds iff the chain ends, refuted for cyclic configurations."
  },
  {
   "property": "C32",
   "status": "partial",
   "theorems": [
    "Xoscar.Ports.processIndices_nodup_partial",
    "Xoscar.Ports.processIndex_shared_refuted",
    "Xoscar.Ports.processIndex_collision_iff"
   ],
   "note": "Unique within one pool; across processes refuted."
  },
  {
   "property": "C33",
   "status": "proved",
   "theorems": [
    "Xoscar.Addr.ext_with_port",
    "Xoscar.Addr.ext_bare_host",
    "Xoscar.Addr.ext_wrong_ports",
    "Xoscar.Addr.ext_schemes"
   ],
   "note": ""
  },
  {
   "property": "C34",
   "status": "partial",
   "theorems": [
    "Xoscar.Ports.getNextPort_free",
    "Xoscar.Ports.getNextPort_complete",
    "Xoscar.Ports.getNextPort_exhausted",
    "Xoscar.Ports.getNextPort_never_systemError",
    "Xoscar.Ports.getNextPort_state",
    "Xoscar.Ports.calls_distinct",
    "Xoscar.Ports.getNextPort_any"
   ],
   "note": "Free and distinct are proved; the documented SystemError is never raised (refuted)."
  },
  {
   "property": "C35",
   "status": "partial",
   "theorems": [
    "Xoscar.Addr.fix_replaces",
    "Xoscar.Addr.fix_keeps_concrete",
    "Xoscar.Addr.fix_keeps_local",
    "Xoscar.Addr.fix_idempotent",
    "Xoscar.Addr.isZero_v4",
    "Xoscar.Addr.isZero_plain_host",
    "Xoscar.Addr.isZero_v6",
    "Xoscar.Addr.isZero_v6_other",
    "Xoscar.Addr.isZero_scheme",
    "Xoscar.Addr.fix_v4",
    "Xoscar.Addr.fix_scheme_refuted",
    "Xoscar.Addr.fix_brackets_refuted"
   ],
   "note": "The scheme prefix is lost (refuted)."
  },
  {
   "property": "C36",
   "status": "proved",
   "theorems": [
    "Xoscar.Calls.refEq_iff",
    "Xoscar.Calls.refEq_refl",
    "Xoscar.Calls.refEq_symm",
    "Xoscar.Calls.refEq_trans",
    "Xoscar.Calls.refEq_hash",
    "Xoscar.Calls.refEq_str",
    "Xoscar.Calls.refEq_str_bytes",
    "Xoscar.Calls.unpickle_equal",
    "Xoscar.Calls.toStr_toBinary",
    "Xoscar.Calls.toBinary_toStr",
    "Xoscar.Calls.unpickle_local",
    "Xoscar.Calls.made_remote",
    "Xoscar.Calls.toStr_total",
    "Xoscar.Calls.toBinary_total"
   ],
   "note": ""
  },
  {
   "property": "C37",
   "status": "partial",
   "theorems": [
    "Xoscar.Dispatch.dispatch_most_specific_partial",
    "Xoscar.Dispatch.dispatch_exact",
    "Xoscar.Dispatch.dispatch_stale_refuted",
    "Xoscar.Dispatch.dispatch_lazy",
    "Xoscar.Dispatch.dispatch_lazy_once",
    "Xoscar.Dispatch.registerLazy_used",
    "Xoscar.Dispatch.dispatch_wrong_only_partial",
    "Xoscar.Dispatch.dispatch_plain_named_partial"
   ],
   "note": "A stale inherit cache entry defeats it (refuted)."
  },
  {
   "property": "C38",
   "status": "partial",
   "theorems": [
    "Xoscar.Dispatch.register_decodable",
    "Xoscar.Dispatch.unregister_keeps_others_partial",
    "Xoscar.Dispatch.unregister_shared_refuted",
    "Xoscar.Dispatch.roundtrip_iff",
    "Xoscar.Dispatch.roundtrip_distinct",
    "Xoscar.Dispatch.register_ok_iff",
    "Xoscar.Dispatch.failed_register_refuted"
   ],
   "note": "False for a class registered for two types and after a registration that raised (refuted); for every history, exactly when a type with a serializer of its own still makes the round trip: roundtrip_iff."
  },
  {
   "property": "C39",
   "status": "partial",
   "theorems": [
    "Xoscar.Lru.after_invalidate",
    "Xoscar.Lru.after_clear",
    "Xoscar.Lru.close_waits",
    "Xoscar.Lru.answer_own_key",
    "Xoscar.Lru.size_le",
    "Xoscar.Lru.evicts_lru",
    "Xoscar.Lru.called_cached",
    "Xoscar.Lru.shares",
    "Xoscar.Lru.failure_not_served",
    "Xoscar.Lru.counts",
    "Xoscar.Lru.closed_refuses",
    "Xoscar.Lru.cancelled_served_refuted",
    "Xoscar.Lru.close_ends",
    "Xoscar.Lru.closed_iff",
    "Xoscar.Lru.open_close",
    "Xoscar.Lru.close_after_clear_refuted"
   ],
   "note": "False only for cancelled evaluations, which are served again with cache_exceptions off (refuted); everything else proved for every sequence of calls, completions, invalidations, clears, closes and opens."
  },
  {
   "property": "C40",
   "status": "partial",
   "theorems": [
    "Xoscar.Gen.destroyed_refused",
    "Xoscar.Gen.iterate_partial",
    "Xoscar.Gen.released_partial",
    "Xoscar.Gen.iterate_stateless_partial",
    "Xoscar.Gen.answered",
    "Xoscar.Gen.owner",
    "Xoscar.Gen.error_swallowed",
    "Xoscar.Gen.error_swallowed_refuted",
    "Xoscar.Gen.concurrent_next_destroys_refuted",
    "Xoscar.Gen.cancelled_next_loses_item_refuted",
    "Xoscar.Gen.cancelled_next_destroys_refuted",
    "Xoscar.Gen.cancelled_next_ends_refuted",
    "Xoscar.Gen.two_owners_refuted",
    "Xoscar.Gen.can_destroy",
    "Xoscar.Gen.one_answer",
    "Xoscar.Gen.one_at_a_time",
    "Xoscar.Gen.concurrent_next"
   ],
   "note": "Proved for every producer whose error text does not contain 'StopIteration' and every interleaving without cancelled requests; error texts with 'StopIteration' are swallowed, cancelled requests lose items (refuted)."
  },
  {
   "property": "C41",
   "status": "partial",
   "theorems": [
    "Xoscar.Calls.error_identity",
    "Xoscar.Calls.cancel_identity",
    "Xoscar.Calls.cancel_text_refuted",
    "Xoscar.Calls.error_at_home"
   ],
   "note": "Proved for every class and number of hops, except that the text of a CancelledError is lost (refuted)."
  },
  {
   "property": "C42",
   "status": "proved",
   "theorems": [
    "Xoscar.Stats.window_callback",
    "Xoscar.Stats.stream_callbacks",
    "Xoscar.Stats.new_accepts",
    "Xoscar.Stats.new_callbacks"
   ],
   "note": ""
  },
  {
   "property": "C43",
   "status": "partial",
   "theorems": [
    "Xoscar.Stats.slow_report_sound",
    "Xoscar.Stats.slow_report_top9_partial",
    "Xoscar.Stats.slow_report_top10_refuted",
    "Xoscar.Stats.counter_exact",
    "Xoscar.Stats.most_calls_report",
    "Xoscar.Stats.slow_calls_report",
    "Xoscar.Stats.slow_calls_slowest_refuted"
   ],
   "note": "Keeps the slowest 9, not 10 (refuted)."
  },
  {
   "property": "C44",
   "status": "proved",
   "theorems": [
    "Xoscar.Stats.chain_warnings",
    "Xoscar.Stats.chain_off"
   ],
   "note": ""
  },
  {
   "property": "C45",
   "status": "partial",
   "theorems": [
    "Xoscar.Recovery.records_kept",
    "Xoscar.Recovery.restarted_up",
    "Xoscar.Recovery.recovery_complete_partial",
    "Xoscar.Recovery.recovery_ends_partial",
    "Xoscar.Recovery.restart_retried",
    "Xoscar.Recovery.no_wake_while_recovering",
    "Xoscar.Recovery.woken_after_recovery_partial",
    "Xoscar.Recovery.check_wakes",
    "Xoscar.Recovery.record_aborts",
    "Xoscar.Recovery.pending_create_aborts",
    "Xoscar.Recovery.woken_before_notice",
    "Xoscar.Recovery.woken_after_abort",
    "Xoscar.Recovery.wait_without_recovery",
    "Xoscar.Recovery.appended_not_recovered",
    "Xoscar.Recovery.down_again_and_again",
    "Xoscar.Recovery.records_exact",
    "Xoscar.Recovery.recovery_history_partial",
    "Xoscar.Recovery.monitor_goes_on",
    "Xoscar.Recovery.loss_forgets",
    "Xoscar.Recovery.answered_records",
    "Xoscar.Recovery.forget_aborts",
    "Xoscar.Recovery.lost_is_lost",
    "Xoscar.Recovery.wait_waits",
    "Xoscar.Recovery.aborts_why"
   ],
   "note": "Proved: on a run in which nothing is recorded in the pool while it is being recovered, a recovery that finishes has re-sent every recorded creation and each actor exists or its failure was recorded; it does finish; a failed restart is retried; nobody is woken while recovering; waiters are woken only after a completed recovery, an aborted one, or a look before the death was noticed. The unconditional statement is false of the code: refuted by the concrete runs record_aborts, pending_create_aborts, woken_before_notice, woken_after_abort, wait_without_recovery, appended_not_recovered, down_again_and_again."
  },
  {
   "property": "C46",
   "status": "proved",
   "theorems": [
    "Xoscar.Pool.running_iff",
    "Xoscar.Pool.cancel_running_call",
    "Xoscar.Pool.cancel_not_running",
    "Xoscar.Pool.only_cancel_touches_others",
    "Xoscar.Pool.cancelled_tell",
    "Xoscar.Wait.not_cancelled",
    "Xoscar.Wait.cancelled_wait",
    "Xoscar.Wait.cancelled_remote",
    "Xoscar.Wait.cancelled_after_end",
    "Xoscar.Wait.cancelled_reply",
    "Xoscar.Wait.cancel_request_failed",
    "Xoscar.Wait.cancelled_twice"
   ],
   "note": "Caller side in Xoscar.Wait."
  },
  {
   "property": "C47",
   "status": "proved",
   "theorems": [
    "Xoscar.Collective.accepted_iff",
    "Xoscar.Collective.rejected_alike",
    "Xoscar.Collective.positions",
    "Xoscar.Collective.same_name",
    "Xoscar.Collective.non_member",
    "Xoscar.Collective.group_of_ranks",
    "Xoscar.Collective.different_names",
    "Xoscar.Collective.nccl_exchange_iff",
    "Xoscar.Collective.nccl_exchange_refuted",
    "Xoscar.Collective.demoHash_ok",
    "Xoscar.Collective.group_made_iff"
   ],
   "note": "For every world size, rank list in any order and history of earlier calls; sha1 enters as an arbitrary function (no-collision assumed only where a name is looked up). Also found: an nccl group exchanges its communicator id by group ranks taken as global ranks, which works only for the first ranks of the job (nccl_exchange_iff)."
  },
  {
   "property": "C48",
   "status": "proved",
   "theorems": [
    "Xoscar.Pool.every_request_one_reply",
    "Xoscar.Pool.at_most_one_reply",
    "Xoscar.Pool.request_progresses",
    "Xoscar.Pool.reply_means",
    "Xoscar.Pool.reply_is_outcome",
    "Xoscar.Pool.self_cancel_reply",
    "Xoscar.Pool.reply_message_unanswered",
    "Xoscar.Pool.any_outcome"
   ],
   "note": "Handlers of ActorPoolBase; what user code does while awaited is arbitrary."
  },
  {
   "property": "C49",
   "status": "partial",
   "theorems": [
    "Xoscar.Life.never_restarted",
    "Xoscar.Life.start_after_stop",
    "Xoscar.Life.start_before_stop",
    "Xoscar.Life.join_after_stop",
    "Xoscar.Life.join_returns_iff",
    "Xoscar.Life.stop_stops",
    "Xoscar.Life.stop_any_time",
    "Xoscar.Life.sub_join_after_stop_ended",
    "Xoscar.Life.main_join_before_stop_ended_refuted",
    "Xoscar.Life.main_failed_stop_leaves_servers_refuted",
    "Xoscar.Life.sub_start_during_stop_refuted",
    "Xoscar.Life.start_outcome",
    "Xoscar.Life.stop_outcome",
    "Xoscar.Life.stop_goes_on"
   ],
   "note": "join of a main pool returns before stop ends, a failing stop leaves servers up, start during a sub pool's stop is accepted (refuted); the rest proved."
  },
  {
   "property": "C50",
   "status": "partial",
   "theorems": [
    "Xoscar.Retry.call_exact",
    "Xoscar.Retry.endless_iff",
    "Xoscar.Retry.limited",
    "Xoscar.Retry.plain_exhausted",
    "Xoscar.Retry.coroutine_exhausted_refuted",
    "Xoscar.Retry.last_sleep_refuted"
   ],
   "note": "Exact characterization of what a call does and how it ends, for both wrappers. Refuted: the coroutine wrapper returns None when its attempts are used up (the exceptions are lost); both also sleep after the last attempt; with no attempt allowed the plain wrapper raises AssertionError."
  },
  {
   "property": "C51",
   "status": "partial",
   "theorems": [
    "Xoscar.Dummy.wake_once",
    "Xoscar.Dummy.running_registered",
    "Xoscar.Dummy.close_ends",
    "Xoscar.Dummy.delivered",
    "Xoscar.Dummy.received_prefix",
    "Xoscar.Dummy.recv_oldest",
    "Xoscar.Dummy.waiting_gets",
    "Xoscar.Dummy.after_close",
    "Xoscar.Dummy.send_accepted",
    "Xoscar.Dummy.one_server",
    "Xoscar.Dummy.connect_spec",
    "Xoscar.Dummy.create_running",
    "Xoscar.Dummy.stop_closes_partial",
    "Xoscar.Dummy.pending_recv_hangs_refuted",
    "Xoscar.Dummy.accepted_lost_refuted",
    "Xoscar.Dummy.stop_leaves_open_refuted",
    "Xoscar.Dummy.handler_ignored_refuted",
    "Xoscar.Dummy.waiting_iff",
    "Xoscar.Dummy.recv_waits",
    "Xoscar.Dummy.links_distinct",
    "Xoscar.Dummy.begins",
    "Xoscar.Dummy.finishes",
    "Xoscar.Dummy.collected_stays_open_refuted",
    "Xoscar.Dummy.cancel_frees"
   ],
   "note": "Order, exactly once, and failure after close proved for every interleaving; a pending recv is never woken by close, accepted but unread messages are lost on close, and a connection whose handler has not started survives its server's stop (refuted)."
  },
  {
   "property": "C52",
   "status": "partial",
   "theorems": [
    "Xoscar.Store.atomic_map",
    "Xoscar.Store.add_running_sum",
    "Xoscar.Store.responses_own",
    "Xoscar.Store.answered_last",
    "Xoscar.Store.once",
    "Xoscar.Store.asked",
    "Xoscar.Store.real_time",
    "Xoscar.Store.wait_after_keys",
    "Xoscar.Store.waits_atomic_partial",
    "Xoscar.Store.wait_answered_partial",
    "Xoscar.Store.set_not_visible",
    "Xoscar.Store.badLin_not_atomic",
    "Xoscar.Store.wait_after_delete",
    "Xoscar.Store.wait_hangs",
    "Xoscar.Store.stale_answer",
    "Xoscar.Store.second_wait_early",
    "Xoscar.Store.dead_watcher",
    "Xoscar.Store.reused_watcher",
    "Xoscar.Store.get_lost",
    "Xoscar.Store.add_lost",
    "Xoscar.Store.stoll_exact",
    "Xoscar.Store.wrap_exact",
    "Xoscar.Store.stored_number",
    "Xoscar.Store.closes_exact"
   ],
   "note": "The server is an atomic map for every interleaving of any number of clients (waits apart: unconditional; with waits: without deletions). A client sees its own answer, each request takes effect at most once and in real-time order, as long as no client read times out and watchers stay. Refuted: set returns before it takes effect, waits with deleted keys, waits hanging on a key created by compare-set, stale answers after a timeout, dead watchers."
  },
  {
   "property": "C53",
   "status": "proved",
   "theorems": [
    "Xoscar.Nd.array_roundtrip",
    "Xoscar.Nd.array_refused",
    "Xoscar.Nd.array_bytes_sent",
    "Xoscar.Nd.array_layout_kept",
    "Xoscar.Nd.object_pickled"
   ],
   "note": "NumPy's flags, ravel, ascontiguousarray, constructor and dtype.descr are transcribed; titles, metadata, sub-array dtypes left out; arrays of objects are pickled; instances of ndarray subclasses arrive as plain arrays (as in C01)."
  },
  {
   "property": "C54",
   "status": "proved",
   "theorems": [
    "Xoscar.Nd.csr_roundtrip",
    "Xoscar.Nd.csr_arrays"
   ],
   "note": ""
  },
  {
   "property": "C55",
   "status": "partial",
   "theorems": [
    "Xoscar.Tensor.cpu_roundtrip",
    "Xoscar.Tensor.cpu_sent_iff",
    "Xoscar.Tensor.scalar_grad_refuted",
    "Xoscar.Tensor.cuda_receives",
    "Xoscar.Tensor.cuda_roundtrip_partial",
    "Xoscar.Tensor.cuda_slice_refuted",
    "Xoscar.Tensor.cupy_roundtrip"
   ],
   "note": "CPU tensors that are sent arrive unchanged, but a scalar tensor that requires a gradient cannot be sent (refuted); a GPU tensor that starts inside its storage silently arrives as other elements (refuted); everything else proved."
  },
  {
   "property": "C56",
   "status": "partial",
   "theorems": [
    "Xoscar.Transport.bytes_intact",
    "Xoscar.Transport.bytes_delivered",
    "Xoscar.Transport.flush_progress",
    "Xoscar.Transport.split_write_iff",
    "Xoscar.Transport.typed_view_refuted",
    "Xoscar.Transport.ofBytes_isBytes",
    "Xoscar.Transport.all_can_be_sent"
   ],
   "note": "Proved for all buffers of bytes (everything but typed views); a PyTorch tensor in main memory is sent as a typed view and loses bytes when the socket takes part of it (refuted). asyncio's selector transport; uvloop not modelled."
  },
  {
   "property": "C57",
   "status": "partial",
   "theorems": [
    "Xoscar.ErrSer.picklable_arrives",
    "Xoscar.ErrSer.unpicklable_arrives",
    "Xoscar.ErrSer.unloadable_reported",
    "Xoscar.ErrSer.send_failure_reported",
    "Xoscar.ErrSer.bad_result_reported",
    "Xoscar.ErrSer.result_arrives",
    "Xoscar.ErrSer.no_reply_iff",
    "Xoscar.ErrSer.always_reply_partial",
    "Xoscar.ErrSer.no_reply_refuted",
    "Xoscar.ErrSer.unsendable_iff",
    "Xoscar.ErrSer.unprintable_iff",
    "Xoscar.ErrSer.unprintable_reported"
   ],
   "note": "Exact characterisation of the calls that get no reply: printing the error must raise an error that cannot be sent (refuted by example)."
  },
  {
   "property": "C58",
   "status": "partial",
   "theorems": [
    "Xoscar.Forward.send_iff",
    "Xoscar.Forward.delivered",
    "Xoscar.Forward.wire_id",
    "Xoscar.Forward.cancel_delivered_partial",
    "Xoscar.Forward.ends_partial",
    "Xoscar.Forward.first_hop",
    "Xoscar.Forward.direct",
    "Xoscar.Forward.kill_direct",
    "Xoscar.Forward.kill_main",
    "Xoscar.Forward.kill_at_gateway",
    "Xoscar.Forward.kill_through_gateway_refuted",
    "Xoscar.Forward.kill_stops_gateway_refuted",
    "Xoscar.Forward.cancel_ignores_proxies_refuted",
    "Xoscar.Forward.wait_recovered_at_gateway_refuted",
    "Xoscar.Forward.gateways_loop_refuted",
    "Xoscar.Forward.wildcard_loop_refuted",
    "Xoscar.Forward.kill_wildcard_refuted",
    "Xoscar.Forward.remote_iff",
    "Xoscar.Forward.kill_unreachable",
    "Xoscar.Forward.wait_recovered_wrong_pool",
    "Xoscar.Forward.wait_recovered_main_pool",
    "Xoscar.Forward.wait_recovered_self"
   ],
   "note": "Calls are delivered correctly through any proxies when the routes end; routes that do not end, and cancel, kill and recovery requests through proxies or to wildcard-bound main pools, are wrong (refuted)."
  },
  {
   "property": "C59",
   "status": "proved",
   "theorems": [
    "Xoscar.Create.check_iff",
    "Xoscar.Create.check_error",
    "Xoscar.Create.not_accepted",
    "Xoscar.Create.created",
    "Xoscar.Create.created_hist",
    "Xoscar.Create.allocate_same"
   ],
   "note": ""
  },
  {
   "property": "C60",
   "status": "partial",
   "theorems": [
    "Xoscar.Create.start_error_iff",
    "Xoscar.Create.failed_start_leaves_processes",
    "Xoscar.Create.failed_start_refuted",
    "Xoscar.Create.started_ok",
    "Xoscar.Create.listed_iff",
    "Xoscar.Create.listed_running_partial",
    "Xoscar.Create.remove_exact",
    "Xoscar.Create.sampleRun_run",
    "Xoscar.Create.failed_append_refuted",
    "Xoscar.Create.starting_pool_offered_refuted",
    "Xoscar.Create.removed_actor_exists_refuted",
    "Xoscar.Create.append_taken_address_refuted"
   ],
   "note": "Holds for histories without failed starts, when none is under way; failed starts leave processes or configuration entries behind, records of removed actors stay (refuted)."
  },
  {
   "property": "C61",
   "status": "partial",
   "theorems": [
    "Xoscar.WaitFor.result_of_call",
    "Xoscar.WaitFor.timer_always",
    "Xoscar.WaitFor.cancels_le",
    "Xoscar.WaitFor.arrives_partial",
    "Xoscar.WaitFor.caller_cancel_refuted",
    "Xoscar.WaitFor.falsy_exception_refuted",
    "Xoscar.WaitFor.zero_timeout_refuted"
   ],
   "note": "Results and timeouts are right; but cancelling the waiting task does not cancel the call, an exception object that is false is never delivered, and with timeout 0 a finished call's result is not returned (refuted for every run)."
  },
  {
   "property": "C62",
   "status": "partial",
   "theorems": [
    "Xoscar.Gloo.allreduce_correct",
    "Xoscar.Gloo.reduce_correct",
    "Xoscar.Gloo.allgather_correct",
    "Xoscar.Gloo.gather_correct",
    "Xoscar.Gloo.alltoall_correct",
    "Xoscar.Gloo.broadcast_correct",
    "Xoscar.Gloo.reduce_scatter_correct",
    "Xoscar.Gloo.scatter_value_partial",
    "Xoscar.Gloo.scatter_safe_partial",
    "Xoscar.Gloo.scatter_overflow",
    "Xoscar.Gloo.bitwise_refused",
    "Xoscar.Gloo.other_type_refused",
    "Xoscar.Gloo.written_window",
    "Xoscar.Gloo.scatter_needs_lists_everywhere",
    "Xoscar.Gloo.short_recv_overwritten",
    "Xoscar.Gloo.strided_wrong"
   ],
   "note": "Seven of the eight operations are right for contiguous arrays of the documented sizes. scatter passes the sum of the sizes as the size of each part and writes past the end of recv_data in every group of two or more (refuted); arrays that are too small or not contiguous are not refused (refuted)."
  },
  {
   "property": "C63",
   "status": "partial",
   "theorems": [
    "Xoscar.Marker.marker_right",
    "Xoscar.Marker.marker_answers_iff_partial",
    "Xoscar.Marker.simple_marker",
    "Xoscar.Marker.guard_refuted",
    "Xoscar.Marker.or_guard_refuted",
    "Xoscar.Marker.major_only",
    "Xoscar.Marker.unknown_name",
    "Xoscar.Marker.in_refused"
   ],
   "note": "Every answer is the right one; an answer is given exactly when all operands of all and/or have a meaning, also those that do not matter. The guard `has_cuda and cuda_version >= \"12.1\"` therefore raises TypeError on every machine without CUDA (refuted)."
  },
  {
   "property": "C64",
   "status": "partial",
   "theorems": [
    "Xoscar.Reqs.substitute_correct_partial",
    "Xoscar.Reqs.substitute_twice_refuted",
    "Xoscar.Reqs.filter_correct_partial",
    "Xoscar.Reqs.extras_lost_refuted",
    "Xoscar.Reqs.resolve_correct",
    "Xoscar.Reqs.process_correct_partial",
    "Xoscar.Reqs.system_marked_refuted"
   ],
   "note": "Proved except for items with a standard marker that also have extras or a URL (these are lost, refuted for every such item), values that contain the placeholder of a later variable (substituted again, refuted), and system packages with a marker (never installed, refuted)."
  },
  {
   "property": "C65",
   "status": "partial",
   "theorems": [
    "Xoscar.Plan.install_holds_partial",
    "Xoscar.Plan.install_all",
    "Xoscar.Plan.extras_refuted",
    "Xoscar.Plan.url_refuted",
    "Xoscar.Plan.from_refuted",
    "Xoscar.Plan.two_requirements_refuted",
    "Xoscar.Plan.shadowed_refuted",
    "Xoscar.Plan.url_without_dependencies",
    "Xoscar.Plan.plan_ignores_options",
    "Xoscar.Plan.options_spec",
    "Xoscar.Plan.create_env_spec"
   ],
   "note": "Names and versions: proved for index packages when no distribution is on the path twice. Refuted: extras and URLs of installed packages are ignored, packages that do not come from an index are dropped from the plan, two requirements for one package can contradict each other through the constraint, shadowed distributions, dependencies of URLs; the plan ignores the index options."
  },
  {
   "property": "C66",
   "status": "partial",
   "theorems": [
    "Xoscar.Metric.counter_total",
    "Xoscar.Metric.gauge_last",
    "Xoscar.Metric.meter_conserves",
    "Xoscar.Metric.meter_time",
    "Xoscar.Metric.meter_due",
    "Xoscar.Metric.histogram_windows",
    "Xoscar.Metric.histogram_due",
    "Xoscar.Metric.counter_value_partial",
    "Xoscar.Metric.counter_value_direct_partial",
    "Xoscar.Metric.before_init_refuted",
    "Xoscar.Metric.reinit_refuted",
    "Xoscar.Metric.reinit_direct",
    "Xoscar.Metric.init_once",
    "Xoscar.Metric.prom_counter_partial",
    "Xoscar.Metric.tags_mixed_refuted",
    "Xoscar.Metric.same_name_refuted",
    "Xoscar.Metric.tags_changed_refuted",
    "Xoscar.Metric.counter_life_partial",
    "Xoscar.Metric.fresh_metric",
    "Xoscar.Metric.labels_spec",
    "Xoscar.Metric.prom_metric",
    "Xoscar.Metric.wrong_tags",
    "Xoscar.Metric.raises_exact",
    "Xoscar.Metric.exported_unique",
    "Xoscar.Metric.console_tags"
   ],
   "note": "The arithmetic of all four kinds is right. Refuted: records before init_metrics are lost, a second initialisation resets counters, prometheus counters mix their tags, a second metric of the same prometheus name is never exported, the caller's dict is changed."
  },
  {
   "property": "C67",
   "status": "partial",
   "theorems": [
    "Xoscar.Local.remote_denotes",
    "Xoscar.Local.local_call_partial",
    "Xoscar.Local.local_call_exact",
    "Xoscar.Local.local_call_prompt",
    "Xoscar.Local.local_ref_exists",
    "Xoscar.Local.cycle_debug_no_local",
    "Xoscar.Local.tell_partial",
    "Xoscar.Local.remote_tell",
    "Xoscar.Local.local_tell",
    "Xoscar.Local.batch_partial",
    "Xoscar.Local.stale_refuted",
    "Xoscar.Local.stopped_refuted",
    "Xoscar.Local.hidden_refuted",
    "Xoscar.Local.hidden_iff",
    "Xoscar.Local.tell_refuted",
    "Xoscar.Local.batch_method_refuted",
    "Xoscar.Local.batch_mixed_refuted",
    "Xoscar.Local.pool_gone",
    "Xoscar.Local.remote_tell_hidden"
   ],
   "note": "Agreement holds exactly when a destroyed actor's object has been freed. Refuted: local references keep calling a destroyed actor that is still in memory, even when its uid has a new actor; actors of a stopped pool stay callable locally; underscore methods, tell to a missing actor and batches of other methods differ."
  },
  {
   "property": "C68",
   "status": "partial",
   "theorems": [
    "Xoscar.Front.scheme_url",
    "Xoscar.Front.scheme_default",
    "Xoscar.Front.scheme_exact",
    "Xoscar.Front.served_partial",
    "Xoscar.Front.one_context",
    "Xoscar.Front.contexts_differ",
    "Xoscar.Front.unknown_scheme",
    "Xoscar.Front.no_address",
    "Xoscar.Front.reregister_refuted",
    "Xoscar.Front.setup_cluster_partition",
    "Xoscar.Front.setup_cluster_none",
    "Xoscar.Front.setup_cluster_unknown",
    "Xoscar.Front.setup_cluster_half_refuted"
   ],
   "note": "Refuted: a backend registered again after first use of its scheme is ignored; setup_cluster with an unknown scheme has already set up the others."
  },
  {
   "property": "C69",
   "status": "partial",
   "theorems": [
    "Xoscar.Front.actor_uid_partial",
    "Xoscar.Front.actor_uid_default",
    "Xoscar.Front.actor_uid_other",
    "Xoscar.Front.empty_uid_refuted",
    "Xoscar.Front.ref_positional",
    "Xoscar.Front.ref_bytes_address",
    "Xoscar.Front.ref_keywords",
    "Xoscar.Front.ref_uid_only",
    "Xoscar.Front.ref_of_ref",
    "Xoscar.Front.ref_no_uid",
    "Xoscar.Front.ref_other_keywords",
    "Xoscar.Front.ref_two_addresses",
    "Xoscar.Front.ref_has_uid",
    "Xoscar.Front.uid_keyword_ignored_refuted",
    "Xoscar.Front.proxy_keyword_ignored_refuted",
    "Xoscar.Front.surplus_ignored_refuted",
    "Xoscar.Front.ref_types"
   ],
   "note": "Refuted: an empty uid is replaced by a random one; conflicting uid or proxy keywords and surplus positional arguments are silently ignored."
  },
  {
   "property": "C70",
   "status": "partial",
   "theorems": [
    "Xoscar.Refs.leads_to_own",
    "Xoscar.Refs.leads_to_nothing_else",
    "Xoscar.Refs.create_answer",
    "Xoscar.Refs.copy_touches_only",
    "Xoscar.Refs.copy_reaches_buffers",
    "Xoscar.Refs.copy_reaches_files",
    "Xoscar.Refs.copy_returns",
    "Xoscar.Refs.copy_refusals",
    "Xoscar.Refs.reference_does_not_keep_refuted",
    "Xoscar.Refs.foreign_address_refuted",
    "Xoscar.Refs.mixed_kinds_refuted",
    "Xoscar.Refs.buffers_answer",
    "Xoscar.Refs.files_answer"
   ],
   "note": "References always lead to their own object and nothing else is ever written. Refuted: copy_to returns although a buffer is gone (a reference does not keep it), the reference was made with another pool's address, or references of both kinds are listed (only the first one's kind is served)."
  },
  {
   "property": "C71",
   "status": "partial",
   "theorems": [
    "Xoscar.Procs.stop_ends",
    "Xoscar.Procs.stop_bounded",
    "Xoscar.Procs.graceful",
    "Xoscar.Procs.kill_own_only",
    "Xoscar.Procs.stop_all_ends",
    "Xoscar.Procs.stop_all_raises",
    "Xoscar.Procs.watch_exact",
    "Xoscar.Procs.second_watcher",
    "Xoscar.Procs.stop_request_failed_refuted",
    "Xoscar.Procs.descendants_left_refuted",
    "Xoscar.Procs.stranger_killed_refuted",
    "Xoscar.Procs.main_ended_unnoticed_refuted",
    "Xoscar.Procs.term_iff"
   ],
   "note": "The process of a stopped sub pool has always ended (if SIGKILL works), in bounded time. Refuted: processes it started get no signal; whoever got its pid meanwhile is killed; a stop request failing in an unforeseen way leaves it; a main process that is a zombie or whose pid was reused is taken to be running."
  },
  {
   "property": "C72",
   "status": "partial",
   "theorems": [
    "Xoscar.Impl.registration_in_force",
    "Xoscar.Impl.plain",
    "Xoscar.Impl.implemented_partial",
    "Xoscar.Impl.implemented_once",
    "Xoscar.Impl.failure_reported",
    "Xoscar.Impl.circle",
    "Xoscar.Impl.result_reachable",
    "Xoscar.Impl.subclass_initialised_twice_refuted",
    "Xoscar.Impl.key_error_swallowed_refuted",
    "Xoscar.Impl.chain_exact",
    "Xoscar.Impl.all_key_errors"
   ],
   "note": "Class of the object: exact. Refuted: an implementation that subclasses the class it is registered for is initialised twice; a KeyError of its __init__ is swallowed and an object of the replaced class is made."
  },
  {
   "property": "C73",
   "status": "partial",
   "theorems": [
    "Xoscar.Wrap.responsible",
    "Xoscar.Wrap.gone_iff",
    "Xoscar.Wrap.kept_partial",
    "Xoscar.Wrap.released_partial",
    "Xoscar.Wrap.exactly_in_use_partial",
    "Xoscar.Wrap.collection_ends",
    "Xoscar.Wrap.collection_free",
    "Xoscar.Wrap.two_holders_refuted",
    "Xoscar.Wrap.lost_message_leaks_refuted",
    "Xoscar.Wrap.crash_leaks_refuted",
    "Xoscar.Wrap.collection_hangs_refuted",
    "Xoscar.Wrap.destroy_works",
    "Xoscar.Wrap.arrives_once",
    "Xoscar.Wrap.used_after_arrival"
   ],
   "note": "Exact for iterators handed over at most once by each holder with nothing lost. Refuted: handed over twice it is destroyed under the second holder; a lost message or ended process leaks it; collecting it in a process that the method holding the actor's lock needs (always in the actor's own process) hangs both for ever."
  },
  {
   "property": "C74",
   "status": "partial",
   "theorems": [
    "Xoscar.Ucx.delivers_partial",
    "Xoscar.Ucx.senders_whole_partial",
    "Xoscar.Ucx.concurrent_delivers_partial",
    "Xoscar.Ucx.done_means_written",
    "Xoscar.Ucx.size_mismatch_breaks",
    "Xoscar.Ucx.foreign_data_closes",
    "Xoscar.Ucx.empty_buffer_breaks_refuted",
    "Xoscar.Ucx.empty_copy_hangs_refuted",
    "Xoscar.Ucx.unknown_buffer_breaks_refuted",
    "Xoscar.Ucx.cancelled_send_breaks_refuted",
    "Xoscar.Ucx.format",
    "Xoscar.Ucx.part_waits",
    "Xoscar.Ucx.wrong_size_closes",
    "Xoscar.Ucx.undecodable_closes",
    "Xoscar.Ucx.unknown_buffer_answer"
   ],
   "note": "Proved for jobs without empty buffers whose copies fit, and no cancelled send. Refuted: an empty buffer is sent but not received (or, if UCX drops it, copied buffers of size 0 are waited for for ever); a copy to an unknown buffer or of another size, and a cancelled send, break the connection of all callers, and copy_to reports success."
  },
  {
   "property": "C75",
   "status": "partial",
   "theorems": [
    "Xoscar.Cycle.deadlock_warned",
    "Xoscar.Cycle.warned_iff_partial",
    "Xoscar.Cycle.deadlock_forever",
    "Xoscar.Cycle.crosswise_deadlock_refuted",
    "Xoscar.Cycle.stateless_warned_refuted",
    "Xoscar.Cycle.background_warned_refuted",
    "Xoscar.Cycle.exclusive",
    "Xoscar.Cycle.acts_iff"
   ],
   "note": "Proved: a call to an actor that waits for it is always warned about, never starts, and (without background tasks) nothing else is warned about. Refuted: two call chains that wait crosswise deadlock without a warning; calls back to a StatelessActor, and calls from background tasks started by a method that has ended, are warned about although they complete."
  },
  {
   "property": "C76",
   "status": "partial",
   "theorems": [
    "Xoscar.Conns.given_open",
    "Xoscar.Conns.one_connection_partial",
    "Xoscar.Conns.reused_partial",
    "Xoscar.Conns.leads_right_partial",
    "Xoscar.Conns.once_right",
    "Xoscar.Conns.next_enters",
    "Xoscar.Conns.stale_route_refuted",
    "Xoscar.Conns.forgotten_open_refuted"
   ],
   "note": "Connections given are always open, the thread's own and listened to. One per destination only while the router is not changed (each change forgets the open ones: refuted otherwise); they lead where the router says only if it was never changed while somebody asked for a connection: otherwise a connection to the old address gets into the new cache (refuted)."
  },
  {
   "property": "C77",
   "status": "partial",
   "theorems": [
    "Xoscar.Closer.closed_once",
    "Xoscar.Closer.finalizer_goes_on",
    "Xoscar.Closer.closed_partial",
    "Xoscar.Closer.no_failure_partial",
    "Xoscar.Closer.failed_never",
    "Xoscar.Closer.start_twice_refuted",
    "Xoscar.Closer.loop_stopped_refuted"
   ],
   "note": "Closed at most once and never early in every run. Closed at all only if no thread ends while another sets up the close thread: otherwise a finalizer fails and its connections stay open, or the close loop is stopped and no connections of any thread are closed from then on (both refuted)."
  },
  {
   "property": "C78",
   "status": "partial",
   "theorems": [
    "Xoscar.AioFile.one_after_the_other",
    "Xoscar.AioFile.alone_like_sync",
    "Xoscar.AioFile.iteration",
    "Xoscar.AioFile.iteration_alone",
    "Xoscar.AioFile.lines_unique",
    "Xoscar.AioFile.closed_stays",
    "Xoscar.AioFile.closes",
    "Xoscar.AioFile.written",
    "Xoscar.AioFile.cancel_partial",
    "Xoscar.AioFile.cancel_loses_refuted",
    "Xoscar.AioFile.order_refuted",
    "Xoscar.AioFile.after_exit_refuted",
    "Xoscar.AioFile.file_ops"
   ],
   "note": "Results and iteration are right for every interleaving. Refuted: a cancelled readline that a thread has taken loses the line; calls not awaited one by one may be done in another order; after `async with` every call raises AttributeError instead of the closed file's ValueError."
  },
  {
   "property": "C79",
   "status": "partial",
   "theorems": [
    "Xoscar.Subproc.decode_text",
    "Xoscar.Subproc.decode_scalars",
    "Xoscar.Subproc.decode_by_lines",
    "Xoscar.Subproc.clean_iff",
    "Xoscar.Subproc.clean_plain",
    "Xoscar.Subproc.clean_sublist",
    "Xoscar.Subproc.clean_nested_refuted",
    "Xoscar.Subproc.lines_unique",
    "Xoscar.Subproc.delivered",
    "Xoscar.Subproc.so_far",
    "Xoscar.Subproc.sent_is_script",
    "Xoscar.Subproc.all_delivered",
    "Xoscar.Subproc.over_means_ended",
    "Xoscar.Subproc.left_behind_refuted",
    "Xoscar.Subproc.outcome_kept",
    "Xoscar.Subproc.never_stuck_partial",
    "Xoscar.Subproc.good_terminal",
    "Xoscar.Subproc.runs_end",
    "Xoscar.Subproc.dead_reader",
    "Xoscar.Subproc.refused_line_hangs_refuted"
   ],
   "note": "Delivery, order, waiting and termination hold for every schedule as long as the terminal takes every line. Refuted: log free of control sequences (nested ones survive); if the terminal refuses a line (encoding), the reader dies, the command blocks on the full pipe and the statement never ends; the statement also waits for processes the command left behind."
  },
  {
   "property": "C80",
   "status": "partial",
   "theorems": [
    "Xoscar.Order.small_never_overtaken_partial",
    "Xoscar.Order.awaited_in_order_partial",
    "Xoscar.Order.started_once",
    "Xoscar.Order.started_called",
    "Xoscar.Order.made_issued",
    "Xoscar.Order.issued_lane",
    "Xoscar.Order.none_lost",
    "Xoscar.Order.one_at_a_time",
    "Xoscar.Order.proxy_reorders",
    "Xoscar.Order.large_overtaken",
    "Xoscar.Order.two_lanes_reorder",
    "Xoscar.Order.local_call_overtakes_tell"
   ],
   "note": "Order holds for messages below the threshold of serialize_with_spawn on one connection, through any number of proxies, awaited or not; and for awaited tells and calls of any size over a direct connection or a local reference. Refuted otherwise: a larger message is serialized in a thread pool and overtaken (in a proxy even if the tell was awaited); two connections (threads, reconnect) are not ordered; with a local reference an awaited call overtakes an earlier tell that was not awaited."
  },
  {
   "property": "C81",
   "status": "partial",
   "theorems": [
    "Xoscar.Delay.not_early",
    "Xoscar.Delay.at_most_once",
    "Xoscar.Delay.tasks_requests",
    "Xoscar.Delay.without_delay_never",
    "Xoscar.Delay.outcome",
    "Xoscar.Delay.ended_final",
    "Xoscar.Delay.cancel_prevents",
    "Xoscar.Delay.cancel_possible",
    "Xoscar.Delay.can_be_made",
    "Xoscar.Delay.value_told",
    "Xoscar.Delay.silent_only_refused",
    "Xoscar.Delay.late_value_refuted",
    "Xoscar.Delay.local_differs",
    "Xoscar.Delay.default_delay_refuted"
   ],
   "note": "Once, never early, cancellable, outcome and log: proved for every history. Refuted: the arguments are those at the time of the tell, not of the call; with the default delay=None no tell is ever made; local references raise ActorNotExist without a log entry where others end well."
  },
  {
   "property": "C82",
   "status": "proved",
   "theorems": [
    "Xoscar.Link.arrives",
    "Xoscar.Link.can_be_sent",
    "Xoscar.Link.arrives_or_reported",
    "Xoscar.Link.all_arrive"
   ],
   "note": "Supported payloads (C01-C05's), messages without cycles or without shared empty dicts; buffers of the host (not CUDA); the frame format holds the header (2^64 bytes, 16-bit compression tag)."
  },
  {
   "property": "C83",
   "status": "proved",
   "theorems": [
    "Xoscar.Linear.linearizable",
    "Xoscar.Linear.order_stays",
    "Xoscar.Linear.can_complete",
    "Xoscar.Linear.started_once",
    "Xoscar.Linear.locked_waits",
    "Xoscar.Linear.unlocked_refuted",
    "Xoscar.Linear.failed_either"
   ],
   "note": "Holds for methods that take the lock; unlocked_refuted: one call without it (no_lock, StatelessActor, __post_create__) suffices to lose an update; failed_either: an error at the caller does not tell whether the method ran. What a method returns as awaitables and is evaluated after the lock is released (C17) counts as not taking the lock."
  },
  {
   "property": "C84",
   "status": "partial",
   "theorems": [
    "Xoscar.StoreWire.request_roundtrip",
    "Xoscar.StoreWire.request_waits",
    "Xoscar.StoreWire.response_roundtrip",
    "Xoscar.StoreWire.response_waits",
    "Xoscar.StoreWire.wire_injective",
    "Xoscar.StoreWire.handled_prefix",
    "Xoscar.StoreWire.handled_all",
    "Xoscar.StoreWire.dropped_done",
    "Xoscar.StoreWire.blocked_unfinished",
    "Xoscar.StoreWire.served",
    "Xoscar.StoreWire.stalled_client_refuted",
    "Xoscar.StoreWire.half_answer_refuted",
    "Xoscar.StoreWire.updates_handled",
    "Xoscar.StoreWire.reset_terminates_refuted",
    "Xoscar.StoreWire.server_gone_spins_refuted",
    "Xoscar.StoreWire.request_exact",
    "Xoscar.StoreWire.waits_iff",
    "Xoscar.StoreWire.refused_iff",
    "Xoscar.StoreWire.refused_dropped",
    "Xoscar.StoreWire.unknown_refused"
   ],
   "note": "The transport part is proved. Refuted: the server's single thread blocks inside a half-received request, so a client that stalls there stops the service for everybody; a client whose recv times out within an answer reads the remainder as the next answer; a reset connection ends the client's process (exception leaves a thread); a closed one makes the thread spin."
  },
  {
   "property": "C85",
   "status": "partial",
   "theorems": [
    "Xoscar.Nccl.gather_correct",
    "Xoscar.Nccl.gather_flat_refuted",
    "Xoscar.Nccl.gather_matrices_refuted",
    "Xoscar.Nccl.gather_buffer_everywhere_refuted",
    "Xoscar.Nccl.scatter_correct",
    "Xoscar.Nccl.scatter_list_everywhere_refuted",
    "Xoscar.Nccl.alltoall_correct",
    "Xoscar.Nccl.alltoall_flat_refuted",
    "Xoscar.Nccl.alltoall_checked",
    "Xoscar.Nccl.reduce_correct",
    "Xoscar.Nccl.allreduce_correct",
    "Xoscar.Nccl.allgather_correct",
    "Xoscar.Nccl.allgather_short_refuted",
    "Xoscar.Nccl.broadcast_correct",
    "Xoscar.Nccl.broadcast_none_refuted",
    "Xoscar.Nccl.reduce_scatter_correct",
    "Xoscar.Nccl.reduce_scatter_uneven_refuted",
    "Xoscar.Nccl.bitwise_refused",
    "Xoscar.Nccl.id_roundtrip",
    "Xoscar.Nccl.id_refused",
    "Xoscar.Nccl.request_served",
    "Xoscar.Nccl.split_request_refuted"
   ],
   "note": "Correct for receive buffers of the expected shape. Refuted: gather accepts only a (world, n) buffer (flat ones and matrices raise after the group was started), every rank needs buffers it does not use, uneven reduce_scatter, bitwise reductions; a store request cut by TCP is not served. That the communicator id of a group reaches only groups of the first ranks is C47 (nccl_exchange_iff). Not modelled: the default group's operations (cupyx)."
  },
  {
   "property": "C86",
   "status": "partial",
   "theorems": [
    "Xoscar.Watch.period_iff",
    "Xoscar.Watch.not_early",
    "Xoscar.Watch.warnings_bounded",
    "Xoscar.Watch.disabled_silent",
    "Xoscar.Watch.left_silent",
    "Xoscar.Watch.prompt_exact",
    "Xoscar.Watch.reload_json",
    "Xoscar.Watch.check_iff",
    "Xoscar.Watch.check_again",
    "Xoscar.Watch.unpatched_never",
    "Xoscar.Watch.settings_filters",
    "Xoscar.Watch.settings_times",
    "Xoscar.Watch.split_join",
    "Xoscar.Watch.split_pieces",
    "Xoscar.Watch.not_itself",
    "Xoscar.Watch.empty_filter_refuted",
    "Xoscar.Watch.trailing_semicolon_refuted",
    "Xoscar.Watch.reload_one"
   ],
   "note": "Everything but one thing: an empty exclude filter, which an empty XOSCAR_DEBUG_ASYNCIO_TASK_EXCLUDE_FILTERS or one with a trailing semicolon yields, matches every task and silences the detector."
  },
  {
   "property": "C87",
   "status": "partial",
   "theorems": [
    "Xoscar.Meet.connected_first",
    "Xoscar.Meet.timeout_means",
    "Xoscar.Meet.useless_means",
    "Xoscar.Meet.gives_up",
    "Xoscar.Meet.waits_for_server",
    "Xoscar.Meet.connect_ok",
    "Xoscar.Meet.short_timeout_refuted",
    "Xoscar.Meet.server_first",
    "Xoscar.Meet.server_waits_partial",
    "Xoscar.Meet.all_came_partial",
    "Xoscar.Meet.poll_decides",
    "Xoscar.Meet.looks_soon",
    "Xoscar.Meet.others_return",
    "Xoscar.Meet.not_a_barrier_refuted",
    "Xoscar.Meet.silent_timeout_refuted",
    "Xoscar.Meet.restart_counts_twice_refuted",
    "Xoscar.Meet.attempt_decides"
   ],
   "note": "Connecting is right for timeouts of a second and more (Python always uses 300 s); a timeout of 0 ('no timeout') or below a second never connects (refuted). The server's process waits for as many counts as ranks, but returns without an error when its time is over, a restarted rank is counted again, and the other ranks do not wait at all (refuted). Not modelled: the end of the server's process, gloo's full mesh."
  },
  {
   "property": "C88",
   "status": "partial",
   "theorems": [
    "Xoscar.Reach.class_exact",
    "Xoscar.Reach.unknown_scheme_refuted",
    "Xoscar.Reach.own_class",
    "Xoscar.Reach.endpoint_exact",
    "Xoscar.Reach.roundtrip",
    "Xoscar.Reach.socketAddress_inj",
    "Xoscar.Reach.ucx_roundtrip",
    "Xoscar.Reach.ucx_case_refuted",
    "Xoscar.Reach.reaches_own",
    "Xoscar.Reach.reaches_exact",
    "Xoscar.Reach.announces",
    "Xoscar.Reach.reached_is_live",
    "Xoscar.Reach.not_after_end",
    "Xoscar.Reach.create_exact",
    "Xoscar.Reach.start_exact",
    "Xoscar.Reach.overlap_exact",
    "Xoscar.Reach.create_reserves_refuted",
    "Xoscar.Reach.index_read",
    "Xoscar.Reach.index_roundtrip",
    "Xoscar.Reach.dials",
    "Xoscar.Reach.undisturbed",
    "Xoscar.Reach.restart",
    "Xoscar.Reach.own_address",
    "Xoscar.Reach.reached_means",
    "Xoscar.Reach.reached_or_refused",
    "Xoscar.Reach.never_again",
    "Xoscar.Reach.stop_removes",
    "Xoscar.Reach.takeover",
    "Xoscar.Reach.takeover_refuted",
    "Xoscar.Reach.stop_cuts_off_refuted",
    "Xoscar.Reach.bind_exact"
   ],
   "note": "TCP: full. Unix sockets: a server reached at its address as long as no other server uses its index (or a file of another kind its name); two servers with one index take each other's name (refuted). Unknown schemes raise TypeError instead of ValueError, upper-case UCX addresses keep their prefix in the host (refuted). Hosts are canonical IP addresses of one machine; name lookup and timeouts are not modelled."
  },
  {
   "property": "C89",
   "status": "partial",
   "theorems": [
    "Xoscar.Prof.content_expected",
    "Xoscar.Prof.kept_operators",
    "Xoscar.Prof.pop_returns",
    "Xoscar.Prof.sums",
    "Xoscar.Prof.reads",
    "Xoscar.Prof.popped_changes_refuted",
    "Xoscar.Prof.logs_profiled",
    "Xoscar.Prof.loop_ends",
    "Xoscar.Prof.one_logger_partial",
    "Xoscar.Prof.two_loggers_refuted",
    "Xoscar.Prof.through_number",
    "Xoscar.Prof.use_gives"
   ],
   "note": "Data: full (for uses that go through ProfilingData[...]; kept operators act at their place or nowhere). That popped data stay as they are is refuted: kept operators change them. One logging loop is proved if a task is initialised again only when nothing of its earlier loops is left, and refuted in general: the late done-callback of an earlier loop removes the newer loop from the table, pop then does not cancel it and two loops log after the next init. Option parsing, dictionaries given to set and a missing event loop are left out."
  },
  {
   "property": "C90",
   "status": "partial",
   "theorems": [
    "Xoscar.Ids.makes",
    "Xoscar.Ids.one_stream",
    "Xoscar.Ids.first_seed",
    "Xoscar.Ids.later_keeps",
    "Xoscar.Ids.sub_pool_seed",
    "Xoscar.Ids.places_apart",
    "Xoscar.Ids.unique_partial",
    "Xoscar.Ids.fork_refuted",
    "Xoscar.Ids.same_seed_refuted",
    "Xoscar.Ids.port_reseeds_refuted"
   ],
   "note": "Uniqueness is proved under the hypotheses that no process is forked after it made ids and that the 64 bit seeds drawn differ; both are needed: after a fork parent and child make the same ids, and two processes whose users call random.seed alike before the first id make the same ids for ever. The generators themselves (Mersenne Twisters) are parameters; negative lengths are left out."
  },
  {
   "property": "C91",
   "status": "partial",
   "theorems": [
    "Xoscar.InitPg.joined_iff",
    "Xoscar.InitPg.joined",
    "Xoscar.InitPg.other_process",
    "Xoscar.InitPg.refused",
    "Xoscar.InitPg.reasons",
    "Xoscar.InitPg.stays",
    "Xoscar.InitPg.own_data",
    "Xoscar.InitPg.child_refuted",
    "Xoscar.InitPg.device_refuted",
    "Xoscar.InitPg.rank_refuted",
    "Xoscar.InitPg.failed_refuted",
    "Xoscar.InitPg.reasons_args"
   ],
   "note": "Positive part full in the model. Refuted: a process started by one that has joined inherits the environment and silently acts as the parent's rank, with its own buffers never filled; a negative device_id passes if the environment names a device and is then used; ranks outside 0..world-1 are not refused; after an init that failed to connect calls report a missing actor. The connection of the group is an input; the data moved are C62/C85."
  },
  {
   "property": "C92",
   "status": "partial",
   "theorems": [
    "Xoscar.Gpu.context_exact",
    "Xoscar.Gpu.listing",
    "Xoscar.Gpu.no_driver",
    "Xoscar.Gpu.count_exact",
    "Xoscar.Gpu.count_stays",
    "Xoscar.Gpu.count_shown",
    "Xoscar.Gpu.info_index",
    "Xoscar.Gpu.info_stays",
    "Xoscar.Gpu.index_uuid",
    "Xoscar.Gpu.index_uuid_unknown",
    "Xoscar.Gpu.info_uuid_refuted",
    "Xoscar.Gpu.fork_refuted",
    "Xoscar.Gpu.broken_refuted",
    "Xoscar.Gpu.version_iff",
    "Xoscar.Gpu.context_sound",
    "Xoscar.Gpu.index_uuid_library",
    "Xoscar.Gpu.info_library",
    "Xoscar.Gpu.info_negative",
    "Xoscar.Gpu.status_exact",
    "Xoscar.Gpu.status_sound",
    "Xoscar.Gpu.status_unknown",
    "Xoscar.Gpu.status_wsl_partial",
    "Xoscar.Gpu.status_wsl_refuted",
    "Xoscar.Gpu.status_busy_refuted",
    "Xoscar.Gpu.status_fork_refuted",
    "Xoscar.Gpu.status_stale_refuted"
   ],
   "note": "Refuted: in a child forked from a process that had the libraries the call raises TypeError if NVML is gone; a library that could not be initialised once is not tried again; uuid entries in CUDA_VISIBLE_DEVICES make get_device_info raise; entries after one that there is not are counted although CUDA hides them; the count and the information never change again; the CUDA version text is wrong for every minor version but 0. On the Windows subsystem the status is that of the card of CUDA's number, not of the device, and is missing whenever the card says how busy it is; a device NVML does not know by CUDA's uuid has none; a forked child gets the parent's devices, also after it chose others. Not modelled: the other WSL branches, CUDA_DEVICE_ORDER."
  },
  {
   "property": "C93",
   "status": "partial",
   "theorems": [
    "Xoscar.Lazy.names_like_classes_partial",
    "Xoscar.Lazy.broken_blocks",
    "Xoscar.Lazy.broken_stays",
    "Xoscar.Lazy.earlier_names_work",
    "Xoscar.Lazy.registering_import",
    "Xoscar.Lazy.later_registration_refuted",
    "Xoscar.Lazy.unregister_name_refuted",
    "Xoscar.Lazy.unregister_class_refuted",
    "Xoscar.Lazy.pool_needs_all",
    "Xoscar.Lazy.import_runs_once",
    "Xoscar.Lazy.unregister_name_works",
    "Xoscar.Lazy.unregister_class_works",
    "Xoscar.Lazy.reload_all_keeps",
    "Xoscar.Lazy.reload_all_settles"
   ],
   "note": "Proved when all names can be imported and no class is registered both by name and otherwise. Refuted: one name that cannot be imported makes every lookup of a class not itself registered or cached raise, for ever (broken_blocks, broken_stays) and keeps pools from being created (pool_needs_all); an older registration by name overrides a newer one by class; unregistering a resolved name, or the class of an unresolved one, has no effect; a module registering a name while imported makes the lookup raise RuntimeError."
  },
  {
   "property": "C94",
   "status": "partial",
   "theorems": [
    "Xoscar.LazyMod.hooks_once",
    "Xoscar.LazyMod.access_iff",
    "Xoscar.LazyMod.access_ends",
    "Xoscar.LazyMod.access_binds",
    "Xoscar.LazyMod.not_importable",
    "Xoscar.LazyMod.given",
    "Xoscar.LazyMod.placeholder_raises",
    "Xoscar.LazyMod.adding_hook",
    "Xoscar.LazyMod.late_hook_refuted",
    "Xoscar.LazyMod.raising_hook_refuted",
    "Xoscar.LazyMod.touching_hook_refuted",
    "Xoscar.LazyMod.touching_once_refuted",
    "Xoscar.LazyMod.refused_items"
   ],
   "note": "Proved for hooks that just work. Refuted: a hook decorated after the name was bound to the module is never run; a raising hook makes every access through the lazy object raise, the hooks before it running again each time and those after it never; a hook that uses the lazy object recurses for ever, or makes the others run twice. Not modelled: what else a module's import does; the object's own attributes (__class__, __dict__)."
  },
  {
   "property": "C95",
   "status": "partial",
   "theorems": [
    "Xoscar.Raise.classes",
    "Xoscar.Raise.handlers",
    "Xoscar.Raise.text",
    "Xoscar.Raise.origin",
    "Xoscar.Raise.standard",
    "Xoscar.Raise.module_traceback",
    "Xoscar.Raise.attributes",
    "Xoscar.Raise.attributes_only",
    "Xoscar.Raise.passes_on",
    "Xoscar.Raise.answered",
    "Xoscar.Raise.cmember_refuted",
    "Xoscar.Raise.default_refuted",
    "Xoscar.Raise.address_refuted",
    "Xoscar.Raise.repr_refuted",
    "Xoscar.Raise.group_refuted",
    "Xoscar.Raise.blame_refuted",
    "Xoscar.Raise.cancelled_refuted"
   ],
   "note": "Proved: classes, except clauses, arguments, causes, text, origin, instance attributes, slots, class attributes, properties of these. Refuted: members of the C struct (OSError.errno, SystemExit.code) read as never set; an instance attribute with a class default (a dataclass field) reads as the default; an attribute named address or pid is replaced; repr shows no arguments; for an ExceptionGroup, or any class whose __new__ wants arguments or that refuses subclasses, the caller gets a TypeError, later blamed on the wrong pool; a CancelledError loses subclass, arguments and attributes. Not modelled: classes with a __getattr__ or a __new__ that sets state; pickling of the error (C57)."
  },
  {
   "property": "C96",
   "status": "partial",
   "theorems": [
    "Xoscar.Netstat.cols_iff",
    "Xoscar.Netstat.netstat_iff",
    "Xoscar.Netstat.psutil_free",
    "Xoscar.Netstat.psutil_any",
    "Xoscar.Netstat.netstat_free",
    "Xoscar.Netstat.netstat_found",
    "Xoscar.Netstat.v6_refuted",
    "Xoscar.Netstat.path_refuted",
    "Xoscar.Netstat.type_refuted",
    "Xoscar.Netstat.foreign_refuted"
   ],
   "note": "Proved for psutil, and for netstat lines with a dot. Refuted: lines without a dot are skipped, so that on Windows IPv6 listeners are not seen; one line in which a name with a dot precedes the ports (Unix socket paths) makes get_next_port raise ValueError; with netstat the socket type is ignored; where the local endpoint has no port the foreign port is taken. Not modelled: decoding of the output, the endless repetition of a netstat that times out."
  },
  {
   "property": "C97",
   "status": "partial",
   "theorems": [
    "Xoscar.Spawn.started",
    "Xoscar.Spawn.parameters",
    "Xoscar.Spawn.failed",
    "Xoscar.Spawn.removed",
    "Xoscar.Spawn.refused",
    "Xoscar.Spawn.shares_fate",
    "Xoscar.Spawn.orphan",
    "Xoscar.Spawn.ends",
    "Xoscar.Spawn.no_limit_refuted",
    "Xoscar.Spawn.cancel_refuted",
    "Xoscar.Spawn.thread_refuted",
    "Xoscar.Spawn.late_refuted",
    "Xoscar.Spawn.sigint_refuted",
    "Xoscar.Spawn.runs_iff",
    "Xoscar.Spawn.failed_nothing_left"
   ],
   "note": "Proved but for: a cancelled start leaves the sub pool running (refuted); a child that neither ends nor reports makes the start wait for ever (refuted); on Linux the sub pool is killed as soon as the thread that started it ends, although the main process lives (refuted: PR_SET_PDEATHSIG is about threads); a main process that dies between fork and prctl leaves the child until its own check, and the segment for good (refuted); parameters that pickle to 10232 bytes or more are refused, which limits the number of sub pools; SIGINT is blocked in every sub pool whatever suspend_sigint says. The bytes of the segment are C09. Not modelled: Windows; pid reuse (C71)."
  },
  {
   "property": "C98",
   "status": "partial",
   "theorems": [
    "Xoscar.Uv.install_returns",
    "Xoscar.Uv.install_raises",
    "Xoscar.Uv.cancel_ends",
    "Xoscar.Uv.cancel_stops",
    "Xoscar.Uv.cancel_idle",
    "Xoscar.Uv.fails_only_in_a_race",
    "Xoscar.Uv.signals",
    "Xoscar.Uv.signals_running",
    "Xoscar.Uv.cancel_goes_on",
    "Xoscar.Uv.race_refuted",
    "Xoscar.Uv.concurrent_refuted",
    "Xoscar.Uv.early_refuted",
    "Xoscar.Uv.unrecorded_refuted",
    "Xoscar.Uv.late_refuted",
    "Xoscar.Uv.unsignalled_refuted"
   ],
   "note": "Proved for installations that follow each other, but for: cancel_install raises AttributeError when the installation ends while it runs, and only then (refuted, characterized); a cancel during the dry run of skip_installed or between Popen and the record is lost (refuted); it may signal an installation that began after it was called, or wait for one it has not signalled (refuted); with concurrent installations on one manager one that ends hides the others from cancel_install (refuted). Not modelled: asynchronous exceptions."
  },
  {
   "property": "C99",
   "status": "partial",
   "theorems": [
    "Xoscar.Venv.created",
    "Xoscar.Venv.refused",
    "Xoscar.Venv.refused_unchanged",
    "Xoscar.Venv.untouched",
    "Xoscar.Venv.removed",
    "Xoscar.Venv.last_decides",
    "Xoscar.Venv.available",
    "Xoscar.Venv.which_uv",
    "Xoscar.Venv.lib_path",
    "Xoscar.Venv.known",
    "Xoscar.Venv.available_refuted",
    "Xoscar.Venv.python_refuted",
    "Xoscar.Venv.lib_refuted",
    "Xoscar.Venv.python_path_refuted",
    "Xoscar.Venv.remove_refuted",
    "Xoscar.Venv.clear_refuted",
    "Xoscar.Venv.available_set"
   ],
   "note": "Proved but for: is_available looks at PATH while the commands prefer the binary of the package uv, and trusts XOSCAR_UV_PATH blindly (refuted both ways); with an environment there python_path is ignored without a word (refuted); get_lib_path uses the version of the running interpreter, not of the environment's (refuted, characterized); get_python_path answers for any directory (refuted); remove_env ignores errors (refuted); exists='clear' with a failing uv leaves no environment (refuted). Not modelled: Windows (where bin/python is wrong too), links."
  },
  {
   "property": "C100",
   "status": "partial",
   "theorems": [
    "Xoscar.Home.actorRef_leads",
    "Xoscar.Home.actorRef_finds",
    "Xoscar.Home.created_leads_partial",
    "Xoscar.Home.created_then_asked",
    "Xoscar.Home.iterator_leads_partial",
    "Xoscar.Home.fix_text",
    "Xoscar.Home.created_refuted",
    "Xoscar.Home.iterator_refuted",
    "Xoscar.Home.created_replaces_none"
   ],
   "note": "actor_ref proved (with the repair linked to the text function of C35). create_actor and iterators: proved exactly when they lead back — pool bound to a particular host, or used on the actor's own machine; refuted for pools bound to a wildcard used from another machine: create_actor does not repair the address in its result and IteratorWrapper keeps the actor's own address, so calls go to the consumer's own machine, possibly to another actor of the same uid; asking actor_ref afterwards repairs the former. Not modelled: proxies (C58), which IteratorWrapper does not keep either."
  },
  {
   "property": "C101",
   "status": "partial",
   "theorems": [
    "Xoscar.Sizes.parse_iff",
    "Xoscar.Sizes.reads_once",
    "Xoscar.Sizes.word_refuted",
    "Xoscar.Sizes.exponent_refuted",
    "Xoscar.Sizes.nvml_exact",
    "Xoscar.Sizes.wsl_partial",
    "Xoscar.Sizes.wsl_refuted"
   ],
   "note": "Accepted texts characterised exactly. Part of the claim is refuted of the code: any word beginning with a unit's letter is that unit (5 gremlins = 5 GiB; anything before a final percent sign is ignored), numbers with an exponent are refused. Under the Windows subsystem a status is proved only where nvidia-smi writes N/A for utilizations: otherwise int() of an XML element raises TypeError. Not modelled: binary rounding and overflow of floats, digits and white space outside ASCII, the driver calls."
  },
  {
   "property": "C102",
   "status": "partial",
   "theorems": [
    "Xoscar.Bind.call_iff",
    "Xoscar.Bind.decorated_exactly",
    "Xoscar.Bind.bind_iff_partial",
    "Xoscar.Bind.bind_refuses_partial",
    "Xoscar.Bind.either_way",
    "Xoscar.Bind.replay",
    "Xoscar.Bind.slash_refuted",
    "Xoscar.Bind.underscore_refuted"
   ],
   "note": "Proved for all signatures and calls, but for: a keyword argument with the name of a positional-only parameter (refuted: bind accepts it where the method does not, and refuses it where **kw would take it); methods with a parameter that begins with an underscore cannot be decorated (refuted, characterized). Functions implemented in C, for which the binder may be None, are not modelled."
  },
  {
   "property": "C103",
   "status": "partial",
   "theorems": [
    "Xoscar.NoLock.plain_exact",
    "Xoscar.NoLock.extensible_exact",
    "Xoscar.NoLock.override_exact",
    "Xoscar.NoLock.inherited",
    "Xoscar.NoLock.above_refuted",
    "Xoscar.NoLock.batch_mark_refuted",
    "Xoscar.NoLock.generator_refuted"
   ],
   "note": "Exact characterization proved. Part of the claim is refuted of the code: no_lock above @extensible or @m.batch does nothing; a mark on the batch implementation unlocks the single method too (and the other way round); on an async generator method it has no effect. What holding the lock means is C14 to C16."
  },
  {
   "property": "C104",
   "status": "partial",
   "theorems": [
    "Xoscar.UcxInit.context_iff",
    "Xoscar.UcxInit.environment_kept",
    "Xoscar.UcxInit.once",
    "Xoscar.UcxInit.settings_partial",
    "Xoscar.UcxInit.settings_refuted"
   ],
   "note": "CUDA context, environment and once-only proved in full. That UCX has the settings asked for is refuted (settings_refuted); settings_partial says exactly when it does: only if each was in the external environment already. Assumes that UCX reads options given to ucp.init and the C environment only."
  },
  {
   "property": "C105",
   "status": "partial",
   "theorems": [
    "Xoscar.AioEvent.is_set_exact",
    "Xoscar.AioEvent.true_means_set",
    "Xoscar.AioEvent.false_means_late",
    "Xoscar.AioEvent.at_most_once",
    "Xoscar.AioEvent.set_wakes",
    "Xoscar.AioEvent.given_up_early",
    "Xoscar.AioEvent.all_end_partial",
    "Xoscar.AioEvent.exhausting",
    "Xoscar.AioEvent.pulse_missed_refuted",
    "Xoscar.AioEvent.given_up_stays_refuted",
    "Xoscar.AioEvent.exhausted_refuted",
    "Xoscar.AioEvent.mp_false_refuted"
   ],
   "note": "What a wait returns, that a set wakes the waits that have reached a thread, and that everything ends as long as every wait has a time limit or its event is set: proved. Refuted: a wait still in the executor's queue misses a set that is cleared at once; a cancelled wait keeps its thread until the event is set, and as many of them as the executor has threads stop all large messages and file operations of the process; a multiprocessing.Event may give False without a time limit."
  },
  {
   "property": "C106",
   "status": "partial",
   "theorems": [
    "Xoscar.Mlx.arrives",
    "Xoscar.Mlx.arrives_iff",
    "Xoscar.Mlx.name_refuted",
    "Xoscar.Mlx.format_refuted",
    "Xoscar.Mlx.length_checked"
   ],
   "note": "Proved for every layout, exactly for the types MLX has under the name it prints for them. Refuted: a type whose printed name is no attribute of mlx.core (bool is printed so, the attribute is bool_, as far as known without MLX here) is sent but can never be received; the conversion of buffers with another format (mlx.py 60-63) always fails: the numpy type it computes is then looked up as an attribute name. MLX's own operations (reshape, view) are taken as documented."
  }
 ]
}