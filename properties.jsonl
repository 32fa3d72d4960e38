{"id": "C01", "title": "Serialization round trip", "statement": "For every value built from None, numbers, bytes, str, tuples, lists and dicts (nested arbitrarily, with sub-objects shared between several places), deserialize(*serialize(v)) succeeds and returns a value structurally equal to v.", "quantifier": "every finite acyclic object graph, of any depth, width and sharing pattern, including strings/bytes on both sides of the 1024 inlining limit", "why_tests_cant": "the space of object graphs is infinite; the encoder flattens headers/buffers and inlines short leaves, so a boundary or offset bug shows only for particular shapes", "anchors": ["python/xoscar/serialization/core.pyx: serialize, deserialize, _serialize_with_stack, _deserial_single, CollectionSerializer, TupleSerializer, ListSerializer, DictSerializer, StrSerializer, BytesSerializer"]}
{"id": "C02", "title": "Shared objects stay shared", "statement": "If the same tuple, list, non-empty dict or other object occurs several times inside a value, then after a serialize/deserialize round trip all those occurrences are again one object, and different objects stay different objects. (An empty plain dict is the exception: each occurrence becomes a dict of its own.)", "quantifier": "every acyclic object graph, every pair of access paths to such objects in it", "why_tests_cant": "sharing depends on the global order in which ids are handed out across the whole graph", "anchors": ["python/xoscar/serialization/core.pyx: _serial_single, Placeholder, PlaceholderSerializer, _deserial_single"]}
{"id": "C03", "title": "Incremental (spawned) serialization is equivalent to serialization", "statement": "serialize_with_spawn yields, whatever the switch threshold and however often serialization is suspended and resumed, the same headers and buffers as serialize, apart from the extra item-count entry in the meta dict, and both deserialize to the same value.", "quantifier": "every value and every suspend threshold", "why_tests_cant": "the suspend point can fall between any two items of any graph", "anchors": ["python/xoscar/serialization/core.pyx: _SerialStackItem, _serialize_with_stack, serialize, serialize_with_spawn"]}
{"id": "C04", "title": "Self-referential values survive a round trip", "statement": "A list or dict that (transitively) contains itself is deserialized to a value with the same cyclic shape: the back reference points to the deserialized container itself.", "quantifier": "every finite object graph whose cycles go through lists or dicts", "why_tests_cant": "needs all cyclic graphs; the id handed to a back reference depends on everything serialized before", "anchors": ["python/xoscar/serialization/core.pyx: DictSerializer.serial (empty dict fast path), _serial_single ordered_id, _deserial_single callbacks"]}
{"id": "C05", "title": "Message round trip", "statement": "For each message type (control, result, error, create/has/destroy actor, actor ref, send, tell, cancel, forward, copy-to-buffers, copy-to-fileobjs), the receiver rebuilds a message with the same type, id, protocol, trace, profiling context and type-specific fields, including a message carried inside a forward message.", "quantifier": "every message of every type, every field value, forward messages nested to any depth", "why_tests_cant": "fields are positional and read back from the tail of the header, so any optional/variable-length prefix or nested message can shift them", "anchors": ["python/xoscar/backends/message.pyx: _MessageBase.serial/deserial and all subclasses, MessageSerializer"]}
{"id": "C06", "title": "Undecodable payload is reported against its own message id", "statement": "If the payload of a received message cannot be deserialized, the receiver raises DeserializeMessageFailed carrying exactly the id of the message being decoded, so the failure can be sent back to its caller; a message with an unsupported protocol is rejected.", "quantifier": "every message, every position of the failing sub-object in its object graph", "why_tests_cant": "failure can occur at any nesting depth and buffer position", "anchors": ["python/xoscar/backends/message.pyx: MessageSerializer.deserial, on_deserial_error", "python/xoscar/serialization/core.pyx: deserialize (on_deserial_error loop)"]}
{"id": "C07", "title": "Wire framing round trip", "statement": "What is written on a connection for a sequence of messages is read back as exactly that sequence of (header, buffers), with every buffer boundary restored, and a frame with a foreign version byte is refused rather than misparsed.", "quantifier": "every sequence of messages, any number and size of buffers including empty ones, any trailing bytes", "why_tests_cant": "boundaries are recovered only from lengths in the stream; every size combination must work", "anchors": ["python/xoscar/serialization/aio.py: AioSerializer._get_buffers, AioDeserializer, get_header_length", "python/xoscar/backends/communication/utils.py: write_buffers, read_buffers"]}
{"id": "C08", "title": "Concurrent senders do not interleave frames", "statement": "When several tasks send on the same socket channel concurrently, the byte stream is a concatenation of whole frames (each message contiguous), so the receiver obtains some permutation of the sent messages, each intact, with the order of one sender's messages kept. A send that is cancelled is sent whole or not at all and takes nothing from the others.", "quantifier": "every number of senders, every interleaving of the event loop at await points, every moment of cancelling a send", "why_tests_cant": "scheduling dependent", "anchors": ["python/xoscar/backends/communication/socket.py: SocketChannel.send, recv"]}
{"id": "C09", "title": "Start-up handshake is never torn", "statement": "A parent polling the start-up shared memory of a sub pool process sees either nothing or exactly the complete payload the child wrote, no matter at which point between two elementary memory writes the child is observed or dies; payloads that do not fit are refused before anything is written.", "quantifier": "every payload, every crash/observation point inside the write, every previous content with a different sequence tag", "why_tests_cant": "crash points between individual stores are not reachable from unit tests", "anchors": ["python/xoscar/backends/indigen/pool.py: _shm_put_object, _shm_get_object"]}
{"id": "C10", "title": "copy_to delivers every byte to the right place", "statement": "copy_to(local_buffers, remote_buffer_refs) leaves each remote buffer holding exactly the bytes of the corresponding local buffer, independently of block_size and of how sizes relate to it.", "quantifier": "every list of buffers (any sizes, including empty), every positive block size, when the peer accepts the writes", "why_tests_cant": "block splitting depends on all size/offset combinations", "anchors": ["python/xoscar/backends/context.py: IndigenActorContext.copy_to_buffers", "python/xoscar/backends/pool.py: process_copy_to_buffers_message", "python/xoscar/context.pyx: ClientActorContext.copy_to"]}
{"id": "C11", "title": "copy_to blocks respect block_size", "statement": "No message sent by copy_to carries more than block_size bytes of buffer data.", "quantifier": "every list of buffer sizes and every block size", "why_tests_cant": "the overflow needs specific size sequences, and its amount is unbounded", "anchors": ["python/xoscar/backends/context.py: copy_to_buffers (current_buf_size)"]}
{"id": "C12", "title": "copy_to success means the data was written", "statement": "If copy_to returns normally then every remote write succeeded; a failure to write at the receiver is reported to the caller.", "quantifier": "every subset of blocks whose write fails at the receiver", "why_tests_cant": "needs fault injection on each block of each transfer", "anchors": ["python/xoscar/backends/context.py: copy_to_buffers, copy_to_fileobjs, _call_send_buffers"]}
{"id": "C13", "title": "copy_to to file objects appends whole contents in order", "statement": "copying local files to remote file objects writes to each remote file the whole local content, in order, whatever the block size.", "quantifier": "all file contents, numbers of files and block sizes", "why_tests_cant": "chunk boundaries at file ends", "anchors": ["python/xoscar/backends/context.py: copy_to_fileobjs", "python/xoscar/backends/pool.py: process_copy_to_file_objects_message"]}
{"id": "C14", "title": "Actor methods are mutually exclusive", "statement": "Of all ordinary calls to one (stateful) actor, at most one is executing a lock-holding section at any time, in every interleaving, also when calls fail or are cancelled while running or while waiting.", "quantifier": "every set of concurrent calls, every interleaving, exception and cancellation", "why_tests_cant": "scheduling dependent", "anchors": ["python/xoscar/core.pyx: _BaseActor.__on_receive__, _run_actor_async_generator, _create_lock"]}
{"id": "C15", "title": "The actor lock is always released and granted in arrival order", "statement": "A call that ends (normally, by exception or by cancellation) leaves the lock free or hands it to the longest waiting caller; when no call is running or suspended the next call starts without waiting; no waiting call is lost.", "quantifier": "every history of calls, completions, exceptions and cancellations", "why_tests_cant": "leaks occur only after particular exception/cancellation histories", "anchors": ["python/xoscar/core.pyx: __on_receive__, _async_group / lock usage"]}
{"id": "C16", "title": "Yielding methods release the actor between yields", "statement": "A method written as an async generator runs each stretch between yields atomically with respect to the actor's other calls, lets other calls run while the yielded awaitable is pending, gets back the awaited value (or its exception thrown in) at the yield, and the call's result is the value given by `raise Return(v)`, or None when the generator just ends, or the exception it raises.", "quantifier": "every generator behaviour (any number of yields, exceptions at any yield), every result of the yielded awaitables", "why_tests_cant": "protocol between generator and runner quantifies over all generator behaviours", "anchors": ["python/xoscar/core.pyx: _run_actor_async_generator"]}
{"id": "C17", "title": "Tuple results are awaited in place", "statement": "When an actor method returns a tuple in which some elements are awaitables, the caller gets the tuple of the same length in which every awaitable is replaced by its own result and other elements are unchanged; if one fails the first failure is raised.", "quantifier": "every tuple, every placement of awaitables, every outcome of each", "why_tests_cant": "depends on the position pattern of awaitables", "anchors": ["python/xoscar/core.pyx: _handle_actor_result"]}
{"id": "C18", "title": "Batch calls agree with one-by-one calls", "statement": "ref.method.batch(d1..dn) returns the list of the n results in order, equal to what n separate calls give when the method has only a single-call implementation, and equal to what the batch implementation gives for the whole list otherwise; zero delays give an empty list without calling the method's single version.", "quantifier": "every list of delayed calls, any mixture of args/kwargs, any single/batch implementation", "why_tests_cant": "all argument shapes and lengths", "anchors": ["python/xoscar/batch.py: _ExtensibleCallable, _ExtensibleWrapper, build_args_binder", "python/xoscar/core.pyx: ActorRefMethod.batch, __pyx_actor_method_wrapper"]}
{"id": "C19", "title": "A batch may only contain calls of one method", "statement": "Building a batch from delays of different methods is rejected with ValueError before anything is sent; otherwise the single message carries all argument lists in order.", "quantifier": "every list of delayed calls", "why_tests_cant": "arbitrary lists", "anchors": ["python/xoscar/core.pyx: ActorRefMethod.batch"]}
{"id": "C20", "title": "Replies reach the caller that asked", "statement": "A pending call is completed only with the reply carrying its own message id (or with an error), and at most once; replies arriving in any order never complete another call.", "quantifier": "every number of concurrent calls, every order of replies, losses, duplicates, cancellations", "why_tests_cant": "reply order and connection failures are schedule dependent", "anchors": ["python/xoscar/backends/core.py: ActorCallerThreadLocal._listen, call_with_client"]}
{"id": "C21", "title": "No caller hangs when the connection dies", "statement": "When the connection to a peer is closed or fails, every call still pending on it is completed with ServerClosed.", "quantifier": "every set of pending calls (some possibly cancelled by their callers), every point at which the connection dies", "why_tests_cant": "requires every combination of cancelled and pending calls at the failure point", "anchors": ["python/xoscar/backends/core.py: ActorCallerThreadLocal._listen"]}
{"id": "C22", "title": "An actor uid is used at most once per pool", "statement": "In one pool, for every uid at most one live actor exists; a create with a uid in use fails with ActorAlreadyExist and leaves the existing actor untouched; after a successful destroy the uid can be reused and messages to it fail with ActorNotExist.", "quantifier": "every interleaving of concurrent create/destroy/send/has/ref requests", "why_tests_cant": "scheduling dependent", "anchors": ["python/xoscar/backends/pool.py: ActorPoolBase.create_actor, destroy_actor, has_actor, actor_ref, send"]}
{"id": "C23", "title": "Failed creation leaves nothing behind", "statement": "If create_actor fails (its __post_create__ raises or is cancelled) no actor with that uid exists afterwards and the uid can be used again.", "quantifier": "every failing create in every history", "why_tests_cant": "needs every history", "anchors": ["python/xoscar/backends/pool.py: ActorPoolBase.create_actor"]}
{"id": "C24", "title": "Destroy is exclusive", "statement": "Of several concurrent destroy requests for one actor exactly one succeeds, the hook __pre_destroy__ runs exactly once for it, and the others report ActorNotExist.", "quantifier": "every interleaving of concurrent destroys", "why_tests_cant": "scheduling dependent", "anchors": ["python/xoscar/backends/pool.py: ActorPoolBase.destroy_actor"]}
{"id": "C25", "title": "The main pool's directory agrees with the sub pools", "statement": "has_actor / actor_ref asked at the main pool's address answer exactly according to the actors successfully created and not yet destroyed in the pool and its sub pools, wherever they were created from.", "quantifier": "every history of create/destroy requests issued at the main pool or directly at sub pools, with successes and failures", "why_tests_cant": "histories", "anchors": ["python/xoscar/backends/pool.py: MainActorPoolBase.create_actor/destroy_actor/has_actor/actor_ref/handle_control_command, SubActorPoolBase.create_actor/destroy_actor"]}
{"id": "C26", "title": "Idle-label allocation never doubles up", "statement": "Two live actors created with the same idle-label strategy never share a process; when every labelled process is taken creation fails with NoIdleSlot, and otherwise an idle labelled process is always found.", "quantifier": "every history of creates and destroys, including concurrent ones", "why_tests_cant": "histories and interleavings", "anchors": ["python/xoscar/backends/allocate_strategy.py: IdleLabel", "python/xoscar/backends/pool.py: MainActorPoolBase.create_actor"]}
{"id": "C27", "title": "Allocation strategies honour their contract", "statement": "Each allocation strategy returns an address that satisfies it: the specified address (unchecked), the main pool, some process, some sub process only, the process with the index, some process with the label; every qualifying address can be chosen, and it fails with a definite error exactly when none exists.", "quantifier": "every pool configuration, every random choice", "why_tests_cant": "all configurations and choices", "anchors": ["python/xoscar/backends/allocate_strategy.py"]}
{"id": "C28", "title": "Pool configuration lookups are consistent", "statement": "After any sequence of adding/removing/re-addressing sub pools, the external->internal mapping, process indices, label queries and external address list all describe exactly the current pools.", "quantifier": "every sequence of configuration edits", "why_tests_cant": "sequences", "anchors": ["python/xoscar/backends/config.py: ActorPoolConfig"]}
{"id": "C29", "title": "Router resolves addresses as configured", "statement": "get_internal_address gives the local mapping if any, otherwise the router mapping, otherwise nothing; adding a router and removing it again (with fresh keys) restores the previous resolution; the client cache never hands out a closed client and keys on the requested address and thread.", "quantifier": "every sequence of add/remove router and client requests", "why_tests_cant": "sequences", "anchors": ["python/xoscar/backends/router.py: Router"]}
{"id": "C30", "title": "A removed sub pool is no longer routable", "statement": "After remove_sub_pool the address of the removed pool is no longer resolved by the pool's router.", "quantifier": "every configuration and removed pool", "why_tests_cant": "aliasing between configuration and router is only visible for particular call orders", "anchors": ["python/xoscar/backends/pool.py: _sync_pool_config", "python/xoscar/backends/indigen/pool.py: remove_sub_pool", "python/xoscar/backends/router.py: remove_router"]}
{"id": "C31", "title": "Proxy selection", "statement": "Proxy for an address: exact entry first, then its host entry, then '*', never the address itself; the proxy chain from an address is the iteration of this choice and is produced in finite time for every configuration.", "quantifier": "every proxy configuration (including cyclic ones) and every address", "why_tests_cant": "termination for all configurations", "anchors": ["python/xoscar/backends/router.py: get_proxy, get_proxies"]}
{"id": "C32", "title": "Process indices are unique", "statement": "Every sub pool process index handed out by a main pool is different from all those handed out before, in that pool and in other pools on the same host.", "quantifier": "all pids and counts", "why_tests_cant": "arithmetic over all pids", "anchors": ["python/xoscar/backends/pool.py: MainActorPoolBase.process_index_gen"]}
{"id": "C33", "title": "External addresses of a new pool", "statement": "A pool created with n sub processes gets n+1 external addresses, all on the given host: with an explicit address the main pool uses that port, given ports are used in order, missing ones are chosen by the system, mismatching numbers of ports or schemes are rejected, and each address carries its requested scheme.", "quantifier": "every address spec, n and port list, every set of occupied ports", "why_tests_cant": "all inputs", "anchors": ["python/xoscar/backends/indigen/pool.py: get_external_addresses", "python/xoscar/utils.py: get_next_port"]}
{"id": "C34", "title": "Allocated ports are free and distinct", "statement": "get_next_port returns a port in the permitted range that is not occupied and, within a process, not one returned before unless it wraps around; if none is free it raises the documented error.", "quantifier": "all sets of occupied ports, all earlier allocations", "why_tests_cant": "all sets of occupied ports", "anchors": ["python/xoscar/utils.py: get_next_port"]}
{"id": "C35", "title": "Wildcard address repair", "statement": "A reply address with a wildcard host (0.0.0.0 or ::) is replaced by the host the caller connected to with the port kept, and any other address is left alone; the scheme is preserved.", "quantifier": "all address strings", "why_tests_cant": "all strings", "anchors": ["python/xoscar/utils.py: is_zero_ip, fix_all_zero_ip"]}
{"id": "C36", "title": "Actor references are values", "statement": "Two actor references are equal iff they denote the same address and uid (str and bytes forms of a uid being the same); equality is an equivalence compatible with hash; conversions str<->bytes are inverse.", "quantifier": "all references", "why_tests_cant": "equivalence laws over all triples", "anchors": ["python/xoscar/core.pyx: ActorRef.__eq__/__hash__", "python/xoscar/_utils.pyx: to_binary, to_str, create_actor_ref"]}
{"id": "C37", "title": "Type dispatch picks the most specific handler", "statement": "The handler used for an object is the one registered for the first class in the MRO of its type that has one, at all times after registrations and un-registrations in any order.", "quantifier": "every class hierarchy and every sequence of register/unregister/get", "why_tests_cant": "stale cache entries appear only for specific orders", "anchors": ["python/xoscar/_utils.pyx: TypeDispatcher"]}
{"id": "C38", "title": "Unregistering one serializer does not affect others", "statement": "After unregistering the serializer of one type, values of every other registered type still round trip.", "quantifier": "every sequence of register/unregister", "why_tests_cant": "sequences; several types may share a serializer", "anchors": ["python/xoscar/serialization/core.pyx: Serializer.register, unregister"]}
{"id": "C39", "title": "LRU cache is transparent and bounded", "statement": "An alru_cache-decorated coroutine function returns for each key the result of one of its own evaluations for this key; holds at most maxsize entries, evicts the least recently used one; a failed or cancelled evaluation is not served again when cache_exceptions is off; hits+misses counts calls.", "quantifier": "every sequence of calls, completions, failures, cancellations, invalidations", "why_tests_cant": "sequences", "anchors": ["python/xoscar/aio/lru.py: alru_cache"]}
{"id": "C40", "title": "Remote iteration yields exactly the producer's items", "statement": "Iterating over a generator returned by an actor yields the producer's items in order, then stops; if the producer raises, the consumer sees that error at the same position; after the end the producer is released.", "quantifier": "every producer (any number of items, ending by exhaustion or any error)", "why_tests_cant": "all producers and error texts", "anchors": ["python/xoscar/api.py: IteratorWrapper, Actor.__xoscar_next__"]}
{"id": "C41", "title": "Errors keep their identity", "statement": "The error a caller sees for a failed call is an instance of the remote error's class, carries the remote address and pid once (wrapping is not repeated over several hops), has the remote error's text, and CancelledError stays CancelledError.", "quantifier": "every error, every number of hops", "why_tests_cant": "number of hops", "anchors": ["python/xoscar/backends/message.pyx: ErrorMessage.as_instanceof_cause", "python/xoscar/utils.py: wrap_exception"]}
{"id": "C42", "title": "Percentile metric", "statement": "Percentile(p, window, cb) calls cb once per window of observations, with the order statistic of that window at the given percentile.", "quantifier": "every stream of values, every window and percentile", "why_tests_cant": "all streams", "anchors": ["python/xoscar/metrics/api.py: Percentile"]}
{"id": "C43", "title": "Slow call report keeps the slowest calls", "statement": "The profiling summary of slow calls holds at most 10 entries, each above the threshold, and they are the slowest ones observed.", "quantifier": "every sequence of observed call durations", "why_tests_cant": "sequences", "anchors": ["python/xoscar/profiling.py: _CallStats.collect"]}
{"id": "C44", "title": "Deadlock warning on cyclic calls", "statement": "With the debug option on, a send to an actor that is already on the chain of callers of the current message is flagged, and a send to an actor that is not on the chain is never flagged; the trace recorded is exactly the call chain.", "quantifier": "every chain of nested sends", "why_tests_cant": "all chains", "anchors": ["python/xoscar/debug.py: record_message_trace, detect_cycle_send"]}
{"id": "C45", "title": "Crash recovery recreates the actors", "statement": "With auto_recover='actor', after a sub process is lost and restarted every actor that was allocated on it is created again on it (one failing re-creation does not prevent the others), and those waiting for the recovery are woken only after it finished.", "quantifier": "every set of allocated actors, every subset of failing re-creations, every loss pattern", "why_tests_cant": "fault patterns", "anchors": ["python/xoscar/backends/indigen/pool.py: recover_sub_pool", "python/xoscar/backends/pool.py: monitor_sub_pools, process_sub_pool_lost"]}
{"id": "C46", "title": "Cancelling a call", "statement": "Cancelling a caller's await cancels the remote running call and raises CancelledError (or the remote's result if already finished); a call that is not running answers CannotCancelTask and other calls are never affected.", "quantifier": "every interleaving of the cancel with the call's progress", "why_tests_cant": "races", "anchors": ["python/xoscar/backends/pool.py: ActorPoolBase.cancel, _run_coro, process_message", "python/xoscar/backends/context.py: _wait"]}
{"id": "C47", "title": "Collective groups agree across ranks", "statement": "Every member of a new group computes the same group name and its group rank is its position among the sorted members, so ranks form 0..n-1 without duplicates; out-of-range or oversized rank lists are rejected on every rank alike.", "quantifier": "every world size, rank list (any order) and rank", "why_tests_cant": "all rank lists", "anchors": ["python/xoscar/collective/core.py: RankActor.new_group"]}
{"id": "C48", "title": "Every request gets exactly one reply", "statement": "Each request message received by a pool leads to exactly one reply with the request's id, carrying the value its own handler returned, or the exception or cancellation it ended with; if the reply cannot be sent for another reason than a closed connection, an error reply is attempted once. Only a closed connection, two failed sends, or a message that cancels its own id leave a request without a reply; messages that are not requests are never answered.", "quantifier": "every request, handler outcome (value, exception, cancellation) and send failure", "why_tests_cant": "fault combinations", "anchors": ["python/xoscar/backends/pool.py: process_message, _send_channel, _ErrorProcessor, _run_coro"]}
{"id": "C49", "title": "Pool life cycle", "statement": "start is idempotent-safe and ordered: a pool can be started once, stopped any number of times, never restarted after stop, and join returns exactly after stop.", "quantifier": "every sequence of start/stop/join", "why_tests_cant": "sequences", "anchors": ["python/xoscar/backends/pool.py: AbstractActorPool.start, stop, join"]}
{"id": "C50", "title": "Retry wrapper", "statement": "retry_callable calls the function until it succeeds or the allowed attempts are used, sleeping between attempts; only listed exceptions are retried, others surface at once, and the last exception is raised when attempts are exhausted, for sync and async functions alike.", "quantifier": "every outcome sequence and retry bound", "why_tests_cant": "sequences", "anchors": ["python/xoscar/utils.py: retry_callable"]}
{"id": "C51", "title": "Messages on an in-process channel", "statement": "A dummy (in-process) channel delivers messages in order, exactly once, to the peer; after close, send and recv fail with ChannelClosed and messages are not lost before close.", "quantifier": "every sequence of send/recv/close on both ends", "why_tests_cant": "sequences", "anchors": ["python/xoscar/backends/communication/dummy.py: DummyChannel"]}
{"id": "C52", "title": "Collective TCP store", "statement": "The rendezvous store used by collective groups behaves as an atomic map: get after set returns the last value, add is atomic and returns the running sum, compare-set replaces only on match, wait returns only when all keys exist.", "quantifier": "every interleaving of client operations", "why_tests_cant": "interleavings", "anchors": ["cpp/collective/rendezvous/src/tcp_store.cpp: TCPStoreMasterDaemon"]}
{"id": "C53", "title": "NumPy arrays survive a round trip", "statement": "Sending a NumPy array without Python objects delivers an array of the same shape and dtype with the same bytes in every element, whatever the memory layout (C or Fortran order, transposed, reversed, broadcast, strided or overlapping views, 0-d, empty); contiguous arrays keep their strides; only the elements are sent, not the memory behind a view. A record dtype whose fields overlap, or with nested fields out of order, is refused when sending; reordered fields arrive in the same order.", "quantifier": "all shapes, strides, offsets, memory contents and dtypes (records nested to any depth)", "why_tests_cant": "unbounded layouts and dtypes", "anchors": ["python/xoscar/serialization/numpy.py: NDArraySerializer"]}
{"id": "C54", "title": "Sparse matrices survive a round trip", "statement": "Sending a SciPy CSR matrix delivers a matrix with the same data, indices, indptr and shape.", "quantifier": "all matrices, any number of buffers per part", "why_tests_cant": "unbounded sizes", "anchors": ["python/xoscar/serialization/scipy.py: CsrMatrixSerializer"]}
{"id": "C55", "title": "Tensors survive a round trip", "statement": "Sending a PyTorch tensor (main memory or GPU) or a CuPy array delivers a tensor with the same shape, dtype, elements and requires_grad flag, for every layout.", "quantifier": "all shapes, strides, storage offsets, storages", "why_tests_cant": "unbounded layouts; GPU paths cannot run in CI", "anchors": ["python/xoscar/serialization/torch.py: TorchTensorSerializer", "python/xoscar/serialization/cuda.py: CupySerializer"]}
{"id": "C56", "title": "Buffers reach the socket whole", "statement": "The bytes put on a TCP or Unix connection are exactly the bytes of the buffers of the messages sent, in order, however the kernel splits the writes.", "quantifier": "every sequence of buffers and every pattern of partial writes", "why_tests_cant": "partial writes depend on kernel buffers and load", "anchors": ["python/xoscar/backends/communication/utils.py: write_buffers", "python/xoscar/backends/communication/socket.py: SocketChannel.send"]}
{"id": "C57", "title": "Unsendable errors and results are reported", "statement": "A call whose error or result cannot be sent back still ends with an error: an exception that can be pickled arrives as itself, one that cannot arrives as UnpickleableError with its class and text, any other failure to send is reported as SendMessageFailed with the cause, a reply that cannot be decoded is reported to the caller.", "quantifier": "all exception and result classes, whatever they do when pickled, rebuilt or printed", "why_tests_cant": "user classes are arbitrary code", "anchors": ["python/xoscar/serialization/exception.py: ExceptionSerializer", "python/xoscar/backends/pool.py: AbstractActorPool._send_channel"]}
{"id": "C58", "title": "Calls through proxies", "statement": "A call made with a reference reaches the pool that serves its address, through whatever proxies are configured on the way, is processed there once and unchanged, and its reply comes back under the id of the call (or the caller is told that a connection failed). Cancelling the call, killing the actor and waiting for the recovery of its pool act on that pool and on no other.", "quantifier": "all sets of pools with any routers, proxy configurations (exact, host, wildcard), proxy lists on references, connectivity, and chains of proxies of any length", "why_tests_cant": "whether a message ends up in the right pool depends on the routing tables of every pool on the way; the tests use one proxy between two pools", "anchors": ["python/xoscar/backends/core.py: ActorCallerThreadLocal.call", "python/xoscar/backends/router.py: Router.get_client", "python/xoscar/backends/pool.py: AbstractActorPool.forward, handle_control_command, MainActorPoolBase.handle_control_command, cancel", "python/xoscar/backends/context.py: kill_actor, cancel, wait_actor_pool_recovered"]}
{"id": "C59", "title": "A new pool has the configuration asked for", "statement": "create_actor_pool rejects lists of the wrong length and unknown auto_recover values with ValueError before doing anything; otherwise, when its processes start, every process has exactly the label, environment and internal address asked for it and is listed under the address it really listens on, the main pool knows every sub process under its address, and all sub pools agree with the main pool about the configuration, however many of them were given the same address with port 0.", "quantifier": "all numbers of sub pools, all lists of labels, environments, schemes and internal-address flags, all requested addresses (with shared placeholders) and all addresses the operating system may assign", "why_tests_cant": "tests start pools with a few processes and default lists; off-by-one between the list for sub pools and the list for all pools, or placeholders shared by several sub pools, show only for particular combinations", "anchors": ["python/xoscar/backends/pool.py: create_actor_pool, MainActorPoolBase.create, _update_stored_addresses", "python/xoscar/backends/indigen/pool.py: gen_internal_address"]}
{"id": "C60", "title": "Sub pools come and go without traces", "statement": "A failed start of a pool leaves no process of it running. After any sequence of append_sub_pool and remove_sub_pool, successful or not and overlapping, new actors are placed only in pools that run, removal affects only the sub pool named, and actors of a removed sub pool do not exist any more.", "quantifier": "all histories of append_sub_pool, remove_sub_pool and actor creation, in any interleaving and with any of the starts failing", "why_tests_cant": "failures while several processes start, and overlapping appends, are not exercised by tests; what is left behind shows only later", "anchors": ["python/xoscar/backends/indigen/pool.py: MainActorPool.wait_sub_pools_ready, append_sub_pool, remove_sub_pool", "python/xoscar/backends/pool.py: MainActorPoolBase.create, has_actor"]}
{"id": "C61", "title": "wait_for", "statement": "wait_for(call, timeout) returns the value of the call or raises its exception when the call ends in time, raises TimeoutError when the time is up whether or not the called pool still reacts, and then cancels the call once. A call that has ended already gives its result at once, and cancelling the task that waits in wait_for cancels the call too.", "quantifier": "all orders in which the call ends, its callback runs, the timer fires and the caller is cancelled; all outcomes of the call, including exceptions of any class; all timeouts including none and 0", "why_tests_cant": "the interesting cases are races between the timer, the end of the call and cancellation; a test pins one order", "anchors": ["python/xoscar/api.py: wait_for"]}
{"id": "C62", "title": "Collective operations move the right data", "statement": "With backend gloo, when all ranks of a group call reduce, allreduce, gather, allgather, scatter, reduce_scatter, alltoall or broadcast with arrays of the documented sizes, recv_data holds exactly the documented result on the ranks that receive (elementwise reduction with the named operator; concatenation in rank order; part r of every rank's array; the root's array), and no other byte of any rank's memory changes. Arguments the operation cannot handle are refused.", "quantifier": "all group sizes, array sizes, element types, contents, roots, addresses of the buffers and reductions", "why_tests_cant": "tests use groups of two or three, one type and small arrays, and never look at the memory beside recv_data", "anchors": ["python/xoscar/collective/process_group.py: ProcessGroupGloo", "python/xoscar/collective/common.py: TypeMappingGloo, ReduceOpMappingGloo", "python/xoscar/collective/utils.py: convert_data_to_np_array", "cpp/collective/gloo/src/*.cc", "cpp/collective/gloo/include/collective.h: toFunction"]}
{"id": "C63", "title": "Extended requirement markers are evaluated correctly", "statement": "An extended marker of a requirement (comparisons of environment values such as cuda_version, cuda_arch, has_cuda with literals, joined by and/or/not) is true exactly when its Python meaning is: versions are compared as versions, sm_NN as numbers, true/false as truth values, a chained comparison holds when all its links do, and operands an and/or does not need do not matter. A marker that has a meaning never raises.", "quantifier": "all markers of any depth, all environments and all literals", "why_tests_cant": "tests try a handful of markers on one machine; nesting, chains and machines without a GPU make the domain infinite", "anchors": ["python/xoscar/virtualenv/core.py: eval_custom_marker, _normalize, _parse_cuda_arch"]}
{"id": "C64", "title": "Requirements are processed faithfully", "statement": "The list of packages handed to a virtual environment's install_packages becomes, item by item and in order: #system_x# is x== the installed version without build metadata; an item whose marker is false is left out; an item whose marker is true (or that has none) keeps its name, extras, version specifier and URL; #var# in a marker is replaced by the literal of the variable, whatever the order of the variables. An item that cannot be read is an error, never dropped.", "quantifier": "all lists, markers, variables and values, all answers of the packaging library", "why_tests_cant": "tests use a few fixed lists; combinations of extras, URLs, markers and values with special characters are unbounded", "anchors": ["python/xoscar/virtualenv/core.py: VirtualEnvManager.process_packages, substitute_variables, filter_requirements", "python/xoscar/virtualenv/utils.py: is_vcs_url"]}
{"id": "C65", "title": "install_packages installs what is required and no more", "statement": "With skip_installed, after install_packages returns every requirement of the list holds in the environment (the packages of the system together with the newly installed ones), including extras, URLs and dependencies; no package whose requirement already holds is replaced or installed again; a list that can be satisfied is not refused. Without it the whole list is handed to uv. The command has exactly the options given. create_env treats an existing environment as told.", "quantifier": "all lists of requirements, all sets of installed packages, all plans uv may come up with, all options", "why_tests_cant": "tests install one or two packages from an index on one machine", "anchors": ["python/xoscar/virtualenv/uv.py: UVVirtualEnvManager.install_packages, _split_specs, _filter_packages_not_installed, _resolve_install_plan, create_env"]}
{"id": "C66", "title": "Metrics report what was recorded", "statement": "The value of a counter is the sum of the values recorded on it (for each set of tags), that of a gauge the last value; a meter counts every event in exactly one rate and its rates cover the time without gap or overlap; a histogram's reports are means of consecutive windows, every value in exactly one; reports are made when due. Every metric is exported, init_metrics and shutdown_metrics lose nothing, and the caller's tags are not changed.", "quantifier": "all sequences of creations, records, initialisations and shutdowns, all values, tags and times", "why_tests_cant": "tests record two or three values after initialisation; conservation over histories, re-initialisation and mixed tags are never looked at", "anchors": ["python/xoscar/metrics/api.py: init_metrics, shutdown_metrics, Metrics, _MetricWrapper, gen_metric", "python/xoscar/metrics/backends/metric.py", "python/xoscar/metrics/backends/console/console_metric.py", "python/xoscar/metrics/backends/prometheus/prometheus_metric.py"]}
{"id": "C67", "title": "A reference means the same in the actor's own process and elsewhere", "statement": "A call, tell or batch through a reference reaches the actor last created under its uid and not destroyed since, or raises ActorNotExist (a connection error once the pool is stopped), no matter whether the reference is held by the process of the actor's pool or another.", "quantifier": "all histories of creations, destructions, object lifetimes, stops; all references obtained at any time in them; all methods and batches", "why_tests_cant": "depends on when the interpreter frees a destroyed actor; tests use references right after creating them", "anchors": ["python/xoscar/core.pyx: LocalActorRef, LocalActorRefMethod, create_local_actor_ref, create_actor_ref, register_local_pool", "python/xoscar/batch.py: _ExtensibleWrapper", "python/xoscar/backends/pool.py: ActorPoolBase.send, tell, create_actor, destroy_actor"]}
{"id": "C68", "title": "Every call is served by the backend of its address", "statement": "The backend of an API call is the one registered for the scheme of its address (text before ://, case-insensitive, the default backend without one); all addresses of a scheme share one context; an unknown scheme is a KeyError without effect; setup_cluster gives every address with its resources to exactly one call of its backend's driver.", "quantifier": "all addresses, all histories of registrations and calls, all resource maps", "why_tests_cant": "string forms and histories are unbounded", "anchors": ["python/xoscar/context.pyx: ClientActorContext._get_backend_context, register_backend_context, get_context", "python/xoscar/backend.py: register_backend, get_backend", "python/xoscar/api.py: create_actor_pool, setup_cluster"]}
{"id": "C69", "title": "actor_ref and create_actor take the address and uid they are given", "statement": "create_actor gives the new actor the uid passed (a new one when none is); actor_ref builds a reference to the address, uid and proxies passed in any of its call forms, and refuses missing uids, unknown keywords and conflicting arguments.", "quantifier": "all arguments and call forms", "why_tests_cant": "the combinations of positional and keyword arguments are unbounded", "anchors": ["python/xoscar/_utils.pyx: create_actor_ref, to_str, to_binary", "python/xoscar/context.pyx: ClientActorContext.create_actor, actor_ref"]}
{"id": "C70", "title": "A buffer or file object reference leads to its own object", "statement": "buffer_ref and file_object_ref give a reference that leads, wherever it is used and whatever else is created or freed, to the object it was made for and never to another; copy_to through such references changes those objects and nothing else, and says so when it could not.", "quantifier": "all histories of references made and objects freed in any number of processes, all argument lists of copy_to", "why_tests_cant": "histories, garbage collection and mixtures of references are unbounded", "anchors": ["python/xoscar/core.pyx: BufferRef, FileObjectRef", "python/xoscar/context.pyx: buffer_ref, file_object_ref, ClientActorContext.copy_to", "python/xoscar/backends/pool.py: handle_copy_to_buffers_message, handle_copy_to_fileobjs_message"]}
{"id": "C71", "title": "Processes of a pool end with it", "statement": "Stopping a pool (or a sub pool) ends the sub pool's process whether or not it answers or obeys SIGTERM, within a bounded time, ends what it started, and touches no other process; a sub pool runs as long as its main process and ends by itself after it.", "quantifier": "all behaviours of the processes and the operating system (exits, pid reuse) between the program points, all answers to the stop request", "why_tests_cant": "how processes react and how pids are reused cannot be enumerated", "anchors": ["python/xoscar/backends/pool.py: stop_sub_pool, stop_sub_pools, _watch_main_pool", "python/xoscar/backends/indigen/pool.py: kill_sub_pool, _check_ppid"]}
{"id": "C72", "title": "An actor class is instantiated once, as its registered implementation", "statement": "Creating an actor of a class gives one object of the class last registered as its implementation (of the class itself if none is registered or the registration was undone), initialised once with the caller's arguments; a failing initialisation is reported to the creator.", "quantifier": "all histories of registrations and un-registrations, class hierarchies, outcomes of __init__ and arguments", "why_tests_cant": "registrations chain and interact with subclassing and with the exceptions of __init__ in unboundedly many ways", "anchors": ["python/xoscar/api.py: AsyncActorMixin.__new__, register_actor_implementation, unregister_actor_implementation"]}
{"id": "C73", "title": "A generator lives exactly as long as its consumer", "statement": "The generator behind an iterator handed out by an actor is kept as long as some process (or a message under way) has the iterator, is released when nobody has it any more, and dropping an iterator hangs nobody.", "quantifier": "all histories of handing over, copying, receiving, losing, collecting and destroying iterators in any number of processes; all schedules of a collection against the method holding the actor's lock", "why_tests_cant": "collection, hand-over and crashes interleave in unboundedly many ways", "anchors": ["python/xoscar/api.py: IteratorWrapper.__getstate__, IteratorWrapper.__del__, generator", "python/xoscar/core.pyx: __pyx_actor_method_wrapper"]}
{"id": "C74", "title": "UCX channels carry messages and copies whole and in order", "statement": "Over a UCX connection every message sent arrives whole and in the order of the sends, whoever sends at the same time; copied buffers land in exactly the buffers named; a copy reported as done was written; a failed copy or a cancelled call affects no other call.", "quantifier": "all sequences and interleavings of sends (messages and copies with any contents), registered buffers and cancellations", "why_tests_cant": "frame boundaries, empty buffers and cancellations combine in unboundedly many ways; UCX hardware is needed to run any", "anchors": ["python/xoscar/backends/communication/ucx.py: UCXChannel.send, UCXChannel.recv, UCXChannel.send_buffers, UCXChannel.recv_buffers", "python/xoscar/backends/pool.py: _handle_ucx_meta_message", "python/xoscar/backends/context.py: copy_to_buffers"]}
{"id": "C75", "title": "The warning about call cycles means a deadlock", "statement": "With call-cycle logging on, a warning is logged for a call exactly when the called actor already waits, directly or through other calls, for that call to end; such a call never starts; and every deadlock between actors is warned about.", "quantifier": "all interleavings of calls, tells, background tasks and method ends among any number of actors, with and without locks", "why_tests_cant": "cycles can have any length and any number of calls run at the same time", "anchors": ["python/xoscar/debug.py: record_message_trace, detect_cycle_send", "python/xoscar/backends/context.py: send", "python/xoscar/core.pyx: _BaseActor.__on_receive__"]}
{"id": "C76", "title": "Calls go over one open connection per destination", "statement": "A call is sent over a connection that is open, belongs to the calling thread, leads to the address the router gives for the destination, and whose replies are listened to; calls of one thread to one destination share one connection; a closed connection is replaced; a failed or cancelled connect does not block the others.", "quantifier": "all interleavings of calls of any number of tasks and threads, connects made, failed and cancelled, closed connections and changes of the router", "why_tests_cant": "the interesting cases are calls that start while another connects or while a pool is added or removed", "anchors": ["python/xoscar/backends/router.py: Router.get_client, Router.get_client_via_type, Router.set_mapping, Router.add_router, Router.remove_router", "python/xoscar/backends/core.py: ActorCallerThreadLocal.get_client, ActorCallerThreadLocal._listen_client"]}
{"id": "C77", "title": "Connections of an ended thread are closed", "statement": "When a thread that called actors ends, its connections are closed by the background close thread, exactly once and not before the thread has ended; the finalizer never hangs or fails.", "quantifier": "all interleavings of the ends of any number of threads, statement by statement", "why_tests_cant": "the set-up of the close thread is a race between threads that end at the same time", "anchors": ["python/xoscar/backends/core.py: ActorCaller.__getattr__, ActorCaller._ensure_initialized, _safe_run_forever"]}
{"id": "C78", "title": "Asynchronous file objects behave like the file", "statement": "AioFileObject gives every task the results an ordinary file would give, with the operations of all tasks in some order; async iteration yields exactly the lines of the rest of the file, each once and whole, however many tasks iterate; calls take effect in the order made; a cancelled call has no effect; after `async with` the object is a closed file.", "quantifier": "all interleavings of calls of any number of tasks, executor threads, cancellations; all file contents", "why_tests_cant": "which thread runs first and when a cancellation strikes is up to the scheduler; contents are arbitrary", "anchors": ["python/xoscar/aio/base.py: _make_delegate_method", "python/xoscar/aio/file.py: AioFileObject"]}
{"id": "C79", "title": "Command output reaches terminal and log", "statement": "run_subprocess_with_logger passes everything the command writes on to the terminal, unchanged and in order within each stream, and logs each line exactly once with the ANSI control sequences taken out; the `with` statement is over only when the command has ended and all of this is done, it keeps the outcome of its body, and it does come to an end.", "quantifier": "all outputs (any bytes), all interleavings of the command, what it leaves behind, the two readers and the caller, all pipe sizes", "why_tests_cant": "scheduling of two threads and another process, pipe sizes and arbitrary bytes cannot be enumerated", "anchors": ["python/xoscar/virtualenv/utils.py: clean_ansi, stream_reader, run_subprocess_with_logger"]}
{"id": "C80", "title": "Calls reach their actor in the order they were made", "statement": "Two calls or tells made one after the other on the same actor are started by the actor in this order, every call is started at most once and only if it was made, and none is lost on the way. In particular: a task that awaits its tells one by one, and a task that makes several tells without awaiting.", "quantifier": "all histories of calls on any number of connections and threads, with any number of proxies in between, all message sizes, all interleavings of tasks, serializing threads, connections and lock", "why_tests_cant": "the interleavings of event loops, thread pools and sockets cannot be enumerated; reordering needs rare timings", "anchors": ["python/xoscar/backends/context.py: IndigenActorContext.send", "python/xoscar/backends/core.py: ActorCallerThreadLocal.call, call_with_client", "python/xoscar/backends/communication/socket.py: SocketChannel.send", "python/xoscar/serialization/core.pyx: serialize_with_spawn", "python/xoscar/backends/pool.py: AbstractActorPool.on_new_channel, process_message, forward, send", "python/xoscar/core.pyx: _BaseActor.__on_receive__, LocalActorRefMethod"]}
{"id": "C81", "title": "Delayed tells", "statement": "ref.method.tell_delay(*args, delay=d) makes the tell at most once and not before d seconds have passed, with the arguments of the call; cancelling the returned task before that prevents it; the task ends with success only if the tell was made or its connection was refused and ignore_conn_fail was left on, and an error is logged; local references behave like others.", "quantifier": "all histories of delayed tells, cancellations, changes of the arguments and of the actor, all delays, all timings of the event loop and all errors of sending", "why_tests_cant": "timing and interleavings; errors of the transport", "anchors": ["python/xoscar/core.pyx: ActorRefMethod.tell_delay, LocalActorRefMethod.tell_delay"]}
{"id": "C82", "title": "One connection, end to end", "statement": "However tasks that share a connection interleave their sends, however the transport splits and delays the bytes and whenever the other side calls recv: the k-th recv that returns gives the k-th message sent, complete — a message of the same class with the same id and fields, and arguments equal to the sender's at every depth, sharing included — the messages of each task in the task's order, none lost, doubled, invented or mixed; a message that the receiver cannot load is reported with its own id and disturbs no other; and at every moment the rest can still be sent, delivered and received.", "quantifier": "all numbers of tasks, all lists of messages (of supported payloads of any size, depth and sharing), all interleavings of senders, network and receivers, all splits of the byte stream, all picklers", "why_tests_cant": "composition of the serializer (any object graph) with the framing (any interleaving, any split): unbounded in both", "anchors": ["python/xoscar/backends/communication/socket.py: SocketChannel.send, SocketChannel.recv", "python/xoscar/serialization/aio.py: AioSerializer, get_header_length, AioDeserializer", "python/xoscar/backends/communication/utils.py: write_buffers, read_buffers", "python/xoscar/serialization/core.pyx: serialize, deserialize", "python/xoscar/backends/message.pyx: SERIALIZER, DeserializeMessageFailed"]}
{"id": "C83", "title": "An actor is a linearizable object", "statement": "If every method that is called takes the actor's lock (no no_lock methods, not a StatelessActor, no work in __post_create__ or __pre_destroy__ while calls are served), then in every history — calls from any number of callers, messages delayed, reordered or lost, tasks cancelled at any await, callers giving up, calls refused — the calls whose methods ran can be put in an order, one after the other, such that: each runs alone and at most once, with the arguments it was made with, and gives exactly the result its caller got; the actor's state is what that order leaves (plus at most one call still under way); a call that returned before another was made comes first; later events never change this order; a call that the pool answered as not run is not in it; and when no method is under way a pending call can always be served. With one method that does not take the lock this fails (lost update).", "quantifier": "all user methods (any state, any number of awaits), all numbers of calls and callers, all interleavings of arrivals, awaits, cancellations, losses and returns", "why_tests_cant": "any user code, any number of concurrent calls, every interleaving", "anchors": ["python/xoscar/core.pyx: _BaseActor.__on_receive__, _FakeLock", "python/xoscar/backends/context.py: IndigenActorContext.send, _wait", "python/xoscar/backends/core.py: ActorCaller.call_with_client, _listen", "python/xoscar/backends/pool.py: AbstractActorPool.send, process_message, on_new_channel, cancel, create_actor"]}
{"id": "C84", "title": "Store requests and answers cross the wire", "statement": "Whatever the lengths of keys and values and however TCP cuts the stream, the rendezvous store's server receives exactly the operations each client made, in order, each once; each client reads exactly the answers to its operations; a connection that closes loses no operation that was written completely; the thread that waits for key updates takes every update until it is told to stop. Expected too, but false: a client that stops halfway does not keep others from being served; a receive timeout leaves the connection usable; the loss of the server ends the waiting thread cleanly.", "quantifier": "all operations with arguments of any length (below 2^63 bytes), all numbers of clients, all cuts of the byte streams, all interleavings", "why_tests_cant": "all contents, all splits of the stream, all schedules of clients and the network", "anchors": ["cpp/collective/rendezvous/src/tcp_store.cpp: SendBuffer, TCPStoreMasterDaemon::query, TCPStoreWorkerDaemon::run", "cpp/collective/rendezvous/include/utils.hpp: recvBytes, sendBytes, recvString, recvVector"]}
{"id": "C85", "title": "NCCL group operations move the right data", "statement": "In a group made with new_group on the nccl backend, for every number of ranks, root, array contents and sizes: gather gives the root the elements of all ranks in rank order and scatter gives rank r the r-th array; alltoall gives rank r the r-th part of every rank; reduce, allreduce and reduce_scatter give the element-wise reduction asked for; allgather and broadcast give everybody everything resp. the root's elements; nothing else changes. Expected too, but false: any receive buffer of the right size is fine; arguments that gloo does without can be left out; reduce_scatter may have uneven parts; bitwise reductions work. The unique id of the default group reaches all ranks unchanged.", "quantifier": "all group sizes, roots, array sizes, contents and (where they matter) shapes", "why_tests_cant": "all sizes and contents; needs several GPUs", "anchors": ["python/xoscar/collective/process_group.py: ProcessGroupNCCL", "python/xoscar/collective/common.py: ReduceOpMappingNCCL", "python/xoscar/collective/backend/nccl_backend.py: XoscarNCCLBackend._init_with_tcp_store, TCPStore._thread_request"]}
{"id": "C86", "title": "Debug watchdogs speak when something takes long, and only then", "statement": "With debugging on, a message, call or lock that takes longer than the configured timeout is warned about: first after the timeout, then after 2, 3, … timeouts more, as long as it lasts; never earlier, never after it has ended, never with the option off. The task detector reports in every round exactly the unfinished tasks that are older than the limit and match no exclude filter, and never itself. DEBUG_OSCAR sets exactly the options it names.", "quantifier": "all timeouts, durations, option values, delays of the event loop, sets of tasks and filters", "why_tests_cant": "all durations and schedules of the event loop", "anchors": ["python/xoscar/debug.py: debug_async_timeout, _log_timeout, _reload_debug_opts_from_env", "python/xoscar/utils.py: asyncio_task_timeout_detector, register_asyncio_task_timeout_detector"]}
{"id": "C87", "title": "Ranks meet at the rendezvous store", "statement": "A rank that starts before the server waits for it and connects if the server comes up in time; connecting ends with a connection to an address that accepted or with an error in bounded time. Making the store returns in the server's process only when all ranks have come, whatever other keys are used meanwhile.", "quantifier": "every sequence of connection attempts, results and clock readings; every interleaving of any number of processes connecting, being counted, returning, crashing and being restarted, with any use of other keys", "why_tests_cant": "all schedules and timings", "anchors": ["cpp/collective/rendezvous/src/socket.cpp: SocketConnectOp", "cpp/collective/rendezvous/src/tcp_store.cpp: TCPStore::TCPStore, waitForWorkers", "python/xoscar/collective/process_group.py: ProcessGroupGloo.__init__"]}
{"id": "C88", "title": "An address leads to the server that has it", "statement": "The address a server announces is dispatched to that server's kind of client, is read back as the same host and port (or process index), and a connection to it reaches that server once it is started and until it stops or dies, never another one; a restarted server takes over a name left by a crashed one.", "quantifier": "every host, port and index text; every interleaving of servers being created, started, stopped, stopped twice, crashing on one machine, TCP and Unix sockets, with wildcard binding and kernel-chosen ports", "why_tests_cant": "all addresses and all histories of servers on a machine", "anchors": ["python/xoscar/backends/communication/core.py: get_scheme, _check_scheme, get_client_type, get_server_type", "python/xoscar/backends/communication/socket.py: SocketServer.create, SocketClient.connect, UnixSocketServer, UnixSocketClient, _gen_unix_socket_default_path", "python/xoscar/backends/communication/ucx.py: UCXServer.create, UCXClient.connect", "python/xoscar/utils.py: is_v6_ip"]}
{"id": "C89", "title": "Profiling data of tasks", "statement": "Profiling data of a task hold exactly what was put there since the task was initialised: numbers set, increments added up, nested dictionaries created once; tasks do not see each other's data; a task that is not profiled yields an operator that stores nothing; pop gives the data once, with the report of the calls, and ends the task's debug logging, so that a profiled task is logged by one loop.", "quantifier": "every interleaving of init, pop, indexing, set, inc, nest and debug loop steps over any number of tasks, including operators kept from before", "why_tests_cant": "all histories of operations and all schedules of the debug loops and their callbacks", "anchors": ["python/xoscar/profiling.py: ProfilingData, ProfilingDataOperator, DummyOperator, _ProfilingOptions"]}
{"id": "C90", "title": "Generated ids", "statement": "Ids made by the library (message ids, uids of actors created without one, buffer references) have the asked length and are the output of the process's generator from one place on; ids of one process follow each other in one stream whatever the user does with `random`; if no process is forked after it made ids and the seeds drawn differ, no two ids share generator output, so equal ids require the generator to repeat itself. A sub pool's process takes a new seed.", "quantifier": "every history of starting, forking, seeding, drawing, looking for ports, starting sub pools and making ids of any length in any number of processes, for every pair of generators", "why_tests_cant": "all histories and all generators", "anchors": ["python/xoscar/_utils.pyx: new_random_id, reset_id_random_seed, new_actor_id", "python/xoscar/backends/message.pyx: new_message_id", "python/xoscar/backends/indigen/pool.py: _start_sub_pool", "python/xoscar/utils.py: get_next_port"]}
{"id": "C91", "title": "Joining the default collective group", "statement": "init_process_group succeeds exactly if backend, device and address are in order (nccl needs cupy and a device, given or from the environment; an address given or from the environment), a pool is at the address and has no rank yet, and the group connects; then the collective calls made in that pool's process act as exactly the rank, world size, backend and device asked for, on the caller's own data, whatever happens elsewhere, until the rank's actor is destroyed. A refused init changes no rank.", "quantifier": "every history of starting processes and child processes, joins with any arguments and outcomes, and destroys", "why_tests_cant": "all histories over any number of processes and all arguments", "anchors": ["python/xoscar/collective/core.py: init_process_group, RankActor.__init__, RankActor.__post_create__, new_group, reduce ... broadcast", "python/xoscar/collective/utils.py: get_rank_address_via_env"]}
{"id": "C92", "title": "GPU devices and contexts", "statement": "get_cuda_context finds the first device (or MIG device) on which the driver names this process, and none exactly if there is none; without a driver there is no context and no error; the number of devices is the machine's or that of the entries of CUDA_VISIBLE_DEVICES; the information of a device carries the machine's index of it; index and uuid of a device name the same device; the status of a device is that of the card NVML knows by the uuid CUDA has for it.", "quantifier": "every machine (devices, MIG slots, process lists, CUDA_VISIBLE_DEVICES texts) and every history of calls and forks in a process", "why_tests_cant": "all machines, texts and histories", "anchors": ["python/xoscar/nvutils.py: get_cuda_context, get_compute_running_processes, get_device_count, get_device_info, get_device_status, get_index_and_uuid, get_driver_info, _init, _init_cp, _init_nvml"]}
{"id": "C93", "title": "Handlers registered under dotted names", "statement": "A handler registered under a dotted name is used for objects of the class the name denotes and of its subclasses, as if registered for the class; a name that cannot be imported does not disturb other lookups; unregistering the name or the class ends it.", "quantifier": "every history of registrations by class and by name, unregistrations and lookups; every state of the importable modules at each lookup, including failing imports and modules that register names while imported", "why_tests_cant": "all histories and all import outcomes", "anchors": ["python/xoscar/_utils.pyx: TypeDispatcher.register, unregister, _reload_lazy_handlers, get_handler, reload_all_lazy_handlers", "python/xoscar/backends/pool.py: AbstractActorPool create (reload_all_lazy_handlers)"]}
{"id": "C94", "title": "Lazily imported modules", "statement": "A module obtained with lazy_import is imported at the first attribute access, which gives the module's attribute and binds the name to the module; the hooks registered for its loading run once, in order, at the first successful access after their registration; an access that fails runs none.", "quantifier": "every history of accesses, hook registrations and rebindings of the name; every outcome of the import and of the attribute lookup at each access; every behaviour of hooks", "why_tests_cant": "all histories, import outcomes and hooks", "anchors": ["python/xoscar/utils.py: lazy_import, LazyModule, lazy_import_on_load, ModulePlaceholder"]}
{"id": "C95", "title": "A remote error can be handled like the error itself", "statement": "The error that a call raises because the remote method raised is caught by the same except clauses, has the same arguments, causes and attributes, and its text is the error's after the address and pid where it was raised; passing through further pools changes only its traceback.", "quantifier": "every exception object: every MRO with its class attributes, C members, slots and properties, every instance state; every address, pid and chain of pools; every list of except clauses", "why_tests_cant": "all exception classes, instance states and chains of calls", "anchors": ["python/xoscar/backends/message.pyx: _AsCauseBase, ErrorMessage.as_instanceof_cause", "python/xoscar/utils.py: wrap_exception", "python/xoscar/backends/context.py: _process_result_message", "python/xoscar/backends/pool.py: _ErrorProcessor"]}
{"id": "C96", "title": "Ports in use are not handed out", "statement": "A port that get_next_port returns is in use by no socket of the type asked for, according to psutil, or to netstat on Windows and where psutil is denied; and it returns one whenever a port is free.", "quantifier": "every list of sockets psutil may report, every text netstat may print, every socket type, random number and set of ports handed out before", "why_tests_cant": "all reports of the operating system, as text", "anchors": ["python/xoscar/utils.py: _get_ports_from_netstat, get_next_port"]}
{"id": "C97", "title": "A sub pool's process is started or the failure reported", "statement": "When the start of a sub pool succeeds, its servers were up with the parameters given and the addresses returned are theirs; when it fails no process is left; in every case the shared memory used is removed; a sub pool does not outlive its main process.", "quantifier": "every interleaving of main process, child, polling thread and operating system, with exits, kills, cancellation and the death of the main process or of one of its threads at every point", "why_tests_cant": "all interleavings and crash points of two processes", "anchors": ["python/xoscar/backends/indigen/pool.py: _create_sub_pool_from_parent, _start_sub_pool_in_child, _create_sub_pool", "python/xoscar/backends/indigen/fate_sharing.py: preexec_fn, create_subprocess_exec, set_kill_on_parent_death_linux"]}
{"id": "C98", "title": "Cancelling an installation", "statement": "install_packages returns exactly when the process it started ended with status 0 and raises that process's status otherwise, whoever else installs or cancels; when installations follow each other and cancel_install is over, the installation that was running when it was called has ended; cancel_install signals only processes of installations that are not over, and does nothing when there is none.", "quantifier": "every interleaving of any number of install_packages and cancel_install calls in threads, with processes ending at any point with any status", "why_tests_cant": "all interleavings of the reads and writes of one attribute by several threads", "anchors": ["python/xoscar/virtualenv/uv.py: install_packages, cancel_install, __init__", "python/xoscar/virtualenv/utils.py: run_subprocess_with_logger"]}
{"id": "C99", "title": "Virtual environments come and go", "statement": "After create_env returns there is an environment, with the interpreter asked for; an existing one is kept, refused or replaced as told; after remove_env there is none; get_python_path and get_lib_path lead into the environment; nothing at other paths changes; is_available tells whether the commands can be run.", "quantifier": "every file system, host configuration, behaviour of uv and history of calls on any number of managers", "why_tests_cant": "all host configurations and histories of calls", "anchors": ["python/xoscar/virtualenv/uv.py: is_available, _get_uv_path, exists_env, create_env, get_python_path, get_lib_path, remove_env", "python/xoscar/virtualenv/__init__.py: get_virtual_env_manager"]}
{"id": "C100", "title": "References and iterators lead back to their actor", "statement": "A reference obtained with actor_ref or create_actor, and an iterator returned by an actor's generator method, lead to that very actor: calls made with it on the machine it was obtained on (and, if the pool was addressed by a host name, on every other machine it is passed to) are run by the actor it was obtained for.", "quantifier": "every network of machines and pools with any number of processes, bound to any host including wildcards, every address the pool is reached under, every allocation of new actors, every consumer", "why_tests_cant": "all topologies, bindings and positions of producer and consumer; unit tests run on one machine, where a wildcard address always works", "anchors": ["python/xoscar/backends/context.py: create_actor, actor_ref", "python/xoscar/backends/pool.py: ActorPoolBase.create_actor, actor_ref, SubActorPool.actor_ref, MainActorPool.create_actor, actor_ref, send", "python/xoscar/api.py: IteratorWrapper, generator", "python/xoscar/utils.py: fix_all_zero_ip"]}
{"id": "C101", "title": "Sizes written for people mean what they say", "statement": "A text is accepted as a size exactly when it is a decimal number, optionally signed and with white space around it, alone, followed by a unit (k, m, g, t in either case, powers of 1024), or followed by a percent sign; it then means that number, times its unit, or over a hundred and marked as a share; any other text is refused. The status of a GPU reports the sizes, utilizations and temperature the driver tells.", "quantifier": "every text of ASCII characters, every decimal number of any length, every answer of NVML or nvidia-smi", "why_tests_cant": "all texts; tests try a few well-formed sizes", "anchors": ["python/xoscar/utils.py: parse_readable_size", "python/xoscar/nvutils.py: get_device_status"]}
{"id": "C102", "title": "Bound arguments are those the method would get", "statement": "For an extensible method, m.bind(*args, **kwargs) succeeds exactly when m(*args, **kwargs) is a legal call, and returns the parameters of m other than the instance, in the order of its signature, each with the value the call would give it (positional, keyword, default, surplus in *args and **kwargs); otherwise it raises TypeError. It does not matter whether an argument is passed by position or by name, and calling the method with the bound values is the same call.", "quantifier": "every signature (positional-only, positional, defaults, *args, keyword-only, **kwargs), every list of positional and dictionary of keyword arguments", "why_tests_cant": "all signatures and calls; tests bind a few calls of two or three methods", "anchors": ["python/xoscar/batch.py: build_args_binder, _ExtensibleWrapper.bind, _ExtensibleAccessor.__get__"]}
{"id": "C103", "title": "Methods marked no_lock run without the actor's lock, all others under it", "statement": "A call of a method \u2014 by message or local reference, single or in a batch \u2014 runs under the actor's lock exactly if the method is not marked with no_lock, wherever the mark stands among the method's decorators, and in the class nearest to the actor that defines it; a stateless actor's methods never take a lock.", "quantifier": "every class body (any order and number of decorators and batch implementations), every chain of base classes, every route of a call", "why_tests_cant": "all stacks of decorators and class hierarchies; the test has one class", "anchors": ["python/xoscar/core.pyx: no_lock, _has_no_lock_hint_for_method, __on_receive__, LocalActorRefMethod, _run_actor_async_generator", "python/xoscar/batch.py: extensible, _ExtensibleAccessor", "python/xoscar/api.py: generator"]}
{"id": "C104", "title": "UCX starts with the settings asked for, once, and the process's environment is left as it was", "statement": "When the UCX backend is initialised, UCX has for every setting the value asked for \u2014 from the external environment first, then the high level settings (tcp, nvlink, infiniband, rdmacm, cuda-copy), then the entries of ucx.environment, whose name some-name stands for UCX_SOME_NAME; a CUDA context is created first exactly if the UCX_TLS asked for mentions cuda (not ^cuda) or it is asked for outright, and without Numba this is an ImportError with no effect; os.environ is the same afterwards however it ends; UCX is initialised once until reset or failure.", "quantifier": "every configuration, environment and set of names and values, every outcome of ucp.init, any history of init and reset", "why_tests_cant": "all configurations and environments; the tests cannot run UCX at all without the hardware", "anchors": ["python/xoscar/backends/communication/ucx.py: UCXInitializer._get_options, UCXInitializer.init, UCXInitializer.reset"]}
{"id": "C105", "title": "An event can be awaited without holding up anything else", "statement": "await AioEvent(event).wait() returns True only if the event was set at a time between the call and the return, and False only if a time limit was given and passed; set() wakes every wait made before it, also when the event is cleared at once; every call returns at most once and a cancelled one not at all; a wait that is given up leaves nothing behind; waits hold up no other work of the process (messages to be serialized, file operations).", "quantifier": "all histories of calls, sets, clears, time limits and cancellations on any number of events, all schedules of the executor's threads, any number of threads", "why_tests_cant": "whether a wait has reached a thread when set and clear come, and how many threads are left, depends on the schedule; tests use one event that is set once", "anchors": ["python/xoscar/aio/parallelism.py: AioEvent", "python/xoscar/aio/base.py: _make_delegate_method, _make_proxy_method", "python/xoscar/serialization/core.pyx: serialize_with_spawn"]}
{"id": "C106", "title": "MLX arrays arrive unchanged", "statement": "An MLX array passed to or returned from an actor in another process arrives with its type, shape and the same elements, however it lies in memory (slices, transposed, broadcast, empty, 0-d).", "quantifier": "all arrays: types, shapes, strides, offsets; every naming of types; every buffer received", "why_tests_cant": "all layouts and types; there is no test of the MLX serializer in the repository, and MLX exists only on some platforms", "anchors": ["python/xoscar/serialization/mlx.py: MLXSerislizer.serial, MLXSerislizer.deserial"]}
