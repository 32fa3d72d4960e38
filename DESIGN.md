# A formal model of xoscar in Lean 4

Source: /repo (python/xoscar, cpp/collective) at the pinned commit.  Nothing of /repo is run: the model is a transcription, read from the
text, and every definition of it cites the file and lines it stands for.

This file is generated by `tools/design.py` from `tools/design_head.md`, `tools/how.py`, `tools/claims.py` and `properties.jsonl`.

## Layout

* `lean/Verif/Model/*.lean` — the model: total computable functions and step functions, one file per part of the code.
* `lean/Verif/Spec/*.lean` — specifications that need more than a few lines (else they stand at the top of the property file).
* `lean/Verif/Proof/*.lean` — helper lemmas and invariants.
* `lean/Verif/Props/*.lean` — the property theorems, with `example`s showing that a concrete, non-trivial case meets their hypotheses.
* `lean/Verif.lean` imports everything.
* `properties.jsonl`, `MANIFEST.json` — the properties and the theorems claimed for them (`tools/manifest.py` writes the latter).
* `seeded/LOG.jsonl` — wrong programs tried against the theorems (`tools/mutate.py`, `tools/mutants/*.py`).

## Method

Pure code is transcribed as functions, with exceptions as values.  Coroutine code is transcribed as small-step state machines whose steps
are the stretches between two points where a task can be suspended (the asyncio event loop runs one task at a time); a statement about all
schedules, crash points or histories is an induction over arbitrary lists of steps (`Run ls s`: the labels `ls` lead to the state `s`).
User code that is awaited (actor methods, hooks, producers, evaluations) ends whenever and however it likes: its end is a label.

Where a property is false of the code at this commit, the negation is proved — with a concrete run, or for every state of some shape —
as `…_refuted` (older names: `…_fails`, `…_escapes`, `…_lost`, `…_hangs`, see the table), the part which holds is proved with suffix
`_partial` where it carries a restriction, and the property is reported as partial.  The restrictions are the weakest I could find; where
possible the theorem is an equivalence.

## Trusted base

* Lean 4.33.0's kernel.  Only core Lean is used (`import` of Mathlib: see the list of imports at the end, empty if none).
* Axioms: at most `propext`, `Classical.choice`, `Quot.sound`; the table at the end lists what each claimed theorem depends on
  (`#print axioms`).  No axiom is added, no `native_decide`, no `bv_decide`, nothing left open.
* The reading of the code: each definition of `Model/` against the lines it cites.  `lean/Verif/Model/Base.lean` models Python's `dict`
  (insertion order) and `set`.
* The reading of Python and its libraries where the code rests on them: asyncio runs one task at a time and switches only where a task is
  really suspended; `asyncio.Lock` (transcribed from CPython's source in `Model/ActorLock.lean`), `asyncio.Queue`, `asyncio.shield`,
  `Task.cancel`, `heapq`, `OrderedDict`, `dict` iteration.
* Parameters of the model, each with the law stated in the theorem that uses it: `pickle`/`cloudpickle` (round trip), `sha1` (a
  function), operating system ports (which are occupied), random choices (any of the candidates), the order in which the operating system
  makes stores to shared memory visible (program order of the three assignments; arbitrary inside one).

What a theorem about a state machine cannot exhibit: real time (time outs are labels that may occur at any moment), memory safety of
C++ and Cython, the kernel's socket and process behaviour beyond the labels, performance.

## What is modelled and what is not

| model | code | not modelled |
|---|---|---|
| `SerialMachine`, `Serial` | serialization/core.pyx: stack machines of serialize / serialize_with_spawn / deserialize, core serializers, id sharing, placeholders | lone surrogates in str, buffers of numpy / cuda / torch / scipy / mlx serializers (see `Arrays` if present), compression |
| `Message` | backends/message.pyx: all 13 message classes, `MessageSerializer`, `DeserializeMessageFailed` | profiling payload contents |
| `Wire` | serialization/aio.py, communication/utils.py, socket.py send/recv | TLS, sockets of the OS, cuda buffers |
| `Shm` | indigen/pool.py 50-76 | shared_memory.py itself (OS) |
| `CopyTo` | context.py 353-437, pool.py 526-536, context.pyx 332-352 | ucx path |
| `ActorLock` | core.pyx 392-588 and asyncio.Lock | |
| `Calls` | core.pyx ActorRef, batch.py, `_handle_actor_result`, error wrapping in message.pyx and utils.py | `functools` signature binding beyond positional/keyword lists |
| `Caller` | backends/core.py 55-170 | client creation (see `Router`) |
| `Wait` | context.py 106-124 | |
| `Pool` | pool.py 94-115, 386-445, 573-733: one pool's handlers under any interleaving | proxies, tracing, profiling |
| `Directory` | pool.py 856-1273: main pool and sub pools | appended sub pools (see `Recovery`) |
| `Recovery` | pool.py 1250-1267, 1440-1491, indigen/pool.py 495-506 | dict reorganisation, cancellation of the monitor |
| `Life` | pool.py 493-524, 968-972, 1347-1364 | signals |
| `Config`, `Router` | backends/config.py, allocate_strategy.py, router.py, pool.py 333-364 | opaque configuration values; `get_client_via_type` |
| `Addr`, `Ports` | utils.py 478-522, get_next_port, process_index_gen, indigen/pool.py 82-126 | |
| `Dispatch` | _utils.pyx 36-110, core.pyx 165-189 | import errors of lazily registered types |
| `Stats` | metrics/api.py 214-260, profiling.py 127-155, utils.py 414-450, debug.py 118-160 | metric back ends |
| `Lru` | aio/lru.py | `clear_all_alru_caches` |
| `Gen` | api.py 330-505 | |
| `Dummy` | communication/dummy.py | weak references to live servers |
| `Collective` | collective/core.py `RankActor.new_group`, process_group.py 371-384 | the collective operations |
| `Store` | cpp/collective/rendezvous/src/tcp_store.cpp | the bytes (StoreWire), `waitForWorkers`, the stop pipe |
| `Nd` | serialization/numpy.py, scipy.py | titles, metadata and sub-array dtypes, subclasses, writability |
| `Tensor` | serialization/torch.py, `CupySerializer` of cuda.py | device numbers, cudf |
| `Transport` | `write_buffers`, asyncio's selector transport | 0-d views, uvloop |
| `ErrSer` | serialization/exception.py, `_send_channel` | closed channels (see `Pool`), tracebacks |
| Model/Forward | backends/core.py `call`; pool.py `forward`, `handle_control_command` (base, main), `cancel`; context.py `cancel`, `kill_actor`, `wait_actor_pool_recovered` | client cache, timing, processing of the delivered message, sync_config/add_sub_pool_actor control messages |
| Model/Create | backends/pool.py `create_actor_pool`, `MainActorPoolBase.create`, `_update_stored_addresses`; indigen/pool.py `append_sub_pool`, `remove_sub_pool`, `wait_sub_pools_ready` | modules, logging, comm/proxy configuration, uvloop, start methods |
| Model/WaitFor | api.py `wait_for` | asyncio's own `wait_for` is taken as documented; wall-clock time (only the order of events) |
| Model/Gloo | process_group.py ProcessGroupGloo, common.py mappings, cpp/collective/gloo/src | the gloo library (its contract is a definition, `glooOn`), floating point, tags, overlapping buffers, ndim of arrays |
| Model/Marker | virtualenv/core.py 200-278 | the parser (`ast.parse`), floats, non-ASCII digits, exotic `int()` forms |
| Model/Reqs | virtualenv/core.py 60-110, 125-161, 281-318, utils.py is_vcs_url | packaging (a parameter), non-ASCII white space |
| Model/Plan | virtualenv/uv.py 71-109 (create_env), 111-307 | uv and packaging (parameters), running the command, cancel_install |
| Model/Metric | metrics/api.py 38-204, backends/metric.py, console, prometheus | floats, the prometheus library and its HTTP server, garbage collection of unused wrappers |
| Model/Local | core.pyx 60-106, 108-160, 236-350; batch.py 119-180; lookups of pool.py | method bodies and locks (ActorLock, Calls), attributes of the reference classes themselves, keyword arguments |
| Model/Front | context.pyx 241-300, 355-368; backend.py; api.py setup_cluster; _utils.pyx create_actor_ref | control characters in addresses (urlparse strips them), Python versions before 3.12 (a scheme may start with a digit there) |
| Model/Refs | core.pyx 591-664; context.pyx 182-213, 324-352; backends/context.py 353-437; pool.py 526-536 | UCX transfers; random ids (taken as distinct); connection failures (C12) |
| Model/Procs | pool.py 1385-1429, 890-903; indigen/pool.py 424-487, 189-200 | time apart from the order of the program points and the sum of the time limits; the clean-up of transports for Python 3.13; psutil.AccessDenied |
| Model/Impl | api.py 382-395, 516-527; pool.py 622 | the registry is one process's: that registering in a client does not affect pools is not a theorem; __new__ of the Cython base class (taken to succeed); KeyError raised by super().__new__ |
| Model/Wrap | api.py 330-365, 475-505; core.pyx 287-299, 526-532 | iteration (Model/Gen); interpreter exit; what asyncio.Lock does when waited for from two event loops beyond waiting |
| Model/Ucx | ucx.py 240-335; pool.py 541-598; context.py 361-369 | CUDA streams, endpoint close callbacks, `UCXInitializer` options, failures of the network, `deserialize` |
| Model/Cycle | debug.py 107-168; pool.py 681-697; context.py 245-264; core.pyx 510-560 | generators (lock released at a yield), methods marked no_lock, several calls awaited at once, order of lock waiters |
| Model/Conns | router.py 78-116, 131-187, 209-237; backends/core.py 49-88 | order of lock waiters, communication configuration, connections made by a cancelled connect |
| Model/Closer | backends/core.py 224-237, 239-353 | end of the process, tasks cancelled by `_cancel_all_tasks`, errors while closing |
| Model/AioFile | aio/base.py; aio/file.py | `isatty`, `seekable`, `writable`, `flush`, text mode, errors of the operating system |
| Model/Subproc | virtualenv/utils.py 26-84 | starting the command, `cwd`, `env`, errors of the operating system; order between the two streams |
| Model/Order | context.py 223-262, backends/core.py 143-171 198-219, socket.py 78-98, serialization/core.pyx 745-795, pool.py 315 429-445 557-580 657-675, core.pyx 291-342 510-527 | connecting, broken connections, results, stateless actors, generators that give up the lock |
| Model/Delay | core.pyx 228-243 331-338 349-355 | what happens to the message after it is written (C80), time resolution |
| Model/Link | socket.py 77-104 (composition of Model/Message and Model/Wire) | closing and connection errors (C08, C60), CUDA buffers |
| Model/Linear | context.py 107-125, 232-264, backends/core.py 90-170, pool.py 386-445, 573-598, 685-733, core.pyx 510-560 (one actor, all callers) | what the messages carry (C82), the order of lock waiters (C15), reply matching (C20), the creation and destruction of the actor (C23, C24) |
| Model/StoreWire | cpp/collective/rendezvous: tcp_store.cpp 148-161, 237-326, 373-560, 792-836, 920-928, 1014-1058, 1140-1315; utils.hpp 381-452 (the bytes of the store) | memory exhaustion, EINTR, that mset and mget act while they read, waitForWorkers, what a request does in the server (Model/Store) |
| Model/Nccl | collective/process_group.py 333-687 (groups made by new_group), common.py 85-90, nccl_backend.py 69-80, 145-160 | cupyx's NCCLBackend (default group), NCCL itself (its contract is assumed), streams, arrays that are not contiguous, mixed types |
| Model/Watch | debug.py 37-110, utils.py 326-398 | the text of the warnings, patching of create_task, clocks that go back |
| Model/Meet | socket.cpp: SocketConnectOp; tcp_store.cpp: constructor, waitForWorkers, TCPClient::connect | name lookup, socket options, the listening side's bind, end of the server's process |
| Model/Reach | core.py 23-65, socket.py 210-445 (create, connect, addresses, paths), ucx.py addresses, utils.is_v6_ip; kernel: bind/listen/unlink rules | name lookup, connect timeout, Windows, TLS, channels |
| Model/Prof | profiling.py 33-127, 179-252: operators, init, pop, indexing, debug loops | parsing of options, environment variables, `set` with dictionaries, text of the log |
| Model/Ids | _utils.pyx 34-36, 139-177, indigen/pool.py 204-206, utils.py 219-220: ids, their generator and its seed, across processes and forks | the Mersenne Twisters (parameters), malloc, negative lengths |
| Model/InitPg | collective/core.py 35-81, 327-385, the address part of 388-738, collective/utils.py 37-41 | connecting the group (input), data (Model/Gloo, Model/Nccl), several pools per process |
| Model/Gpu | nvutils.py 246-718: libraries, counting, information, status, search for a context, index and uuid | the WSL branches other than the status's, other attributes of a device, CUDA_DEVICE_ORDER; the three queries of a status are one moment |
| Model/Lazy | _utils.pyx 40-110: dotted names, with failing imports and imports that register names; reload_all_lazy_handlers | a failing import is taken to register nothing; names denoting strings or tuples |
| Model/LazyMod | utils.py 234-298: lazy_import, LazyModule, lazy_import_on_load, ModulePlaceholder | attributes of the lazy object itself; the frame lookup of the default globals |
| Model/Raise | utils.py 82-121 wrap_exception; message.pyx 207-255 _AsCauseBase, as_instanceof_cause; context.py 106-111 | an error class's own __getattr__, a __new__ that sets state; pickling |
| Model/Netstat | utils.py 171-215: _get_ports_from_netstat, the choice of the source | decoding, the platform's line separator, timeouts of netstat |
| Model/Spawn | indigen/pool.py 165-339: starting a sub pool; fate_sharing.py 146-160, 185-221 | Windows job objects, the child's logging and uvloop set-up, pid reuse |
| Model/Uv | virtualenv/uv.py 43-46, 238-319: installing and cancelling in threads | asynchronous exceptions, processes that cannot be signalled |
| Model/Venv | virtualenv/uv.py 36-109, 321-331; virtualenv/__init__.py 22-35 | links, Windows, the contents of environments |
| Model/Home | context.py 127-154, 209-228; pool.py 607-632, 663-680, 926-938, 1041-1090, 1134-1196; api.py 330-380, 487-505 | in-process references (C67), proxies (C58), stopping |
| Model/Sizes | utils.py 59-79; nvutils.py 440-513 | rounding of floats, text outside ASCII, calls of the driver, running nvidia-smi and reading XML |
| Model/Bind | batch.py 28-75, 178-230; CPython's initialize_locals, getfullargspec, namedtuple field names | functions of C extensions, names of generated functions and types |
| Model/NoLock | core.pyx 44-46, 276-297, 310-350, 458-550, 566-585; batch.py 184-236; api.py 488-505 | functions shared between names by assignment, other decorators |
| Model/UcxInit | ucx.py 58-193 | warnings, errors while looking at the CUDA context, text outside ASCII |
| Model/Retry | utils.py 414-449 | an `ex_type` that covers CancelledError; `sync=False` with a function that returns no awaitable |
| Model/AioEvent | aio/parallelism.py, aio/base.py 23-39 and the executor of serialize_with_spawn (serialization/core.pyx 789) | errors of jobs, the shutdown of the executor; a job's end and the arrival of its result are one step |
| Model/Mlx | serialization/mlx.py | MLX itself (names of types are parameters) |
<!--MODELS-->

Not modelled at all: cudf in serialization/cuda.py, virtualenv/platform.py, the c10d `TCPStore` wrapper of nccl_backend, ShareableList of shared_memory.py, the gloo library's transports in C++, Windows and macOS specifics.

## Deviations found while modelling

Facts about the code at this commit that contradict what a user would expect; each is a theorem named in the table below, except those
marked (text), which were seen while reading and lie outside the model.

* copy_to forgets the size of a block that fits exactly, so blocks may exceed block_size (C11); error replies of the receiver are ignored (C12).
* A tuple result whose awaitables are not a prefix is put together in the wrong order (C17).
* A cancelled pending call makes the listener fail on its reply and later calls hang (C21); a stray reply fails every pending call (C20).
* A failed `__post_create__` leaves the actor in the pool (C23); overlapping destroys run the hook twice, and one may remove a new actor (C24).
* The main pool's directory: destroying uid u at one sub pool also drops u elsewhere; ghosts after failed creations; placeholder races (C25, C26).
* `remove_sub_pool` does not withdraw the route in the main process (C30); `get_proxies` does not end on cyclic configurations (C31).
* Process indices collide between processes (C32); `get_next_port` never raises its documented error (C34); repair of a wildcard address
  drops the scheme, and raises for IPv6 addresses in brackets (C35).
* A cached inherited handler survives a more specific registration (C37); unregistering one of two types of a serializer class breaks the
  other, and a registration refused because of its id has replaced the type's serializer all the same (C38); cancelled evaluations are served from the LRU cache (C39).
* A producer's error whose text contains "StopIteration" ends the iteration silently; cancelled requests lose items (C40).
* The slow call report keeps 9, not 10 (C43); the coroutine retry wrapper returns None when all
  attempts failed, and both wrappers sleep once more after the last attempt (C50).
* Recovery: a creation recorded during recovery aborts it, waiters may be woken before the death is noticed, appended sub pools are never
  recovered, without auto_recover the down callback is called again and again (C45).
* NCCL subgroups exchange their id by group ranks taken as global ranks (C47).
* `join` of a main pool returns before `stop` ended; a failing stop leaves servers up (C49).
* close of a dummy channel wakes nobody and drops accepted messages (C51); the TCP store: waits and deletions, stale answers after a client
  time out, dead watchers, compare-set wakes nobody (C52).
* (text) `deserialize` mutates the lists of its header; `serialize([1, 2])` puts the user's list itself into the header; a defaultdict loses its
  default_factory, list and dict subclasses their attributes, str and bytes subclasses their class; an unknown serializer's
  `on_deserial_error` lookup raises KeyError; a message's protocol is checked by the sender only.
* (text) `_allocated_actors` is built in `__init__` only: a sub pool appended later raises KeyError on allocation; a cancel sent to the main pool is
  not passed on to a sub pool; `RankActor` does not check its own rank; a broadcast in an nccl subgroup with send_buf None fails.
* `torch.py`: a contiguous CUDA tensor that is a slice sends its whole storage and is rebuilt from storage offset 0: other elements arrive, without an error (`cuda_slice_refuted`).
* `torch.py`: a 0-d CPU tensor that requires a gradient (or of a dtype unknown to NumPy) cannot be sent (`scalar_grad_refuted`).
* `torch.py` passes a typed memoryview to the transport; asyncio slices it by bytes sent, so a partial write drops data and desynchronises the stream (`typed_view_refuted`).
* `_send_channel`: an error whose pickling and printing both raise leaves its caller waiting (`no_reply_refuted`).
* C58: control messages are not wrapped for proxies: `kill_actor` through a main-pool gateway fails with KeyError, through a sub-pool gateway stops the gateway; `wait_actor_pool_recovered` waits forever at the gateway; `cancel` ignores a reference's proxy addresses. A main pool bound to 0.0.0.0 and addressed by a concrete address calls itself forever on `cancel`/`get_pool_config`; actors of its sub pools cannot be killed. Gateways that are each other's wildcard proxy pass a call to and fro forever.
* C60: the variable `error` in `wait_sub_pools_ready` is never set, so a failed start leaves the sub processes that did start running; a failed (or ongoing) `append_sub_pool` leaves a placeholder entry (`host:0`) in the configuration which the strategies can pick; `_allocated_actors` is not cleaned by `remove_sub_pool`, so `has_actor` stays True; appending at an address in use redirects that address to the socket of the pool that fails to start.
* C61: `wait_for` cancels the call only on timeout: cancelling the task waiting in it leaves the call running. `elif f.exception():` tests the truth of the exception, so an exception class with `__len__`/`__bool__` giving false leaves `wait_for` waiting for ever. With timeout 0 the result of a finished awaitable is lost (asyncio.wait_for returns it).
* C62: gloo `scatter` passes the sum of the sizes of the send buffers as the size of every part: in a group of `w ≥ 2` with parts of `k ≥ 1` elements each rank writes `w·k` elements into its recv_data of `k` (heap overflow; the surplus is whatever follows the root's buffer), and a rank that passes an empty list does not agree with the others. No operation checks recv_data's size or contiguity. BAND/BOR/BXOR are RuntimeErrors for integers too.
* C63: `eval_custom_marker` evaluates all operands of `and`/`or`: `has_cuda and cuda_version >= "12.1"` is a TypeError on machines without CUDA, where it should be false. `cuda_version >= "12"` (no dot) is a TypeError everywhere; `in` is a KeyError; a misspelt name makes `==` silently false.
* C64: a requirement with a standard marker that is true is rewritten as `name` + `specifier`: `uvicorn[standard]; python_version>'3'` installs uvicorn without the extra and `pkg @ url ; marker` installs pkg from the index. Variables are substituted one after the other, so a value containing `#other#` is substituted again. `#system_torch#; marker` is never resolved. Markers of `git+…`/`http…` items are never evaluated.
* C65: with skip_installed: `requests[socks]` is skipped when requests is installed although the extra is not; `pkg @ url` is skipped when any version of pkg is installed; packages whose dry-run line ends in `(from …)` are silently not installed; `numpy` together with `numpy>=2` fails (the first becomes the constraint `numpy==installed`); `git+…` items are installed with --no-deps; the plan is made without index_url and the other options; for a package that is twice on sys.path the shadowed version is looked at. create_env takes any word for `exists` if there is no environment yet.
* C66: values recorded before init_metrics are dropped (one warning); shutdown_metrics + init_metrics sets counters made before the first init to zero and leaves the others on the old backend; a prometheus counter has one count for all its tags, so a series shows the events of other tags too; `a.b` and `a:b` (or a metric made again after a re-initialisation) collide and the second is silently never exported; `record` adds host and pid to the caller's dict.
* C67: a LocalActorRef prefers its weak reference to the pool's table: after destroy_actor it goes on calling the destroyed actor as long as the object is in memory (running method, callback, reference cycle), even when a new actor has the uid; stop() leaves actors callable from the process; `_method` is callable locally only; `tell` to a missing actor raises locally and is lost remotely; `ref.a.batch(ref.b.delay(1))` runs a locally and b remotely, and a batch mixing methods runs a on everything locally (ValueError remotely).
* C68/C69: `create_actor(A, uid="")` gets a random uid; `actor_ref(addr, uid, uid=other)`, `actor_ref(ref, proxy_addresses=…)` and four or more positional arguments are silently ignored; re-registering a backend after first use of its scheme affects pools but not calls; `setup_cluster` with an unknown scheme runs the earlier drivers and then raises.
* C70: `buffer_ref` does not keep the buffer (a temporary `memoryview` is gone at once) and accepts any pool's address; `copy_to` with a list of both kinds of references uses the first one's kind for all; in each case `copy_to` returns normally and nothing is written. `bytes`/`bytearray` buffers are refused with TypeError.
* C71: `kill_sub_pool` looks the process up by pid after it was reaped: another process that got the pid is killed with its descendants, while the sub pool's own children are never found (its 'entire process tree' loop runs only if SIGKILL did not work). Sub pools do not notice the end of a main process that is a zombie, nor one whose pid was reused.
* C72: `AsyncActorMixin.__new__` catches KeyError around the whole construction of the implementation, not just the lookup, and Python calls `__init__` again on what `__new__` returned when it is an instance of the class: a registered subclass is initialised twice, and a KeyError in its `__init__` silently gives an object of the replaced class.
* C73: `IteratorWrapper.__del__` starts a thread and joins it in the event loop's thread: if a method of the generator's actor holds its lock and needs this event loop (always so in the actor's own process) everything hangs for ever. A wrapper serialised twice gives two responsible copies; a lost message or a consumer that ended leaves none and the generator stays in `_generators` until the actor is destroyed.
* C74: `UCXChannel.recv` skips buffers of size 0 while `send_buffers` sends them: the connection is out of step after any message with an empty buffer. `_handle_ucx_meta_message` answers an unknown reference with an error without receiving the data that follows, which is then taken for a message; a cancelled `send` leaves half a message on the wire with the endpoint open; `copy_to_buffers` ignores the answer.
* C75: the cycle warning follows one call chain only: two chains A→B and B→A at the same time deadlock unwarned; calls back to a `StatelessActor` or from a background task whose method has ended are warned about though nothing blocks.
* C76: `Router.set_mapping/add_router/remove_router` replace the thread-local cache and lock while `get_client` may be connecting: the connection to the old address is stored in the new cache and used from then on; open connections in the old cache are never used or closed again.
* C77: `ActorCaller._ensure_initialized` has no lock: two threads ending at the same time may start one close thread twice (RuntimeError in the finalizer, connections stay open), or give one loop to two threads, the second of which stops it in its `finally` (no connections are closed any more).
* C78: an `AioFileObject` operation cancelled after a thread took it still happens and its data is lost; `__aexit__` sets `_file` to None, so `closed`, `close` and all other attributes raise AttributeError afterwards.
* C79: `run_subprocess_with_logger` never returns if `sys.stdout.write` raises in a reader thread while the command writes more than the pipe holds (for every pipe size); `clean_ansi` leaves control sequences that arise from nested ones.
* C80: calls can be started in another order than they were made: messages of more than 100 objects are serialized in a thread pool and overtaken by later ones; in a proxy this happens although `await ref.f.tell()` had returned before the next tell was made. With a local reference `await ref.g()` overtakes a preceding `ref.f.tell()` that was not awaited.
* C81: `tell_delay` without `delay` never tells (TypeError inside the returned task); arguments changed during the delay are told changed; the local version ignores `ignore_conn_fail` and does not log errors.
* C83: `__post_create__` and `__pre_destroy__` run without the actor's lock while calls are served: updates can be lost.
* C84: the store's server reads a request with blocking reads on its only thread: a client that stalls in the middle of a request blocks all others; there is no timeout on the server side.
* C84: if the client's `recv` times out within an answer, the rest of the answer is read as the answer to the next operation.
* C84: `TCPStoreWorkerDaemon::run`: if the connection to the server is reset the `recvValue` that follows throws out of the thread (`std::terminate`); if the server closed it, the loop spins at full load.
* C85: nccl `gather` in a group raises for every receive buffer but one of shape (world, n): its check is about the number of elements only. The exception comes between groupStart and groupEnd, and the other ranks wait for ever. The same holds for `alltoall` into a flat buffer.
* C85: nccl `broadcast`/`scatter`/`gather` need arrays on ranks that do not use them (gloo does not); uneven `recv_elems` cannot work; BAND, BOR, BXOR raise KeyError.
* C85: the NCCL store reads a request with one `recv`: a request cut by TCP is dropped.
* C86: an empty exclude filter (empty environment variable, or a trailing `;`) is contained in every task's text: the detector never reports anything.
* C87: `kNoTimeout` (0) and timeouts below a second become a connect timeout of 0 s, so no connection is ever tried (tcp_store.cpp 939-942, socket.cpp 653, 726); `waitForWorkers` leaves its loop silently after the timeout, counts restarted ranks again and makes only the server's process wait.
* C88: `_check_scheme` raises TypeError (`join` over a key `None`) for unknown schemes; `UnixSocketServer.create` with an index in use takes the name of the other server, and either's `stop` removes whatever has the name (socket.py 369-412); a created TCP server does not hold its port until `start`; `UCX://` in capitals is dispatched to UCX but the prefix stays in the host.
* C89: the done-callback of a debug loop (profiling.py:223) pops `_debug_task[task_id]` whoever is there: after pop and a new init of the same task it removes the newer loop, which `pop` then cannot cancel; the dictionary `pop` returns is still changed through operators kept from before; `collect_actor_call` is called nowhere in the repository.
* C43: the report of slow calls (`to_dict`, profiling.py:157-169) is a dictionary filled slowest first, so of kept calls with the same name (address, actor, method, arguments) it shows the fastest, not the slowest.
* C90: after `os.fork` of a process that has made an id, parent and child make the same ids (Python reseeds its own `random` in the child, nobody reseeds the C++ generator, _utils.pyx:34-36); the generator's only seed is 64 bits of the user's global `random`: two processes that call `random.seed(0)` before the first id make the same message ids and actor uids; `get_next_port` reseeds the user's global `random` (utils.py:219).
* C91: a sub process started after its parent joined inherits the environment variable of the rank address: its collective calls act as the parent's rank and its receive buffers (copies on the other side) are never filled, without an error; `device_id=-1` is accepted with nccl when the environment variable holds a valid device and -1 is then used (core.py:360-366, 377); ranks are not checked against the world size.
* C92: `get_driver_info` reports CUDA 12.2 as "12.20" (nvutils.py:379 divides the code 1000 M + 10 m by 1000); uuid or MIG entries of CUDA_VISIBLE_DEVICES make `get_device_info` raise ValueError (413-416); `get_device_count` counts entries CUDA does not show and is never asked again; in a forked child without NVML `get_cuda_context` raises TypeError since `_init_pid` is the parent's (676, 680) and `get_device_status` AttributeError; on WSL `get_device_status` asks nvidia-smi for the number CUDA uses (482), ignoring CUDA_VISIBLE_DEVICES, and fails unless the card says it has no utilisation figures or if nobody has imported `defusedxml.ElementTree`; in WSL `int(util_node.find(...))` raises TypeError (493).
* C93: a dotted name whose module is found but cannot be imported (e.g. cupy without CUDA libraries, registered by serialization/cuda.py:107 as soon as it is found) makes every serialization of an object of a new class raise ImportError although `object` has a handler, and no pool can be created (pool.py:826); `unregister("module.name")` after resolution leaves the handler; a registration by class is overridden by an older one by name at the next miss (_utils.pyx:66-76).
* C94: a load hook that raises stays registered, so that every access through the lazy object raises and the hooks before it run again (utils.py:260-263); `lazy_import_on_load` on a name already bound to the module ignores the hook silently (277-283); `lazy_import("a.b")` only looks for `a` (242, 270), so `is not None` tests pass although the module cannot be imported; any access through a retained lazy object rebinds the global name whatever it is bound to (255-256).
* C95: a caught remote OSError has errno None, a SystemExit code None (so that `sys.exit(3)` in an actor ends the caller with status 0), because the wrapper is made without arguments and `__getattr__` is only asked for missing attributes (utils.py 92-96, 120-121); likewise instance attributes that have a class-level default; an ExceptionGroup (asyncio.TaskGroup) reaches the caller as `TypeError: ... takes exactly 2 arguments` and is lost; `repr` shows no arguments.
* C96: netstat lines without a dot are skipped (utils.py:180), so that Windows IPv6 listeners (`[::]:50000`) count as free; a line whose first dotted word is no endpoint (a Unix socket path) makes `int()` raise and get_next_port fail (188-190); `typ` is ignored with netstat; `random.seed` (218) reseeds the program's global generator at each allocation.
* C97: the parameters of a sub pool include the whole pool configuration and must pickle to less than 10232 bytes (indigen/pool.py:64-66), so that pools of very many processes, or with large `env`s, cannot be started; cancelling `create_actor_pool`/`append_sub_pool` leaves the new process running (325-336 has no kill); there is no time limit for a child that hangs (309-331); `PR_SET_PDEATHSIG` (fate_sharing.py:151-157) kills the sub pools of a pool started in a thread when that thread ends; `pthread_sigmask` in `preexec_fn` (188) survives exec, so that `suspend_sigint=False` makes no difference and processes started by actors do not see Ctrl-C.
* C98: cancel_install (uv.py:316-319) reads self._install_process four times without a lock, while install_packages sets it to None (312) in another thread: an installation that ends meanwhile makes it raise AttributeError; a next installation may be terminated in place of the one meant. The dry run (137) is not recorded, so that it cannot be cancelled; two installations on one manager share the one attribute.
* C99: is_available (uv.py:48-54) and _get_uv_path (56-66) look in different places: with `pip install uv` and its binary not on PATH the manager is declared unavailable though it works; get_lib_path (325-326) is computed with the running interpreter's version although create_env takes python_path; get_python_path (321-324) checks that the directory exists, not exists_env().
* C100: fix_all_zero_ip (utils.py:503-522) is applied in actor_ref only (context.py:226-227): create_actor on a pool bound to 0.0.0.0 returns a reference with the address 0.0.0.0:port (context.py:152-154, pool.py:620-626), which on another machine leads to that machine itself; IteratorWrapper (api.py:331-337, 366-370, 500) keeps self.address of the actor and asks for it with actor_ref(address=…), so iterating over a remote generator fails there even when the reference of the actor was repaired.
* C21: stopping a caller (core.py:224-236) closes the connections and cancels the listeners; CancelledError is not caught by `except Exception` (116), so a listener that did not notice the closing in between leaves the calls pending on it waiting for ever.
* C101: parse_readable_size (utils.py:72-79) looks only at the first letter and the last character of what follows the number: '5 gremlins' is 5 GiB, '5 minutes' 5 MiB, '7 of 10%' a share of 0.07; '1e3' is refused. get_device_status under WSL (nvutils.py:495-502) calls int() on the XML element, not its text: TypeError for every device with a utilization; it also asks nvidia-smi for dev_index, not the device behind CUDA_VISIBLE_DEVICES.
* C102: build_args_binder (batch.py:34-63) loses the `/` of a signature (getfullargspec lists positional-only parameters in args): bind accepts them by keyword and raises TypeError where a **kw parameter should take the name. A parameter with a leading underscore (also *_args, **_kw) makes the decorator @extensible raise ValueError (namedtuple, batch.py:67).
* C103: no_lock marks what it gets: above @extensible (or @m.batch) that is the accessor object, whose mark nobody reads (batch.py:230-234 looks at func and batch_func), so the method silently keeps the lock and can deadlock. An async generator method marked no_lock still holds the lock in each step (core.pyx:474).
* C104: the options computed from tcp/nvlink/infiniband are never passed to ucp.init() (ucx.py:178), and os.environ = new_environ (a plain dict copy) does not reach the C environment UCX reads, so neither the high level settings nor ucx.environment have any effect on UCX; only the CUDA context follows them. The key for asking for it outright is misspelt (create-cuda-contex), and the first init of a process wins silently.
* C105: AioEvent.wait runs in the loop's default executor (aio/base.py:26), the one that serializes large messages (core.pyx:789): a wait that is cancelled (asyncio.wait_for) keeps its thread until the event is set, and min(32, cpus+4) such waits stop every message above the threshold and every file operation of the process, for ever if the events are never set. A wait still in the executor's queue misses set() followed by clear().
* C106: MLXSerislizer.deserial overwrites `dtype` with a numpy type (mlx.py:61) and then calls `getattr(mx, dtype)` (66): TypeError for every buffer whose format is not the sent one; before, 62 reshapes the bytes to the shape of the elements, which fails unless an element is one byte.
* (text) retry_callable says `functools.wraps(callable)` (utils.py:423, 435), the builtin, where `callable_` was meant: the wrapper has the wrong name and no documentation.
<!--DEVIATIONS-->

## Testing the theorems

`tools/mutate.py` applies one edit to one model definition, re-elaborates that module and everything that depends on it in a scratch
directory, and reports which claimed theorems no longer have a proof.  Every surviving edit that makes an English claim false led to a new or
stronger theorem (field `tightened` in `seeded/LOG.jsonl`).

## Properties: model, proof, theorems

### C01 Serialization round trip (proved)

For every value built from None, numbers, bytes, str, tuples, lists and dicts (nested arbitrarily, with sub-objects shared between several places), deserialize(*serialize(v)) succeeds and returns a value structurally equal to v.

*Over:* every finite acyclic object graph, of any depth, width and sharing pattern, including strings/bytes on both sides of the 1024 inlining limit.  *Model and proof:* heap graphs of objects with identities; serializer and deserializer as stack machines over headers and buffers; simulation by induction over an acyclic graph with the id table as invariant.

*Theorems:* `Serial.roundtrip_acyclic`, `Serial.bytes_subclass_fails`, `Serial.header_short`, `Serial.alone_is_buffer`.

*Note:* finite acyclic graphs; str/bytes subclasses excluded (their class is lost: bytes_subclass_fails)

### C02 Shared objects stay shared (proved)

If the same tuple, list, non-empty dict or other object occurs several times inside a value, then after a serialize/deserialize round trip all those occurrences are again one object, and different objects stay different objects. (An empty plain dict is the exception: each occurrence becomes a dict of its own.)

*Over:* every acyclic object graph, every pair of access paths to such objects in it.  *Model and proof:* as C01: the receiver's heap is isomorphic to the part of the sender's heap that keeps identity.

*Theorems:* `Serial.sharing_kept_acyclic`, `Serial.shared_empty_dict_splits`.

*Note:* empty plain dicts are not kept shared, shown by shared_empty_dict_splits

### C03 Incremental (spawned) serialization is equivalent to serialization (proved)

serialize_with_spawn yields, whatever the switch threshold and however often serialization is suspended and resumed, the same headers and buffers as serialize, apart from the extra item-count entry in the meta dict, and both deserialize to the same value.

*Over:* every value and every suspend threshold.  *Model and proof:* the same stack machine with suspension points; any schedule of suspensions composes to the unsuspended run.

*Theorems:* `Serial.spawn_equivalent`.

*Note:* for every set of serializers

### C04 Self-referential values survive a round trip (partial)

A list or dict that (transitively) contains itself is deserialized to a value with the same cyclic shape: the back reference points to the deserialized container itself.

*Over:* every finite object graph whose cycles go through lists or dicts.  *Model and proof:* heap graphs with cycles; the placeholder table as invariant; witnesses where it breaks.

*Theorems:* `Serial.roundtrip_cyclic_partial`, `Serial.sharing_kept_cyclic_partial`, `Serial.cyclic_with_shared_empty_dict_fails`, `Serial.cycle_through_tuple_fails`.

*Note:* false in full: shown wrong for cycles next to an empty dict occurring twice and for cycles through a tuple; proved for all other cyclic graphs

### C05 Message round trip (proved)

For each message type (control, result, error, create/has/destroy actor, actor ref, send, tell, cancel, forward, copy-to-buffers, copy-to-fileobjs), the receiver rebuilds a message with the same type, id, protocol, trace, profiling context and type-specific fields, including a message carried inside a forward message.

*Over:* every message of every type, every field value, forward messages nested to any depth.  *Model and proof:* serial/deserial of each message class on header tuples; induction over nested forwards.

*Theorems:* `Serial.message_roundtrip`, `Serial.message_fields_kept`.

*Note:* all 13 classes, forward messages nested to any depth, any supported payload graph

### C06 Undecodable payload is reported against its own message id (partial)

If the payload of a received message cannot be deserialized, the receiver raises DeserializeMessageFailed carrying exactly the id of the message being decoded, so the failure can be sent back to its caller; a message with an unsupported protocol is rejected.

*Over:* every message, every position of the failing sub-object in its object graph.  *Model and proof:* error paths of MessageSerializer; case analysis over the failing component.

*Theorems:* `Serial.undecodable_reported_against_own_id`, `Serial.unloadable_payload_reported`, `Serial.raised_is_own_id`, `Serial.unsupported_protocol_rejected`, `Serial.nested_unknown_serializer_escapes`, `Serial.unknown_serializer_reported`.

*Note:* proved for every payload made by the core serializers and every receiver-side unpickler; false in full: a failing component below an object whose serializer is unknown to the receiver makes a raw KeyError escape (nested_unknown_serializer_escapes); the protocol is checked by the sender only

### C07 Wire framing round trip (proved)

What is written on a connection for a sequence of messages is read back as exactly that sequence of (header, buffers), with every buffer boundary restored, and a frame with a foreign version byte is refused rather than misparsed.

*Over:* every sequence of messages, any number and size of buffers including empty ones, any trailing bytes.  *Model and proof:* byte lists with little-endian lengths; round trip and induction over the stream, reading in arbitrary chunks.

*Theorems:* `Wire.send_recv_stream`, `Wire.frame_isSome_iff`, `Wire.truncated_frame`, `Wire.foreign_version_refused`, `Wire.size_of_frame`, `Wire.reader_prefix`, `Wire.reader_complete`, `Wire.cancelled_recv_desync`.

*Note:* cloudpickle of headers is a parameter with the round-trip law. cancelled_recv_desync documents that a recv cancelled half-way loses framing.

### C08 Concurrent senders do not interleave frames (proved)

When several tasks send on the same socket channel concurrently, the byte stream is a concatenation of whole frames (each message contiguous), so the receiver obtains some permutation of the sent messages, each intact, with the order of one sender's messages kept. A send that is cancelled is sent whole or not at all and takes nothing from the others.

*Over:* every number of senders, every interleaving of the event loop at await points, every moment of cancelling a send.  *Model and proof:* sender tasks with the write as one step; the stream is a concatenation of frames.

*Theorems:* `Wire.concurrent_senders_whole_frames`, `Wire.concurrent_senders_received`, `Wire.cancelled_senders_whole_frames`, `Wire.cancel_touches_one`.

### C09 Start-up handshake is never torn (proved)

A parent polling the start-up shared memory of a sub pool process sees either nothing or exactly the complete payload the child wrote, no matter at which point between two elementary memory writes the child is observed or dies; payloads that do not fit are refused before anything is written.

*Over:* every payload, every crash/observation point inside the write, every previous content with a different sequence tag.  *Model and proof:* the stores of length, payload and tag in any order inside an assignment; every prefix of the store sequence.

*Theorems:* `Shm.handshake_not_torn`, `Shm.handshake_complete`, `Shm.handshake_too_long`, `Shm.handshake_two_phases`.

*Note:* Stores reach memory in program order of the three slice assignments (any byte order inside one).

### C10 copy_to delivers every byte to the right place (proved)

copy_to(local_buffers, remote_buffer_refs) leaves each remote buffer holding exactly the bytes of the corresponding local buffer, independently of block_size and of how sizes relate to it.

*Over:* every list of buffers (any sizes, including empty), every positive block size, when the peer accepts the writes.  *Model and proof:* the block loop of copy_to and the receiver's writes; loop invariant.

*Theorems:* `CopyTo.copy_delivers`, `CopyTo.copy_equal`, `CopyTo.copy_check`.

### C11 copy_to blocks respect block_size (partial)

No message sent by copy_to carries more than block_size bytes of buffer data.

*Over:* every list of buffer sizes and every block size.  *Model and proof:* the same loop; bound on block sizes, witness of the overflow.

*Theorems:* `CopyTo.blocks_bounded_partial`, `CopyTo.block_size_used`, `CopyTo.blocks_bounded_single`, `CopyTo.blocks_unbounded_refuted`, `CopyTo.file_blocks_bounded`.

*Note:* False of the code (exact fit forgets the current size); holds when no proper prefix of sizes is a multiple of block_size.

### C12 copy_to success means the data was written (partial)

If copy_to returns normally then every remote write succeeded; a failure to write at the receiver is reported to the caller.

*Over:* every subset of blocks whose write fails at the receiver.  *Model and proof:* the reply handling of copy_to; witness.

*Theorems:* `CopyTo.copy_error_ignored_refuted`, `CopyTo.copy_files_error_ignored_refuted`, `CopyTo.copy_connection_failure_partial`, `CopyTo.copy_files_connection_failure_partial`.

*Note:* False of the code: error replies are ignored; connection failures are reported.

### C13 copy_to to file objects appends whole contents in order (proved)

copying local files to remote file objects writes to each remote file the whole local content, in order, whatever the block size.

*Over:* all file contents, numbers of files and block sizes.  *Model and proof:* the file loop; loop invariant.

*Theorems:* `CopyTo.copy_files_delivers`.

### C14 Actor methods are mutually exclusive (proved)

Of all ordinary calls to one (stateful) actor, at most one is executing a lock-holding section at any time, in every interleaving, also when calls fail or are cancelled while running or while waiting.

*Over:* every set of concurrent calls, every interleaving, exception and cancellation.  *Model and proof:* asyncio.Lock and the call life cycle as one state machine; invariant over all step lists.

*Theorems:* `ActorLock.mutual_exclusion`.

### C15 The actor lock is always released and granted in arrival order (proved)

A call that ends (normally, by exception or by cancellation) leaves the lock free or hands it to the longest waiting caller; when no call is running or suspended the next call starts without waiting; no waiting call is lost.

*Over:* every history of calls, completions, exceptions and cancellations.  *Model and proof:* as C14: grant order = arrival order of those not cancelled.

*Theorems:* `ActorLock.grants_in_order`, `ActorLock.grants_then_waiting_in_order`, `ActorLock.lock_held_iff`, `ActorLock.free_actor_starts_at_once`, `ActorLock.waiting_is_queued`, `ActorLock.waiter_gets_lock`.

*Note:* asyncio.Lock is transcribed from CPython.

### C16 Yielding methods release the actor between yields (proved)

A method written as an async generator runs each stretch between yields atomically with respect to the actor's other calls, lets other calls run while the yielded awaitable is pending, gets back the awaited value (or its exception thrown in) at the yield, and the call's result is the value given by `raise Return(v)`, or None when the generator just ends, or the exception it raises.

*Over:* every generator behaviour (any number of yields, exceptions at any yield), every result of the yielded awaitables.  *Model and proof:* as C14, with generator steps.

*Theorems:* `ActorLock.generator_protocol`, `ActorLock.yielded_does_not_hold`, `ActorLock.free_actor_starts_at_once`, `ActorLock.mutual_exclusion`.

### C17 Tuple results are awaited in place (partial)

When an actor method returns a tuple in which some elements are awaitables, the caller gets the tuple of the same length in which every awaitable is replaced by its own result and other elements are unchanged; if one fails the first failure is raised.

*Over:* every tuple, every placement of awaitables, every outcome of each.  *Model and proof:* `_handle_actor_result` as a function of what each awaitable gives.

*Theorems:* `Calls.tuple_none`, `Calls.tuple_one`, `Calls.tuple_prefix_partial`, `Calls.tuple_order_refuted`, `Calls.tuple_future_refuted`, `Calls.tuple_not_silently_wrong`, `Calls.tuple_cancelled`.

*Note:* In full false of the code (order/future refutations); proved for tuples whose awaitables form the prefix.

### C18 Batch calls agree with one-by-one calls (proved)

ref.method.batch(d1..dn) returns the list of the n results in order, equal to what n separate calls give when the method has only a single-call implementation, and equal to what the batch implementation gives for the whole list otherwise; zero delays give an empty list without calling the method's single version.

*Over:* every list of delayed calls, any mixture of args/kwargs, any single/batch implementation.  *Model and proof:* dispatch of batch calls as functions; equations.

*Theorems:* `Calls.batch_single_impl`, `Calls.batch_single_impl_fail`, `Calls.batch_single_impl_fail_async`, `Calls.batch_batch_impl`, `Calls.batch_whole_list`, `Calls.batch_empty`, `Calls.single_via_batch_none`, `Calls.single_via_batch`, `Calls.single_direct`.

### C19 A batch may only contain calls of one method (partial)

Building a batch from delays of different methods is rejected with ValueError before anything is sent; otherwise the single message carries all argument lists in order.

*Over:* every list of delayed calls.  *Model and proof:* `batch` argument checks.

*Theorems:* `Calls.batch_accepts_iff`, `Calls.batch_message`, `Local.batch_mixed_refuted`.

*Note:* Proved for references to actors of other processes; a reference held in the pool's own process accepts any mixture and runs one method on all of it (refuted).

### C20 Replies reach the caller that asked (proved)

A pending call is completed only with the reply carrying its own message id (or with an error), and at most once; replies arriving in any order never complete another call.

*Over:* every number of concurrent calls, every order of replies, losses, duplicates, cancellations.  *Model and proof:* the listener, the table of pending calls, the callers as one state machine; history invariant.

*Theorems:* `Caller.reply_matches`, `Caller.reply_delivered`, `Caller.answered_once`, `Caller.stray_reply_fails_all_calls`.

*Note:* stray_reply_fails_all_calls records a deviation: a reply with an unknown id fails every pending call with KeyError.

### C21 No caller hangs when the connection dies (partial)

When the connection to a peer is closed or fails, every call still pending on it is completed with ServerClosed.

*Over:* every set of pending calls (some possibly cancelled by their callers), every point at which the connection dies.  *Model and proof:* as C20: when the listener ends normally nobody is pending.

*Theorems:* `Caller.no_hang_partial`, `Caller.cancelled_call_hangs_others_refuted`, `Caller.bad_reply_to_cancelled_hangs_others_refuted`, `Caller.bad_reply_delivered`, `Caller.stopped_caller_hangs_refuted`, `Caller.stopped_after_listener_partial`, `Caller.death_exact`, `Caller.before_order`.

*Note:* The full claim is false of the code: a cancelled pending call crashes the listener and the others hang, and calls pending when the caller is stopped hang if the listener is cancelled before it notices. Proved for all histories without cancellation/undecodable replies, and for stopping when the listener gets to run first.

### C22 An actor uid is used at most once per pool (proved)

In one pool, for every uid at most one live actor exists; a create with a uid in use fails with ActorAlreadyExist and leaves the existing actor untouched; after a successful destroy the uid can be reused and messages to it fail with ActorNotExist.

*Over:* every interleaving of concurrent create/destroy/send/has/ref requests.  *Model and proof:* all handlers of a pool as interleaved tasks; the log of events satisfies a specification over events only.

*Theorems:* `Pool.history_ok`, `Pool.one_live_actor`, `Pool.while_live`, `Pool.while_dead`, `Pool.refused_changes_nothing`, `Pool.reply_means`, `Pool.destroy_succeeds`.

*Note:* One pool, any interleaving of tasks; main/sub pool overrides are C25.

### C23 Failed creation leaves nothing behind (partial)

If create_actor fails (its __post_create__ raises or is cancelled) no actor with that uid exists afterwards and the uid can be used again.

*Over:* every failing create in every history.  *Model and proof:* as C22: effect of a failed creation.

*Theorems:* `Pool.failed_constructor_leaves_nothing_partial`, `Pool.failed_post_create_leaves_actor_refuted`, `Pool.failed_post_create_blocks_uid_refuted`.

*Note:* False of the code when __post_create__ fails (refuted); holds when the constructor fails.

### C24 Destroy is exclusive (partial)

Of several concurrent destroy requests for one actor exactly one succeeds, the hook __pre_destroy__ runs exactly once for it, and the others report ActorNotExist.

*Over:* every interleaving of concurrent destroys.  *Model and proof:* as C22, with and without overlapping destroys.

*Theorems:* `Pool.removed_once`, `Pool.destroy_exclusive_partial`, `Pool.concurrent_destroy_hook_twice_refuted`, `Pool.stale_destroy_removes_new_actor_refuted`.

*Note:* At most one success holds always; the rest is false for overlapping destroys (refuted) and proved for non-overlapping ones.

### C25 The main pool's directory agrees with the sub pools (partial)

has_actor / actor_ref asked at the main pool's address answer exactly according to the actors successfully created and not yet destroyed in the pool and its sub pools, wherever they were created from.

*Over:* every history of create/destroy requests issued at the main pool or directly at sub pools, with successes and failures.  *Model and proof:* main and sub pools with messages between them; refinement to a set of live actors for sequential histories; weaker invariant for all.

*Theorems:* `Directory.directory_exact_partial`, `Directory.actor_ref_exact_partial`, `Directory.never_forgotten_partial`, `Directory.sample_seq`, `Directory.ghost_of_failed_create_refuted`, `Directory.ghost_of_failed_hook_refuted`, `Directory.half_made_actor_refuted`, `Directory.wrong_actor_destroyed_refuted`, `Directory.ghost_of_race_refuted`, `Directory.recreated_actor_destroyed_refuted`, `Directory.forgotten_by_failed_destroy_refuted`, `Directory.forgotten_by_lost_destroy_refuted`, `Directory.destroy_ok`, `Directory.callFailed_remote`.

*Note:* Exact for histories with one request at a time, ids not shared between pools, creations sent to sub pools and destructions passed on to them not failing; under any interleaving nothing created is forgotten. Each restriction is shown necessary by a refutation.

### C26 Idle-label allocation never doubles up (partial)

Two live actors created with the same idle-label strategy never share a process; when every labelled process is taken creation fails with NoIdleSlot, and otherwise an idle labelled process is always found.

*Over:* every history of creates and destroys, including concurrent ones.  *Model and proof:* as C25, idle-label allocation.

*Theorems:* `Directory.idle_exclusive_seq_partial`, `Directory.idle_found_seq_partial`, `Directory.idle_exclusive_partial`, `Directory.placeholder_lost_refuted`, `Directory.placeholder_leaked_refuted`, `Directory.strategy_overwritten_refuted`, `Directory.double_after_failed_destroy_refuted`.

*Note:* Exclusivity and completeness with one request at a time; exclusivity under any interleaving when only this strategy is used; four ways to break it (refuted).

### C27 Allocation strategies honour their contract (proved)

Each allocation strategy returns an address that satisfies it: the specified address (unchecked), the main pool, some process, some sub process only, the process with the index, some process with the label; every qualifying address can be chosen, and it fails with a definite error exactly when none exists.

*Over:* every pool configuration, every random choice.  *Model and proof:* each strategy as a function of the configuration and a choice.

*Theorems:* `Config.alloc_address`, `Config.alloc_main`, `Config.alloc_random`, `Config.alloc_random_sub`, `Config.alloc_process_index`, `Config.alloc_label`, `Config.alloc_idle`.

*Note:* Over every configuration reachable by the configuration API (Hist) and every random choice.

### C28 Pool configuration lookups are consistent (partial)

After any sequence of adding/removing/re-addressing sub pools, the external->internal mapping, process indices, label queries and external address list all describe exactly the current pools.

*Over:* every sequence of configuration edits.  *Model and proof:* configuration edits; invariant over edit sequences.

*Theorems:* `Config.mapping_exact`, `Config.processIndex_exact`, `Config.externalAddresses_all`, `Config.externalAddresses_label`, `Config.processIndexes_nodup`, `Config.sample_hist`, `Config.remove_leaves_addresses_refuted`, `Config.reset_internal_stale_refuted`, `Config.readd_index_stale_refuted`.

*Note:* Proved for histories of the shapes the pools produce; three call shapes leave stale entries (refuted).

### C29 Router resolves addresses as configured (proved)

get_internal_address gives the local mapping if any, otherwise the router mapping, otherwise nothing; adding a router and removing it again (with fresh keys) restores the previous resolution; the client cache never hands out a closed client and keys on the requested address and thread.

*Over:* every sequence of add/remove router and client requests.  *Model and proof:* router state and client cache machine.

*Theorems:* `Router.internal_spec`, `Router.add_remove_restores`, `Router.add_resolves`, `Router.given_open`, `Router.client_one_key`, `Router.cached_client_current_partial`, `Router.shared_key_lost_refuted`, `Router.removed_proxy_stays_refuted`, `Router.stale_client_cached_refuted`, `Router.add_remove_live`, `Router.lock_per_thread`, `Router.lock_taken`, `Router.lock_fresh`, `Router.dest_exact`, `Router.uncached_connects`, `Router.uncached_private`.

*Note:* Everything in the statement is proved; the implicit claim that cached clients and proxy entries follow router changes is refuted in two situations.

### C30 A removed sub pool is no longer routable (partial)

After remove_sub_pool the address of the removed pool is no longer resolved by the pool's router.

*Over:* every configuration and removed pool.  *Model and proof:* the two routers during remove_sub_pool.

*Theorems:* `Router.removed_not_routable_partial`, `Router.removed_not_routable_sub`, `Router.removed_still_routable_main_refuted`.

*Note:* Holds for the pool's own router everywhere and for the process-wide router of sub pools; refuted for the process-wide router of the main process.

### C31 Proxy selection (partial)

Proxy for an address: exact entry first, then its host entry, then '*', never the address itself; the proxy chain from an address is the iteration of this choice and is produced in finite time for every configuration.

*Over:* every proxy configuration (including cyclic ones) and every address.  *Model and proof:* get_proxy, get_proxies with fuel; chains.

*Theorems:* `Router.host_of`, `Router.getProxy_spec`, `Router.getProxy_ne`, `Router.getProxies_chain`, `Router.chain_unique`, `Router.getProxies_terminates_partial`, `Router.chain_no_repeat`, `Router.getProxies_diverges_refuted`, `Router.wildcard_diverges_refuted`.

*Note:* Choice and chain proved; termination holds iff the chain ends, refuted for cyclic configurations.

### C32 Process indices are unique (partial)

Every sub pool process index handed out by a main pool is different from all those handed out before, in that pool and in other pools on the same host.

*Over:* all pids and counts.  *Model and proof:* shift arithmetic.

*Theorems:* `Ports.processIndices_nodup_partial`, `Ports.processIndex_shared_refuted`, `Ports.processIndex_collision_iff`.

*Note:* Unique within one pool; across processes refuted.

### C33 External addresses of a new pool (proved)

A pool created with n sub processes gets n+1 external addresses, all on the given host: with an explicit address the main pool uses that port, given ports are used in order, missing ones are chosen by the system, mismatching numbers of ports or schemes are rejected, and each address carries its requested scheme.

*Over:* every address spec, n and port list, every set of occupied ports.  *Model and proof:* get_external_addresses as a function of host, ports, schemes.

*Theorems:* `Addr.ext_with_port`, `Addr.ext_bare_host`, `Addr.ext_wrong_ports`, `Addr.ext_schemes`.

### C34 Allocated ports are free and distinct (partial)

get_next_port returns a port in the permitted range that is not occupied and, within a process, not one returned before unless it wraps around; if none is free it raises the documented error.

*Over:* all sets of occupied ports, all earlier allocations.  *Model and proof:* get_next_port over a set of occupied ports.

*Theorems:* `Ports.getNextPort_free`, `Ports.getNextPort_complete`, `Ports.getNextPort_exhausted`, `Ports.getNextPort_never_systemError`, `Ports.getNextPort_state`, `Ports.calls_distinct`, `Ports.getNextPort_any`.

*Note:* Free and distinct are proved; the documented SystemError is never raised (refuted).

### C35 Wildcard address repair (partial)

A reply address with a wildcard host (0.0.0.0 or ::) is replaced by the host the caller connected to with the port kept, and any other address is left alone; the scheme is preserved.

*Over:* all address strings.  *Model and proof:* fix_all_zero_ip on character lists.

*Theorems:* `Addr.fix_replaces`, `Addr.fix_keeps_concrete`, `Addr.fix_keeps_local`, `Addr.fix_idempotent`, `Addr.isZero_v4`, `Addr.isZero_plain_host`, `Addr.isZero_v6`, `Addr.isZero_v6_other`, `Addr.isZero_scheme`, `Addr.fix_v4`, `Addr.fix_scheme_refuted`, `Addr.fix_brackets_refuted`.

*Note:* The scheme prefix is lost (refuted).

### C36 Actor references are values (proved)

Two actor references are equal iff they denote the same address and uid (str and bytes forms of a uid being the same); equality is an equivalence compatible with hash; conversions str<->bytes are inverse.

*Over:* all references.  *Model and proof:* ActorRef equality and hash.

*Theorems:* `Calls.refEq_iff`, `Calls.refEq_refl`, `Calls.refEq_symm`, `Calls.refEq_trans`, `Calls.refEq_hash`, `Calls.refEq_str`, `Calls.refEq_str_bytes`, `Calls.unpickle_equal`, `Calls.toStr_toBinary`, `Calls.toBinary_toStr`, `Calls.unpickle_local`, `Calls.made_remote`, `Calls.toStr_total`, `Calls.toBinary_total`.

### C37 Type dispatch picks the most specific handler (partial)

The handler used for an object is the one registered for the first class in the MRO of its type that has one, at all times after registrations and un-registrations in any order.

*Over:* every class hierarchy and every sequence of register/unregister/get.  *Model and proof:* TypeDispatcher with its caches.

*Theorems:* `Dispatch.dispatch_most_specific_partial`, `Dispatch.dispatch_exact`, `Dispatch.dispatch_stale_refuted`, `Dispatch.dispatch_lazy`, `Dispatch.dispatch_lazy_once`, `Dispatch.registerLazy_used`, `Dispatch.dispatch_wrong_only_partial`, `Dispatch.dispatch_plain_named_partial`.

*Note:* A stale inherit cache entry defeats it (refuted).

### C38 Unregistering one serializer does not affect others (partial)

After unregistering the serializer of one type, values of every other registered type still round trip.

*Over:* every sequence of register/unregister.  *Model and proof:* the serializer registry.

*Theorems:* `Dispatch.register_decodable`, `Dispatch.unregister_keeps_others_partial`, `Dispatch.unregister_shared_refuted`, `Dispatch.roundtrip_iff`, `Dispatch.roundtrip_distinct`, `Dispatch.register_ok_iff`, `Dispatch.failed_register_refuted`.

*Note:* False for a class registered for two types and after a registration that raised (refuted); for every history, exactly when a type with a serializer of its own still makes the round trip: roundtrip_iff.

### C39 LRU cache is transparent and bounded (partial)

An alru_cache-decorated coroutine function returns for each key the result of one of its own evaluations for this key; holds at most maxsize entries, evicts the least recently used one; a failed or cancelled evaluation is not served again when cache_exceptions is off; hits+misses counts calls.

*Over:* every sequence of calls, completions, failures, cancellations, invalidations.  *Model and proof:* the cache as an ordered dictionary of futures; invariants over all histories.

*Theorems:* `Lru.after_invalidate`, `Lru.after_clear`, `Lru.close_waits`, `Lru.answer_own_key`, `Lru.size_le`, `Lru.evicts_lru`, `Lru.called_cached`, `Lru.shares`, `Lru.failure_not_served`, `Lru.counts`, `Lru.closed_refuses`, `Lru.cancelled_served_refuted`, `Lru.close_ends`, `Lru.closed_iff`, `Lru.open_close`, `Lru.close_after_clear_refuted`.

*Note:* False only for cancelled evaluations, which are served again with cache_exceptions off (refuted); everything else proved for every sequence of calls, completions, invalidations, clears, closes and opens.

### C40 Remote iteration yields exactly the producer's items (partial)

Iterating over a generator returned by an actor yields the producer's items in order, then stops; if the producer raises, the consumer sees that error at the same position; after the end the producer is released.

*Over:* every producer (any number of items, ending by exhaustion or any error).  *Model and proof:* generator table of an actor, consumer requests, ownership of wrappers; induction over the history and the producer.

*Theorems:* `Gen.destroyed_refused`, `Gen.iterate_partial`, `Gen.released_partial`, `Gen.iterate_stateless_partial`, `Gen.answered`, `Gen.owner`, `Gen.error_swallowed`, `Gen.error_swallowed_refuted`, `Gen.concurrent_next_destroys_refuted`, `Gen.cancelled_next_loses_item_refuted`, `Gen.cancelled_next_destroys_refuted`, `Gen.cancelled_next_ends_refuted`, `Gen.two_owners_refuted`, `Gen.can_destroy`, `Gen.one_answer`, `Gen.one_at_a_time`, `Gen.concurrent_next`.

*Note:* Proved for every producer whose error text does not contain 'StopIteration' and every interleaving without cancelled requests; error texts with 'StopIteration' are swallowed, cancelled requests lose items (refuted).

### C41 Errors keep their identity (partial)

The error a caller sees for a failed call is an instance of the remote error's class, carries the remote address and pid once (wrapping is not repeated over several hops), has the remote error's text, and CancelledError stays CancelledError.

*Over:* every error, every number of hops.  *Model and proof:* `as_instanceof_cause`, error wrapping over any number of hops.

*Theorems:* `Calls.error_identity`, `Calls.cancel_identity`, `Calls.cancel_text_refuted`, `Calls.error_at_home`.

*Note:* Proved for every class and number of hops, except that the text of a CancelledError is lost (refuted).

### C42 Percentile metric (proved)

Percentile(p, window, cb) calls cb once per window of observations, with the order statistic of that window at the given percentile.

*Over:* every stream of values, every window and percentile.  *Model and proof:* bounded heap per window; order statistic.

*Theorems:* `Stats.window_callback`, `Stats.stream_callbacks`, `Stats.new_accepts`, `Stats.new_callbacks`.

### C43 Slow call report keeps the slowest calls (partial)

The profiling summary of slow calls holds at most 10 entries, each above the threshold, and they are the slowest ones observed.

*Over:* every sequence of observed call durations.  *Model and proof:* bounded heap of slow calls.

*Theorems:* `Stats.slow_report_sound`, `Stats.slow_report_top9_partial`, `Stats.slow_report_top10_refuted`, `Stats.counter_exact`, `Stats.most_calls_report`, `Stats.slow_calls_report`, `Stats.slow_calls_slowest_refuted`.

*Note:* Keeps the slowest 9, not 10 (refuted).

### C44 Deadlock warning on cyclic calls (proved)

With the debug option on, a send to an actor that is already on the chain of callers of the current message is flagged, and a send to an actor that is not on the chain is never flagged; the trace recorded is exactly the call chain.

*Over:* every chain of nested sends.  *Model and proof:* message trace along call chains of any length.

*Theorems:* `Stats.chain_warnings`, `Stats.chain_off`.

### C45 Crash recovery recreates the actors (partial)

With auto_recover='actor', after a sub process is lost and restarted every actor that was allocated on it is created again on it (one failing re-creation does not prevent the others), and those waiting for the recovery are woken only after it finished.

*Over:* every set of allocated actors, every subset of failing re-creations, every loss pattern.  *Model and proof:* monitor task, process, records, waiters as one state machine; invariants, termination of the loop.

*Theorems:* `Recovery.records_kept`, `Recovery.restarted_up`, `Recovery.recovery_complete_partial`, `Recovery.recovery_ends_partial`, `Recovery.restart_retried`, `Recovery.no_wake_while_recovering`, `Recovery.woken_after_recovery_partial`, `Recovery.check_wakes`, `Recovery.record_aborts`, `Recovery.pending_create_aborts`, `Recovery.woken_before_notice`, `Recovery.woken_after_abort`, `Recovery.wait_without_recovery`, `Recovery.appended_not_recovered`, `Recovery.down_again_and_again`, `Recovery.records_exact`, `Recovery.recovery_history_partial`, `Recovery.monitor_goes_on`, `Recovery.loss_forgets`, `Recovery.answered_records`, `Recovery.forget_aborts`, `Recovery.lost_is_lost`, `Recovery.wait_waits`, `Recovery.aborts_why`.

*Note:* Proved: on a run in which nothing is recorded in the pool while it is being recovered, a recovery that finishes has re-sent every recorded creation and each actor exists or its failure was recorded; it does finish; a failed restart is retried; nobody is woken while recovering; waiters are woken only after a completed recovery, an aborted one, or a look before the death was noticed. The unconditional statement is false of the code: refuted by the concrete runs record_aborts, pending_create_aborts, woken_before_notice, woken_after_abort, wait_without_recovery, appended_not_recovered, down_again_and_again.

### C46 Cancelling a call (proved)

Cancelling a caller's await cancels the remote running call and raises CancelledError (or the remote's result if already finished); a call that is not running answers CannotCancelTask and other calls are never affected.

*Over:* every interleaving of the cancel with the call's progress.  *Model and proof:* pool side as C22; caller side (shielded future) as a function of what happens.

*Theorems:* `Pool.running_iff`, `Pool.cancel_running_call`, `Pool.cancel_not_running`, `Pool.only_cancel_touches_others`, `Pool.cancelled_tell`, `Wait.not_cancelled`, `Wait.cancelled_wait`, `Wait.cancelled_remote`, `Wait.cancelled_after_end`, `Wait.cancelled_reply`, `Wait.cancel_request_failed`, `Wait.cancelled_twice`.

*Note:* Caller side in Xoscar.Wait.

### C47 Collective groups agree across ranks (proved)

Every member of a new group computes the same group name and its group rank is its position among the sorted members, so ranks form 0..n-1 without duplicates; out-of-range or oversized rank lists are rejected on every rank alike.

*Over:* every world size, rank list (any order) and rank.  *Model and proof:* new_group as a function; sorting, injectivity of the hashed text.

*Theorems:* `Collective.accepted_iff`, `Collective.rejected_alike`, `Collective.positions`, `Collective.same_name`, `Collective.non_member`, `Collective.group_of_ranks`, `Collective.different_names`, `Collective.nccl_exchange_iff`, `Collective.nccl_exchange_refuted`, `Collective.demoHash_ok`, `Collective.group_made_iff`.

*Note:* For every world size, rank list in any order and history of earlier calls; sha1 enters as an arbitrary function (no-collision assumed only where a name is looked up). Also found: an nccl group exchanges its communicator id by group ranks taken as global ranks, which works only for the first ranks of the job (nccl_exchange_iff).

### C48 Every request gets exactly one reply (proved)

Each request message received by a pool leads to exactly one reply with the request's id, carrying the value its own handler returned, or the exception or cancellation it ended with; if the reply cannot be sent for another reason than a closed connection, an error reply is attempted once. Only a closed connection, two failed sends, or a message that cancels its own id leave a request without a reply; messages that are not requests are never answered.

*Over:* every request, handler outcome (value, exception, cancellation) and send failure.  *Model and proof:* as C22: the phase of a task determines sends and replies.

*Theorems:* `Pool.every_request_one_reply`, `Pool.at_most_one_reply`, `Pool.request_progresses`, `Pool.reply_means`, `Pool.reply_is_outcome`, `Pool.self_cancel_reply`, `Pool.reply_message_unanswered`, `Pool.any_outcome`.

*Note:* Handlers of ActorPoolBase; what user code does while awaited is arbitrary.

### C49 Pool life cycle (partial)

start is idempotent-safe and ordered: a pool can be started once, stopped any number of times, never restarted after stop, and join returns exactly after stop.

*Over:* every sequence of start/stop/join.  *Model and proof:* start/join/stop tasks in any interleaving.

*Theorems:* `Life.never_restarted`, `Life.start_after_stop`, `Life.start_before_stop`, `Life.join_after_stop`, `Life.join_returns_iff`, `Life.stop_stops`, `Life.stop_any_time`, `Life.sub_join_after_stop_ended`, `Life.main_join_before_stop_ended_refuted`, `Life.main_failed_stop_leaves_servers_refuted`, `Life.sub_start_during_stop_refuted`, `Life.start_outcome`, `Life.stop_outcome`, `Life.stop_goes_on`.

*Note:* join of a main pool returns before stop ends, a failing stop leaves servers up, start during a sub pool's stop is accepted (refuted); the rest proved.

### C50 Retry wrapper (partial)

retry_callable calls the function until it succeeds or the allowed attempts are used, sleeping between attempts; only listed exceptions are retried, others surface at once, and the last exception is raised when attempts are exhausted, for sync and async functions alike.

*Over:* every outcome sequence and retry bound.  *Model and proof:* the loop turn by turn, with its sleeps; an invariant and an independent inductive definition of how a call ends give an exact characterization.

*Theorems:* `Retry.call_exact`, `Retry.endless_iff`, `Retry.limited`, `Retry.plain_exhausted`, `Retry.coroutine_exhausted_refuted`, `Retry.last_sleep_refuted`.

*Note:* Exact characterization of what a call does and how it ends, for both wrappers. Refuted: the coroutine wrapper returns None when its attempts are used up (the exceptions are lost); both also sleep after the last attempt; with no attempt allowed the plain wrapper raises AssertionError.

### C51 Messages on an in-process channel (partial)

A dummy (in-process) channel delivers messages in order, exactly once, to the peer; after close, send and recv fail with ChannelClosed and messages are not lost before close.

*Over:* every sequence of send/recv/close on both ends.  *Model and proof:* queue pair and server table; history invariants.

*Theorems:* `Dummy.wake_once`, `Dummy.running_registered`, `Dummy.close_ends`, `Dummy.delivered`, `Dummy.received_prefix`, `Dummy.recv_oldest`, `Dummy.waiting_gets`, `Dummy.after_close`, `Dummy.send_accepted`, `Dummy.one_server`, `Dummy.connect_spec`, `Dummy.create_running`, `Dummy.stop_closes_partial`, `Dummy.pending_recv_hangs_refuted`, `Dummy.accepted_lost_refuted`, `Dummy.stop_leaves_open_refuted`, `Dummy.handler_ignored_refuted`, `Dummy.waiting_iff`, `Dummy.recv_waits`, `Dummy.links_distinct`, `Dummy.begins`, `Dummy.finishes`, `Dummy.collected_stays_open_refuted`, `Dummy.cancel_frees`.

*Note:* Order, exactly once, and failure after close proved for every interleaving; a pending recv is never woken by close, accepted but unread messages are lost on close, and a connection whose handler has not started survives its server's stop (refuted).

### C52 Collective TCP store (partial)

The rendezvous store used by collective groups behaves as an atomic map: get after set returns the last value, add is atomic and returns the running sum, compare-set replaces only on match, wait returns only when all keys exist.

*Over:* every interleaving of client operations.  *Model and proof:* server, sockets and clients as one state machine; linearization by the server's log.

*Theorems:* `Store.atomic_map`, `Store.add_running_sum`, `Store.responses_own`, `Store.answered_last`, `Store.once`, `Store.asked`, `Store.real_time`, `Store.wait_after_keys`, `Store.waits_atomic_partial`, `Store.wait_answered_partial`, `Store.set_not_visible`, `Store.badLin_not_atomic`, `Store.wait_after_delete`, `Store.wait_hangs`, `Store.stale_answer`, `Store.second_wait_early`, `Store.dead_watcher`, `Store.reused_watcher`, `Store.get_lost`, `Store.add_lost`, `Store.stoll_exact`, `Store.wrap_exact`, `Store.stored_number`, `Store.closes_exact`.

*Note:* The server is an atomic map for every interleaving of any number of clients (waits apart: unconditional; with waits: without deletions). A client sees its own answer, each request takes effect at most once and in real-time order, as long as no client read times out and watchers stay. Refuted: set returns before it takes effect, waits with deleted keys, waits hanging on a key created by compare-set, stale answers after a timeout, dead watchers.

### C53 NumPy arrays survive a round trip (proved)

Sending a NumPy array without Python objects delivers an array of the same shape and dtype with the same bytes in every element, whatever the memory layout (C or Fortran order, transposed, reversed, broadcast, strided or overlapping views, 0-d, empty); contiguous arrays keep their strides; only the elements are sent, not the memory behind a view. A record dtype whose fields overlap, or with nested fields out of order, is refused when sending; reordered fields arrive in the same order.

*Over:* all shapes, strides, offsets, memory contents and dtypes (records nested to any depth).  *Model and proof:* arrays as windows of bytes with shape and integer strides; induction over the axes: the C-ordered copy, the contiguity test and the bounds check of the constructor agree; dtype descriptions by mutual induction over nested records.

*Theorems:* `Nd.array_roundtrip`, `Nd.array_refused`, `Nd.array_bytes_sent`, `Nd.array_layout_kept`, `Nd.object_pickled`.

*Note:* NumPy's flags, ravel, ascontiguousarray, constructor and dtype.descr are transcribed; titles, metadata, sub-array dtypes left out; arrays of objects are pickled; instances of ndarray subclasses arrive as plain arrays (as in C01).

### C54 Sparse matrices survive a round trip (proved)

Sending a SciPy CSR matrix delivers a matrix with the same data, indices, indptr and shape.

*Over:* all matrices, any number of buffers per part.  *Model and proof:* the three parts with any number of buffers; list splitting.

*Theorems:* `Nd.csr_roundtrip`, `Nd.csr_arrays`.

### C55 Tensors survive a round trip (partial)

Sending a PyTorch tensor (main memory or GPU) or a CuPy array delivers a tensor with the same shape, dtype, elements and requires_grad flag, for every layout.

*Over:* all shapes, strides, storage offsets, storages.  *Model and proof:* as C53; witnesses.

*Theorems:* `Tensor.cpu_roundtrip`, `Tensor.cpu_sent_iff`, `Tensor.scalar_grad_refuted`, `Tensor.cuda_receives`, `Tensor.cuda_roundtrip_partial`, `Tensor.cuda_slice_refuted`, `Tensor.cupy_roundtrip`.

*Note:* CPU tensors that are sent arrive unchanged, but a scalar tensor that requires a gradient cannot be sent (refuted); a GPU tensor that starts inside its storage silently arrives as other elements (refuted); everything else proved.

### C56 Buffers reach the socket whole (partial)

The bytes put on a TCP or Unix connection are exactly the bytes of the buffers of the messages sent, in order, however the kernel splits the writes.

*Over:* every sequence of buffers and every pattern of partial writes.  *Model and proof:* asyncio transport state machine; invariant: taken + queued = written.

*Theorems:* `Transport.bytes_intact`, `Transport.bytes_delivered`, `Transport.flush_progress`, `Transport.split_write_iff`, `Transport.typed_view_refuted`, `Transport.ofBytes_isBytes`, `Transport.all_can_be_sent`.

*Note:* Proved for all buffers of bytes (everything but typed views); a PyTorch tensor in main memory is sent as a typed view and loses bytes when the socket takes part of it (refuted). asyncio's selector transport; uvloop not modelled.

### C57 Unsendable errors and results are reported (partial)

A call whose error or result cannot be sent back still ends with an error: an exception that can be pickled arrives as itself, one that cannot arrives as UnpickleableError with its class and text, any other failure to send is reported as SendMessageFailed with the cause, a reply that cannot be decoded is reported to the caller.

*Over:* all exception and result classes, whatever they do when pickled, rebuilt or printed.  *Model and proof:* user classes as an arbitrary record of functions; case analysis.

*Theorems:* `ErrSer.picklable_arrives`, `ErrSer.unpicklable_arrives`, `ErrSer.unloadable_reported`, `ErrSer.send_failure_reported`, `ErrSer.bad_result_reported`, `ErrSer.result_arrives`, `ErrSer.no_reply_iff`, `ErrSer.always_reply_partial`, `ErrSer.no_reply_refuted`, `ErrSer.unsendable_iff`, `ErrSer.unprintable_iff`, `ErrSer.unprintable_reported`.

*Note:* Exact characterisation of the calls that get no reply: printing the error must raise an error that cannot be sent (refuted by example).

### C58 Calls through proxies (partial)

A call made with a reference reaches the pool that serves its address, through whatever proxies are configured on the way, is processed there once and unchanged, and its reply comes back under the id of the call (or the caller is told that a connection failed). Cancelling the call, killing the actor and waiting for the recovery of its pool act on that pool and on no other.

*Over:* all sets of pools with any routers, proxy configurations (exact, host, wildcard), proxy lists on references, connectivity, and chains of proxies of any length.  *Model and proof:* Model/Forward: routers (Model/Router) of all pools, wrapping of messages, what a pool does with forwarded, control and cancel messages, followed hop by hop with fuel. `send_iff` characterises exactly when and how a call ends by an independent relation (Route) on the connections made; `delivered` follows by induction over the route. Refutations are concrete worlds; divergence is proved for every fuel by induction..

*Theorems:* `Forward.send_iff`, `Forward.delivered`, `Forward.wire_id`, `Forward.cancel_delivered_partial`, `Forward.ends_partial`, `Forward.first_hop`, `Forward.direct`, `Forward.kill_direct`, `Forward.kill_main`, `Forward.kill_at_gateway`, `Forward.kill_through_gateway_refuted`, `Forward.kill_stops_gateway_refuted`, `Forward.cancel_ignores_proxies_refuted`, `Forward.wait_recovered_at_gateway_refuted`, `Forward.gateways_loop_refuted`, `Forward.wildcard_loop_refuted`, `Forward.kill_wildcard_refuted`, `Forward.remote_iff`, `Forward.kill_unreachable`, `Forward.wait_recovered_wrong_pool`, `Forward.wait_recovered_main_pool`, `Forward.wait_recovered_self`.

*Note:* Calls are delivered correctly through any proxies when the routes end; routes that do not end, and cancel, kill and recovery requests through proxies or to wildcard-bound main pools, are wrong (refuted).

### C59 A new pool has the configuration asked for (proved)

create_actor_pool rejects lists of the wrong length and unknown auto_recover values with ValueError before doing anything; otherwise, when its processes start, every process has exactly the label, environment and internal address asked for it and is listed under the address it really listens on, the main pool knows every sub process under its address, and all sub pools agree with the main pool about the configuration, however many of them were given the same address with port 0.

*Over:* all numbers of sub pools, all lists of labels, environments, schemes and internal-address flags, all requested addresses (with shared placeholders) and all addresses the operating system may assign.  *Model and proof:* Model/Create: the checks and loops of create_actor_pool over Model/Config's operations, then the address updates in sub pools and main pool. Table invariant (Proof/Create `tab`) by induction over the processes; `created` states the result pointwise..

*Theorems:* `Create.check_iff`, `Create.check_error`, `Create.not_accepted`, `Create.created`, `Create.created_hist`, `Create.allocate_same`.

### C60 Sub pools come and go without traces (partial)

A failed start of a pool leaves no process of it running. After any sequence of append_sub_pool and remove_sub_pool, successful or not and overlapping, new actors are placed only in pools that run, removal affects only the sub pool named, and actors of a removed sub pool do not exist any more.

*Over:* all histories of append_sub_pool, remove_sub_pool and actor creation, in any interleaving and with any of the starts failing.  *Model and proof:* Model/Create (`start`, `step`): labelled transitions for append, started, failed, remove, create; invariant Ok by induction on runs; `listed_iff` says exactly what is offered to the strategies; the violations are computed runs..

*Theorems:* `Create.start_error_iff`, `Create.failed_start_leaves_processes`, `Create.failed_start_refuted`, `Create.started_ok`, `Create.listed_iff`, `Create.listed_running_partial`, `Create.remove_exact`, `Create.sampleRun_run`, `Create.failed_append_refuted`, `Create.starting_pool_offered_refuted`, `Create.removed_actor_exists_refuted`, `Create.append_taken_address_refuted`.

*Note:* Holds for histories without failed starts, when none is under way; failed starts leave processes or configuration entries behind, records of removed actors stay (refuted).

### C61 wait_for (partial)

wait_for(call, timeout) returns the value of the call or raises its exception when the call ends in time, raises TimeoutError when the time is up whether or not the called pool still reacts, and then cancels the call once. A call that has ended already gives its result at once, and cancelling the task that waits in wait_for cancels the call too.

*Over:* all orders in which the call ends, its callback runs, the timer fires and the caller is cancelled; all outcomes of the call, including exceptions of any class; all timeouts including none and 0.  *Model and proof:* Model/WaitFor: the awaited task, the done callback, the fresh future and the waiting caller as a transition system in which the task may end at any time; invariant by induction on runs. `falsy_exception_refuted`, `caller_cancel_refuted` and `zero_timeout_refuted` hold for every run, not only for an example..

*Theorems:* `WaitFor.result_of_call`, `WaitFor.timer_always`, `WaitFor.cancels_le`, `WaitFor.arrives_partial`, `WaitFor.caller_cancel_refuted`, `WaitFor.falsy_exception_refuted`, `WaitFor.zero_timeout_refuted`.

*Note:* Results and timeouts are right; but cancelling the waiting task does not cancel the call, an exception object that is false is never delivered, and with timeout 0 a finished call's result is not returned (refuted for every run).

### C62 Collective operations move the right data (partial)

With backend gloo, when all ranks of a group call reduce, allreduce, gather, allgather, scatter, reduce_scatter, alltoall or broadcast with arrays of the documented sizes, recv_data holds exactly the documented result on the ranks that receive (elementwise reduction with the named operator; concatenation in rank order; part r of every rank's array; the root's array), and no other byte of any rank's memory changes. Arguments the operation cannot handle are refused.

*Over:* all group sizes, array sizes, element types, contents, roots, addresses of the buffers and reductions.  *Model and proof:* Model/Gloo: byte memories per rank, arrays as lists of element addresses; the pointers, lengths, types, reductions and roots handed to gloo are computed as in the code, the library itself is its documented contract on bytes. Correctness of each operation for all group and array sizes, with a frame condition on every other address; `scatter_overflow` for all groups of two or more..

*Theorems:* `Gloo.allreduce_correct`, `Gloo.reduce_correct`, `Gloo.allgather_correct`, `Gloo.gather_correct`, `Gloo.alltoall_correct`, `Gloo.broadcast_correct`, `Gloo.reduce_scatter_correct`, `Gloo.scatter_value_partial`, `Gloo.scatter_safe_partial`, `Gloo.scatter_overflow`, `Gloo.bitwise_refused`, `Gloo.other_type_refused`, `Gloo.written_window`, `Gloo.scatter_needs_lists_everywhere`, `Gloo.short_recv_overwritten`, `Gloo.strided_wrong`.

*Note:* Seven of the eight operations are right for contiguous arrays of the documented sizes. scatter passes the sum of the sizes as the size of each part and writes past the end of recv_data in every group of two or more (refuted); arrays that are too small or not contiguous are not refused (refuted).

### C63 Extended requirement markers are evaluated correctly (partial)

An extended marker of a requirement (comparisons of environment values such as cuda_version, cuda_arch, has_cuda with literals, joined by and/or/not) is true exactly when its Python meaning is: versions are compared as versions, sm_NN as numbers, true/false as truth values, a chained comparison holds when all its links do, and operands an and/or does not need do not matter. A marker that has a meaning never raises.

*Over:* all markers of any depth, all environments and all literals.  *Model and proof:* Model/Marker: a recursive evaluator over syntax trees as in eval_custom_marker. Spec/Marker: an inductive meaning relation (short circuit, reading of texts, order of versions and texts by first difference). Soundness by mutual induction; exact characterisation of when there is an answer; refutations for guards..

*Theorems:* `Marker.marker_right`, `Marker.marker_answers_iff_partial`, `Marker.simple_marker`, `Marker.guard_refuted`, `Marker.or_guard_refuted`, `Marker.major_only`, `Marker.unknown_name`, `Marker.in_refused`.

*Note:* Every answer is the right one; an answer is given exactly when all operands of all and/or have a meaning, also those that do not matter. The guard `has_cuda and cuda_version >= "12.1"` therefore raises TypeError on every machine without CUDA (refuted).

### C64 Requirements are processed faithfully (partial)

The list of packages handed to a virtual environment's install_packages becomes, item by item and in order: #system_x# is x== the installed version without build metadata; an item whose marker is false is left out; an item whose marker is true (or that has none) keeps its name, extras, version specifier and URL; #var# in a marker is replaced by the literal of the variable, whatever the order of the variables. An item that cannot be read is an error, never dropped.

*Over:* all lists, markers, variables and values, all answers of the packaging library.  *Model and proof:* Model/Reqs: the string processing on character lists (str.replace, split, strip), with `packaging` as an arbitrary library. Spec/Reqs: inductive relations for what an item, a placeholder and a template become. Equivalence of the code with the relations by induction on lists and templates; refutations for all items of the bad forms..

*Theorems:* `Reqs.substitute_correct_partial`, `Reqs.substitute_twice_refuted`, `Reqs.filter_correct_partial`, `Reqs.extras_lost_refuted`, `Reqs.resolve_correct`, `Reqs.process_correct_partial`, `Reqs.system_marked_refuted`.

*Note:* Proved except for items with a standard marker that also have extras or a URL (these are lost, refuted for every such item), values that contain the placeholder of a later variable (substituted again, refuted), and system packages with a marker (never installed, refuted).

### C65 install_packages installs what is required and no more (partial)

With skip_installed, after install_packages returns every requirement of the list holds in the environment (the packages of the system together with the newly installed ones), including extras, URLs and dependencies; no package whose requirement already holds is replaced or installed again; a list that can be satisfied is not refused. Without it the whole list is handed to uv. The command has exactly the options given. create_env treats an existing environment as told.

*Over:* all lists of requirements, all sets of installed packages, all plans uv may come up with, all options.  *Model and proof:* Model/Plan: the splitting, the plan and the command; uv's dry run and packaging are parameters, uv's contract is the hypothesis `Right` of Spec/Plan. Invariant of the split by induction on the list; leaving installed versions out of the plan does not change the resulting environment; refutations for all requirements of each bad form..

*Theorems:* `Plan.install_holds_partial`, `Plan.install_all`, `Plan.extras_refuted`, `Plan.url_refuted`, `Plan.from_refuted`, `Plan.two_requirements_refuted`, `Plan.shadowed_refuted`, `Plan.url_without_dependencies`, `Plan.plan_ignores_options`, `Plan.options_spec`, `Plan.create_env_spec`.

*Note:* Names and versions: proved for index packages when no distribution is on the path twice. Refuted: extras and URLs of installed packages are ignored, packages that do not come from an index are dropped from the plan, two requirements for one package can contradict each other through the constraint, shadowed distributions, dependencies of URLs; the plan ignores the index options.

### C66 Metrics report what was recorded (partial)

The value of a counter is the sum of the values recorded on it (for each set of tags), that of a gauge the last value; a meter counts every event in exactly one rate and its rates cover the time without gap or overlap; a histogram's reports are means of consecutive windows, every value in exactly one; reports are made when due. Every metric is exported, init_metrics and shutdown_metrics lose nothing, and the caller's tags are not changed.

*Over:* all sequences of creations, records, initialisations and shutdowns, all values, tags and times.  *Model and proof:* Model/Metric: record of the four kinds with both backends, and the module state with handles, initialisation and shutdown, as a state machine. Conservation laws by induction on call histories; the value of a handle over arbitrary event traces; refutations for all calls of each bad form..

*Theorems:* `Metric.counter_total`, `Metric.gauge_last`, `Metric.meter_conserves`, `Metric.meter_time`, `Metric.meter_due`, `Metric.histogram_windows`, `Metric.histogram_due`, `Metric.counter_value_partial`, `Metric.counter_value_direct_partial`, `Metric.before_init_refuted`, `Metric.reinit_refuted`, `Metric.reinit_direct`, `Metric.init_once`, `Metric.prom_counter_partial`, `Metric.tags_mixed_refuted`, `Metric.same_name_refuted`, `Metric.tags_changed_refuted`, `Metric.counter_life_partial`, `Metric.fresh_metric`, `Metric.labels_spec`, `Metric.prom_metric`, `Metric.wrong_tags`, `Metric.raises_exact`, `Metric.exported_unique`, `Metric.console_tags`.

*Note:* The arithmetic of all four kinds is right. Refuted: records before init_metrics are lost, a second initialisation resets counters, prometheus counters mix their tags, a second metric of the same prometheus name is never exported, the caller's dict is changed.

### C67 A reference means the same in the actor's own process and elsewhere (partial)

A call, tell or batch through a reference reaches the actor last created under its uid and not destroyed since, or raises ActorNotExist (a connection error once the pool is stopped), no matter whether the reference is held by the process of the actor's pool or another.

*Over:* all histories of creations, destructions, object lifetimes, stops; all references obtained at any time in them; all methods and batches.  *Model and proof:* Model/Local: one pool with object identities, weak references and frees as a state machine; what a reference denotes is defined on the history alone. Invariant by induction on histories; exact condition (iff) for agreement; refutations for every history..

*Theorems:* `Local.remote_denotes`, `Local.local_call_partial`, `Local.local_call_exact`, `Local.local_call_prompt`, `Local.local_ref_exists`, `Local.cycle_debug_no_local`, `Local.tell_partial`, `Local.remote_tell`, `Local.local_tell`, `Local.batch_partial`, `Local.stale_refuted`, `Local.stopped_refuted`, `Local.hidden_refuted`, `Local.hidden_iff`, `Local.tell_refuted`, `Local.batch_method_refuted`, `Local.batch_mixed_refuted`, `Local.pool_gone`, `Local.remote_tell_hidden`.

*Note:* Agreement holds exactly when a destroyed actor's object has been freed. Refuted: local references keep calling a destroyed actor that is still in memory, even when its uid has a new actor; actors of a stopped pool stay callable locally; underscore methods, tell to a missing actor and batches of other methods differ.

### C68 Every call is served by the backend of its address (partial)

The backend of an API call is the one registered for the scheme of its address (text before ://, case-insensitive, the default backend without one); all addresses of a scheme share one context; an unknown scheme is a KeyError without effect; setup_cluster gives every address with its resources to exactly one call of its backend's driver.

*Over:* all addresses, all histories of registrations and calls, all resource maps.  *Model and proof:* Model/Front: scheme extraction on character lists (exact iff against an RFC 3986 definition), the registry and context cache as a state machine with history invariants, setup_cluster as a function (permutation of the input)..

*Theorems:* `Front.scheme_url`, `Front.scheme_default`, `Front.scheme_exact`, `Front.served_partial`, `Front.one_context`, `Front.contexts_differ`, `Front.unknown_scheme`, `Front.no_address`, `Front.reregister_refuted`, `Front.setup_cluster_partition`, `Front.setup_cluster_none`, `Front.setup_cluster_unknown`, `Front.setup_cluster_half_refuted`.

*Note:* Refuted: a backend registered again after first use of its scheme is ignored; setup_cluster with an unknown scheme has already set up the others.

### C69 actor_ref and create_actor take the address and uid they are given (partial)

create_actor gives the new actor the uid passed (a new one when none is); actor_ref builds a reference to the address, uid and proxies passed in any of its call forms, and refuses missing uids, unknown keywords and conflicting arguments.

*Over:* all arguments and call forms.  *Model and proof:* Model/Front: create_actor_ref and the uid default as functions over all argument lists; case analysis..

*Theorems:* `Front.actor_uid_partial`, `Front.actor_uid_default`, `Front.actor_uid_other`, `Front.empty_uid_refuted`, `Front.ref_positional`, `Front.ref_bytes_address`, `Front.ref_keywords`, `Front.ref_uid_only`, `Front.ref_of_ref`, `Front.ref_no_uid`, `Front.ref_other_keywords`, `Front.ref_two_addresses`, `Front.ref_has_uid`, `Front.uid_keyword_ignored_refuted`, `Front.proxy_keyword_ignored_refuted`, `Front.surplus_ignored_refuted`, `Front.ref_types`.

*Note:* Refuted: an empty uid is replaced by a random one; conflicting uid or proxy keywords and surplus positional arguments are silently ignored.

### C70 A buffer or file object reference leads to its own object (partial)

buffer_ref and file_object_ref give a reference that leads, wherever it is used and whatever else is created or freed, to the object it was made for and never to another; copy_to through such references changes those objects and nothing else, and says so when it could not.

*Over:* all histories of references made and objects freed in any number of processes, all argument lists of copy_to.  *Model and proof:* Model/Refs: the two weak registries per process as a state machine over creations and deaths; what each reference leads to is characterised by the history alone (invariant); copy_to over heaps of buffers refines the model of C10/C13 (simulation)..

*Theorems:* `Refs.leads_to_own`, `Refs.leads_to_nothing_else`, `Refs.create_answer`, `Refs.copy_touches_only`, `Refs.copy_reaches_buffers`, `Refs.copy_reaches_files`, `Refs.copy_returns`, `Refs.copy_refusals`, `Refs.reference_does_not_keep_refuted`, `Refs.foreign_address_refuted`, `Refs.mixed_kinds_refuted`, `Refs.buffers_answer`, `Refs.files_answer`.

*Note:* References always lead to their own object and nothing else is ever written. Refuted: copy_to returns although a buffer is gone (a reference does not keep it), the reference was made with another pool's address, or references of both kinds are listed (only the first one's kind is served).

### C71 Processes of a pool end with it (partial)

Stopping a pool (or a sub pool) ends the sub pool's process whether or not it answers or obeys SIGTERM, within a bounded time, ends what it started, and touches no other process; a sub pool runs as long as its main process and ends by itself after it.

*Over:* all behaviours of the processes and the operating system (exits, pid reuse) between the program points, all answers to the stop request.  *Model and proof:* Model/Procs: who has which pid at each program point is an arbitrary lawful history; the code is a function of it giving the signals sent; the watchers are folds over what looks find..

*Theorems:* `Procs.stop_ends`, `Procs.stop_bounded`, `Procs.graceful`, `Procs.kill_own_only`, `Procs.stop_all_ends`, `Procs.stop_all_raises`, `Procs.watch_exact`, `Procs.second_watcher`, `Procs.stop_request_failed_refuted`, `Procs.descendants_left_refuted`, `Procs.stranger_killed_refuted`, `Procs.main_ended_unnoticed_refuted`, `Procs.term_iff`.

*Note:* The process of a stopped sub pool has always ended (if SIGKILL works), in bounded time. Refuted: processes it started get no signal; whoever got its pid meanwhile is killed; a stop request failing in an unforeseen way leaves it; a main process that is a zombie or whose pid was reused is taken to be running.

### C72 An actor class is instantiated once, as its registered implementation (partial)

Creating an actor of a class gives one object of the class last registered as its implementation (of the class itself if none is registered or the registration was undone), initialised once with the caller's arguments; a failing initialisation is reported to the creator.

*Over:* all histories of registrations and un-registrations, class hierarchies, outcomes of __init__ and arguments.  *Model and proof:* Model/Impl: the registry as a dict, Python's object construction (__new__, isinstance check, __init__) as a recursive function giving the result and every __init__ call; proved by induction over the history and over the chain of registrations..

*Theorems:* `Impl.registration_in_force`, `Impl.plain`, `Impl.implemented_partial`, `Impl.implemented_once`, `Impl.failure_reported`, `Impl.circle`, `Impl.result_reachable`, `Impl.subclass_initialised_twice_refuted`, `Impl.key_error_swallowed_refuted`, `Impl.chain_exact`, `Impl.all_key_errors`.

*Note:* Class of the object: exact. Refuted: an implementation that subclasses the class it is registered for is initialised twice; a KeyError of its __init__ is swallowed and an object of the replaced class is made.

### C73 A generator lives exactly as long as its consumer (partial)

The generator behind an iterator handed out by an actor is kept as long as some process (or a message under way) has the iterator, is released when nobody has it any more, and dropping an iterator hangs nobody.

*Over:* all histories of handing over, copying, receiving, losing, collecting and destroying iterators in any number of processes; all schedules of a collection against the method holding the actor's lock.  *Model and proof:* Model/Wrap: the wrappers of one generator in all processes as a state machine; invariant: a wrapper is responsible iff it was not handed over; a second machine for one collection against the holder of the lock, over all schedules..

*Theorems:* `Wrap.responsible`, `Wrap.gone_iff`, `Wrap.kept_partial`, `Wrap.released_partial`, `Wrap.exactly_in_use_partial`, `Wrap.collection_ends`, `Wrap.collection_free`, `Wrap.two_holders_refuted`, `Wrap.lost_message_leaks_refuted`, `Wrap.crash_leaks_refuted`, `Wrap.collection_hangs_refuted`, `Wrap.destroy_works`, `Wrap.arrives_once`, `Wrap.used_after_arrival`.

*Note:* Exact for iterators handed over at most once by each holder with nothing lost. Refuted: handed over twice it is destroyed under the second holder; a lost message or ended process leaks it; collecting it in a process that the method holding the actor's lock needs (always in the actor's own process) hangs both for ever.

### C74 UCX channels carry messages and copies whole and in order (partial)

Over a UCX connection every message sent arrives whole and in the order of the sends, whoever sends at the same time; copied buffers land in exactly the buffers named; a copy reported as done was written; a failed copy or a cancelled call affects no other call.

*Over:* all sequences and interleavings of sends (messages and copies with any contents), registered buffers and cancellations.  *Model and proof:* Model/Ucx: frames of bytes with the sizes receive operations expect (headers as in Model/Wire), the pool's receive loop with copies into registered memory, senders under a FIFO lock; induction over the jobs and over the actions of the senders..

*Theorems:* `Ucx.delivers_partial`, `Ucx.senders_whole_partial`, `Ucx.concurrent_delivers_partial`, `Ucx.done_means_written`, `Ucx.size_mismatch_breaks`, `Ucx.foreign_data_closes`, `Ucx.empty_buffer_breaks_refuted`, `Ucx.empty_copy_hangs_refuted`, `Ucx.unknown_buffer_breaks_refuted`, `Ucx.cancelled_send_breaks_refuted`, `Ucx.format`, `Ucx.part_waits`, `Ucx.wrong_size_closes`, `Ucx.undecodable_closes`, `Ucx.unknown_buffer_answer`.

*Note:* Proved for jobs without empty buffers whose copies fit, and no cancelled send. Refuted: an empty buffer is sent but not received (or, if UCX drops it, copied buffers of size 0 are waited for for ever); a copy to an unknown buffer or of another size, and a cancelled send, break the connection of all callers, and copy_to reports success.

### C75 The warning about call cycles means a deadlock (partial)

With call-cycle logging on, a warning is logged for a call exactly when the called actor already waits, directly or through other calls, for that call to end; such a call never starts; and every deadlock between actors is warned about.

*Over:* all interleavings of calls, tells, background tasks and method ends among any number of actors, with and without locks.  *Model and proof:* Model/Cycle: calls with parent, trace and phase, actors with or without lock, any interleaving; an invariant ties traces to the chain of waiting calls, another shows a call in a self-deadlock stays queued..

*Theorems:* `Cycle.deadlock_warned`, `Cycle.warned_iff_partial`, `Cycle.deadlock_forever`, `Cycle.crosswise_deadlock_refuted`, `Cycle.stateless_warned_refuted`, `Cycle.background_warned_refuted`, `Cycle.exclusive`, `Cycle.acts_iff`.

*Note:* Proved: a call to an actor that waits for it is always warned about, never starts, and (without background tasks) nothing else is warned about. Refuted: two call chains that wait crosswise deadlock without a warning; calls back to a StatelessActor, and calls from background tasks started by a method that has ended, are warned about although they complete.

### C76 Calls go over one open connection per destination (partial)

A call is sent over a connection that is open, belongs to the calling thread, leads to the address the router gives for the destination, and whose replies are listened to; calls of one thread to one destination share one connection; a closed connection is replaced; a failed or cancelled connect does not block the others.

*Over:* all interleavings of calls of any number of tasks and threads, connects made, failed and cancelled, closed connections and changes of the router.  *Model and proof:* Model/Conns: requests with their lock, the cache per thread, connections, changes of the router, in any interleaving; invariants over all runs..

*Theorems:* `Conns.given_open`, `Conns.one_connection_partial`, `Conns.reused_partial`, `Conns.leads_right_partial`, `Conns.once_right`, `Conns.next_enters`, `Conns.stale_route_refuted`, `Conns.forgotten_open_refuted`.

*Note:* Connections given are always open, the thread's own and listened to. One per destination only while the router is not changed (each change forgets the open ones: refuted otherwise); they lead where the router says only if it was never changed while somebody asked for a connection: otherwise a connection to the old address gets into the new cache (refuted).

### C77 Connections of an ended thread are closed (partial)

When a thread that called actors ends, its connections are closed by the background close thread, exactly once and not before the thread has ended; the finalizer never hangs or fails.

*Over:* all interleavings of the ends of any number of threads, statement by statement.  *Model and proof:* Model/Closer: one step per statement of every finalizer, close threads and event loops; invariants over all runs, and over those in which set-ups do not overlap..

*Theorems:* `Closer.closed_once`, `Closer.finalizer_goes_on`, `Closer.closed_partial`, `Closer.no_failure_partial`, `Closer.failed_never`, `Closer.start_twice_refuted`, `Closer.loop_stopped_refuted`.

*Note:* Closed at most once and never early in every run. Closed at all only if no thread ends while another sets up the close thread: otherwise a finalizer fails and its connections stay open, or the close loop is stopped and no connections of any thread are closed from then on (both refuted).

### C78 Asynchronous file objects behave like the file (partial)

AioFileObject gives every task the results an ordinary file would give, with the operations of all tasks in some order; async iteration yields exactly the lines of the rest of the file, each once and whole, however many tasks iterate; calls take effect in the order made; a cancelled call has no effect; after `async with` the object is a closed file.

*Over:* all interleavings of calls of any number of tasks, executor threads, cancellations; all file contents.  *Model and proof:* Model/AioFile: a byte file with position, calls queued in an executor, run by threads, delivered or cancelled, in any interleaving; the log of operations is compared with an ordinary file; lines specified by four conditions proved to have one solution..

*Theorems:* `AioFile.one_after_the_other`, `AioFile.alone_like_sync`, `AioFile.iteration`, `AioFile.iteration_alone`, `AioFile.lines_unique`, `AioFile.closed_stays`, `AioFile.closes`, `AioFile.written`, `AioFile.cancel_partial`, `AioFile.cancel_loses_refuted`, `AioFile.order_refuted`, `AioFile.after_exit_refuted`, `AioFile.file_ops`.

*Note:* Results and iteration are right for every interleaving. Refuted: a cancelled readline that a thread has taken loses the line; calls not awaited one by one may be done in another order; after `async with` every call raises AttributeError instead of the closed file's ValueError.

### C79 Command output reaches terminal and log (partial)

run_subprocess_with_logger passes everything the command writes on to the terminal, unchanged and in order within each stream, and logs each line exactly once with the ANSI control sequences taken out; the `with` statement is over only when the command has ended and all of this is done, it keeps the outcome of its body, and it does come to an end.

*Over:* all outputs (any bytes), all interleavings of the command, what it leaves behind, the two readers and the caller, all pipe sizes.  *Model and proof:* Model/Subproc: command, left-behind process, two bounded pipes, two readers, caller as a step machine over bytes; UTF-8 decoder with replacement; the regular expression as a scanner proved equal to a relational specification; invariant for delivery, measure for termination..

*Theorems:* `Subproc.decode_text`, `Subproc.decode_scalars`, `Subproc.decode_by_lines`, `Subproc.clean_iff`, `Subproc.clean_plain`, `Subproc.clean_sublist`, `Subproc.clean_nested_refuted`, `Subproc.lines_unique`, `Subproc.delivered`, `Subproc.so_far`, `Subproc.sent_is_script`, `Subproc.all_delivered`, `Subproc.over_means_ended`, `Subproc.left_behind_refuted`, `Subproc.outcome_kept`, `Subproc.never_stuck_partial`, `Subproc.good_terminal`, `Subproc.runs_end`, `Subproc.dead_reader`, `Subproc.refused_line_hangs_refuted`.

*Note:* Delivery, order, waiting and termination hold for every schedule as long as the terminal takes every line. Refuted: log free of control sequences (nested ones survive); if the terminal refuses a line (encoding), the reader dies, the command blocks on the full pipe and the statement never ends; the statement also waits for processes the command left behind.

### C80 Calls reach their actor in the order they were made (partial)

Two calls or tells made one after the other on the same actor are started by the actor in this order, every call is started at most once and only if it was made, and none is lost on the way. In particular: a task that awaits its tells one by one, and a task that makes several tells without awaiting.

*Over:* all histories of calls on any number of connections and threads, with any number of proxies in between, all message sizes, all interleavings of tasks, serializing threads, connections and lock.  *Model and proof:* Model/Order: lanes (client, proxies, pool of the actor) with task queues, serializing threads and connections, the lock of the actor as a queue; invariant: the calls of a lane form a line in which only calls in a thread pool can be overtaken..

*Theorems:* `Order.small_never_overtaken_partial`, `Order.awaited_in_order_partial`, `Order.started_once`, `Order.started_called`, `Order.made_issued`, `Order.issued_lane`, `Order.none_lost`, `Order.one_at_a_time`, `Order.proxy_reorders`, `Order.large_overtaken`, `Order.two_lanes_reorder`, `Order.local_call_overtakes_tell`.

*Note:* Order holds for messages below the threshold of serialize_with_spawn on one connection, through any number of proxies, awaited or not; and for awaited tells and calls of any size over a direct connection or a local reference. Refuted otherwise: a larger message is serialized in a thread pool and overtaken (in a proxy even if the tell was awaited); two connections (threads, reconnect) are not ordered; with a local reference an awaited call overtakes an earlier tell that was not awaited.

### C81 Delayed tells (partial)

ref.method.tell_delay(*args, delay=d) makes the tell at most once and not before d seconds have passed, with the arguments of the call; cancelling the returned task before that prevents it; the task ends with success only if the tell was made or its connection was refused and ignore_conn_fail was left on, and an error is logged; local references behave like others.

*Over:* all histories of delayed tells, cancellations, changes of the arguments and of the actor, all delays, all timings of the event loop and all errors of sending.  *Model and proof:* Model/Delay: tasks with clock, sleep, send and cancellation as a step machine; invariant over all histories; history-based specification of requests and contents..

*Theorems:* `Delay.not_early`, `Delay.at_most_once`, `Delay.tasks_requests`, `Delay.without_delay_never`, `Delay.outcome`, `Delay.ended_final`, `Delay.cancel_prevents`, `Delay.cancel_possible`, `Delay.can_be_made`, `Delay.value_told`, `Delay.silent_only_refused`, `Delay.late_value_refuted`, `Delay.local_differs`, `Delay.default_delay_refuted`.

*Note:* Once, never early, cancellable, outcome and log: proved for every history. Refuted: the arguments are those at the time of the tell, not of the call; with the default delay=None no tell is ever made; local references raise ActorNotExist without a log entry where others end well.

### C82 One connection, end to end (proved)

However tasks that share a connection interleave their sends, however the transport splits and delays the bytes and whenever the other side calls recv: the k-th recv that returns gives the k-th message sent, complete — a message of the same class with the same id and fields, and arguments equal to the sender's at every depth, sharing included — the messages of each task in the task's order, none lost, doubled, invented or mixed; a message that the receiver cannot load is reported with its own id and disturbs no other; and at every moment the rest can still be sent, delivered and received.

*Over:* all numbers of tasks, all lists of messages (of supported payloads of any size, depth and sharing), all interleavings of senders, network and receivers, all splits of the byte stream, all picklers.  *Model and proof:* Model/Link composes Model/Message (serialize, deserialize of messages) with Model/Wire (framing, locks, reads) into one machine; simulation to the wire runs and lifting of the merge of framed messages to a merge of messages, then C05/C06's round-trip theorems; progress by a measure on the senders..

*Theorems:* `Link.arrives`, `Link.can_be_sent`, `Link.arrives_or_reported`, `Link.all_arrive`.

*Note:* Supported payloads (C01-C05's), messages without cycles or without shared empty dicts; buffers of the host (not CUDA); the frame format holds the header (2^64 bytes, 16-bit compression tag).

### C83 An actor is a linearizable object (proved)

If every method that is called takes the actor's lock (no no_lock methods, not a StatelessActor, no work in __post_create__ or __pre_destroy__ while calls are served), then in every history — calls from any number of callers, messages delayed, reordered or lost, tasks cancelled at any await, callers giving up, calls refused — the calls whose methods ran can be put in an order, one after the other, such that: each runs alone and at most once, with the arguments it was made with, and gives exactly the result its caller got; the actor's state is what that order leaves (plus at most one call still under way); a call that returned before another was made comes first; later events never change this order; a call that the pool answered as not run is not in it; and when no method is under way a pending call can always be served. With one method that does not take the lock this fails (lost update).

*Over:* all user methods (any state, any number of awaits), all numbers of calls and callers, all interleavings of arrivals, awaits, cancellations, losses and returns.  *Model and proof:* Model/Linear: callers, messages, pool tasks, the lock and coroutines as one machine over arbitrary method code; invariant: a serial history explains the state, and every step extends it at the end; ReturnedBefore by positions in the label list; progress by running the coroutine of a free actor..

*Theorems:* `Linear.linearizable`, `Linear.order_stays`, `Linear.can_complete`, `Linear.started_once`, `Linear.locked_waits`, `Linear.unlocked_refuted`, `Linear.failed_either`.

*Note:* Holds for methods that take the lock; unlocked_refuted: one call without it (no_lock, StatelessActor, __post_create__) suffices to lose an update; failed_either: an error at the caller does not tell whether the method ran. What a method returns as awaitables and is evaluated after the lock is released (C17) counts as not taking the lock.

### C84 Store requests and answers cross the wire (partial)

Whatever the lengths of keys and values and however TCP cuts the stream, the rendezvous store's server receives exactly the operations each client made, in order, each once; each client reads exactly the answers to its operations; a connection that closes loses no operation that was written completely; the thread that waits for key updates takes every update until it is told to stop. Expected too, but false: a client that stops halfway does not keep others from being served; a receive timeout leaves the connection usable; the loss of the server ends the waiting thread cleanly.

*Over:* all operations with arguments of any length (below 2^63 bytes), all numbers of clients, all cuts of the byte streams, all interleavings.  *Model and proof:* Model/StoreWire: SendBuffer with its watermark and the server's reads as a parser that may have to wait; parser combinators `Reads` (complete input gives the value and the rest, every strict prefix waits); per connection the invariant: bytes not used yet = what is written of the operations not handled yet..

*Theorems:* `StoreWire.request_roundtrip`, `StoreWire.request_waits`, `StoreWire.response_roundtrip`, `StoreWire.response_waits`, `StoreWire.wire_injective`, `StoreWire.handled_prefix`, `StoreWire.handled_all`, `StoreWire.dropped_done`, `StoreWire.blocked_unfinished`, `StoreWire.served`, `StoreWire.stalled_client_refuted`, `StoreWire.half_answer_refuted`, `StoreWire.updates_handled`, `StoreWire.reset_terminates_refuted`, `StoreWire.server_gone_spins_refuted`, `StoreWire.request_exact`, `StoreWire.waits_iff`, `StoreWire.refused_iff`, `StoreWire.refused_dropped`, `StoreWire.unknown_refused`.

*Note:* The transport part is proved. Refuted: the server's single thread blocks inside a half-received request, so a client that stalls there stops the service for everybody; a client whose recv times out within an answer reads the remainder as the next answer; a reset connection ends the client's process (exception leaves a thread); a closed one makes the thread spin.

### C85 NCCL group operations move the right data (partial)

In a group made with new_group on the nccl backend, for every number of ranks, root, array contents and sizes: gather gives the root the elements of all ranks in rank order and scatter gives rank r the r-th array; alltoall gives rank r the r-th part of every rank; reduce, allreduce and reduce_scatter give the element-wise reduction asked for; allgather and broadcast give everybody everything resp. the root's elements; nothing else changes. Expected too, but false: any receive buffer of the right size is fine; arguments that gloo does without can be left out; reduce_scatter may have uneven parts; bitwise reductions work. The unique id of the default group reaches all ranks unchanged.

*Over:* all group sizes, roots, array sizes, contents and (where they matter) shapes.  *Model and proof:* Model/Nccl: per-rank lists of local copies, sends and receives (NumPy's broadcasting assignment included) run against NCCL's contract: the k-th receive from a peer takes the k-th send to it, of the same size; collectives need equal counts. Induction over the peers: the buffer is filled part by part and no message is left over..

*Theorems:* `Nccl.gather_correct`, `Nccl.gather_flat_refuted`, `Nccl.gather_matrices_refuted`, `Nccl.gather_buffer_everywhere_refuted`, `Nccl.scatter_correct`, `Nccl.scatter_list_everywhere_refuted`, `Nccl.alltoall_correct`, `Nccl.alltoall_flat_refuted`, `Nccl.alltoall_checked`, `Nccl.reduce_correct`, `Nccl.allreduce_correct`, `Nccl.allgather_correct`, `Nccl.allgather_short_refuted`, `Nccl.broadcast_correct`, `Nccl.broadcast_none_refuted`, `Nccl.reduce_scatter_correct`, `Nccl.reduce_scatter_uneven_refuted`, `Nccl.bitwise_refused`, `Nccl.id_roundtrip`, `Nccl.id_refused`, `Nccl.request_served`, `Nccl.split_request_refuted`.

*Note:* Correct for receive buffers of the expected shape. Refuted: gather accepts only a (world, n) buffer (flat ones and matrices raise after the group was started), every rank needs buffers it does not use, uneven reduce_scatter, bitwise reductions; a store request cut by TCP is not served. That the communicator id of a group reaches only groups of the first ranks is C47 (nccl_exchange_iff). Not modelled: the default group's operations (cupyx).

### C86 Debug watchdogs speak when something takes long, and only then (partial)

With debugging on, a message, call or lock that takes longer than the configured timeout is warned about: first after the timeout, then after 2, 3, … timeouts more, as long as it lasts; never earlier, never after it has ended, never with the option off. The task detector reports in every round exactly the unfinished tasks that are older than the limit and match no exclude filter, and never itself. DEBUG_OSCAR sets exactly the options it names.

*Over:* all timeouts, durations, option values, delays of the event loop, sets of tasks and filters.  *Model and proof:* Model/Watch: a guarded body with its logging task under a clock that may be late; invariant: the next warning is due no earlier than (1+…+k)·timeout after the entry; exact for a prompt loop. One round of the detector as a filter, with Python's split and substring test..

*Theorems:* `Watch.period_iff`, `Watch.not_early`, `Watch.warnings_bounded`, `Watch.disabled_silent`, `Watch.left_silent`, `Watch.prompt_exact`, `Watch.reload_json`, `Watch.check_iff`, `Watch.check_again`, `Watch.unpatched_never`, `Watch.settings_filters`, `Watch.settings_times`, `Watch.split_join`, `Watch.split_pieces`, `Watch.not_itself`, `Watch.empty_filter_refuted`, `Watch.trailing_semicolon_refuted`, `Watch.reload_one`.

*Note:* Everything but one thing: an empty exclude filter, which an empty XOSCAR_DEBUG_ASYNCIO_TASK_EXCLUDE_FILTERS or one with a trailing semicolon yields, matches every task and silences the detector.

### C87 Ranks meet at the rendezvous store (partial)

A rank that starts before the server waits for it and connects if the server comes up in time; connecting ends with a connection to an address that accepted or with an error in bounded time. Making the store returns in the server's process only when all ranks have come, whatever other keys are used meanwhile.

*Over:* every sequence of connection attempts, results and clock readings; every interleaving of any number of processes connecting, being counted, returning, crashing and being restarted, with any use of other keys.  *Model and proof:* Connecting is a function of the attempts with their times and results (two address families, deadline, delay, retry rules); the constructor a labelled transition system with a clock, the text of the counter in the store, and phases of every process. Invariants: the key of the meeting holds exactly the number of counts (user keys carry a prefix), waiting ends only by count or time..

*Theorems:* `Meet.connected_first`, `Meet.timeout_means`, `Meet.useless_means`, `Meet.gives_up`, `Meet.waits_for_server`, `Meet.connect_ok`, `Meet.short_timeout_refuted`, `Meet.server_first`, `Meet.server_waits_partial`, `Meet.all_came_partial`, `Meet.poll_decides`, `Meet.looks_soon`, `Meet.others_return`, `Meet.not_a_barrier_refuted`, `Meet.silent_timeout_refuted`, `Meet.restart_counts_twice_refuted`, `Meet.attempt_decides`.

*Note:* Connecting is right for timeouts of a second and more (Python always uses 300 s); a timeout of 0 ('no timeout') or below a second never connects (refuted). The server's process waits for as many counts as ranks, but returns without an error when its time is over, a restarted rank is counted again, and the other ranks do not wait at all (refuted). Not modelled: the end of the server's process, gloo's full mesh.

### C88 An address leads to the server that has it (partial)

The address a server announces is dispatched to that server's kind of client, is read back as the same host and port (or process index), and a connection to it reaches that server once it is started and until it stops or dies, never another one; a restarted server takes over a name left by a crashed one.

*Over:* every host, port and index text; every interleaving of servers being created, started, stopped, stopped twice, crashing on one machine, TCP and Unix sockets, with wildcard binding and kernel-chosen ports.  *Model and proof:* Text functions (scheme, rsplit, Python's int(), urlparse path) against grammars in the spec; the machine's TCP listeners and socket files as two labelled transition systems (create split at unlink/bind, stop split at close/remove). Invariants: listeners do not overlap; a name leads to a server that bound it; an undisturbed server keeps its name..

*Theorems:* `Reach.class_exact`, `Reach.unknown_scheme_refuted`, `Reach.own_class`, `Reach.endpoint_exact`, `Reach.roundtrip`, `Reach.socketAddress_inj`, `Reach.ucx_roundtrip`, `Reach.ucx_case_refuted`, `Reach.reaches_own`, `Reach.reaches_exact`, `Reach.announces`, `Reach.reached_is_live`, `Reach.not_after_end`, `Reach.create_exact`, `Reach.start_exact`, `Reach.overlap_exact`, `Reach.create_reserves_refuted`, `Reach.index_read`, `Reach.index_roundtrip`, `Reach.dials`, `Reach.undisturbed`, `Reach.restart`, `Reach.own_address`, `Reach.reached_means`, `Reach.reached_or_refused`, `Reach.never_again`, `Reach.stop_removes`, `Reach.takeover`, `Reach.takeover_refuted`, `Reach.stop_cuts_off_refuted`, `Reach.bind_exact`.

*Note:* TCP: full. Unix sockets: a server reached at its address as long as no other server uses its index (or a file of another kind its name); two servers with one index take each other's name (refuted). Unknown schemes raise TypeError instead of ValueError, upper-case UCX addresses keep their prefix in the host (refuted). Hosts are canonical IP addresses of one machine; name lookup and timeouts are not modelled.

### C89 Profiling data of tasks (partial)

Profiling data of a task hold exactly what was put there since the task was initialised: numbers set, increments added up, nested dictionaries created once; tasks do not see each other's data; a task that is not profiled yields an operator that stores nothing; pop gives the data once, with the report of the calls, and ends the task's debug logging, so that a profiled task is logged by one loop.

*Over:* every interleaving of init, pop, indexing, set, inc, nest and debug loop steps over any number of tasks, including operators kept from before.  *Model and proof:* Dictionaries as objects in a heap (an operator holds the dictionary itself); the invariant that the heap is a forest makes the content of each task a tree of its own, compared after every step with a specification on plain trees. Debug loops as a transition system with their done-callbacks..

*Theorems:* `Prof.content_expected`, `Prof.kept_operators`, `Prof.pop_returns`, `Prof.sums`, `Prof.reads`, `Prof.popped_changes_refuted`, `Prof.logs_profiled`, `Prof.loop_ends`, `Prof.one_logger_partial`, `Prof.two_loggers_refuted`, `Prof.through_number`, `Prof.use_gives`.

*Note:* Data: full (for uses that go through ProfilingData[...]; kept operators act at their place or nowhere). That popped data stay as they are is refuted: kept operators change them. One logging loop is proved if a task is initialised again only when nothing of its earlier loops is left, and refuted in general: the late done-callback of an earlier loop removes the newer loop from the table, pop then does not cancel it and two loops log after the next init. Option parsing, dictionaries given to set and a missing event loop are left out.

### C90 Generated ids (partial)

Ids made by the library (message ids, uids of actors created without one, buffer references) have the asked length and are the output of the process's generator from one place on; ids of one process follow each other in one stream whatever the user does with `random`; if no process is forked after it made ids and the seeds drawn differ, no two ids share generator output, so equal ids require the generator to repeat itself. A sub pool's process takes a new seed.

*Over:* every history of starting, forking, seeding, drawing, looking for ports, starting sub pools and making ids of any length in any number of processes, for every pair of generators.  *Model and proof:* The two generators are parameters (a stream of outputs per seed); processes with seed and position are a transition system; the invariant says that a seeded process owns its seed and is behind every place used, which makes the places of ids disjoint..

*Theorems:* `Ids.makes`, `Ids.one_stream`, `Ids.first_seed`, `Ids.later_keeps`, `Ids.sub_pool_seed`, `Ids.places_apart`, `Ids.unique_partial`, `Ids.fork_refuted`, `Ids.same_seed_refuted`, `Ids.port_reseeds_refuted`.

*Note:* Uniqueness is proved under the hypotheses that no process is forked after it made ids and that the 64 bit seeds drawn differ; both are needed: after a fork parent and child make the same ids, and two processes whose users call random.seed alike before the first id make the same ids for ever. The generators themselves (Mersenne Twisters) are parameters; negative lengths are left out.

### C91 Joining the default collective group (partial)

init_process_group succeeds exactly if backend, device and address are in order (nccl needs cupy and a device, given or from the environment; an address given or from the environment), a pool is at the address and has no rank yet, and the group connects; then the collective calls made in that pool's process act as exactly the rank, world size, backend and device asked for, on the caller's own data, whatever happens elsewhere, until the rank's actor is destroyed. A refused init changes no rank.

*Over:* every history of starting processes and child processes, joins with any arguments and outcomes, and destroys.  *Model and proof:* Processes with the two environment variables, pools by address and the RankActors by address as a transition system; success and effect characterised against an independent specification of the address, device and argument rules; an invariant (one pool per process, actors only in pools) for the histories..

*Theorems:* `InitPg.joined_iff`, `InitPg.joined`, `InitPg.other_process`, `InitPg.refused`, `InitPg.reasons`, `InitPg.stays`, `InitPg.own_data`, `InitPg.child_refuted`, `InitPg.device_refuted`, `InitPg.rank_refuted`, `InitPg.failed_refuted`, `InitPg.reasons_args`.

*Note:* Positive part full in the model. Refuted: a process started by one that has joined inherits the environment and silently acts as the parent's rank, with its own buffers never filled; a negative device_id passes if the environment names a device and is then used; ranks outside 0..world-1 are not refused; after an init that failed to connect calls report a missing actor. The connection of the group is an input; the data moved are C62/C85.

### C92 GPU devices and contexts (partial)

get_cuda_context finds the first device (or MIG device) on which the driver names this process, and none exactly if there is none; without a driver there is no context and no error; the number of devices is the machine's or that of the entries of CUDA_VISIBLE_DEVICES; the information of a device carries the machine's index of it; index and uuid of a device name the same device; the status of a device is that of the card NVML knows by the uuid CUDA has for it.

*Over:* every machine (devices, MIG slots, process lists, CUDA_VISIBLE_DEVICES texts) and every history of calls and forks in a process.  *Model and proof:* The libraries as parameters of each call (what they answer), the module's globals as state; the nested search proved by induction against an order on places; text of the variable as parts between commas; invariants over histories of calls and forks..

*Theorems:* `Gpu.context_exact`, `Gpu.listing`, `Gpu.no_driver`, `Gpu.count_exact`, `Gpu.count_stays`, `Gpu.count_shown`, `Gpu.info_index`, `Gpu.info_stays`, `Gpu.index_uuid`, `Gpu.index_uuid_unknown`, `Gpu.info_uuid_refuted`, `Gpu.fork_refuted`, `Gpu.broken_refuted`, `Gpu.version_iff`, `Gpu.context_sound`, `Gpu.index_uuid_library`, `Gpu.info_library`, `Gpu.info_negative`, `Gpu.status_exact`, `Gpu.status_sound`, `Gpu.status_unknown`, `Gpu.status_wsl_partial`, `Gpu.status_wsl_refuted`, `Gpu.status_busy_refuted`, `Gpu.status_fork_refuted`, `Gpu.status_stale_refuted`.

*Note:* Refuted: in a child forked from a process that had the libraries the call raises TypeError if NVML is gone; a library that could not be initialised once is not tried again; uuid entries in CUDA_VISIBLE_DEVICES make get_device_info raise; entries after one that there is not are counted although CUDA hides them; the count and the information never change again; the CUDA version text is wrong for every minor version but 0. On the Windows subsystem the status is that of the card of CUDA's number, not of the device, and is missing whenever the card says how busy it is; a device NVML does not know by CUDA's uuid has none; a forked child gets the parent's devices, also after it chose others. Not modelled: the other WSL branches, CUDA_DEVICE_ORDER.

### C93 Handlers registered under dotted names (partial)

A handler registered under a dotted name is used for objects of the class the name denotes and of its subclasses, as if registered for the class; a name that cannot be imported does not disturb other lookups; unregistering the name or the class ends it.

*Over:* every history of registrations by class and by name, unregistrations and lookups; every state of the importable modules at each lookup, including failing imports and modules that register names while imported.  *Model and proof:* The dispatcher with the loop over the waiting names as it runs (size check, partial registration, forgetting only at the end) and imports as parameters of each lookup; invariants over registrations and lookups; failing imports by induction over the loop..

*Theorems:* `Lazy.names_like_classes_partial`, `Lazy.broken_blocks`, `Lazy.broken_stays`, `Lazy.earlier_names_work`, `Lazy.registering_import`, `Lazy.later_registration_refuted`, `Lazy.unregister_name_refuted`, `Lazy.unregister_class_refuted`, `Lazy.pool_needs_all`, `Lazy.import_runs_once`, `Lazy.unregister_name_works`, `Lazy.unregister_class_works`, `Lazy.reload_all_keeps`, `Lazy.reload_all_settles`.

*Note:* Proved when all names can be imported and no class is registered both by name and otherwise. Refuted: one name that cannot be imported makes every lookup of a class not itself registered or cached raise, for ever (broken_blocks, broken_stays) and keeps pools from being created (pool_needs_all); an older registration by name overrides a newer one by class; unregistering a resolved name, or the class of an unresolved one, has no effect; a module registering a name while imported makes the lookup raise RuntimeError.

### C94 Lazily imported modules (partial)

A module obtained with lazy_import is imported at the first attribute access, which gives the module's attribute and binds the name to the module; the hooks registered for its loading run once, in order, at the first successful access after their registration; an access that fails runs none.

*Over:* every history of accesses, hook registrations and rebindings of the name; every outcome of the import and of the attribute lookup at each access; every behaviour of hooks.  *Model and proof:* The lazy object as a state (list objects of hooks, bindings of the name), an access as an interpreter that runs the hooks, which may raise, register hooks or access the object; the hooks that ran compared with those due by induction over the history..

*Theorems:* `LazyMod.hooks_once`, `LazyMod.access_iff`, `LazyMod.access_ends`, `LazyMod.access_binds`, `LazyMod.not_importable`, `LazyMod.given`, `LazyMod.placeholder_raises`, `LazyMod.adding_hook`, `LazyMod.late_hook_refuted`, `LazyMod.raising_hook_refuted`, `LazyMod.touching_hook_refuted`, `LazyMod.touching_once_refuted`, `LazyMod.refused_items`.

*Note:* Proved for hooks that just work. Refuted: a hook decorated after the name was bound to the module is never run; a raising hook makes every access through the lazy object raise, the hooks before it running again each time and those after it never; a hook that uses the lazy object recurses for ever, or makes the others run twice. Not modelled: what else a module's import does; the object's own attributes (__class__, __dict__).

### C95 A remote error can be handled like the error itself (partial)

The error that a call raises because the remote method raised is caught by the same except clauses, has the same arguments, causes and attributes, and its text is the error's after the address and pid where it was raised; passing through further pools changes only its traceback.

*Over:* every exception object: every MRO with its class attributes, C members, slots and properties, every instance state; every address, pid and chain of pools; every list of except clauses.  *Model and proof:* An exception as a Python object (MRO, __dict__, C members, slots), attribute lookup as an inductive relation with the wrapper's __getattr__; attributes compared by induction over the properties that compute them, chains by induction over the pools..

*Theorems:* `Raise.classes`, `Raise.handlers`, `Raise.text`, `Raise.origin`, `Raise.standard`, `Raise.module_traceback`, `Raise.attributes`, `Raise.attributes_only`, `Raise.passes_on`, `Raise.answered`, `Raise.cmember_refuted`, `Raise.default_refuted`, `Raise.address_refuted`, `Raise.repr_refuted`, `Raise.group_refuted`, `Raise.blame_refuted`, `Raise.cancelled_refuted`.

*Note:* Proved: classes, except clauses, arguments, causes, text, origin, instance attributes, slots, class attributes, properties of these. Refuted: members of the C struct (OSError.errno, SystemExit.code) read as never set; an instance attribute with a class default (a dataclass field) reads as the default; an attribute named address or pid is replaced; repr shows no arguments; for an ExceptionGroup, or any class whose __new__ wants arguments or that refuses subclasses, the caller gets a TypeError, later blamed on the wrong pool; a CancelledError loses subclass, arguments and attributes. Not modelled: classes with a __getattr__ or a __new__ that sets state; pickling of the error (C57).

### C96 Ports in use are not handed out (partial)

A port that get_next_port returns is in use by no socket of the type asked for, according to psutil, or to netstat on Windows and where psutil is denied; and it returns one whenever a port is free.

*Over:* every list of sockets psutil may report, every text netstat may print, every socket type, random number and set of ports handed out before.  *Model and proof:* The parser as functions over lists of characters; columns and endpoints specified by an inductive relation and by concatenation; induction over the text and over the lines; composed with the allocation of C34..

*Theorems:* `Netstat.cols_iff`, `Netstat.netstat_iff`, `Netstat.psutil_free`, `Netstat.psutil_any`, `Netstat.netstat_free`, `Netstat.netstat_found`, `Netstat.v6_refuted`, `Netstat.path_refuted`, `Netstat.type_refuted`, `Netstat.foreign_refuted`.

*Note:* Proved for psutil, and for netstat lines with a dot. Refuted: lines without a dot are skipped, so that on Windows IPv6 listeners are not seen; one line in which a name with a dot precedes the ports (Unix socket paths) makes get_next_port raise ValueError; with netstat the socket type is ignored; where the local endpoint has no port the foreign port is taken. Not modelled: decoding of the output, the endless repetition of a netstat that times out.

### C97 A sub pool's process is started or the failure reported (partial)

When the start of a sub pool succeeds, its servers were up with the parameters given and the addresses returned are theirs; when it fails no process is left; in every case the shared memory used is removed; a sub pool does not outlive its main process.

*Over:* every interleaving of main process, child, polling thread and operating system, with exits, kills, cancellation and the death of the main process or of one of its threads at every point.  *Model and proof:* The start as a transition system of parent, child, segment and signals; an inductive invariant over all runs; the run's prefix in which the child reported as the witness of success..

*Theorems:* `Spawn.started`, `Spawn.parameters`, `Spawn.failed`, `Spawn.removed`, `Spawn.refused`, `Spawn.shares_fate`, `Spawn.orphan`, `Spawn.ends`, `Spawn.no_limit_refuted`, `Spawn.cancel_refuted`, `Spawn.thread_refuted`, `Spawn.late_refuted`, `Spawn.sigint_refuted`, `Spawn.runs_iff`, `Spawn.failed_nothing_left`.

*Note:* Proved but for: a cancelled start leaves the sub pool running (refuted); a child that neither ends nor reports makes the start wait for ever (refuted); on Linux the sub pool is killed as soon as the thread that started it ends, although the main process lives (refuted: PR_SET_PDEATHSIG is about threads); a main process that dies between fork and prctl leaves the child until its own check, and the segment for good (refuted); parameters that pickle to 10232 bytes or more are refused, which limits the number of sub pools; SIGINT is blocked in every sub pool whatever suspend_sigint says. The bytes of the segment are C09. Not modelled: Windows; pid reuse (C71).

### C98 Cancelling an installation (partial)

install_packages returns exactly when the process it started ended with status 0 and raises that process's status otherwise, whoever else installs or cancels; when installations follow each other and cancel_install is over, the installation that was running when it was called has ended; cancel_install signals only processes of installations that are not over, and does nothing when there is none.

*Over:* every interleaving of any number of install_packages and cancel_install calls in threads, with processes ending at any point with any status.  *Model and proof:* The manager's one attribute, calls and processes as a transition system; an invariant that ties states to histories; the claims as facts about histories..

*Theorems:* `Uv.install_returns`, `Uv.install_raises`, `Uv.cancel_ends`, `Uv.cancel_stops`, `Uv.cancel_idle`, `Uv.fails_only_in_a_race`, `Uv.signals`, `Uv.signals_running`, `Uv.cancel_goes_on`, `Uv.race_refuted`, `Uv.concurrent_refuted`, `Uv.early_refuted`, `Uv.unrecorded_refuted`, `Uv.late_refuted`, `Uv.unsignalled_refuted`.

*Note:* Proved for installations that follow each other, but for: cancel_install raises AttributeError when the installation ends while it runs, and only then (refuted, characterized); a cancel during the dry run of skip_installed or between Popen and the record is lost (refuted); it may signal an installation that began after it was called, or wait for one it has not signalled (refuted); with concurrent installations on one manager one that ends hides the others from cancel_install (refuted). Not modelled: asynchronous exceptions.

### C99 Virtual environments come and go (partial)

After create_env returns there is an environment, with the interpreter asked for; an existing one is kept, refused or replaced as told; after remove_env there is none; get_python_path and get_lib_path lead into the environment; nothing at other paths changes; is_available tells whether the commands can be run.

*Over:* every file system, host configuration, behaviour of uv and history of calls on any number of managers.  *Model and proof:* The file system as a function of paths, uv as a parameter with a specification; case analysis of each call and induction over histories..

*Theorems:* `Venv.created`, `Venv.refused`, `Venv.refused_unchanged`, `Venv.untouched`, `Venv.removed`, `Venv.last_decides`, `Venv.available`, `Venv.which_uv`, `Venv.lib_path`, `Venv.known`, `Venv.available_refuted`, `Venv.python_refuted`, `Venv.lib_refuted`, `Venv.python_path_refuted`, `Venv.remove_refuted`, `Venv.clear_refuted`, `Venv.available_set`.

*Note:* Proved but for: is_available looks at PATH while the commands prefer the binary of the package uv, and trusts XOSCAR_UV_PATH blindly (refuted both ways); with an environment there python_path is ignored without a word (refuted); get_lib_path uses the version of the running interpreter, not of the environment's (refuted, characterized); get_python_path answers for any directory (refuted); remove_env ignores errors (refuted); exists='clear' with a failing uv leaves no environment (refuted). Not modelled: Windows (where bin/python is wrong too), links.

### C100 References and iterators lead back to their actor (partial)

A reference obtained with actor_ref or create_actor, and an iterator returned by an actor's generator method, lead to that very actor: calls made with it on the machine it was obtained on (and, if the pool was addressed by a host name, on every other machine it is passed to) are run by the actor it was obtained for.

*Over:* every network of machines and pools with any number of processes, bound to any host including wildcards, every address the pool is reached under, every allocation of new actors, every consumer.  *Model and proof:* Machines, processes bound to addresses and the kernel's choice of a listener as a network model; invariants of the answers of pools (bound address of a process of the pool asked that has the actor), case analysis of bindings and addresses; equivalences for unrepaired addresses..

*Theorems:* `Home.actorRef_leads`, `Home.actorRef_finds`, `Home.created_leads_partial`, `Home.created_then_asked`, `Home.iterator_leads_partial`, `Home.fix_text`, `Home.created_refuted`, `Home.iterator_refuted`, `Home.created_replaces_none`.

*Note:* actor_ref proved (with the repair linked to the text function of C35). create_actor and iterators: proved exactly when they lead back — pool bound to a particular host, or used on the actor's own machine; refuted for pools bound to a wildcard used from another machine: create_actor does not repair the address in its result and IteratorWrapper keeps the actor's own address, so calls go to the consumer's own machine, possibly to another actor of the same uid; asking actor_ref afterwards repairs the former. Not modelled: proxies (C58), which IteratorWrapper does not keep either.

### C101 Sizes written for people mean what they say (partial)

A text is accepted as a size exactly when it is a decimal number, optionally signed and with white space around it, alone, followed by a unit (k, m, g, t in either case, powers of 1024), or followed by a percent sign; it then means that number, times its unit, or over a hundred and marked as a share; any other text is refused. The status of a GPU reports the sizes, utilizations and temperature the driver tells.

*Over:* every text of ASCII characters, every decimal number of any length, every answer of NVML or nvidia-smi.  *Model and proof:* Grammar of decimals, units and shares as an inductive specification over rationals; the scanner (strip, lower, take while, float) proved equivalent to it; status by composition..

*Theorems:* `Sizes.parse_iff`, `Sizes.reads_once`, `Sizes.word_refuted`, `Sizes.exponent_refuted`, `Sizes.nvml_exact`, `Sizes.wsl_partial`, `Sizes.wsl_refuted`.

*Note:* Accepted texts characterised exactly. Part of the claim is refuted of the code: any word beginning with a unit's letter is that unit (5 gremlins = 5 GiB; anything before a final percent sign is ignored), numbers with an exponent are refused. Under the Windows subsystem a status is proved only where nvidia-smi writes N/A for utilizations: otherwise int() of an XML element raises TypeError. Not modelled: binary rounding and overflow of floats, digits and white space outside ASCII, the driver calls.

### C102 Bound arguments are those the method would get (partial)

For an extensible method, m.bind(*args, **kwargs) succeeds exactly when m(*args, **kwargs) is a legal call, and returns the parameters of m other than the instance, in the order of its signature, each with the value the call would give it (positional, keyword, default, surplus in *args and **kwargs); otherwise it raises TypeError. It does not matter whether an argument is passed by position or by name, and calling the method with the bound values is the same call.

*Over:* every signature (positional-only, positional, defaults, *args, keyword-only, **kwargs), every list of positional and dictionary of keyword arguments.  *Model and proof:* Signatures as data; CPython's distribution of arguments transcribed and proved equivalent to a parameter-by-parameter specification of the language reference; the generated function compared with the method through that specification..

*Theorems:* `Bind.call_iff`, `Bind.decorated_exactly`, `Bind.bind_iff_partial`, `Bind.bind_refuses_partial`, `Bind.either_way`, `Bind.replay`, `Bind.slash_refuted`, `Bind.underscore_refuted`.

*Note:* Proved for all signatures and calls, but for: a keyword argument with the name of a positional-only parameter (refuted: bind accepts it where the method does not, and refuses it where **kw would take it); methods with a parameter that begins with an underscore cannot be decorated (refuted, characterized). Functions implemented in C, for which the binder may be None, are not modelled.

### C103 Methods marked no_lock run without the actor's lock, all others under it (partial)

A call of a method — by message or local reference, single or in a batch — runs under the actor's lock exactly if the method is not marked with no_lock, wherever the mark stands among the method's decorators, and in the class nearest to the actor that defines it; a stateless actor's methods never take a lock.

*Over:* every class body (any order and number of decorators and batch implementations), every chain of base classes, every route of a call.  *Model and proof:* Class bodies as programs over a heap of accessor objects and a dictionary of names; an invariant of the accessor through all later batch implementations gives an exact characterization..

*Theorems:* `NoLock.plain_exact`, `NoLock.extensible_exact`, `NoLock.override_exact`, `NoLock.inherited`, `NoLock.above_refuted`, `NoLock.batch_mark_refuted`, `NoLock.generator_refuted`.

*Note:* Exact characterization proved. Part of the claim is refuted of the code: no_lock above @extensible or @m.batch does nothing; a mark on the batch implementation unlocks the single method too (and the other way round); on an async generator method it has no effect. What holding the lock means is C14 to C16.

### C104 UCX starts with the settings asked for, once, and the process's environment is left as it was (partial)

When the UCX backend is initialised, UCX has for every setting the value asked for — from the external environment first, then the high level settings (tcp, nvlink, infiniband, rdmacm, cuda-copy), then the entries of ucx.environment, whose name some-name stands for UCX_SOME_NAME; a CUDA context is created first exactly if the UCX_TLS asked for mentions cuda (not ^cuda) or it is asked for outright, and without Numba this is an ImportError with no effect; os.environ is the same afterwards however it ends; UCX is initialised once until reset or failure.

*Over:* every configuration, environment and set of names and values, every outcome of ucp.init, any history of init and reset.  *Model and proof:* Texts as lists of characters; an independent inductive definition of the value asked for; induction over the entries of environment gives the value in the loop's result; the process has both the Python mapping and the C environment..

*Theorems:* `UcxInit.context_iff`, `UcxInit.environment_kept`, `UcxInit.once`, `UcxInit.settings_partial`, `UcxInit.settings_refuted`.

*Note:* CUDA context, environment and once-only proved in full. That UCX has the settings asked for is refuted (settings_refuted); settings_partial says exactly when it does: only if each was in the external environment already. Assumes that UCX reads options given to ucp.init and the C environment only.

### C105 An event can be awaited without holding up anything else (partial)

await AioEvent(event).wait() returns True only if the event was set at a time between the call and the return, and False only if a time limit was given and passed; set() wakes every wait made before it, also when the event is cleared at once; every call returns at most once and a cancelled one not at all; a wait that is given up leaves nothing behind; waits hold up no other work of the process (messages to be serialized, file operations).

*Over:* all histories of calls, sets, clears, time limits and cancellations on any number of events, all schedules of the executor's threads, any number of threads.  *Model and proof:* Executor with n threads and a FIFO queue, jobs that wait on events or do other work, threading and multiprocessing events; one invariant ties queue, threads, results and labels; a second says since when an event was set; progress by strong induction on what is left in the executor..

*Theorems:* `AioEvent.is_set_exact`, `AioEvent.true_means_set`, `AioEvent.false_means_late`, `AioEvent.at_most_once`, `AioEvent.set_wakes`, `AioEvent.given_up_early`, `AioEvent.all_end_partial`, `AioEvent.exhausting`, `AioEvent.pulse_missed_refuted`, `AioEvent.given_up_stays_refuted`, `AioEvent.exhausted_refuted`, `AioEvent.mp_false_refuted`.

*Note:* What a wait returns, that a set wakes the waits that have reached a thread, and that everything ends as long as every wait has a time limit or its event is set: proved. Refuted: a wait still in the executor's queue misses a set that is cleared at once; a cancelled wait keeps its thread until the event is set, and as many of them as the executor has threads stop all large messages and file operations of the process; a multiprocessing.Event may give False without a time limit.

### C106 MLX arrays arrive unchanged (partial)

An MLX array passed to or returned from an actor in another process arrives with its type, shape and the same elements, however it lies in memory (slices, transposed, broadcast, empty, 0-d).

*Over:* all arrays: types, shapes, strides, offsets; every naming of types; every buffer received.  *Model and proof:* The array model of C54/C55 (memory, offset, strides); the type names of MLX as two functions; arrival proved by the lemma that elements in a row give the array back; exactly when by cases..

*Theorems:* `Mlx.arrives`, `Mlx.arrives_iff`, `Mlx.name_refuted`, `Mlx.format_refuted`, `Mlx.length_checked`.

*Note:* Proved for every layout, exactly for the types MLX has under the name it prints for them. Refuted: a type whose printed name is no attribute of mlx.core (bool is printed so, the attribute is bool_, as far as known without MLX here) is sent but can never be received; the conversion of buffers with another format (mlx.py 60-63) always fails: the numpy type it computes is then looked up as an attribute name. MLX's own operations (reshape, view) are taken as documented.

## Axioms

Output of `#print axioms` for the 1070 claimed theorems.

* **Classical.choice, Quot.sound, propext**: `ActorLock.free_actor_starts_at_once`, `ActorLock.generator_protocol`, `ActorLock.grants_in_order`, `ActorLock.grants_then_waiting_in_order`, `ActorLock.lock_held_iff`, `ActorLock.mutual_exclusion`, `ActorLock.waiter_gets_lock`, `ActorLock.waiting_is_queued`, `ActorLock.yielded_does_not_hold`, `Addr.ext_bare_host`, `Addr.ext_schemes`, `Addr.ext_with_port`, `Addr.ext_wrong_ports`, `Addr.fix_brackets_refuted`, `Addr.fix_idempotent`, `Addr.fix_keeps_concrete`, `Addr.fix_keeps_local`, `Addr.fix_replaces`, `Addr.fix_scheme_refuted`, `Addr.fix_v4`, `Addr.isZero_plain_host`, `Addr.isZero_scheme`, `Addr.isZero_v4`, `Addr.isZero_v6`, `Addr.isZero_v6_other`, `AioEvent.all_end_partial`, `AioEvent.at_most_once`, `AioEvent.exhausted_refuted`, `AioEvent.exhausting`, `AioEvent.false_means_late`, `AioEvent.given_up_early`, `AioEvent.given_up_stays_refuted`, `AioEvent.is_set_exact`, `AioEvent.mp_false_refuted`, `AioEvent.pulse_missed_refuted`, `AioEvent.set_wakes`, `AioEvent.true_means_set`, `AioFile.cancel_partial`, `AioFile.iteration`, `AioFile.one_after_the_other`, `AioFile.written`, `Bind.bind_iff_partial`, `Bind.bind_refuses_partial`, `Bind.call_iff`, `Bind.decorated_exactly`, `Bind.either_way`, `Bind.replay`, `Bind.slash_refuted`, `Bind.underscore_refuted`, `Caller.answered_once`, `Caller.bad_reply_delivered`, `Caller.bad_reply_to_cancelled_hangs_others_refuted`, `Caller.cancelled_call_hangs_others_refuted`, `Caller.death_exact`, `Caller.no_hang_partial`, `Caller.reply_delivered`, `Caller.reply_matches`, `Caller.stopped_after_listener_partial`, `Caller.stopped_caller_hangs_refuted`, `Calls.batch_accepts_iff`, `Calls.batch_batch_impl`, `Calls.batch_message`, `Calls.batch_single_impl`, `Calls.batch_single_impl_fail`, `Calls.batch_single_impl_fail_async`, `Calls.batch_whole_list`, `Calls.refEq_hash`, `Calls.refEq_iff`, `Calls.refEq_refl`, `Calls.refEq_str`, `Calls.refEq_str_bytes`, `Calls.refEq_symm`, `Calls.refEq_trans`, `Calls.toBinary_toStr`, `Calls.toStr_toBinary`, `Calls.toStr_total`, `Calls.unpickle_equal`, `Closer.closed_once`, `Closer.closed_partial`, `Closer.failed_never`, `Closer.finalizer_goes_on`, `Closer.loop_stopped_refuted`, `Closer.no_failure_partial`, `Closer.start_twice_refuted`, `Collective.accepted_iff`, `Collective.different_names`, `Collective.group_made_iff`, `Collective.group_of_ranks`, `Collective.non_member`, `Collective.positions`, `Collective.rejected_alike`, `Collective.same_name`, `Config.alloc_idle`, `Config.alloc_label`, `Config.alloc_main`, `Config.alloc_process_index`, `Config.alloc_random_sub`, `Config.externalAddresses_all`, `Config.externalAddresses_label`, `Config.mapping_exact`, `Config.processIndex_exact`, `Config.processIndexes_nodup`, `Config.remove_leaves_addresses_refuted`, `Config.sample_hist`, `Conns.forgotten_open_refuted`, `Conns.given_open`, `Conns.leads_right_partial`, `Conns.next_enters`, `Conns.once_right`, `Conns.one_connection_partial`, `Conns.reused_partial`, `Conns.stale_route_refuted`, `CopyTo.copy_check`, `CopyTo.copy_delivers`, `CopyTo.copy_equal`, `CopyTo.copy_files_delivers`, `Create.check_error`, `Create.check_iff`, `Create.created`, `Create.created_hist`, `Create.listed_running_partial`, `Create.not_accepted`, `Create.remove_exact`, `Create.started_ok`, `Cycle.background_warned_refuted`, `Cycle.crosswise_deadlock_refuted`, `Cycle.deadlock_forever`, `Cycle.deadlock_warned`, `Cycle.exclusive`, `Cycle.stateless_warned_refuted`, `Cycle.warned_iff_partial`, `Delay.at_most_once`, `Delay.can_be_made`, `Delay.cancel_prevents`, `Delay.not_early`, `Delay.outcome`, `Delay.silent_only_refused`, `Delay.without_delay_never`, `Directory.actor_ref_exact_partial`, `Directory.callFailed_remote`, `Directory.destroy_ok`, `Directory.directory_exact_partial`, `Directory.idle_exclusive_partial`, `Directory.idle_exclusive_seq_partial`, `Directory.idle_found_seq_partial`, `Directory.never_forgotten_partial`, `Dispatch.dispatch_exact`, `Dispatch.dispatch_lazy`, `Dispatch.dispatch_lazy_once`, `Dispatch.dispatch_most_specific_partial`, `Dispatch.dispatch_plain_named_partial`, `Dispatch.dispatch_wrong_only_partial`, `Dispatch.registerLazy_used`, `Dispatch.register_decodable`, `Dispatch.register_ok_iff`, `Dispatch.roundtrip_distinct`, `Dispatch.roundtrip_iff`, `Dispatch.unregister_keeps_others_partial`, `Dummy.begins`, `Dummy.close_ends`, `Dummy.connect_spec`, `Dummy.create_running`, `Dummy.finishes`, `Dummy.links_distinct`, `Dummy.one_server`, `Dummy.running_registered`, `Forward.cancel_delivered_partial`, `Forward.cancel_ignores_proxies_refuted`, `Forward.delivered`, `Forward.direct`, `Forward.ends_partial`, `Forward.first_hop`, `Forward.gateways_loop_refuted`, `Forward.kill_at_gateway`, `Forward.kill_direct`, `Forward.kill_main`, `Forward.kill_stops_gateway_refuted`, `Forward.kill_through_gateway_refuted`, `Forward.kill_unreachable`, `Forward.kill_wildcard_refuted`, `Forward.remote_iff`, `Forward.send_iff`, `Forward.wait_recovered_at_gateway_refuted`, `Forward.wait_recovered_main_pool`, `Forward.wait_recovered_self`, `Forward.wait_recovered_wrong_pool`, `Forward.wildcard_loop_refuted`, `Forward.wire_id`, `Front.contexts_differ`, `Front.one_context`, `Front.reregister_refuted`, `Front.scheme_default`, `Front.scheme_exact`, `Front.scheme_url`, `Front.served_partial`, `Front.setup_cluster_partition`, `Front.setup_cluster_unknown`, `Front.unknown_scheme`, `Gen.answered`, `Gen.can_destroy`, `Gen.cancelled_next_destroys_refuted`, `Gen.cancelled_next_ends_refuted`, `Gen.cancelled_next_loses_item_refuted`, `Gen.concurrent_next`, `Gen.concurrent_next_destroys_refuted`, `Gen.destroyed_refused`, `Gen.error_swallowed`, `Gen.error_swallowed_refuted`, `Gen.iterate_partial`, `Gen.iterate_stateless_partial`, `Gen.one_answer`, `Gen.one_at_a_time`, `Gen.released_partial`, `Gloo.allgather_correct`, `Gloo.allreduce_correct`, `Gloo.alltoall_correct`, `Gloo.broadcast_correct`, `Gloo.gather_correct`, `Gloo.reduce_correct`, `Gloo.reduce_scatter_correct`, `Gloo.scatter_overflow`, `Gloo.scatter_safe_partial`, `Gloo.scatter_value_partial`, `Gpu.context_exact`, `Gpu.fork_refuted`, `Gpu.index_uuid`, `Gpu.info_index`, `Gpu.info_negative`, `Gpu.info_stays`, `Gpu.info_uuid_refuted`, `Gpu.no_driver`, `Gpu.status_busy_refuted`, `Gpu.status_exact`, `Gpu.status_fork_refuted`, `Gpu.status_sound`, `Gpu.status_stale_refuted`, `Gpu.status_unknown`, `Gpu.status_wsl_partial`, `Gpu.status_wsl_refuted`, `Gpu.version_iff`, `Home.created_leads_partial`, `Home.created_replaces_none`, `Home.created_then_asked`, `Home.fix_text`, `Ids.first_seed`, `Ids.fork_refuted`, `Ids.later_keeps`, `Ids.one_stream`, `Ids.places_apart`, `Ids.port_reseeds_refuted`, `Ids.same_seed_refuted`, `Ids.sub_pool_seed`, `Ids.unique_partial`, `Impl.all_key_errors`, `Impl.chain_exact`, `Impl.implemented_once`, `Impl.implemented_partial`, `Impl.registration_in_force`, `Impl.subclass_initialised_twice_refuted`, `InitPg.child_refuted`, `InitPg.device_refuted`, `InitPg.failed_refuted`, `InitPg.joined`, `InitPg.joined_iff`, `InitPg.other_process`, `InitPg.own_data`, `InitPg.rank_refuted`, `InitPg.reasons`, `InitPg.reasons_args`, `InitPg.refused`, `InitPg.stays`, `Lazy.broken_blocks`, `Lazy.broken_stays`, `Lazy.earlier_names_work`, `Lazy.names_like_classes_partial`, `Lazy.pool_needs_all`, `Lazy.reload_all_settles`, `Lazy.unregister_class_works`, `Lazy.unregister_name_works`, `LazyMod.hooks_once`, `LazyMod.late_hook_refuted`, `LazyMod.refused_items`, `Life.join_after_stop`, `Life.never_restarted`, `Life.sub_join_after_stop_ended`, `Linear.can_complete`, `Linear.linearizable`, `Linear.locked_waits`, `Linear.order_stays`, `Linear.started_once`, `Linear.unlocked_refuted`, `Link.all_arrive`, `Link.arrives`, `Link.arrives_or_reported`, `Link.can_be_sent`, `Local.batch_method_refuted`, `Local.batch_mixed_refuted`, `Local.batch_partial`, `Local.hidden_iff`, `Local.hidden_refuted`, `Local.local_call_exact`, `Local.local_call_partial`, `Local.local_call_prompt`, `Local.local_ref_exists`, `Local.local_tell`, `Local.remote_denotes`, `Local.remote_tell`, `Local.remote_tell_hidden`, `Local.stale_refuted`, `Local.stopped_refuted`, `Local.tell_partial`, `Local.tell_refuted`, `Lru.after_invalidate`, `Lru.answer_own_key`, `Lru.called_cached`, `Lru.close_waits`, `Lru.evicts_lru`, `Lru.size_le`, `Marker.guard_refuted`, `Marker.in_refused`, `Marker.major_only`, `Marker.marker_answers_iff_partial`, `Marker.marker_right`, `Marker.or_guard_refuted`, `Marker.simple_marker`, `Meet.all_came_partial`, `Meet.looks_soon`, `Meet.not_a_barrier_refuted`, `Meet.others_return`, `Meet.poll_decides`, `Meet.restart_counts_twice_refuted`, `Meet.server_first`, `Meet.server_waits_partial`, `Meet.silent_timeout_refuted`, `Metric.before_init_refuted`, `Metric.console_tags`, `Metric.counter_life_partial`, `Metric.counter_total`, `Metric.counter_value_direct_partial`, `Metric.counter_value_partial`, `Metric.exported_unique`, `Metric.fresh_metric`, `Metric.gauge_last`, `Metric.histogram_due`, `Metric.histogram_windows`, `Metric.init_once`, `Metric.labels_spec`, `Metric.meter_conserves`, `Metric.meter_due`, `Metric.meter_time`, `Metric.prom_counter_partial`, `Metric.prom_metric`, `Metric.raises_exact`, `Metric.reinit_direct`, `Metric.reinit_refuted`, `Metric.same_name_refuted`, `Metric.tags_changed_refuted`, `Metric.tags_mixed_refuted`, `Metric.wrong_tags`, `Mlx.arrives`, `Mlx.arrives_iff`, `Nccl.alltoall_correct`, `Nccl.gather_correct`, `Nccl.id_roundtrip`, `Nccl.scatter_correct`, `Nccl.split_request_refuted`, `Nd.array_bytes_sent`, `Nd.array_refused`, `Nd.array_roundtrip`, `Nd.csr_arrays`, `Netstat.foreign_refuted`, `Netstat.netstat_found`, `Netstat.netstat_free`, `Netstat.netstat_iff`, `Netstat.psutil_any`, `Netstat.psutil_free`, `Netstat.v6_refuted`, `NoLock.extensible_exact`, `NoLock.plain_exact`, `Order.awaited_in_order_partial`, `Order.none_lost`, `Order.small_never_overtaken_partial`, `Order.started_called`, `Order.started_once`, `Plan.create_env_spec`, `Plan.extras_refuted`, `Plan.from_refuted`, `Plan.install_all`, `Plan.install_holds_partial`, `Plan.options_spec`, `Plan.plan_ignores_options`, `Plan.shadowed_refuted`, `Plan.two_requirements_refuted`, `Plan.url_refuted`, `Plan.url_without_dependencies`, `Pool.any_outcome`, `Pool.at_most_one_reply`, `Pool.cancel_not_running`, `Pool.cancel_running_call`, `Pool.cancelled_tell`, `Pool.destroy_exclusive_partial`, `Pool.destroy_succeeds`, `Pool.every_request_one_reply`, `Pool.failed_post_create_leaves_actor_refuted`, `Pool.history_ok`, `Pool.one_live_actor`, `Pool.only_cancel_touches_others`, `Pool.removed_once`, `Pool.reply_is_outcome`, `Pool.reply_means`, `Pool.reply_message_unanswered`, `Pool.request_progresses`, `Pool.running_iff`, `Pool.self_cancel_reply`, `Pool.while_dead`, `Pool.while_live`, `Ports.calls_distinct`, `Ports.getNextPort_any`, `Ports.getNextPort_complete`, `Ports.getNextPort_exhausted`, `Ports.getNextPort_free`, `Ports.getNextPort_never_systemError`, `Ports.getNextPort_state`, `Ports.processIndices_nodup_partial`, `Procs.descendants_left_refuted`, `Procs.graceful`, `Procs.kill_own_only`, `Procs.main_ended_unnoticed_refuted`, `Procs.stop_all_ends`, `Procs.stop_ends`, `Procs.term_iff`, `Procs.watch_exact`, `Prof.content_expected`, `Prof.kept_operators`, `Prof.loop_ends`, `Prof.one_logger_partial`, `Prof.pop_returns`, `Prof.popped_changes_refuted`, `Prof.reads`, `Prof.sums`, `Prof.use_gives`, `Raise.blame_refuted`, `Raise.group_refuted`, `Reach.announces`, `Reach.bind_exact`, `Reach.class_exact`, `Reach.create_exact`, `Reach.dials`, `Reach.index_read`, `Reach.index_roundtrip`, `Reach.never_again`, `Reach.not_after_end`, `Reach.overlap_exact`, `Reach.own_address`, `Reach.own_class`, `Reach.reached_is_live`, `Reach.reached_means`, `Reach.reaches_exact`, `Reach.reaches_own`, `Reach.restart`, `Reach.roundtrip`, `Reach.socketAddress_inj`, `Reach.start_exact`, `Reach.stop_removes`, `Reach.takeover`, `Reach.ucx_case_refuted`, `Reach.ucx_roundtrip`, `Reach.undisturbed`, `Reach.unknown_scheme_refuted`, `Recovery.answered_records`, `Recovery.lost_is_lost`, `Recovery.monitor_goes_on`, `Recovery.records_exact`, `Recovery.records_kept`, `Recovery.recovery_complete_partial`, `Recovery.recovery_history_partial`, `Recovery.restarted_up`, `Recovery.woken_after_recovery_partial`, `Refs.copy_reaches_buffers`, `Refs.copy_reaches_files`, `Refs.copy_refusals`, `Refs.copy_returns`, `Refs.copy_touches_only`, `Refs.foreign_address_refuted`, `Refs.leads_to_nothing_else`, `Refs.leads_to_own`, `Refs.mixed_kinds_refuted`, `Refs.reference_does_not_keep_refuted`, `Reqs.extras_lost_refuted`, `Reqs.filter_correct_partial`, `Reqs.process_correct_partial`, `Reqs.resolve_correct`, `Reqs.substitute_correct_partial`, `Reqs.substitute_twice_refuted`, `Reqs.system_marked_refuted`, `Retry.call_exact`, `Retry.coroutine_exhausted_refuted`, `Retry.limited`, `Retry.plain_exhausted`, `Router.add_remove_live`, `Router.add_remove_restores`, `Router.add_resolves`, `Router.cached_client_current_partial`, `Router.chain_no_repeat`, `Router.chain_unique`, `Router.client_one_key`, `Router.dest_exact`, `Router.getProxies_chain`, `Router.getProxies_diverges_refuted`, `Router.getProxies_terminates_partial`, `Router.getProxy_ne`, `Router.getProxy_spec`, `Router.given_open`, `Router.host_of`, `Router.lock_fresh`, `Router.lock_per_thread`, `Router.lock_taken`, `Router.removed_not_routable_partial`, `Router.removed_not_routable_sub`, `Router.removed_proxy_stays_refuted`, `Router.removed_still_routable_main_refuted`, `Router.stale_client_cached_refuted`, `Router.uncached_connects`, `Router.uncached_private`, `Router.wildcard_diverges_refuted`, `Serial.alone_is_buffer`, `Serial.bytes_subclass_fails`, `Serial.cycle_through_tuple_fails`, `Serial.cyclic_with_shared_empty_dict_fails`, `Serial.header_short`, `Serial.message_fields_kept`, `Serial.message_roundtrip`, `Serial.nested_unknown_serializer_escapes`, `Serial.raised_is_own_id`, `Serial.roundtrip_acyclic`, `Serial.roundtrip_cyclic_partial`, `Serial.shared_empty_dict_splits`, `Serial.sharing_kept_acyclic`, `Serial.sharing_kept_cyclic_partial`, `Serial.undecodable_reported_against_own_id`, `Serial.unknown_serializer_reported`, `Serial.unloadable_payload_reported`, `Serial.unsupported_protocol_rejected`, `Shm.handshake_complete`, `Shm.handshake_not_torn`, `Shm.handshake_two_phases`, `Sizes.exponent_refuted`, `Sizes.parse_iff`, `Sizes.reads_once`, `Sizes.word_refuted`, `Sizes.wsl_partial`, `Sizes.wsl_refuted`, `Spawn.failed`, `Spawn.failed_nothing_left`, `Spawn.no_limit_refuted`, `Spawn.orphan`, `Spawn.parameters`, `Spawn.refused`, `Spawn.removed`, `Spawn.shares_fate`, `Spawn.sigint_refuted`, `Spawn.started`, `Spawn.thread_refuted`, `Stats.counter_exact`, `Stats.most_calls_report`, `Stats.new_accepts`, `Stats.new_callbacks`, `Stats.slow_calls_report`, `Stats.slow_calls_slowest_refuted`, `Stats.slow_report_sound`, `Stats.slow_report_top9_partial`, `Stats.stream_callbacks`, `Stats.window_callback`, `Store.add_lost`, `Store.add_running_sum`, `Store.answered_last`, `Store.asked`, `Store.atomic_map`, `Store.badLin_not_atomic`, `Store.closes_exact`, `Store.dead_watcher`, `Store.get_lost`, `Store.once`, `Store.real_time`, `Store.responses_own`, `Store.reused_watcher`, `Store.second_wait_early`, `Store.set_not_visible`, `Store.stale_answer`, `Store.stoll_exact`, `Store.stored_number`, `Store.wait_after_delete`, `Store.wait_after_keys`, `Store.wait_answered_partial`, `Store.wait_hangs`, `Store.waits_atomic_partial`, `StoreWire.blocked_unfinished`, `StoreWire.dropped_done`, `StoreWire.half_answer_refuted`, `StoreWire.handled_all`, `StoreWire.handled_prefix`, `StoreWire.refused_dropped`, `StoreWire.refused_iff`, `StoreWire.request_exact`, `StoreWire.request_roundtrip`, `StoreWire.request_waits`, `StoreWire.response_roundtrip`, `StoreWire.response_waits`, `StoreWire.served`, `StoreWire.server_gone_spins_refuted`, `StoreWire.stalled_client_refuted`, `StoreWire.unknown_refused`, `StoreWire.waits_iff`, `StoreWire.wire_injective`, `Subproc.all_delivered`, `Subproc.clean_iff`, `Subproc.clean_plain`, `Subproc.clean_sublist`, `Subproc.decode_by_lines`, `Subproc.decode_scalars`, `Subproc.decode_text`, `Subproc.delivered`, `Subproc.never_stuck_partial`, `Subproc.so_far`, `Tensor.cpu_roundtrip`, `Tensor.cpu_sent_iff`, `Tensor.cuda_receives`, `Tensor.cuda_roundtrip_partial`, `Tensor.cuda_slice_refuted`, `Tensor.cupy_roundtrip`, `Ucx.concurrent_delivers_partial`, `Ucx.delivers_partial`, `Ucx.done_means_written`, `Ucx.unknown_buffer_answer`, `UcxInit.context_iff`, `UcxInit.once`, `UcxInit.settings_partial`, `Uv.cancel_ends`, `Uv.cancel_goes_on`, `Uv.cancel_idle`, `Uv.cancel_stops`, `Uv.fails_only_in_a_race`, `Uv.install_raises`, `Uv.install_returns`, `Uv.signals`, `Uv.signals_running`, `WaitFor.arrives_partial`, `WaitFor.caller_cancel_refuted`, `WaitFor.cancels_le`, `WaitFor.falsy_exception_refuted`, `WaitFor.result_of_call`, `WaitFor.timer_always`, `WaitFor.zero_timeout_refuted`, `Watch.empty_filter_refuted`, `Watch.not_early`, `Watch.not_itself`, `Watch.prompt_exact`, `Watch.reload_json`, `Watch.settings_filters`, `Watch.settings_times`, `Watch.trailing_semicolon_refuted`, `Watch.warnings_bounded`, `Wire.cancelled_recv_desync`, `Wire.cancelled_senders_whole_frames`, `Wire.concurrent_senders_received`, `Wire.concurrent_senders_whole_frames`, `Wire.reader_complete`, `Wire.reader_prefix`, `Wrap.arrives_once`, `Wrap.exactly_in_use_partial`, `Wrap.gone_iff`, `Wrap.kept_partial`, `Wrap.released_partial`, `Wrap.responsible`, `Wrap.used_after_arrival`
* **Quot.sound**: `Dispatch.dispatch_stale_refuted`, `Reach.reached_or_refused`
* **Quot.sound, propext**: `AioFile.alone_like_sync`, `AioFile.cancel_loses_refuted`, `AioFile.closed_stays`, `AioFile.file_ops`, `AioFile.iteration_alone`, `AioFile.lines_unique`, `AioFile.order_refuted`, `Caller.before_order`, `Caller.stray_reply_fails_all_calls`, `Calls.cancel_identity`, `Calls.tuple_cancelled`, `Calls.tuple_not_silently_wrong`, `Calls.tuple_prefix_partial`, `Collective.nccl_exchange_iff`, `Collective.nccl_exchange_refuted`, `Config.alloc_random`, `CopyTo.blocks_bounded_partial`, `CopyTo.blocks_bounded_single`, `CopyTo.blocks_unbounded_refuted`, `CopyTo.copy_connection_failure_partial`, `CopyTo.copy_files_connection_failure_partial`, `CopyTo.file_blocks_bounded`, `Create.allocate_same`, `Create.append_taken_address_refuted`, `Create.failed_append_refuted`, `Create.failed_start_leaves_processes`, `Create.listed_iff`, `Create.removed_actor_exists_refuted`, `Create.sampleRun_run`, `Create.start_error_iff`, `Create.starting_pool_offered_refuted`, `Cycle.acts_iff`, `Delay.ended_final`, `Delay.tasks_requests`, `Delay.value_told`, `Directory.double_after_failed_destroy_refuted`, `Directory.forgotten_by_failed_destroy_refuted`, `Directory.forgotten_by_lost_destroy_refuted`, `Directory.ghost_of_failed_create_refuted`, `Directory.ghost_of_failed_hook_refuted`, `Directory.ghost_of_race_refuted`, `Directory.half_made_actor_refuted`, `Directory.placeholder_leaked_refuted`, `Directory.placeholder_lost_refuted`, `Directory.recreated_actor_destroyed_refuted`, `Directory.sample_seq`, `Directory.strategy_overwritten_refuted`, `Directory.wrong_actor_destroyed_refuted`, `Dummy.accepted_lost_refuted`, `Dummy.after_close`, `Dummy.cancel_frees`, `Dummy.collected_stays_open_refuted`, `Dummy.delivered`, `Dummy.handler_ignored_refuted`, `Dummy.pending_recv_hangs_refuted`, `Dummy.received_prefix`, `Dummy.recv_oldest`, `Dummy.recv_waits`, `Dummy.send_accepted`, `Dummy.stop_leaves_open_refuted`, `Dummy.waiting_gets`, `Dummy.waiting_iff`, `Dummy.wake_once`, `ErrSer.always_reply_partial`, `ErrSer.bad_result_reported`, `ErrSer.no_reply_iff`, `ErrSer.send_failure_reported`, `ErrSer.unprintable_reported`, `ErrSer.unsendable_iff`, `Front.setup_cluster_half_refuted`, `Gen.owner`, `Gloo.bitwise_refused`, `Gloo.other_type_refused`, `Gpu.context_sound`, `Gpu.count_exact`, `Gpu.count_shown`, `Gpu.index_uuid_unknown`, `Gpu.listing`, `Home.actorRef_finds`, `Home.actorRef_leads`, `Home.iterator_leads_partial`, `Home.iterator_refuted`, `Ids.makes`, `Impl.failure_reported`, `Impl.plain`, `Impl.result_reachable`, `Lazy.import_runs_once`, `Lazy.later_registration_refuted`, `Lazy.registering_import`, `Lazy.reload_all_keeps`, `Lazy.unregister_class_refuted`, `Lazy.unregister_name_refuted`, `LazyMod.access_ends`, `LazyMod.access_iff`, `LazyMod.given`, `LazyMod.raising_hook_refuted`, `LazyMod.touching_hook_refuted`, `Life.join_returns_iff`, `Life.start_before_stop`, `Life.stop_any_time`, `Life.stop_stops`, `Linear.failed_either`, `Local.pool_gone`, `Lru.after_clear`, `Lru.cancelled_served_refuted`, `Lru.close_after_clear_refuted`, `Lru.close_ends`, `Lru.closed_iff`, `Lru.counts`, `Lru.failure_not_served`, `Lru.open_close`, `Lru.shares`, `Marker.unknown_name`, `Meet.attempt_decides`, `Meet.connected_first`, `Meet.gives_up`, `Meet.short_timeout_refuted`, `Meet.timeout_means`, `Meet.useless_means`, `Meet.waits_for_server`, `Nccl.allgather_correct`, `Nccl.allgather_short_refuted`, `Nccl.allreduce_correct`, `Nccl.alltoall_flat_refuted`, `Nccl.broadcast_correct`, `Nccl.broadcast_none_refuted`, `Nccl.gather_flat_refuted`, `Nccl.gather_matrices_refuted`, `Nccl.id_refused`, `Nccl.reduce_correct`, `Nccl.reduce_scatter_correct`, `Nccl.reduce_scatter_uneven_refuted`, `Nccl.request_served`, `Nd.array_layout_kept`, `Netstat.cols_iff`, `Netstat.path_refuted`, `Netstat.type_refuted`, `NoLock.inherited`, `NoLock.override_exact`, `Order.issued_lane`, `Order.large_overtaken`, `Order.local_call_overtakes_tell`, `Order.made_issued`, `Order.one_at_a_time`, `Order.proxy_reorders`, `Order.two_lanes_reorder`, `Pool.failed_constructor_leaves_nothing_partial`, `Pool.refused_changes_nothing`, `Ports.processIndex_shared_refuted`, `Procs.second_watcher`, `Procs.stop_all_raises`, `Procs.stranger_killed_refuted`, `Prof.logs_profiled`, `Prof.through_number`, `Raise.address_refuted`, `Raise.answered`, `Raise.attributes`, `Raise.attributes_only`, `Raise.cancelled_refuted`, `Raise.classes`, `Raise.cmember_refuted`, `Raise.default_refuted`, `Raise.handlers`, `Raise.module_traceback`, `Raise.origin`, `Raise.passes_on`, `Raise.repr_refuted`, `Raise.standard`, `Raise.text`, `Reach.endpoint_exact`, `Recovery.aborts_why`, `Recovery.appended_not_recovered`, `Recovery.check_wakes`, `Recovery.down_again_and_again`, `Recovery.forget_aborts`, `Recovery.loss_forgets`, `Recovery.no_wake_while_recovering`, `Recovery.pending_create_aborts`, `Recovery.record_aborts`, `Recovery.recovery_ends_partial`, `Recovery.restart_retried`, `Recovery.wait_waits`, `Recovery.wait_without_recovery`, `Recovery.woken_after_abort`, `Recovery.woken_before_notice`, `Refs.buffers_answer`, `Refs.create_answer`, `Refs.files_answer`, `Retry.endless_iff`, `Serial.spawn_equivalent`, `Shm.handshake_too_long`, `Spawn.cancel_refuted`, `Spawn.late_refuted`, `Stats.chain_off`, `Stats.slow_report_top10_refuted`, `Store.wrap_exact`, `StoreWire.reset_terminates_refuted`, `StoreWire.updates_handled`, `Subproc.clean_nested_refuted`, `Subproc.dead_reader`, `Subproc.good_terminal`, `Subproc.left_behind_refuted`, `Subproc.lines_unique`, `Subproc.outcome_kept`, `Subproc.over_means_ended`, `Subproc.refused_line_hangs_refuted`, `Subproc.runs_end`, `Subproc.sent_is_script`, `Tensor.scalar_grad_refuted`, `Transport.all_can_be_sent`, `Transport.bytes_delivered`, `Transport.bytes_intact`, `Transport.flush_progress`, `Transport.split_write_iff`, `Ucx.cancelled_send_breaks_refuted`, `Ucx.empty_buffer_breaks_refuted`, `Ucx.empty_copy_hangs_refuted`, `Ucx.format`, `Ucx.part_waits`, `Ucx.size_mismatch_breaks`, `Ucx.unknown_buffer_breaks_refuted`, `Ucx.wrong_size_closes`, `UcxInit.settings_refuted`, `Uv.concurrent_refuted`, `Uv.early_refuted`, `Uv.late_refuted`, `Uv.race_refuted`, `Uv.unrecorded_refuted`, `Uv.unsignalled_refuted`, `Venv.created`, `Venv.last_decides`, `Venv.lib_refuted`, `Venv.python_refuted`, `Venv.refused`, `Venv.removed`, `Wait.cancelled_wait`, `Watch.check_again`, `Watch.check_iff`, `Watch.period_iff`, `Watch.split_pieces`, `Watch.unpatched_never`, `Wire.send_recv_stream`, `Wire.size_of_frame`, `Wire.truncated_frame`, `Wrap.collection_ends`, `Wrap.collection_hangs_refuted`, `Wrap.crash_leaks_refuted`, `Wrap.lost_message_leaks_refuted`
* **none**: `Calls.made_remote`, `Calls.toBinary_total`, `Config.readd_index_stale_refuted`, `Config.reset_internal_stale_refuted`, `Dispatch.failed_register_refuted`, `Front.actor_uid_default`, `Front.actor_uid_other`, `Front.actor_uid_partial`, `LazyMod.placeholder_raises`, `Local.cycle_debug_no_local`, `Mlx.length_checked`, `Procs.stop_request_failed_refuted`, `Retry.last_sleep_refuted`, `Router.shared_key_lost_refuted`, `Transport.ofBytes_isBytes`, `Venv.known`, `Wait.cancel_request_failed`, `Wait.cancelled_after_end`, `Wait.cancelled_remote`, `Wait.cancelled_reply`, `Wait.cancelled_twice`, `Wait.not_cancelled`
* **propext**: `AioFile.after_exit_refuted`, `AioFile.closes`, `Calls.batch_empty`, `Calls.cancel_text_refuted`, `Calls.error_at_home`, `Calls.error_identity`, `Calls.single_direct`, `Calls.single_via_batch`, `Calls.single_via_batch_none`, `Calls.tuple_future_refuted`, `Calls.tuple_none`, `Calls.tuple_one`, `Calls.tuple_order_refuted`, `Calls.unpickle_local`, `Collective.demoHash_ok`, `Config.alloc_address`, `CopyTo.block_size_used`, `CopyTo.copy_error_ignored_refuted`, `CopyTo.copy_files_error_ignored_refuted`, `Create.failed_start_refuted`, `Delay.cancel_possible`, `Delay.default_delay_refuted`, `Delay.late_value_refuted`, `Delay.local_differs`, `Dispatch.unregister_shared_refuted`, `Dummy.stop_closes_partial`, `ErrSer.no_reply_refuted`, `ErrSer.picklable_arrives`, `ErrSer.result_arrives`, `ErrSer.unloadable_reported`, `ErrSer.unpicklable_arrives`, `ErrSer.unprintable_iff`, `Front.empty_uid_refuted`, `Front.no_address`, `Front.proxy_keyword_ignored_refuted`, `Front.ref_bytes_address`, `Front.ref_has_uid`, `Front.ref_keywords`, `Front.ref_no_uid`, `Front.ref_of_ref`, `Front.ref_other_keywords`, `Front.ref_positional`, `Front.ref_two_addresses`, `Front.ref_types`, `Front.ref_uid_only`, `Front.setup_cluster_none`, `Front.surplus_ignored_refuted`, `Front.uid_keyword_ignored_refuted`, `Gen.two_owners_refuted`, `Gloo.scatter_needs_lists_everywhere`, `Gloo.short_recv_overwritten`, `Gloo.strided_wrong`, `Gloo.written_window`, `Gpu.broken_refuted`, `Gpu.count_stays`, `Gpu.index_uuid_library`, `Gpu.info_library`, `Home.created_refuted`, `Impl.circle`, `Impl.key_error_swallowed_refuted`, `LazyMod.access_binds`, `LazyMod.adding_hook`, `LazyMod.not_importable`, `LazyMod.touching_once_refuted`, `Life.main_failed_stop_leaves_servers_refuted`, `Life.main_join_before_stop_ended_refuted`, `Life.start_after_stop`, `Life.start_outcome`, `Life.stop_goes_on`, `Life.stop_outcome`, `Life.sub_start_during_stop_refuted`, `Lru.closed_refuses`, `Meet.connect_ok`, `Mlx.format_refuted`, `Mlx.name_refuted`, `Nccl.alltoall_checked`, `Nccl.bitwise_refused`, `Nccl.gather_buffer_everywhere_refuted`, `Nccl.scatter_list_everywhere_refuted`, `Nd.csr_roundtrip`, `Nd.object_pickled`, `NoLock.above_refuted`, `NoLock.batch_mark_refuted`, `NoLock.generator_refuted`, `Pool.concurrent_destroy_hook_twice_refuted`, `Pool.failed_post_create_blocks_uid_refuted`, `Pool.stale_destroy_removes_new_actor_refuted`, `Ports.processIndex_collision_iff`, `Procs.stop_bounded`, `Prof.two_loggers_refuted`, `Reach.create_reserves_refuted`, `Reach.stop_cuts_off_refuted`, `Reach.takeover_refuted`, `Router.internal_spec`, `Sizes.nvml_exact`, `Spawn.ends`, `Spawn.runs_iff`, `Stats.chain_warnings`, `Transport.typed_view_refuted`, `Ucx.foreign_data_closes`, `Ucx.senders_whole_partial`, `Ucx.undecodable_closes`, `UcxInit.environment_kept`, `Venv.available`, `Venv.available_refuted`, `Venv.available_set`, `Venv.clear_refuted`, `Venv.lib_path`, `Venv.python_path_refuted`, `Venv.refused_unchanged`, `Venv.remove_refuted`, `Venv.untouched`, `Venv.which_uv`, `Watch.disabled_silent`, `Watch.left_silent`, `Watch.reload_one`, `Watch.split_join`, `Wire.cancel_touches_one`, `Wire.foreign_version_refused`, `Wire.frame_isSome_iff`, `Wrap.collection_free`, `Wrap.destroy_works`, `Wrap.two_holders_refuted`

## Imports from outside

`Mathlib.Data.Rat.Cast.Order`, `Mathlib.Tactic.FieldSimp`, `Mathlib.Tactic.IntervalCases`, `Mathlib.Tactic.Ring`
