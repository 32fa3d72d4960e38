# A formal model of xoscar in Lean 4

Source: /repo (python/xoscar, cpp/collective) at the pinned commit.  Nothing of /repo is run: the model is a transcription, read from the
text, and every definition of it cites the file and lines it stands for.

This file is generated by `tools/design.py` from `tools/design_head.md`, `tools/how.py`, `tools/claims.py` and `properties.jsonl`.

## Layout

* `lean/Verif/Model/*.lean` — the model: total computable functions and step functions, one file per part of the code.
* `lean/Verif/Spec/*.lean` — specifications that need more than a few lines (else they stand at the top of the property file).
* `lean/Verif/Proof/*.lean` — helper lemmas and invariants.
* `lean/Verif/Props/*.lean` — the property theorems, with `example`s showing that a concrete, non-trivial case meets their hypotheses.
* `lean/Verif.lean` imports everything.
* `properties.jsonl`, `MANIFEST.json` — the properties and the theorems claimed for them (`tools/manifest.py` writes the latter).
* `seeded/LOG.jsonl` — wrong programs tried against the theorems (`tools/mutate.py`, `tools/mutants/*.py`).

## Method

Pure code is transcribed as functions, with exceptions as values.  Coroutine code is transcribed as small-step state machines whose steps
are the stretches between two points where a task can be suspended (the asyncio event loop runs one task at a time); a statement about all
schedules, crash points or histories is an induction over arbitrary lists of steps (`Run ls s`: the labels `ls` lead to the state `s`).
User code that is awaited (actor methods, hooks, producers, evaluations) ends whenever and however it likes: its end is a label.

Where a property is false of the code at this commit, the negation is proved — with a concrete run, or for every state of some shape —
as `…_refuted` (older names: `…_fails`, `…_escapes`, `…_lost`, `…_hangs`, see the table), the part which holds is proved with suffix
`_partial` where it carries a restriction, and the property is reported as partial.  The restrictions are the weakest I could find; where
possible the theorem is an equivalence.

## Trusted base

* Lean 4.33.0's kernel.  Only core Lean is used (`import` of Mathlib: see the list of imports at the end, empty if none).
* Axioms: at most `propext`, `Classical.choice`, `Quot.sound`; the table at the end lists what each claimed theorem depends on
  (`#print axioms`).  No axiom is added, no `native_decide`, no `bv_decide`, nothing left open.
* The reading of the code: each definition of `Model/` against the lines it cites.  `lean/Verif/Model/Base.lean` models Python's `dict`
  (insertion order) and `set`.
* The reading of Python and its libraries where the code rests on them: asyncio runs one task at a time and switches only where a task is
  really suspended; `asyncio.Lock` (transcribed from CPython's source in `Model/ActorLock.lean`), `asyncio.Queue`, `asyncio.shield`,
  `Task.cancel`, `heapq`, `OrderedDict`, `dict` iteration.
* Parameters of the model, each with the law stated in the theorem that uses it: `pickle`/`cloudpickle` (round trip), `sha1` (a
  function), operating system ports (which are occupied), random choices (any of the candidates), the order in which the operating system
  makes stores to shared memory visible (program order of the three assignments; arbitrary inside one).

What a theorem about a state machine cannot exhibit: real time (time outs are labels that may occur at any moment), memory safety of
C++ and Cython, the kernel's socket and process behaviour beyond the labels, performance.

## What is modelled and what is not

| model | code | not modelled |
|---|---|---|
| `SerialMachine`, `Serial` | serialization/core.pyx: stack machines of serialize / serialize_with_spawn / deserialize, core serializers, id sharing, placeholders | lone surrogates in str, buffers of numpy / cuda / torch / scipy / mlx serializers (see `Arrays` if present), compression |
| `Message` | backends/message.pyx: all 13 message classes, `MessageSerializer`, `DeserializeMessageFailed` | profiling payload contents |
| `Wire` | serialization/aio.py, communication/utils.py, socket.py send/recv | TLS, sockets of the OS, cuda buffers |
| `Shm` | indigen/pool.py 50-76 | shared_memory.py itself (OS) |
| `CopyTo` | context.py 353-437, pool.py 526-536, context.pyx 332-352 | ucx path |
| `ActorLock` | core.pyx 392-588 and asyncio.Lock | |
| `Calls` | core.pyx ActorRef, batch.py, `_handle_actor_result`, error wrapping in message.pyx and utils.py | `functools` signature binding beyond positional/keyword lists |
| `Caller` | backends/core.py 55-170 | client creation (see `Router`) |
| `Wait` | context.py 106-124 | |
| `Pool` | pool.py 94-115, 386-445, 573-733: one pool's handlers under any interleaving | proxies, tracing, profiling |
| `Directory` | pool.py 856-1273: main pool and sub pools | appended sub pools (see `Recovery`) |
| `Recovery` | pool.py 1250-1267, 1440-1491, indigen/pool.py 495-506 | dict reorganisation, cancellation of the monitor |
| `Life` | pool.py 493-524, 968-972, 1347-1364 | signals |
| `Config`, `Router` | backends/config.py, allocate_strategy.py, router.py, pool.py 333-364 | opaque configuration values; `get_client_via_type` |
| `Addr`, `Ports` | utils.py 478-522, get_next_port, process_index_gen, indigen/pool.py 82-126 | |
| `Dispatch` | _utils.pyx 36-110, core.pyx 165-189 | import errors of lazily registered types |
| `Stats` | metrics/api.py 214-260, profiling.py 127-155, utils.py 414-450, debug.py 118-160 | metric back ends |
| `Lru` | aio/lru.py | `clear_all_alru_caches` |
| `Gen` | api.py 330-505 | |
| `Dummy` | communication/dummy.py | weak references to live servers |
| `Collective` | collective/core.py `RankActor.new_group`, process_group.py 371-384 | the collective operations |
| `Store` | cpp/collective/rendezvous/src/tcp_store.cpp | the bytes (StoreWire), `waitForWorkers`, the stop pipe |
| `Nd` | serialization/numpy.py, scipy.py | titles, metadata and sub-array dtypes, subclasses, writability |
| `Tensor` | serialization/torch.py, `CupySerializer` of cuda.py | device numbers, cudf |
| `Transport` | `write_buffers`, asyncio's selector transport | 0-d views, uvloop |
| `ErrSer` | serialization/exception.py, `_send_channel` | closed channels (see `Pool`), tracebacks |
| Model/Forward | backends/core.py `call`; pool.py `forward`, `handle_control_command` (base, main), `cancel`; context.py `cancel`, `kill_actor`, `wait_actor_pool_recovered` | client cache, timing, processing of the delivered message, sync_config/add_sub_pool_actor control messages |
| Model/Create | backends/pool.py `create_actor_pool`, `MainActorPoolBase.create`, `_update_stored_addresses`; indigen/pool.py `append_sub_pool`, `remove_sub_pool`, `wait_sub_pools_ready` | modules, logging, comm/proxy configuration, uvloop, start methods |
| Model/WaitFor | api.py `wait_for` | asyncio's own `wait_for` is taken as documented; wall-clock time (only the order of events) |
| Model/Gloo | process_group.py ProcessGroupGloo, common.py mappings, cpp/collective/gloo/src | the gloo library (its contract is a definition, `glooOn`), floating point, tags, overlapping buffers, ndim of arrays |
| Model/Marker | virtualenv/core.py 200-278 | the parser (`ast.parse`), floats, non-ASCII digits, exotic `int()` forms |
| Model/Reqs | virtualenv/core.py 60-110, 125-161, 281-318, utils.py is_vcs_url | packaging (a parameter), non-ASCII white space |
| Model/Plan | virtualenv/uv.py 71-109 (create_env), 111-307 | uv and packaging (parameters), running the command, cancel_install |
| Model/Metric | metrics/api.py 38-204, backends/metric.py, console, prometheus | floats, the prometheus library and its HTTP server, garbage collection of unused wrappers |
| Model/Local | core.pyx 60-106, 108-160, 236-350; batch.py 119-180; lookups of pool.py | method bodies and locks (ActorLock, Calls), attributes of the reference classes themselves, keyword arguments |
| Model/Front | context.pyx 241-300, 355-368; backend.py; api.py setup_cluster; _utils.pyx create_actor_ref | control characters in addresses (urlparse strips them), Python versions before 3.12 (a scheme may start with a digit there) |
| Model/Refs | core.pyx 591-664; context.pyx 182-213, 324-352; backends/context.py 353-437; pool.py 526-536 | UCX transfers; random ids (taken as distinct); connection failures (C12) |
| Model/Procs | pool.py 1385-1429, 890-903; indigen/pool.py 424-487, 189-200 | time apart from the order of the program points and the sum of the time limits; the clean-up of transports for Python 3.13; psutil.AccessDenied |
| Model/Impl | api.py 382-395, 516-527; pool.py 622 | the registry is one process's: that registering in a client does not affect pools is not a theorem; __new__ of the Cython base class (taken to succeed); KeyError raised by super().__new__ |
| Model/Wrap | api.py 330-365, 475-505; core.pyx 287-299, 526-532 | iteration (Model/Gen); interpreter exit; what asyncio.Lock does when waited for from two event loops beyond waiting |
| Model/Ucx | ucx.py 240-335; pool.py 541-598; context.py 361-369 | CUDA streams, endpoint close callbacks, `UCXInitializer` options, failures of the network, `deserialize` |
| Model/Cycle | debug.py 107-168; pool.py 681-697; context.py 245-264; core.pyx 510-560 | generators (lock released at a yield), methods marked no_lock, several calls awaited at once, order of lock waiters |
| Model/Conns | router.py 78-116, 131-187, 209-237; backends/core.py 49-88 | order of lock waiters, communication configuration, connections made by a cancelled connect |
| Model/Closer | backends/core.py 224-237, 239-353 | end of the process, tasks cancelled by `_cancel_all_tasks`, errors while closing |
| Model/AioFile | aio/base.py; aio/file.py | `isatty`, `seekable`, `writable`, `flush`, text mode, errors of the operating system |
| Model/Subproc | virtualenv/utils.py 26-84 | starting the command, `cwd`, `env`, errors of the operating system; order between the two streams |
| Model/Order | context.py 223-262, backends/core.py 143-171 198-219, socket.py 78-98, serialization/core.pyx 745-795, pool.py 315 429-445 557-580 657-675, core.pyx 291-342 510-527 | connecting, broken connections, results, stateless actors, generators that give up the lock |
| Model/Delay | core.pyx 228-243 331-338 349-355 | what happens to the message after it is written (C80), time resolution |
| Model/Link | socket.py 77-104 (composition of Model/Message and Model/Wire) | closing and connection errors (C08, C60), CUDA buffers |
| Model/Linear | context.py 107-125, 232-264, backends/core.py 90-170, pool.py 386-445, 573-598, 685-733, core.pyx 510-560 (one actor, all callers) | what the messages carry (C82), the order of lock waiters (C15), reply matching (C20), the creation and destruction of the actor (C23, C24) |
| Model/StoreWire | cpp/collective/rendezvous: tcp_store.cpp 148-161, 237-326, 373-560, 792-836, 920-928, 1014-1058, 1140-1315; utils.hpp 381-452 (the bytes of the store) | memory exhaustion, EINTR, that mset and mget act while they read, waitForWorkers, what a request does in the server (Model/Store) |
| Model/Nccl | collective/process_group.py 333-687 (groups made by new_group), common.py 85-90, nccl_backend.py 69-80, 145-160 | cupyx's NCCLBackend (default group), NCCL itself (its contract is assumed), streams, arrays that are not contiguous, mixed types |
| Model/Watch | debug.py 37-110, utils.py 326-398 | the text of the warnings, patching of create_task, clocks that go back |
| Model/Meet | socket.cpp: SocketConnectOp; tcp_store.cpp: constructor, waitForWorkers, TCPClient::connect | name lookup, socket options, the listening side's bind, end of the server's process |
| Model/Reach | core.py 23-65, socket.py 210-445 (create, connect, addresses, paths), ucx.py addresses, utils.is_v6_ip; kernel: bind/listen/unlink rules | name lookup, connect timeout, Windows, TLS, channels |
| Model/Prof | profiling.py 33-127, 179-252: operators, init, pop, indexing, debug loops | parsing of options, environment variables, `set` with dictionaries, text of the log |
| Model/Ids | _utils.pyx 34-36, 139-177, indigen/pool.py 204-206, utils.py 219-220: ids, their generator and its seed, across processes and forks | the Mersenne Twisters (parameters), malloc, negative lengths |
| Model/InitPg | collective/core.py 35-81, 327-385, the address part of 388-738, collective/utils.py 37-41 | connecting the group (input), data (Model/Gloo, Model/Nccl), several pools per process |
| Model/Gpu | nvutils.py 246-718: libraries, counting, information, status, search for a context, index and uuid | the WSL branches other than the status's, other attributes of a device, CUDA_DEVICE_ORDER; the three queries of a status are one moment |
| Model/Lazy | _utils.pyx 40-110: dotted names, with failing imports and imports that register names; reload_all_lazy_handlers | a failing import is taken to register nothing; names denoting strings or tuples |
| Model/LazyMod | utils.py 234-298: lazy_import, LazyModule, lazy_import_on_load, ModulePlaceholder | attributes of the lazy object itself; the frame lookup of the default globals |
| Model/Raise | utils.py 82-121 wrap_exception; message.pyx 207-255 _AsCauseBase, as_instanceof_cause; context.py 106-111 | an error class's own __getattr__, a __new__ that sets state; pickling |
| Model/Netstat | utils.py 171-215: _get_ports_from_netstat, the choice of the source | decoding, the platform's line separator, timeouts of netstat |
| Model/Spawn | indigen/pool.py 165-339: starting a sub pool; fate_sharing.py 146-160, 185-221 | Windows job objects, the child's logging and uvloop set-up, pid reuse |
| Model/Uv | virtualenv/uv.py 43-46, 238-319: installing and cancelling in threads | asynchronous exceptions, processes that cannot be signalled |
| Model/Venv | virtualenv/uv.py 36-109, 321-331; virtualenv/__init__.py 22-35 | links, Windows, the contents of environments |
| Model/Home | context.py 127-154, 209-228; pool.py 607-632, 663-680, 926-938, 1041-1090, 1134-1196; api.py 330-380, 487-505 | in-process references (C67), proxies (C58), stopping |
| Model/Sizes | utils.py 59-79; nvutils.py 440-513 | rounding of floats, text outside ASCII, calls of the driver, running nvidia-smi and reading XML |
| Model/Bind | batch.py 28-75, 178-230; CPython's initialize_locals, getfullargspec, namedtuple field names | functions of C extensions, names of generated functions and types |
| Model/NoLock | core.pyx 44-46, 276-297, 310-350, 458-550, 566-585; batch.py 184-236; api.py 488-505 | functions shared between names by assignment, other decorators |
| Model/UcxInit | ucx.py 58-193 | warnings, errors while looking at the CUDA context, text outside ASCII |
| Model/Retry | utils.py 414-449 | an `ex_type` that covers CancelledError; `sync=False` with a function that returns no awaitable |
| Model/AioEvent | aio/parallelism.py, aio/base.py 23-39 and the executor of serialize_with_spawn (serialization/core.pyx 789) | errors of jobs, the shutdown of the executor; a job's end and the arrival of its result are one step |
| Model/Mlx | serialization/mlx.py | MLX itself (names of types are parameters) |
<!--MODELS-->

Not modelled at all: cudf in serialization/cuda.py, virtualenv/platform.py, the c10d `TCPStore` wrapper of nccl_backend, ShareableList of shared_memory.py, the gloo library's transports in C++, Windows and macOS specifics.

## Deviations found while modelling

Facts about the code at this commit that contradict what a user would expect; each is a theorem named in the table below, except those
marked (text), which were seen while reading and lie outside the model.

* copy_to forgets the size of a block that fits exactly, so blocks may exceed block_size (C11); error replies of the receiver are ignored (C12).
* A tuple result whose awaitables are not a prefix is put together in the wrong order (C17).
* A cancelled pending call makes the listener fail on its reply and later calls hang (C21); a stray reply fails every pending call (C20).
* A failed `__post_create__` leaves the actor in the pool (C23); overlapping destroys run the hook twice, and one may remove a new actor (C24).
* The main pool's directory: destroying uid u at one sub pool also drops u elsewhere; ghosts after failed creations; placeholder races (C25, C26).
* `remove_sub_pool` does not withdraw the route in the main process (C30); `get_proxies` does not end on cyclic configurations (C31).
* Process indices collide between processes (C32); `get_next_port` never raises its documented error (C34); repair of a wildcard address
  drops the scheme, and raises for IPv6 addresses in brackets (C35).
* A cached inherited handler survives a more specific registration (C37); unregistering one of two types of a serializer class breaks the
  other, and a registration refused because of its id has replaced the type's serializer all the same (C38); cancelled evaluations are served from the LRU cache (C39).
* A producer's error whose text contains "StopIteration" ends the iteration silently; cancelled requests lose items (C40).
* The slow call report keeps 9, not 10 (C43); the coroutine retry wrapper returns None when all
  attempts failed, and both wrappers sleep once more after the last attempt (C50).
* Recovery: a creation recorded during recovery aborts it, waiters may be woken before the death is noticed, appended sub pools are never
  recovered, without auto_recover the down callback is called again and again (C45).
* NCCL subgroups exchange their id by group ranks taken as global ranks (C47).
* `join` of a main pool returns before `stop` ended; a failing stop leaves servers up (C49).
* close of a dummy channel wakes nobody and drops accepted messages (C51); the TCP store: waits and deletions, stale answers after a client
  time out, dead watchers, compare-set wakes nobody (C52).
* (text) `deserialize` mutates the lists of its header; `serialize([1, 2])` puts the user's list itself into the header; a defaultdict loses its
  default_factory, list and dict subclasses their attributes, str and bytes subclasses their class; an unknown serializer's
  `on_deserial_error` lookup raises KeyError; a message's protocol is checked by the sender only.
* (text) `_allocated_actors` is built in `__init__` only: a sub pool appended later raises KeyError on allocation; a cancel sent to the main pool is
  not passed on to a sub pool; `RankActor` does not check its own rank; a broadcast in an nccl subgroup with send_buf None fails.
* `torch.py`: a contiguous CUDA tensor that is a slice sends its whole storage and is rebuilt from storage offset 0: other elements arrive, without an error (`cuda_slice_refuted`).
* `torch.py`: a 0-d CPU tensor that requires a gradient (or of a dtype unknown to NumPy) cannot be sent (`scalar_grad_refuted`).
* `torch.py` passes a typed memoryview to the transport; asyncio slices it by bytes sent, so a partial write drops data and desynchronises the stream (`typed_view_refuted`).
* `_send_channel`: an error whose pickling and printing both raise leaves its caller waiting (`no_reply_refuted`).
* C58: control messages are not wrapped for proxies: `kill_actor` through a main-pool gateway fails with KeyError, through a sub-pool gateway stops the gateway; `wait_actor_pool_recovered` waits forever at the gateway; `cancel` ignores a reference's proxy addresses. A main pool bound to 0.0.0.0 and addressed by a concrete address calls itself forever on `cancel`/`get_pool_config`; actors of its sub pools cannot be killed. Gateways that are each other's wildcard proxy pass a call to and fro forever.
* C60: the variable `error` in `wait_sub_pools_ready` is never set, so a failed start leaves the sub processes that did start running; a failed (or ongoing) `append_sub_pool` leaves a placeholder entry (`host:0`) in the configuration which the strategies can pick; `_allocated_actors` is not cleaned by `remove_sub_pool`, so `has_actor` stays True; appending at an address in use redirects that address to the socket of the pool that fails to start.
* C61: `wait_for` cancels the call only on timeout: cancelling the task waiting in it leaves the call running. `elif f.exception():` tests the truth of the exception, so an exception class with `__len__`/`__bool__` giving false leaves `wait_for` waiting for ever. With timeout 0 the result of a finished awaitable is lost (asyncio.wait_for returns it).
* C62: gloo `scatter` passes the sum of the sizes of the send buffers as the size of every part: in a group of `w ≥ 2` with parts of `k ≥ 1` elements each rank writes `w·k` elements into its recv_data of `k` (heap overflow; the surplus is whatever follows the root's buffer), and a rank that passes an empty list does not agree with the others. No operation checks recv_data's size or contiguity. BAND/BOR/BXOR are RuntimeErrors for integers too.
* C63: `eval_custom_marker` evaluates all operands of `and`/`or`: `has_cuda and cuda_version >= "12.1"` is a TypeError on machines without CUDA, where it should be false. `cuda_version >= "12"` (no dot) is a TypeError everywhere; `in` is a KeyError; a misspelt name makes `==` silently false.
* C64: a requirement with a standard marker that is true is rewritten as `name` + `specifier`: `uvicorn[standard]; python_version>'3'` installs uvicorn without the extra and `pkg @ url ; marker` installs pkg from the index. Variables are substituted one after the other, so a value containing `#other#` is substituted again. `#system_torch#; marker` is never resolved. Markers of `git+…`/`http…` items are never evaluated.
* C65: with skip_installed: `requests[socks]` is skipped when requests is installed although the extra is not; `pkg @ url` is skipped when any version of pkg is installed; packages whose dry-run line ends in `(from …)` are silently not installed; `numpy` together with `numpy>=2` fails (the first becomes the constraint `numpy==installed`); `git+…` items are installed with --no-deps; the plan is made without index_url and the other options; for a package that is twice on sys.path the shadowed version is looked at. create_env takes any word for `exists` if there is no environment yet.
* C66: values recorded before init_metrics are dropped (one warning); shutdown_metrics + init_metrics sets counters made before the first init to zero and leaves the others on the old backend; a prometheus counter has one count for all its tags, so a series shows the events of other tags too; `a.b` and `a:b` (or a metric made again after a re-initialisation) collide and the second is silently never exported; `record` adds host and pid to the caller's dict.
* C67: a LocalActorRef prefers its weak reference to the pool's table: after destroy_actor it goes on calling the destroyed actor as long as the object is in memory (running method, callback, reference cycle), even when a new actor has the uid; stop() leaves actors callable from the process; `_method` is callable locally only; `tell` to a missing actor raises locally and is lost remotely; `ref.a.batch(ref.b.delay(1))` runs a locally and b remotely, and a batch mixing methods runs a on everything locally (ValueError remotely).
* C68/C69: `create_actor(A, uid="")` gets a random uid; `actor_ref(addr, uid, uid=other)`, `actor_ref(ref, proxy_addresses=…)` and four or more positional arguments are silently ignored; re-registering a backend after first use of its scheme affects pools but not calls; `setup_cluster` with an unknown scheme runs the earlier drivers and then raises.
* C70: `buffer_ref` does not keep the buffer (a temporary `memoryview` is gone at once) and accepts any pool's address; `copy_to` with a list of both kinds of references uses the first one's kind for all; in each case `copy_to` returns normally and nothing is written. `bytes`/`bytearray` buffers are refused with TypeError.
* C71: `kill_sub_pool` looks the process up by pid after it was reaped: another process that got the pid is killed with its descendants, while the sub pool's own children are never found (its 'entire process tree' loop runs only if SIGKILL did not work). Sub pools do not notice the end of a main process that is a zombie, nor one whose pid was reused.
* C72: `AsyncActorMixin.__new__` catches KeyError around the whole construction of the implementation, not just the lookup, and Python calls `__init__` again on what `__new__` returned when it is an instance of the class: a registered subclass is initialised twice, and a KeyError in its `__init__` silently gives an object of the replaced class.
* C73: `IteratorWrapper.__del__` starts a thread and joins it in the event loop's thread: if a method of the generator's actor holds its lock and needs this event loop (always so in the actor's own process) everything hangs for ever. A wrapper serialised twice gives two responsible copies; a lost message or a consumer that ended leaves none and the generator stays in `_generators` until the actor is destroyed.
* C74: `UCXChannel.recv` skips buffers of size 0 while `send_buffers` sends them: the connection is out of step after any message with an empty buffer. `_handle_ucx_meta_message` answers an unknown reference with an error without receiving the data that follows, which is then taken for a message; a cancelled `send` leaves half a message on the wire with the endpoint open; `copy_to_buffers` ignores the answer.
* C75: the cycle warning follows one call chain only: two chains A→B and B→A at the same time deadlock unwarned; calls back to a `StatelessActor` or from a background task whose method has ended are warned about though nothing blocks.
* C76: `Router.set_mapping/add_router/remove_router` replace the thread-local cache and lock while `get_client` may be connecting: the connection to the old address is stored in the new cache and used from then on; open connections in the old cache are never used or closed again.
* C77: `ActorCaller._ensure_initialized` has no lock: two threads ending at the same time may start one close thread twice (RuntimeError in the finalizer, connections stay open), or give one loop to two threads, the second of which stops it in its `finally` (no connections are closed any more).
* C78: an `AioFileObject` operation cancelled after a thread took it still happens and its data is lost; `__aexit__` sets `_file` to None, so `closed`, `close` and all other attributes raise AttributeError afterwards.
* C79: `run_subprocess_with_logger` never returns if `sys.stdout.write` raises in a reader thread while the command writes more than the pipe holds (for every pipe size); `clean_ansi` leaves control sequences that arise from nested ones.
* C80: calls can be started in another order than they were made: messages of more than 100 objects are serialized in a thread pool and overtaken by later ones; in a proxy this happens although `await ref.f.tell()` had returned before the next tell was made. With a local reference `await ref.g()` overtakes a preceding `ref.f.tell()` that was not awaited.
* C81: `tell_delay` without `delay` never tells (TypeError inside the returned task); arguments changed during the delay are told changed; the local version ignores `ignore_conn_fail` and does not log errors.
* C83: `__post_create__` and `__pre_destroy__` run without the actor's lock while calls are served: updates can be lost.
* C84: the store's server reads a request with blocking reads on its only thread: a client that stalls in the middle of a request blocks all others; there is no timeout on the server side.
* C84: if the client's `recv` times out within an answer, the rest of the answer is read as the answer to the next operation.
* C84: `TCPStoreWorkerDaemon::run`: if the connection to the server is reset the `recvValue` that follows throws out of the thread (`std::terminate`); if the server closed it, the loop spins at full load.
* C85: nccl `gather` in a group raises for every receive buffer but one of shape (world, n): its check is about the number of elements only. The exception comes between groupStart and groupEnd, and the other ranks wait for ever. The same holds for `alltoall` into a flat buffer.
* C85: nccl `broadcast`/`scatter`/`gather` need arrays on ranks that do not use them (gloo does not); uneven `recv_elems` cannot work; BAND, BOR, BXOR raise KeyError.
* C85: the NCCL store reads a request with one `recv`: a request cut by TCP is dropped.
* C86: an empty exclude filter (empty environment variable, or a trailing `;`) is contained in every task's text: the detector never reports anything.
* C87: `kNoTimeout` (0) and timeouts below a second become a connect timeout of 0 s, so no connection is ever tried (tcp_store.cpp 939-942, socket.cpp 653, 726); `waitForWorkers` leaves its loop silently after the timeout, counts restarted ranks again and makes only the server's process wait.
* C88: `_check_scheme` raises TypeError (`join` over a key `None`) for unknown schemes; `UnixSocketServer.create` with an index in use takes the name of the other server, and either's `stop` removes whatever has the name (socket.py 369-412); a created TCP server does not hold its port until `start`; `UCX://` in capitals is dispatched to UCX but the prefix stays in the host.
* C89: the done-callback of a debug loop (profiling.py:223) pops `_debug_task[task_id]` whoever is there: after pop and a new init of the same task it removes the newer loop, which `pop` then cannot cancel; the dictionary `pop` returns is still changed through operators kept from before; `collect_actor_call` is called nowhere in the repository.
* C43: the report of slow calls (`to_dict`, profiling.py:157-169) is a dictionary filled slowest first, so of kept calls with the same name (address, actor, method, arguments) it shows the fastest, not the slowest.
* C90: after `os.fork` of a process that has made an id, parent and child make the same ids (Python reseeds its own `random` in the child, nobody reseeds the C++ generator, _utils.pyx:34-36); the generator's only seed is 64 bits of the user's global `random`: two processes that call `random.seed(0)` before the first id make the same message ids and actor uids; `get_next_port` reseeds the user's global `random` (utils.py:219).
* C91: a sub process started after its parent joined inherits the environment variable of the rank address: its collective calls act as the parent's rank and its receive buffers (copies on the other side) are never filled, without an error; `device_id=-1` is accepted with nccl when the environment variable holds a valid device and -1 is then used (core.py:360-366, 377); ranks are not checked against the world size.
* C92: `get_driver_info` reports CUDA 12.2 as "12.20" (nvutils.py:379 divides the code 1000 M + 10 m by 1000); uuid or MIG entries of CUDA_VISIBLE_DEVICES make `get_device_info` raise ValueError (413-416); `get_device_count` counts entries CUDA does not show and is never asked again; in a forked child without NVML `get_cuda_context` raises TypeError since `_init_pid` is the parent's (676, 680) and `get_device_status` AttributeError; on WSL `get_device_status` asks nvidia-smi for the number CUDA uses (482), ignoring CUDA_VISIBLE_DEVICES, and fails unless the card says it has no utilisation figures or if nobody has imported `defusedxml.ElementTree`; in WSL `int(util_node.find(...))` raises TypeError (493).
* C93: a dotted name whose module is found but cannot be imported (e.g. cupy without CUDA libraries, registered by serialization/cuda.py:107 as soon as it is found) makes every serialization of an object of a new class raise ImportError although `object` has a handler, and no pool can be created (pool.py:826); `unregister("module.name")` after resolution leaves the handler; a registration by class is overridden by an older one by name at the next miss (_utils.pyx:66-76).
* C94: a load hook that raises stays registered, so that every access through the lazy object raises and the hooks before it run again (utils.py:260-263); `lazy_import_on_load` on a name already bound to the module ignores the hook silently (277-283); `lazy_import("a.b")` only looks for `a` (242, 270), so `is not None` tests pass although the module cannot be imported; any access through a retained lazy object rebinds the global name whatever it is bound to (255-256).
* C95: a caught remote OSError has errno None, a SystemExit code None (so that `sys.exit(3)` in an actor ends the caller with status 0), because the wrapper is made without arguments and `__getattr__` is only asked for missing attributes (utils.py 92-96, 120-121); likewise instance attributes that have a class-level default; an ExceptionGroup (asyncio.TaskGroup) reaches the caller as `TypeError: ... takes exactly 2 arguments` and is lost; `repr` shows no arguments.
* C96: netstat lines without a dot are skipped (utils.py:180), so that Windows IPv6 listeners (`[::]:50000`) count as free; a line whose first dotted word is no endpoint (a Unix socket path) makes `int()` raise and get_next_port fail (188-190); `typ` is ignored with netstat; `random.seed` (218) reseeds the program's global generator at each allocation.
* C97: the parameters of a sub pool include the whole pool configuration and must pickle to less than 10232 bytes (indigen/pool.py:64-66), so that pools of very many processes, or with large `env`s, cannot be started; cancelling `create_actor_pool`/`append_sub_pool` leaves the new process running (325-336 has no kill); there is no time limit for a child that hangs (309-331); `PR_SET_PDEATHSIG` (fate_sharing.py:151-157) kills the sub pools of a pool started in a thread when that thread ends; `pthread_sigmask` in `preexec_fn` (188) survives exec, so that `suspend_sigint=False` makes no difference and processes started by actors do not see Ctrl-C.
* C98: cancel_install (uv.py:316-319) reads self._install_process four times without a lock, while install_packages sets it to None (312) in another thread: an installation that ends meanwhile makes it raise AttributeError; a next installation may be terminated in place of the one meant. The dry run (137) is not recorded, so that it cannot be cancelled; two installations on one manager share the one attribute.
* C99: is_available (uv.py:48-54) and _get_uv_path (56-66) look in different places: with `pip install uv` and its binary not on PATH the manager is declared unavailable though it works; get_lib_path (325-326) is computed with the running interpreter's version although create_env takes python_path; get_python_path (321-324) checks that the directory exists, not exists_env().
* C100: fix_all_zero_ip (utils.py:503-522) is applied in actor_ref only (context.py:226-227): create_actor on a pool bound to 0.0.0.0 returns a reference with the address 0.0.0.0:port (context.py:152-154, pool.py:620-626), which on another machine leads to that machine itself; IteratorWrapper (api.py:331-337, 366-370, 500) keeps self.address of the actor and asks for it with actor_ref(address=…), so iterating over a remote generator fails there even when the reference of the actor was repaired.
* C21: stopping a caller (core.py:224-236) closes the connections and cancels the listeners; CancelledError is not caught by `except Exception` (116), so a listener that did not notice the closing in between leaves the calls pending on it waiting for ever.
* C101: parse_readable_size (utils.py:72-79) looks only at the first letter and the last character of what follows the number: '5 gremlins' is 5 GiB, '5 minutes' 5 MiB, '7 of 10%' a share of 0.07; '1e3' is refused. get_device_status under WSL (nvutils.py:495-502) calls int() on the XML element, not its text: TypeError for every device with a utilization; it also asks nvidia-smi for dev_index, not the device behind CUDA_VISIBLE_DEVICES.
* C102: build_args_binder (batch.py:34-63) loses the `/` of a signature (getfullargspec lists positional-only parameters in args): bind accepts them by keyword and raises TypeError where a **kw parameter should take the name. A parameter with a leading underscore (also *_args, **_kw) makes the decorator @extensible raise ValueError (namedtuple, batch.py:67).
* C103: no_lock marks what it gets: above @extensible (or @m.batch) that is the accessor object, whose mark nobody reads (batch.py:230-234 looks at func and batch_func), so the method silently keeps the lock and can deadlock. An async generator method marked no_lock still holds the lock in each step (core.pyx:474).
* C104: the options computed from tcp/nvlink/infiniband are never passed to ucp.init() (ucx.py:178), and os.environ = new_environ (a plain dict copy) does not reach the C environment UCX reads, so neither the high level settings nor ucx.environment have any effect on UCX; only the CUDA context follows them. The key for asking for it outright is misspelt (create-cuda-contex), and the first init of a process wins silently.
* C105: AioEvent.wait runs in the loop's default executor (aio/base.py:26), the one that serializes large messages (core.pyx:789): a wait that is cancelled (asyncio.wait_for) keeps its thread until the event is set, and min(32, cpus+4) such waits stop every message above the threshold and every file operation of the process, for ever if the events are never set. A wait still in the executor's queue misses set() followed by clear().
* C106: MLXSerislizer.deserial overwrites `dtype` with a numpy type (mlx.py:61) and then calls `getattr(mx, dtype)` (66): TypeError for every buffer whose format is not the sent one; before, 62 reshapes the bytes to the shape of the elements, which fails unless an element is one byte.
* (text) retry_callable says `functools.wraps(callable)` (utils.py:423, 435), the builtin, where `callable_` was meant: the wrapper has the wrong name and no documentation.
<!--DEVIATIONS-->

## Testing the theorems

`tools/mutate.py` applies one edit to one model definition, re-elaborates that module and everything that depends on it in a scratch
directory, and reports which claimed theorems no longer have a proof.  Every surviving edit that makes an English claim false led to a new or
stronger theorem (field `tightened` in `seeded/LOG.jsonl`).

## Properties: model, proof, theorems

