how={
"C01":"heap graphs of objects with identities; serializer and deserializer as stack machines over headers and buffers; simulation by induction over an acyclic graph with the id table as invariant",
"C02":"as C01: the receiver's heap is isomorphic to the part of the sender's heap that keeps identity",
"C03":"the same stack machine with suspension points; any schedule of suspensions composes to the unsuspended run",
"C04":"heap graphs with cycles; the placeholder table as invariant; witnesses where it breaks",
"C05":"serial/deserial of each message class on header tuples; induction over nested forwards",
"C06":"error paths of MessageSerializer; case analysis over the failing component",
"C07":"byte lists with little-endian lengths; round trip and induction over the stream, reading in arbitrary chunks",
"C08":"sender tasks with the write as one step; the stream is a concatenation of frames",
"C09":"the stores of length, payload and tag in any order inside an assignment; every prefix of the store sequence",
"C10":"the block loop of copy_to and the receiver's writes; loop invariant",
"C11":"the same loop; bound on block sizes, witness of the overflow",
"C12":"the reply handling of copy_to; witness",
"C13":"the file loop; loop invariant",
"C14":"asyncio.Lock and the call life cycle as one state machine; invariant over all step lists",
"C15":"as C14: grant order = arrival order of those not cancelled",
"C16":"as C14, with generator steps",
"C17":"`_handle_actor_result` as a function of what each awaitable gives",
"C18":"dispatch of batch calls as functions; equations",
"C19":"`batch` argument checks",
"C20":"the listener, the table of pending calls, the callers as one state machine; history invariant",
"C21":"as C20: when the listener ends normally nobody is pending",
"C22":"all handlers of a pool as interleaved tasks; the log of events satisfies a specification over events only",
"C23":"as C22: effect of a failed creation","C24":"as C22, with and without overlapping destroys",
"C25":"main and sub pools with messages between them; refinement to a set of live actors for sequential histories; weaker invariant for all",
"C26":"as C25, idle-label allocation","C27":"each strategy as a function of the configuration and a choice",
"C28":"configuration edits; invariant over edit sequences",
"C29":"router state and client cache machine","C30":"the two routers during remove_sub_pool","C31":"get_proxy, get_proxies with fuel; chains",
"C32":"shift arithmetic","C33":"get_external_addresses as a function of host, ports, schemes","C34":"get_next_port over a set of occupied ports",
"C35":"fix_all_zero_ip on character lists","C36":"ActorRef equality and hash","C37":"TypeDispatcher with its caches","C38":"the serializer registry",
"C39":"the cache as an ordered dictionary of futures; invariants over all histories",
"C40":"generator table of an actor, consumer requests, ownership of wrappers; induction over the history and the producer",
"C41":"`as_instanceof_cause`, error wrapping over any number of hops","C42":"bounded heap per window; order statistic",
"C43":"bounded heap of slow calls","C44":"message trace along call chains of any length",
"C45":"monitor task, process, records, waiters as one state machine; invariants, termination of the loop",
"C46":"pool side as C22; caller side (shielded future) as a function of what happens",
"C47":"new_group as a function; sorting, injectivity of the hashed text","C48":"as C22: the phase of a task determines sends and replies",
"C49":"start/join/stop tasks in any interleaving","C50":"the loop turn by turn, with its sleeps; an invariant and an independent inductive definition of how a call ends give an exact characterization",
"C51":"queue pair and server table; history invariants","C52":"server, sockets and clients as one state machine; linearization by the server's log",
}
def h(i,t): how[i]=t
h("C53","arrays as windows of bytes with shape and integer strides; induction over the axes: the C-ordered copy, the contiguity test and the bounds check of the constructor agree; dtype descriptions by mutual induction over nested records")
h("C54","the three parts with any number of buffers; list splitting")
h("C55","as C53; witnesses")
h("C56","asyncio transport state machine; invariant: taken + queued = written")
h("C57","user classes as an arbitrary record of functions; case analysis")
h("C58","Model/Forward: routers (Model/Router) of all pools, wrapping of messages, what a pool does with forwarded, control and cancel messages, followed hop by hop with fuel. `send_iff` characterises exactly when and how a call ends by an independent relation (Route) on the connections made; `delivered` follows by induction over the route. Refutations are concrete worlds; divergence is proved for every fuel by induction.")
h("C59","Model/Create: the checks and loops of create_actor_pool over Model/Config's operations, then the address updates in sub pools and main pool. Table invariant (Proof/Create `tab`) by induction over the processes; `created` states the result pointwise.")
h("C60","Model/Create (`start`, `step`): labelled transitions for append, started, failed, remove, create; invariant Ok by induction on runs; `listed_iff` says exactly what is offered to the strategies; the violations are computed runs.")
h("C61","Model/WaitFor: the awaited task, the done callback, the fresh future and the waiting caller as a transition system in which the task may end at any time; invariant by induction on runs. `falsy_exception_refuted`, `caller_cancel_refuted` and `zero_timeout_refuted` hold for every run, not only for an example.")
h("C62","Model/Gloo: byte memories per rank, arrays as lists of element addresses; the pointers, lengths, types, reductions and roots handed to gloo are computed as in the code, the library itself is its documented contract on bytes. Correctness of each operation for all group and array sizes, with a frame condition on every other address; `scatter_overflow` for all groups of two or more.")
h("C63","Model/Marker: a recursive evaluator over syntax trees as in eval_custom_marker. Spec/Marker: an inductive meaning relation (short circuit, reading of texts, order of versions and texts by first difference). Soundness by mutual induction; exact characterisation of when there is an answer; refutations for guards.")
h("C64","Model/Reqs: the string processing on character lists (str.replace, split, strip), with `packaging` as an arbitrary library. Spec/Reqs: inductive relations for what an item, a placeholder and a template become. Equivalence of the code with the relations by induction on lists and templates; refutations for all items of the bad forms.")
h("C65","Model/Plan: the splitting, the plan and the command; uv's dry run and packaging are parameters, uv's contract is the hypothesis `Right` of Spec/Plan. Invariant of the split by induction on the list; leaving installed versions out of the plan does not change the resulting environment; refutations for all requirements of each bad form.")
h("C66","Model/Metric: record of the four kinds with both backends, and the module state with handles, initialisation and shutdown, as a state machine. Conservation laws by induction on call histories; the value of a handle over arbitrary event traces; refutations for all calls of each bad form.")
h("C67","Model/Local: one pool with object identities, weak references and frees as a state machine; what a reference denotes is defined on the history alone. Invariant by induction on histories; exact condition (iff) for agreement; refutations for every history.")
h("C68","Model/Front: scheme extraction on character lists (exact iff against an RFC 3986 definition), the registry and context cache as a state machine with history invariants, setup_cluster as a function (permutation of the input).")
h("C69","Model/Front: create_actor_ref and the uid default as functions over all argument lists; case analysis.")
h("C70","Model/Refs: the two weak registries per process as a state machine over creations and deaths; what each reference leads to is characterised by the history alone (invariant); copy_to over heaps of buffers refines the model of C10/C13 (simulation).")
h("C71","Model/Procs: who has which pid at each program point is an arbitrary lawful history; the code is a function of it giving the signals sent; the watchers are folds over what looks find.")
h("C72","Model/Impl: the registry as a dict, Python's object construction (__new__, isinstance check, __init__) as a recursive function giving the result and every __init__ call; proved by induction over the history and over the chain of registrations.")
h("C73","Model/Wrap: the wrappers of one generator in all processes as a state machine; invariant: a wrapper is responsible iff it was not handed over; a second machine for one collection against the holder of the lock, over all schedules.")
h("C74","Model/Ucx: frames of bytes with the sizes receive operations expect (headers as in Model/Wire), the pool's receive loop with copies into registered memory, senders under a FIFO lock; induction over the jobs and over the actions of the senders.")
h("C75","Model/Cycle: calls with parent, trace and phase, actors with or without lock, any interleaving; an invariant ties traces to the chain of waiting calls, another shows a call in a self-deadlock stays queued.")
h("C76","Model/Conns: requests with their lock, the cache per thread, connections, changes of the router, in any interleaving; invariants over all runs.")
h("C77","Model/Closer: one step per statement of every finalizer, close threads and event loops; invariants over all runs, and over those in which set-ups do not overlap.")
h("C78","Model/AioFile: a byte file with position, calls queued in an executor, run by threads, delivered or cancelled, in any interleaving; the log of operations is compared with an ordinary file; lines specified by four conditions proved to have one solution.")
h("C79","Model/Subproc: command, left-behind process, two bounded pipes, two readers, caller as a step machine over bytes; UTF-8 decoder with replacement; the regular expression as a scanner proved equal to a relational specification; invariant for delivery, measure for termination.")
h("C80","Model/Order: lanes (client, proxies, pool of the actor) with task queues, serializing threads and connections, the lock of the actor as a queue; invariant: the calls of a lane form a line in which only calls in a thread pool can be overtaken.")
h("C81","Model/Delay: tasks with clock, sleep, send and cancellation as a step machine; invariant over all histories; history-based specification of requests and contents.")
h("C82","Model/Link composes Model/Message (serialize, deserialize of messages) with Model/Wire (framing, locks, reads) into one machine; simulation to the wire runs and lifting of the merge of framed messages to a merge of messages, then C05/C06's round-trip theorems; progress by a measure on the senders.")
h("C83","Model/Linear: callers, messages, pool tasks, the lock and coroutines as one machine over arbitrary method code; invariant: a serial history explains the state, and every step extends it at the end; ReturnedBefore by positions in the label list; progress by running the coroutine of a free actor.")
h("C84","Model/StoreWire: SendBuffer with its watermark and the server's reads as a parser that may have to wait; parser combinators `Reads` (complete input gives the value and the rest, every strict prefix waits); per connection the invariant: bytes not used yet = what is written of the operations not handled yet.")
h("C85","Model/Nccl: per-rank lists of local copies, sends and receives (NumPy's broadcasting assignment included) run against NCCL's contract: the k-th receive from a peer takes the k-th send to it, of the same size; collectives need equal counts. Induction over the peers: the buffer is filled part by part and no message is left over.")
h("C86","Model/Watch: a guarded body with its logging task under a clock that may be late; invariant: the next warning is due no earlier than (1+…+k)·timeout after the entry; exact for a prompt loop. One round of the detector as a filter, with Python's split and substring test.")
h("C87","Connecting is a function of the attempts with their times and results (two address families, deadline, delay, retry rules); the constructor a labelled transition system with a clock, the text of the counter in the store, and phases of every process. Invariants: the key of the meeting holds exactly the number of counts (user keys carry a prefix), waiting ends only by count or time.")
h("C88","Text functions (scheme, rsplit, Python's int(), urlparse path) against grammars in the spec; the machine's TCP listeners and socket files as two labelled transition systems (create split at unlink/bind, stop split at close/remove). Invariants: listeners do not overlap; a name leads to a server that bound it; an undisturbed server keeps its name.")
h("C89","Dictionaries as objects in a heap (an operator holds the dictionary itself); the invariant that the heap is a forest makes the content of each task a tree of its own, compared after every step with a specification on plain trees. Debug loops as a transition system with their done-callbacks.")
h("C90","The two generators are parameters (a stream of outputs per seed); processes with seed and position are a transition system; the invariant says that a seeded process owns its seed and is behind every place used, which makes the places of ids disjoint.")
h("C91","Processes with the two environment variables, pools by address and the RankActors by address as a transition system; success and effect characterised against an independent specification of the address, device and argument rules; an invariant (one pool per process, actors only in pools) for the histories.")
h("C92","The libraries as parameters of each call (what they answer), the module's globals as state; the nested search proved by induction against an order on places; text of the variable as parts between commas; invariants over histories of calls and forks.")
h("C93","The dispatcher with the loop over the waiting names as it runs (size check, partial registration, forgetting only at the end) and imports as parameters of each lookup; invariants over registrations and lookups; failing imports by induction over the loop.")
h("C94","The lazy object as a state (list objects of hooks, bindings of the name), an access as an interpreter that runs the hooks, which may raise, register hooks or access the object; the hooks that ran compared with those due by induction over the history.")
h("C95","An exception as a Python object (MRO, __dict__, C members, slots), attribute lookup as an inductive relation with the wrapper's __getattr__; attributes compared by induction over the properties that compute them, chains by induction over the pools.")
h("C96","The parser as functions over lists of characters; columns and endpoints specified by an inductive relation and by concatenation; induction over the text and over the lines; composed with the allocation of C34.")
h("C97","The start as a transition system of parent, child, segment and signals; an inductive invariant over all runs; the run's prefix in which the child reported as the witness of success.")
h("C98","The manager's one attribute, calls and processes as a transition system; an invariant that ties states to histories; the claims as facts about histories.")
h("C99","The file system as a function of paths, uv as a parameter with a specification; case analysis of each call and induction over histories.")
h("C100","Machines, processes bound to addresses and the kernel's choice of a listener as a network model; invariants of the answers of pools (bound address of a process of the pool asked that has the actor), case analysis of bindings and addresses; equivalences for unrepaired addresses.")
h("C101","Grammar of decimals, units and shares as an inductive specification over rationals; the scanner (strip, lower, take while, float) proved equivalent to it; status by composition.")
h("C102","Signatures as data; CPython's distribution of arguments transcribed and proved equivalent to a parameter-by-parameter specification of the language reference; the generated function compared with the method through that specification.")
h("C103","Class bodies as programs over a heap of accessor objects and a dictionary of names; an invariant of the accessor through all later batch implementations gives an exact characterization.")
h("C104","Texts as lists of characters; an independent inductive definition of the value asked for; induction over the entries of environment gives the value in the loop's result; the process has both the Python mapping and the C environment.")
h("C105","Executor with n threads and a FIFO queue, jobs that wait on events or do other work, threading and multiprocessing events; one invariant ties queue, threads, results and labels; a second says since when an event was set; progress by strong induction on what is left in the executor.")
h("C106","The array model of C54/C55 (memory, offset, strides); the type names of MLX as two functions; arrival proved by the lemma that elements in a row give the array back; exactly when by cases.")
