import Verif.Model.Base
/-!
# The way of a call to its actor

What happens between `ref.method(...)` / `ref.method.tell(...)` and the start of the method, as far as the order of calls is concerned:
backends/context.py 223-262 (`send`), backends/core.py 143-171 and 198-219 (`call_with_client`, `call`), backends/communication/socket.py 78-98
(`SocketChannel.send`), serialization/core.pyx 745-795 (`serialize_with_spawn`), backends/pool.py 557-580 (`on_new_channel`),
backends/pool.py 429-445, 657-675, 315 (`process_message`, `send`, `forward`), core.pyx 510-527 (`__on_receive__`), core.pyx 291-342
(`LocalActorRefMethod`).

A *lane* is one way to the actor: a reference used in one thread, over one open connection, directly or through proxies; a lane without
hops is a `LocalActorRef`. Calls are numbers. The lock of the actor is a queue (C15).
-/
namespace Xoscar.Order

/-- A process that sends calls on: the client or a proxy. -/
structure Hop where
  /-- tasks that have been created and not started (the event loop starts them in this order) -/
  ready : List Nat := []
  /-- calls whose serialization was moved to the thread pool, core.pyx (serialization) 785-795 -/
  threads : List Nat := []
  /-- written to the connection, not yet received -/
  wire : List Nat := []
deriving DecidableEq, Repr

/-- `hops`: the client, then the proxies. `last`: tasks that have been created in the pool of the actor and not started. -/
structure Lane where
  hops : List Hop
  last : List Nat := []
deriving DecidableEq, Repr

/-- `waiting` is the queue of the actor's lock, `running` its holder. `issued`, `asked`, `started`, `dropped` are the history: calls made
(with their lane), calls that asked for the lock, calls that got it, calls that were cancelled while waiting for it. -/
structure St where
  lanes : List Lane
  running : Option Nat := none
  waiting : List Nat := []
  issued : List (Nat × Nat) := []
  asked : List (Nat × Nat) := []
  started : List Nat := []
  dropped : List Nat := []
deriving DecidableEq, Repr

/-- serialization/core.pyx 783-795, socket.py 80-88: a task of hop `i` starts; a message with more objects than the threshold (`big`) goes to
the thread pool, others are written at once. pool.py 315: a proxy does the same with a message it forwards. -/
def startAt (big : Nat → Bool) : List Hop → Nat → Option (List Hop)
  | [], _ => none
  | h :: hs, 0 =>
    match h.ready with
    | [] => none
    | c :: r =>
      if big c then some ({ h with ready := r, threads := h.threads ++ [c] } :: hs)
      else some ({ h with ready := r, wire := h.wire ++ [c] } :: hs)
  | h :: hs, i + 1 => (startAt big hs i).map (h :: ·)

/-- serialization/core.pyx 786-795, socket.py 84-88: the thread pool is done with `c`, its message is written. -/
def finishAt : List Hop → Nat → Nat → Option (List Hop)
  | [], _, _ => none
  | h :: hs, 0, c => if c ∈ h.threads then some ({ h with threads := h.threads.erase c, wire := h.wire ++ [c] } :: hs) else none
  | h :: hs, i + 1, c => (finishAt hs i c).map (h :: ·)

/-- pool.py 557-577: the next process takes a message from the connection and makes a task for it. -/
def recvAt : List Hop → List Nat → Nat → Option (List Hop × List Nat)
  | [], _, _ => none
  | [h], last, 0 =>
    match h.wire with
    | [] => none
    | c :: w => some ([{ h with wire := w }], last ++ [c])
  | h :: h' :: hs, last, 0 =>
    match h.wire with
    | [] => none
    | c :: w => some ({ h with wire := w } :: { h' with ready := h'.ready ++ [c] } :: hs, last)
  | h :: hs, last, i + 1 => (recvAt hs last i).map fun r => (h :: r.1, r.2)

/-- A new task at the beginning of a lane: `asyncio.create_task(ref.method(...))`, `ref.method.tell(...)`, core.pyx 331-338 (`tell` of a local
reference). An `await ref.method(...)` on a remote reference also starts here, and nothing runs in between. -/
def push (x : Lane) (c : Nat) : Lane :=
  match x.hops with
  | [] => { x with last := x.last ++ [c] }
  | h :: hs => { x with hops := { h with ready := h.ready ++ [c] } :: hs }

/-- core.pyx 526: `async with self._lock`. -/
def ask (st : St) (l c : Nat) : St :=
  match st.running with
  | none => { st with asked := st.asked ++ [(l, c)], running := some c, started := st.started ++ [c] }
  | some _ => { st with asked := st.asked ++ [(l, c)], waiting := st.waiting ++ [c] }

inductive Label where
  | issue (l c : Nat)
  /-- `await ref.method(...)` on a local reference: runs on in the calling task, core.pyx 318-321 -/
  | inline (l c : Nat)
  | start (l i : Nat)
  | finish (l i c : Nat)
  | recv (l i : Nat)
  /-- a task of the actor's pool starts and comes to the lock, pool.py 657-667, core.pyx 520-526 -/
  | arrive (l : Nat)
  /-- the running method ends; the lock goes to the next -/
  | done
  /-- a call is cancelled while it waits for the lock -/
  | cancel (c : Nat)
deriving DecidableEq, Repr

/-- The lock is handed on, C15. -/
def handOn (st : St) : St :=
  match st.waiting with
  | [] => { st with running := none }
  | c :: w => { st with running := some c, waiting := w, started := st.started ++ [c] }

def St.setLane (st : St) (l : Nat) (x : Lane) : St := { st with lanes := st.lanes.set l x }

/-- One step. Calls have names that are used once. Left out: connecting, connections that break, results, methods without lock, generator
methods giving up the lock. -/
def step (big : Nat → Bool) (st : St) : Label → Option St
  | .issue l c =>
    match st.lanes[l]? with
    | none => none
    | some x =>
      if c ∈ st.issued.map (·.2) then none
      else some ({ st with issued := st.issued ++ [(l, c)] }.setLane l (push x c))
  | .inline l c =>
    match st.lanes[l]? with
    | none => none
    | some x =>
      if c ∈ st.issued.map (·.2) ∨ x.hops ≠ [] then none
      else some (ask { st with issued := st.issued ++ [(l, c)] } l c)
  | .start l i =>
    match st.lanes[l]? with
    | none => none
    | some x =>
      match startAt big x.hops i with
      | none => none
      | some hs => some (st.setLane l { x with hops := hs })
  | .finish l i c =>
    match st.lanes[l]? with
    | none => none
    | some x =>
      match finishAt x.hops i c with
      | none => none
      | some hs => some (st.setLane l { x with hops := hs })
  | .recv l i =>
    match st.lanes[l]? with
    | none => none
    | some x =>
      match recvAt x.hops x.last i with
      | none => none
      | some r => some (st.setLane l { x with hops := r.1, last := r.2 })
  | .arrive l =>
    match st.lanes[l]? with
    | none => none
    | some x =>
      match x.last with
      | [] => none
      | c :: r => some (ask (st.setLane l { x with last := r }) l c)
  | .done => if st.running = none then none else some (handOn st)
  | .cancel c => if c ∈ st.waiting then some { st with waiting := st.waiting.erase c, dropped := st.dropped ++ [c] } else none

/-- Lanes with the given numbers of hops. -/
def init (ks : List Nat) : St := { lanes := ks.map fun k => { hops := List.replicate k {} } }

end Xoscar.Order
