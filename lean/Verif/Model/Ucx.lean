import Verif.Model.Wire
/-!
# UCX channels: backends/communication/ucx.py:244-340; backends/pool.py:541-598; backends/context.py:353-369; backends/core.py:172-200

UCX carries separate messages (here *frames*), not a stream of bytes: a receive operation names the size it expects and fails when the oldest
frame has another one.  Bytes, headers and `cloudpickle` are those of Model/Wire.
Whether UCX transmits an empty buffer as a frame is a parameter (`sendsEmpty`); tag matching says it does.
Simplified: CUDA buffers and host memory are received in the same way; `deserialize` (outside the receive lock) is a parameter that tells copy
requests from other messages; a connection has one direction here, the replies are listed as events.
-/
namespace Xoscar.Ucx
open Xoscar.Wire (Bytes Buf Header Pickle Msg prelude headerLength)

abbrev Ref := Nat

/-- `ucp_endpoint.send(buffer)` -/
def put (sendsEmpty : Bool) (b : Bytes) : List Bytes := if b.isEmpty && !sendsEmpty then [] else [b]

/-- the buffers of one message in the order they are sent: `_serialize` (ucx.py:240-243, aio.py:64-67).  `none`: struct.error -/
def buffersOf {H} (p : Pickle H) (m : Msg H) : Option (List Bytes) :=
  match prelude (p.dumps m.header).length 0 with
  | none => none
  | some pre => some (pre :: p.dumps m.header :: m.bufs.map Buf.data)

/-- what a task sends: a message (`send`, ucx.py:250-256), or a copy request followed by the buffers to be copied
(`send_buffers` with `meta`, ucx.py:296-319) -/
structure Job (H : Type) where
  message : Msg H
  raw : List Bytes

/-- the buffers a job sends while it holds the send lock (ucx.py:311-316) -/
def jobBuffers {H} (p : Pickle H) (j : Job H) : Option (List Bytes) :=
  (buffersOf p j.message).map (· ++ j.raw)

def jobFrames {H} (p : Pickle H) (sendsEmpty : Bool) (j : Job H) : Option (List Bytes) :=
  (jobBuffers p j).map (fun bs => (bs.map (put sendsEmpty)).flatten)

/-! ## Receiving -/

/-- outcome of receiving: `wait`: nothing is there yet; `broken`: the endpoint was aborted and `ChannelClosed` raised (ucx.py:282-293) -/
inductive Got (α : Type) where
  | ok (a : α) (rest : List Bytes)
  | wait
  | broken
  deriving DecidableEq, Repr

/-- `ucp_endpoint.recv(buffer)` with a buffer of `n` bytes -/
def recvFrame (n : Nat) : List Bytes → Got Bytes
  | [] => .wait
  | f :: fs => if f.length = n then .ok f fs else .broken

/-- the loop over the buffers, ucx.py:270-281: empty ones are not received -/
def recvBufs : List (Bool × Nat) → List Bytes → Got (List Buf)
  | [], fs => .ok [] fs
  | (c, n) :: l, fs =>
    match (if n = 0 then .ok [] fs else recvFrame n fs) with
    | .ok b fs' =>
      match recvBufs l fs' with
      | .ok bs fs'' => .ok (⟨if n = 0 then false else c, b⟩ :: bs) fs''
      | .wait => .wait
      | .broken => .broken
    | .wait => .wait
    | .broken => .broken

/-- `UCXChannel.recv`, ucx.py:258-294, up to `deserialize`: an error while decoding the header also aborts the endpoint -/
def recv {H} (p : Pickle H) (fs : List Bytes) : Got (Msg H) :=
  match recvFrame 11 fs with
  | .wait => .wait
  | .broken => .broken
  | .ok info fs1 =>
    match headerLength info with
    | none => .broken
    | some n =>
      match recvFrame n fs1 with
      | .wait => .wait
      | .broken => .broken
      | .ok hb fs2 =>
        match p.loads hb with
        | none => .broken
        | some h =>
          match recvBufs (h.isCuda.zip h.sizes) fs2 with
          | .wait => .wait
          | .broken => .broken
          | .ok bs fs3 => .ok ⟨h.rest, bs⟩ fs3

/-- the registered buffers of the receiving process and what is in them -/
abbrev Mem := Dict Ref Bytes

/-- `recv_buffers`, ucx.py:321-335: every frame goes into its buffer; what was received before a failure stays -/
def recvInto : List Ref → Mem → List Bytes → Mem × Got Unit
  | [], mem, fs => (mem, .ok () fs)
  | r :: rs, mem, fs =>
    match recvFrame ((mem.get? r).getD []).length fs with
    | .wait => (mem, .wait)
    | .broken => (mem, .broken)
    | .ok f fs' => recvInto rs (mem.set r f) fs'

/-- what the receiving pool does -/
inductive Event (H : Type) where
  /-- a message is handled (pool.py:590) -/
  | message (m : Msg H)
  /-- the answer to a copy request: done, or an error (pool.py:551-570) -/
  | copied (ok : Bool)
  /-- the connection is closed (pool.py:578-598) -/
  | closed
  deriving DecidableEq, Repr

structure Pool (H : Type) where
  mem : Mem
  events : List (Event H)

/-- `on_new_channel` with `_handle_ucx_meta_message`, pool.py:541-592, over the frames that have come; `copyRefs` tells what a message asks to
copy.  `fuel` bounds the number of messages (every one takes at least two frames).  Gives the frames not yet received. -/
def serve {H} (p : Pickle H) (copyRefs : Msg H → Option (List Ref)) : Nat → Pool H → List Bytes → Pool H × List Bytes
  | 0, s, fs => (s, fs)
  | fuel + 1, s, fs =>
    match recv p fs with
    | .wait => (s, fs)
    | .broken => ({ s with events := s.events ++ [.closed] }, [])
    | .ok m fs' =>
      match copyRefs m with
      | none => serve p copyRefs fuel { s with events := s.events ++ [.message m] } fs'
      | some refs =>
        if refs.all (fun r => s.mem.has r) then
          match recvInto refs s.mem fs' with
          | (mem, .ok _ fs'') => serve p copyRefs fuel ⟨mem, s.events ++ [.copied true]⟩ fs''
          | (mem, .wait) => (⟨mem, s.events⟩, [])
          -- the endpoint is gone: the error is the answer, and the next `recv` fails
          | (mem, .broken) => (⟨mem, s.events ++ [.copied false, .closed]⟩, [])
        else serve p copyRefs fuel { s with events := s.events ++ [.copied false] } fs'

/-- `copy_to_buffers`, context.py:361-369: the answer is not looked at -/
def copyToReturns (answer : Bool) : Option String := let _ := answer; none

/-! ## Sending -/

/-- Tasks that send over one connection: who waits for the lock with which buffers, who has it and what is left to send. -/
structure Conn where
  waiting : List (Nat × List Bytes)
  holder : Option (Nat × List Bytes)
  /-- the frames sent so far -/
  wire : List Bytes
  deriving DecidableEq, Repr

inductive Act where
  /-- a task starts to send these buffers (and waits for the lock, ucx.py:311) -/
  | start (task : Nat) (bufs : List Bytes)
  /-- the lock is given to the task that has waited longest -/
  | grant
  /-- the task with the lock sends its next buffer (312-316) -/
  | next
  /-- … or has sent all and gives back the lock -/
  | done
  /-- the task with the lock is cancelled: `CancelledError` is no `UCXError`, so the endpoint stays (317-319) -/
  | cancel
  deriving DecidableEq, Repr

def act (sendsEmpty : Bool) (s : Conn) : Act → Option Conn
  | .start t bs => some { s with waiting := s.waiting ++ [(t, bs)] }
  | .grant => match s.holder, s.waiting with
    | none, w :: ws => some { s with holder := some w, waiting := ws }
    | _, _ => none
  | .next => match s.holder with
    | some (t, b :: bs) => some { s with holder := some (t, bs), wire := s.wire ++ put sendsEmpty b }
    | _ => none
  | .done => match s.holder with
    | some (_, []) => some { s with holder := none }
    | _ => none
  | .cancel => match s.holder with
    | some _ => some { s with holder := none }
    | none => none

inductive Sends (sendsEmpty : Bool) : List Act → Conn → Prop
  | init : Sends sendsEmpty [] ⟨[], none, []⟩
  | snoc {as : List Act} {a : Act} {s s' : Conn} : Sends sendsEmpty as s → act sendsEmpty s a = some s' → Sends sendsEmpty (as ++ [a]) s'

end Xoscar.Ucx
