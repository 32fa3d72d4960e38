import Verif.Model.Base
/-!
# Wire framing: python/xoscar/serialization/aio.py, backends/communication/{utils,socket}.py
-/
namespace Xoscar.Wire

abbrev Bytes := List UInt8

/-- A buffer of a message: `cuda` says whether it has `__cuda_array_interface__`
(aio.py:43-46); `data` are its bytes (`nbytes`/`len`, aio.py:51, is their number). -/
structure Buf where
  cuda : Bool
  data : Bytes
  deriving DecidableEq, Repr

/-- The header list after `_get_buffers` has put the two reserved keys in `headers[0]`
(aio.py:46-52); `rest` is everything else produced by `serialize`. -/
structure Header (H : Type) where
  isCuda : List Bool
  sizes : List Nat
  rest : H
  deriving DecidableEq, Repr

/-- `cloudpickle.dumps/loads` on header lists (aio.py:53, 116, 141): a parameter of the model,
assumed to be a round trip. -/
structure Pickle (H : Type) where
  dumps : Header H → Bytes
  loads : Bytes → Option (Header H)
  round : ∀ h, loads (dumps h) = some h

/-- What `serialize` gave: headers and buffers (aio.py:39). -/
structure Msg (H : Type) where
  rest : H
  bufs : List Buf
  deriving DecidableEq, Repr

/-- the header of a message, aio.py:46-52 -/
def Msg.header {H} (m : Msg H) : Header H :=
  { isCuda := m.bufs.map Buf.cuda, sizes := m.bufs.map (·.data.length), rest := m.rest }

/-- `k` little endian bytes of `n` (`struct.pack("<Q"/"<H"/"B")`) -/
def le : Nat → Nat → Bytes
  | 0, _ => []
  | k + 1, n => UInt8.ofNat (n % 256) :: le k (n / 256)

/-- `struct.unpack("<...")` -/
def unle : Bytes → Nat
  | [] => 0
  | b :: bs => b.toNat + 256 * unle bs

/-- `struct.pack` refuses numbers that do not fit (struct.error). -/
def pack (k n : Nat) : Option Bytes := if n < 256 ^ k then some (le k n) else none

/-- aio.py:28 -/
def version : Nat := 1

/-- The fixed part of the frame, aio.py:55-62. -/
def prelude (headerLen compress : Nat) : Option Bytes :=
  match pack 1 version, pack 8 headerLen, pack 2 compress with
  | some v, some q, some h => some (v ++ q ++ h)
  | _, _, _ => none

/-- utils.py:27 (`CUDA_CHUNK_SIZE`) -/
def cudaChunk : Nat := 16 * 1024 * 1024

/-- The slices written for a cuda buffer, utils.py:49-59: `offset`, `size` as in the loop.
`fuel` bounds the number of iterations (at most `nbytes`, since every slice is non-empty). -/
def cudaWrites (chunk : Nat) (data : Bytes) : Nat → Nat → List Bytes
  | 0, _ => []
  | fuel + 1, offset =>
    if offset < data.length then
      let size := if offset + chunk < data.length then chunk else data.length - offset
      (data.drop offset).take size :: cudaWrites chunk data fuel (offset + size)
    else []

/-- the `writer.write` calls for one buffer, utils.py:61-66 -/
def bufWrites (b : Buf) : List Bytes :=
  if b.cuda then cudaWrites cudaChunk b.data b.data.length 0 else [b.data]

/-- All `writer.write` calls of one `send` (aio.py:64-67, utils.py:44-66): prelude, header,
buffers.  `none` = struct.error before anything is written. -/
def writes {H} (p : Pickle H) (compress : Nat) (m : Msg H) : Option (List Bytes) :=
  match prelude (p.dumps m.header).length compress with
  | none => none
  | some pre => some (pre :: p.dumps m.header :: (m.bufs.map bufWrites).flatten)

/-- The bytes a `send` puts on the wire. -/
def frame {H} (p : Pickle H) (compress : Nat) (m : Msg H) : Option Bytes :=
  (writes p compress m).map List.flatten

/-! ## Receiving -/

/-- Result of reading from the stream: `more` means that `readexactly` waits for more data (and
raises IncompleteReadError if the peer has closed); `eof` is the EOFError raised for a wrong
version byte; `bad` an exception of `cloudpickle.loads`. -/
inductive R (α : Type) where
  | ok (a : α) (rest : Bytes)
  | more
  | eof
  | bad
  deriving DecidableEq, Repr

/-- `StreamReader.readexactly(n)` (aio.py:95-103) -/
def readExactly (n : Nat) (s : Bytes) : R Bytes :=
  if n ≤ s.length then .ok (s.take n) (s.drop n) else .more

/-- `get_header_length`, aio.py:76-88 -/
def headerLength (hb : Bytes) : Option Nat :=
  if unle (hb.take 1) ≠ version then none else some (unle ((hb.drop 1).take 8))

/-- `_get_obj_header_bytes` + `get_header`, aio.py:105-113, 140-141 -/
def getHeader {H} (p : Pickle H) (s : Bytes) : R (Header H) :=
  match readExactly 11 s with
  | .ok hb s1 =>
    match headerLength hb with
    | none => .eof
    | some n =>
      match readExactly n s1 with
      | .ok h s2 =>
        match p.loads h with
        | some hd => .ok hd s2
        | none => .bad
      | .more => .more
      | .eof => .eof
      | .bad => .bad
  | .more => .more
  | .eof => .eof
  | .bad => .bad

/-- the chunk loop for a cuda buffer, utils.py:82-94; `acc` = `arr[:offset]` -/
def readCuda (chunk size : Nat) : Nat → Bytes → Bytes → R Bytes
  | 0, acc, s => .ok acc s
  | fuel + 1, acc, s =>
    if acc.length < size then
      let n := if acc.length + chunk < size then chunk else size - acc.length
      match readExactly n s with
      | .ok c s' => readCuda chunk size fuel (acc ++ c) s'
      | .more => .more
      | .eof => .eof
      | .bad => .bad
    else .ok acc s

/-- one iteration of the loop in `read_buffers`, utils.py:74-96 -/
def readBuf (cuda : Bool) (size : Nat) (s : Bytes) : R Buf :=
  match (if cuda then readCuda cudaChunk size size [] s else readExactly size s) with
  | .ok d s' => .ok ⟨cuda, d⟩ s'
  | .more => .more
  | .eof => .eof
  | .bad => .bad

/-- `read_buffers`, utils.py:69-97 (`zip(is_cuda_buffers, buffer_sizes)`) -/
def readBufs : List (Bool × Nat) → Bytes → R (List Buf)
  | [], s => .ok [] s
  | (c, n) :: l, s =>
    match readBuf c n s with
    | .ok b s' =>
      match readBufs l s' with
      | .ok bs s'' => .ok (b :: bs) s''
      | .more => .more
      | .eof => .eof
      | .bad => .bad
    | .more => .more
    | .eof => .eof
    | .bad => .bad

/-- `SocketChannel.recv` up to the call of `deserialize`, socket.py:99-103 -/
def recv {H} (p : Pickle H) (s : Bytes) : R (Msg H) :=
  match getHeader p s with
  | .ok h s1 =>
    match readBufs (h.isCuda.zip h.sizes) s1 with
    | .ok bs s2 => .ok ⟨h.rest, bs⟩ s2
    | .more => .more
    | .eof => .eof
    | .bad => .bad
  | .more => .more
  | .eof => .eof
  | .bad => .bad

/-- `n` successive `recv` calls. -/
def recvN {H} (p : Pickle H) : Nat → Bytes → R (List (Msg H))
  | 0, s => .ok [] s
  | n + 1, s =>
    match recv p s with
    | .ok m s' =>
      match recvN p n s' with
      | .ok ms s'' => .ok (m :: ms) s''
      | .more => .more
      | .eof => .eof
      | .bad => .bad
    | .more => .more
    | .eof => .eof
    | .bad => .bad

/-- `AioDeserializer.get_size`, aio.py:132-138 -/
def getSize {H} (p : Pickle H) (s : Bytes) : R Nat :=
  match readExactly 11 s with
  | .ok hb s1 =>
    match headerLength hb with
    | none => .eof
    | some n =>
      match readExactly n s1 with
      | .ok h s2 =>
        match p.loads h with
        | some hd => .ok (11 + h.length + hd.sizes.sum) s2
        | none => .bad
      | .more => .more
      | .eof => .eof
      | .bad => .bad
  | .more => .more
  | .eof => .eof
  | .bad => .bad

/-! ## Concurrent senders (socket.py:77-96) -/

/-- Where a `send` call is: waiting in `serializer.run()`, or (all bytes written) waiting for
the lock / `drain`. -/
inductive SPhase where
  | serializing
  | draining
  deriving DecidableEq, Repr

/-- A sender task: the messages it still has to send, one `send` after the other. -/
structure Sender (H : Type) where
  todo : List (Msg H)
  phase : SPhase
  deriving Repr

/-- The connection as seen by the senders: bytes handed to the transport, in order, and all
sender tasks. -/
structure SState (H : Type) where
  wire : Bytes
  senders : List (Sender H)

/-- One run of task `t` between two await points.
`serializing`: `serializer.run()` completes and `write_buffers` performs all its
`writer.write` calls with no await in between (socket.py:82-86, utils.py:61-66), then the task
suspends in `drain`; if packing fails (struct.error) the send raises and nothing is written.
`draining`: the drain finished (socket.py:87-90), the task starts its next `send`. -/
def sstep {H} (p : Pickle H) (compress : Nat) (st : SState H) (t : Nat) : SState H :=
  match st.senders[t]? with
  | none => st
  | some s =>
    match s.phase, s.todo with
    | _, [] => st
    | .serializing, m :: ms =>
      match writes p compress m with
      | none => { st with senders := st.senders.set t ⟨ms, .serializing⟩ }
      | some ws => { wire := ws.foldl (· ++ ·) st.wire
                     senders := st.senders.set t ⟨m :: ms, .draining⟩ }
    | .draining, _ :: ms => { st with senders := st.senders.set t ⟨ms, .serializing⟩ }

/-- a schedule: the event loop resumes the tasks in any order -/
def srun {H} (p : Pickle H) (compress : Nat) (st : SState H) (sched : List Nat) : SState H :=
  sched.foldl (sstep p compress) st

/-- The `send` task `t` is in is cancelled where it waits, and the task goes on with its next `send`.
In `serializer.run()` nothing has been written (socket.py:82); in `drain` (87-90) everything has, and the lock is released by `async with`. -/
def scancel {H} (st : SState H) (t : Nat) : SState H :=
  match st.senders[t]? with
  | none => st
  | some s => { st with senders := st.senders.set t ⟨s.todo.tail, .serializing⟩ }

/-- what happens to a task: it runs to its next await, or its `send` is cancelled -/
inductive SEv where
  | go (t : Nat)
  | cancel (t : Nat)
  deriving Repr

def srunC {H} (p : Pickle H) (compress : Nat) (st : SState H) (evs : List SEv) : SState H :=
  evs.foldl (fun st e => match e with
    | .go t => sstep p compress st t
    | .cancel t => scancel st t) st

/-! ## A receiver suspended at every `readexactly` (socket.py:98-104) -/

/-- Where the `recv` holding `_recv_lock` is suspended. -/
inductive RPhase (H : Type) where
  | idle
  | prelude
  | header (n : Nat)
  | bufs (rest : H) (done : List Buf) (todo : List (Bool × Nat))
  | dead
  deriving Repr

/-- reader state: received but unconsumed bytes, phase of the lock holder, results so far -/
structure RState (H : Type) where
  buf : Bytes
  phase : RPhase H
  out : List (Msg H)

/-- Events at the reader: bytes arrive; some task calls `recv` (it gets the lock only when it is
free: otherwise it queues, which changes nothing here); the lock holder is resumed. -/
inductive REv where
  | data (bs : Bytes)
  | call
  | resume
  deriving Repr

/-- The lock holder continues until its next suspension; buffers are read one at a time
(a cuda buffer is modelled as one read; its chunk loop is `readCuda` above). -/
def rstep {H} (p : Pickle H) (st : RState H) : REv → RState H
  | .data bs => { st with buf := st.buf ++ bs }
  | .call => match st.phase with
    | .idle => { st with phase := .prelude }
    | _ => st
  | .resume => match st.phase with
    | .idle => st
    | .dead => st
    | .prelude => match readExactly 11 st.buf with
      | .ok hb s1 => match headerLength hb with
        | none => { st with phase := .dead }
        | some n => { st with buf := s1, phase := .header n }
      | _ => st
    | .header n => match readExactly n st.buf with
      | .ok h s1 => match p.loads h with
        | none => { st with phase := .dead }
        | some hd => { st with buf := s1, phase := .bufs hd.rest [] (hd.isCuda.zip hd.sizes) }
      | _ => st
    | .bufs r done [] => { st with phase := .idle, out := st.out ++ [⟨r, done⟩] }
    | .bufs r done ((c, n) :: l) => match readBuf c n st.buf with
      | .ok b s1 => { st with buf := s1, phase := .bufs r (done ++ [b]) l }
      | _ => st

/-- The `recv` holding the lock is cancelled while suspended in `readexactly`: `async with`
releases the lock, bytes already consumed are gone (socket.py:101-103). -/
def cancelRecv {H} (st : RState H) : RState H := { st with phase := .idle }

/-- any history of events at the reader -/
def rrun {H} (p : Pickle H) (st : RState H) (evs : List REv) : RState H := evs.foldl (rstep p) st

end Xoscar.Wire
