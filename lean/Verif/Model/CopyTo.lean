import Verif.Model.Base
/-!
# copy_to: python/xoscar/backends/context.py:353-437, backends/pool.py:526-536, context.pyx:332-352
-/
namespace Xoscar.CopyTo

abbrev Bytes := List UInt8

/-- One tuple of a `CopyToBuffersMessage` (context.py:377-399): remote buffer uid, start, length,
data.  The address is the same for all (checked by `copy_to`), so it is left out. -/
structure Entry where
  uid : Nat
  start : Nat
  len : Nat
  data : Bytes
  deriving DecidableEq, Repr

/-- `ClientActorContext.copy_to` checks, context.pyx:332-345.  `addrs` are the addresses of the
remote refs. -/
inductive Check where
  | ok | valueError | assertError
  deriving DecidableEq, Repr

def check (nLocal : Nat) (addrs : List String) (blockSize : Option Int) : Check :=
  if nLocal = 0 ∨ addrs.length = 0 then .valueError
  else if (pySet addrs).length ≠ 1 then .assertError
  else if nLocal ≠ addrs.length then .assertError
  else match blockSize with
    | none => .ok
    | some b => if b > 0 then .ok else .assertError

/-- `DEFAULT_TRANSFER_BLOCK_SIZE`, context.py:52 -/
def defaultBlock : Nat := 4 * 1024 ^ 2

/-- `block_size or DEFAULT_TRANSFER_BLOCK_SIZE`, context.py:374, 415 -/
def effBlock : Option Nat → Nat
  | none => defaultBlock
  | some 0 => defaultBlock
  | some b => b

/-- local variables of the sending loop: `current_buf_size`, `one_block_data`, blocks sent -/
structure St where
  cur : Nat
  block : List Entry
  sent : List (List Entry)
  deriving DecidableEq, Repr

/-- the `while` loop, context.py:382-394; returns the state, `last_start` and the remaining
`l_buf`.  `fuel` bounds the iterations (`len(l_buf) + 2` suffices, `splitLoop_exit`). -/
def splitLoop (bs uid : Nat) : Nat → St → Nat → Bytes → St × Nat × Bytes
  | 0, s, start, buf => (s, start, buf)
  | fuel + 1, s, start, buf =>
    if s.cur + buf.length > bs then
      let remain := bs - s.cur
      splitLoop bs uid fuel
        ⟨0, [], s.sent ++ [s.block ++ [⟨uid, start, remain, buf.take remain⟩]]⟩
        (start + remain) (buf.drop remain)
    else (s, start, buf)

/-- one iteration of the `for`, context.py:375-400 -/
def addBuf (bs : Nat) (s : St) (b : Nat × Bytes) : St :=
  if s.cur + b.2.length < bs then
    { s with block := s.block ++ [⟨b.1, 0, b.2.length, b.2⟩], cur := s.cur + b.2.length }
  else
    let r := splitLoop bs b.1 (b.2.length + 2) s 0 b.2
    if r.2.2.length > 0 then
      { r.1 with block := r.1.block ++ [⟨b.1, r.2.1, r.2.2.length, r.2.2⟩], cur := r.2.2.length }
    else r.1

/-- all `CopyToBuffersMessage` contents in sending order, context.py:372-405 -/
def blocks (bs : Nat) (bufs : List (Nat × Bytes)) : List (List Entry) :=
  let s := bufs.foldl (addBuf bs) ⟨0, [], []⟩
  if s.block.isEmpty then s.sent else s.sent ++ [s.block]

/-- number of buffer bytes in a message -/
def blockBytes (b : List Entry) : Nat := (b.map (·.data.length)).sum

/-- the receiver's buffers by uid -/
abbrev Remote := Dict Nat Bytes

/-- `buffer[start : start + _len] = data` on a fixed-size buffer (pool.py:528-529): KeyError for
an unknown uid, ValueError when the slice (clamped to the buffer) and the data differ in length. -/
def writeEntry (r : Remote) (e : Entry) : Option Remote :=
  match r.get? e.uid with
  | none => none
  | some old =>
    if (min (e.start + e.len) old.length) - (min e.start old.length) = e.data.length then
      some (r.set e.uid (old.take e.start ++ e.data ++ old.drop (e.start + e.len)))
    else none

/-- `handle_copy_to_buffers_message`, pool.py:526-530: entries are written in order; the first
failure turns into an error reply, earlier entries stay written. -/
def handleBlock (r : Remote) : List Entry → Remote × Bool
  | [] => (r, true)
  | e :: es => match writeEntry r e with
    | none => (r, false)
    | some r' => handleBlock r' es

/-- what `_call_with_client` experiences for one block -/
inductive Net where
  | up | down
  deriving DecidableEq, Repr

inductive CopyResult where
  | returned | raised
  deriving DecidableEq, Repr

/-- Sending the blocks in order (context.py:388-390, 403-405).  `net i` tells whether the
connection works for the i-th block (otherwise ServerClosed is raised and the loop ends).  The
reply - result or error message - is not looked at. -/
def deliver (net : Nat → Net) : Nat → List (List Entry) → Remote → Remote × CopyResult
  | _, [], r => (r, .returned)
  | i, b :: bs, r => match net i with
    | .down => (r, .raised)
    | .up => deliver net (i + 1) bs (handleBlock r b).1

/-- `copy_to_buffers` without UCX and without proxy -/
def copyToBuffers (net : Nat → Net) (block : Option Nat) (bufs : List (Nat × Bytes)) (r : Remote) :
    Remote × CopyResult := deliver net 0 (blocks (effBlock block) bufs) r

/-! ## file objects -/

/-- local variables of `copy_to_fileobjs`: current block, `current_file_size`, messages sent -/
structure FSt where
  block : List (Nat × Bytes)
  size : Nat
  sent : List (List (Nat × Bytes))
  deriving DecidableEq, Repr

/-- one successful `read` of the loop, context.py:421-430 -/
def addRead (bs : Nat) (uid : Nat) (s : FSt) (d : Bytes) : FSt :=
  let block := s.block ++ [(uid, d)]
  let size := s.size + d.length
  if size ≥ bs then ⟨[], 0, s.sent ++ [block]⟩ else ⟨block, size, s.sent⟩

/-- one file: `reads` are the non-empty results of successive `read(block_size)` until it
returns nothing, context.py:419-432 -/
def addFile (bs : Nat) (s : FSt) (f : Nat × List Bytes) : FSt := f.2.foldl (addRead bs f.1) s

/-- all `CopyToFileObjectsMessage` contents, context.py:415-437 -/
def fileBlocks (bs : Nat) (files : List (Nat × List Bytes)) : List (List (Nat × Bytes)) :=
  let s := files.foldl (addFile bs) ⟨[], 0, []⟩
  if s.size > 0 then s.sent ++ [s.block] else s.sent

/-- `handle_copy_to_fileobjs_message`, pool.py:532-536: write appends at the file's position;
KeyError for an unknown file object. -/
def handleFileBlock (r : Remote) : List (Nat × Bytes) → Remote × Bool
  | [] => (r, true)
  | (uid, d) :: es => match r.get? uid with
    | none => (r, false)
    | some old => handleFileBlock (r.set uid (old ++ d)) es

def deliverFiles (net : Nat → Net) : Nat → List (List (Nat × Bytes)) → Remote → Remote × CopyResult
  | _, [], r => (r, .returned)
  | i, b :: bs, r => match net i with
    | .down => (r, .raised)
    | .up => deliverFiles net (i + 1) bs (handleFileBlock r b).1

/-- `copy_to_fileobjs` -/
def copyToFiles (net : Nat → Net) (block : Option Nat) (files : List (Nat × List Bytes)) (r : Remote) :
    Remote × CopyResult := deliverFiles net 0 (fileBlocks (effBlock block) files) r

end Xoscar.CopyTo
