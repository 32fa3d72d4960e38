import Verif.Model.Base
/-!
# Operations of an nccl group: `ProcessGroupNCCL` (collective/process_group.py 333-687), collective/backend/nccl_backend.py, collective/common.py 73-98

What is modelled is what this repository computes for a group made with `new_group` (the branches `else:` of `if self._is_world`): which elements
are handed to which primitive of NCCL, and what is done locally.  NCCL itself is not in the repository; its documented contract is `exchange`
(point to point) and `Call` (collectives).  The operations of the default group go to cupyx's own `NCCLBackend`, which is not in the repository.

Simplified: all arrays are contiguous and of one type out of `TypeMappingNCCL`; streams are left out (everything has completed); memory of a
rank is its receive buffer, and it does not overlap the send buffers.  An exception on one rank is the result of the operation (the
other ranks then wait for ever).
-/
namespace Xoscar.Nccl

/-- a cupy array: its shape and its elements in C order -/
structure Arr (α : Type) where
  shape : List Nat
  data : List α
  deriving DecidableEq, Repr

/-- `arr.size` -/
def Arr.size {α : Type} (a : Arr α) : Nat := a.data.length

inductive Err where
  | assertion
  /-- an array without axes cannot be sliced -/
  | indexError
  /-- could not broadcast -/
  | valueError
  /-- `None` or a type or operation without NCCL counterpart -/
  | badArgument
  /-- NCCL: the ranks do not agree, or a transfer has no counterpart -/
  | nccl
  /-- elements are written behind the end of the receive buffer -/
  | overflow
  deriving DecidableEq, Repr

/-- `CollectiveReduceOp` (common.py 40-49) -/
inductive ROp where
  | sum | product | min | max | band | bor | bxor | unused
  deriving DecidableEq, Repr

/-- NCCL's reductions -/
inductive Fn where
  | sum | prod | min | max
  deriving DecidableEq, Repr

/-- `ReduceOpMappingNCCL` (common.py 85-90) -/
def ROp.nccl : ROp → Except Err Fn
  | .sum => .ok .sum
  | .product => .ok .prod
  | .max => .ok .max
  | .min => .ok .min
  | _ => .error .badArgument

/-! ## NumPy's assignment to a slice -/

/-- NumPy drops leading axes of length 1 that the target does not have -/
def strip (n : Nat) : List Nat → List Nat
  | 1 :: v => if n < v.length + 1 then strip n v else 1 :: v
  | v => v

/-- and adds missing ones -/
def pad (n : Nat) (v : List Nat) : List Nat := List.replicate (n - v.length) 1 ++ v

/-- `n` pieces of `k` elements -/
def pieces {α : Type} : Nat → Nat → List α → List (List α)
  | 0, _, _ => []
  | n + 1, k, d => d.take k :: pieces n k (d.drop k)

/-- the elements of a value of shape `v` repeated to shape `t` -/
def bcast {α : Type} : List Nat → List Nat → List α → Option (List α)
  | [], [], d => some d
  | t :: ts, v :: vs, d =>
    if v = t then ((pieces v vs.prod d).mapM (bcast ts vs)).map List.flatten
    else if v = 1 then (bcast ts vs d).map (fun x => (List.replicate t x).flatten)
    else none
  | _, _, _ => none

/-- what `target[...] = value` writes -/
def assigned {α : Type} (t v : List Nat) (d : List α) : Except Err (List α) :=
  match bcast t (pad t.length (strip t.length v)) d with
  | some x => .ok x
  | none => .error .valueError

/-- `arr[p : p + 1]`: its shape, where it starts and how many elements it has -/
def row (shape : List Nat) (p : Nat) : Except Err (List Nat × Nat × Nat) := match shape with
  | [] => .error .indexError
  | d :: rest =>
    let n := min (p + 1) d - min p d
    .ok (n :: rest, min p d * rest.prod, n * rest.prod)

/-! ## Point to point transfers -/

inductive Act (α : Type) where
  /-- a local assignment -/
  | copy (off : Nat) (d : List α)
  | send (peer : Nat) (d : List α)
  | recv (peer : Nat) (off n : Nat)
  deriving DecidableEq, Repr

/-- what a rank sends to another one -/
def sentTo {α : Type} (j : Nat) : List (Act α) → List (List α)
  | [] => []
  | .send p d :: rest => if p = j then d :: sentTo j rest else sentTo j rest
  | _ :: rest => sentTo j rest

/-- writing into the receive buffer -/
def put {α : Type} (buf : List α) (off : Nat) (d : List α) : Except Err (List α) :=
  if off + d.length ≤ buf.length then .ok (buf.take off ++ d ++ buf.drop (off + d.length)) else .error .overflow

/-- the actions of a rank: the `k`-th receive from a peer takes what that peer's `k`-th send to it carries, of the same number of elements -/
def exec {α : Type} : List (Act α) → (Nat → List (List α)) → List α → Except Err (List α × (Nat → List (List α)))
  | [], inbox, buf => .ok (buf, inbox)
  | .copy off d :: rest, inbox, buf => do exec rest inbox (← put buf off d)
  | .send _ _ :: rest, inbox, buf => exec rest inbox buf
  | .recv p off n :: rest, inbox, buf => match inbox p with
    | [] => .error .nccl
    | d :: ds => if d.length = n then do exec rest (fun i => if i = p then ds else inbox i) (← put buf off d) else .error .nccl

/-- all ranks: every send has its receive, too -/
def exchange {α : Type} (w : Nat) (prog : Nat → List (Act α)) (buf : Nat → List α) : Except Err (List (List α)) :=
  (List.range w).mapM fun r => do
    let (b, left) ← exec (prog r) (fun i => sentTo r (prog i)) (buf r)
    if (List.range w).all (fun i => (left i).isEmpty) then .ok b else .error .nccl

/-- all ranks' preparations, then the exchange -/
def together {α : Type} (w : Nat) (prep : Nat → Except Err (List (Act α))) (buf : Nat → List α) : Except Err (List (List α)) := do
  let ps ← (List.range w).mapM prep
  exchange w (fun r => ps[r]?.getD []) buf

/-! ## The operations built from transfers -/

/-- `gather` (446-489) -/
def gatherActs {α : Type} (w rank root : Nat) (send recv : Arr α) : Except Err (List (Act α)) :=
  if send.size * w ≠ recv.size then .error .assertion
  else if rank = root then
    (List.range w).mapM fun peer => do
      let (sh, off, n) ← row recv.shape peer
      if peer = rank then .ok (.copy off (← assigned sh [1, send.size] send.data)) else .ok (.recv peer off n)
  else .ok [.send root send.data]

def gather {α : Type} (w root : Nat) (S R : Nat → Arr α) : Except Err (List (List α)) :=
  together w (fun r => gatherActs w r root (S r) (R r)) (fun r => (R r).data)

/-- `scatter` (516-561); `none`: the list of inputs is `None` -/
def scatterActs {α : Type} (w rank root : Nat) (send : Option (List (Arr α))) (recv : Arr α) : Except Err (List (Act α)) := match send with
  | none => .error .badArgument
  | some xs =>
    if rank = root then
      if xs.length ≠ w then .error .assertion
      else (List.range w).mapM fun peer => match xs[peer]? with
        | none => .error .indexError
        | some x => if peer = root then do .ok (.copy 0 (← assigned recv.shape x.shape x.data)) else .ok (.send peer x.data)
    else .ok [.recv root 0 recv.size]

def scatter {α : Type} (w root : Nat) (S : Nat → Option (List (Arr α))) (R : Nat → Arr α) : Except Err (List (List α)) :=
  together w (fun r => scatterActs w r root (S r) (R r)) (fun r => (R r).data)

/-- the elements of `arr[p : p + 1]` -/
def rowData {α : Type} (a : Arr α) (p : Nat) : Except Err (List Nat × List α) := do
  let (sh, off, n) ← row a.shape p
  .ok (sh, (a.data.drop off).take n)

/-- `alltoall` (597-655): one peer.  Within `groupStart` … `groupEnd` the order of send and receive does not matter -/
def alltoallPeer {α : Type} (rank : Nat) (send recv : Arr α) (peer : Nat) : Except Err (List (Act α)) := do
  let (_, off, n) ← row recv.shape peer
  let (ssh, d) ← rowData send peer
  if peer = rank then do
    let (sh, _, _) ← row recv.shape peer
    .ok [.copy off (← assigned sh ssh d)]
  else if rank > peer then .ok [.recv peer off n, .send peer d]
  else .ok [.send peer d, .recv peer off n]

def alltoallActs {α : Type} (w rank : Nat) (send recv : Arr α) : Except Err (List (Act α)) := match send.shape with
  | [] => .error .indexError
  | d :: _ =>
    if w ≠ d then .error .assertion
    else if recv.size ≠ send.size then .error .assertion
    else do .ok (← (List.range w).mapM (alltoallPeer rank send recv)).flatten

def alltoall {α : Type} (w : Nat) (S R : Nat → Arr α) : Except Err (List (List α)) :=
  together w (fun r => alltoallActs w r (S r) (R r)) (fun r => (R r).data)

/-! ## The operations NCCL does itself -/

/-- a call of a collective of NCCL: input, number of elements, where the result goes -/
structure Call (α : Type) where
  input : List α
  count : Nat
  buf : List α
  deriving DecidableEq, Repr

/-- NCCL needs the same count from all ranks; every rank's result (if any) goes to the start of its buffer -/
def collective {α : Type} (w : Nat) (calls : List (Call α)) (result : Nat → List (List α) → Option (List α)) (need : Nat → Nat) : Except Err (List (List α)) :=
  match calls with
  | [] => .ok []
  | c :: _ =>
    if calls.all (fun x => x.count = c.count) then
      if calls.all (fun x => need c.count ≤ x.input.length) then
        (List.range w).mapM fun r => match calls[r]?, result r (calls.map (fun x => x.input.take (need c.count))) with
          | some x, some out => put x.buf 0 out
          | some x, none => .ok x.buf
          | none, _ => .error .nccl
      else .error .overflow
    else .error .nccl

/-- element by element -/
def reduceAll {α : Type} (red : List α → α) (xs : List (List α)) : List α := match xs with
  | [] => []
  | x :: _ => (List.range x.length).map fun i => red (xs.filterMap (·[i]?))

/-- `reduce` (386-415), `red`: what NCCL's reductions do with the elements of all ranks -/
def reduce {α : Type} (red : Fn → List α → α) (w root : Nat) (op : ROp) (S R : Nat → Arr α) : Except Err (List (List α)) := do
  let f ← op.nccl
  collective w ((List.range w).map fun r => ⟨(S r).data, (S r).size, (R r).data⟩)
    (fun r xs => if r = root then some (reduceAll (red f) xs) else none) id

/-- `allreduce` (417-444) -/
def allreduce {α : Type} (red : Fn → List α → α) (w : Nat) (op : ROp) (S R : Nat → Arr α) : Except Err (List (List α)) := do
  let f ← op.nccl
  collective w ((List.range w).map fun r => ⟨(S r).data, (S r).size, (R r).data⟩) (fun _ xs => some (reduceAll (red f) xs)) id

/-- `allgather` (491-514) -/
def allgather {α : Type} (w : Nat) (S R : Nat → Arr α) : Except Err (List (List α)) :=
  collective w ((List.range w).map fun r => ⟨(S r).data, (S r).size, (R r).data⟩) (fun _ xs => some xs.flatten) id

/-- `reduce_scatter` (563-595): NCCL gives every rank one of `w` equal parts, of `recv_elems[self.rank]` elements -/
def reduceScatter {α : Type} (red : Fn → List α → α) (w : Nat) (op : ROp) (elems : Nat → List Nat) (S R : Nat → Arr α) : Except Err (List (List α)) := do
  let f ← op.nccl
  let counts ← (List.range w).mapM fun r => match (elems r)[r]? with
    | some n => .ok n
    | none => .error .indexError
  collective w ((List.range w).map fun r => ⟨(S r).data, counts[r]?.getD 0, (R r).data⟩)
    (fun r xs => some (((reduceAll (red f) xs).drop (r * counts.headD 0)).take (counts.headD 0))) (fun n => w * n)

/-- `broadcast` (657-687): `none`: `send_data` is `None`; `convert_data_to_cp_array` fails -/
def broadcast {α : Type} (w root : Nat) (S : Nat → Option (Arr α)) (R : Nat → Arr α) : Except Err (List (List α)) := do
  let ss ← (List.range w).mapM fun r => match S r with
    | some a => .ok a
    | none => .error .badArgument
  collective w ((List.range w).map fun r => ⟨((ss[r]?).map Arr.data).getD [], ((ss[r]?).map Arr.size).getD 0, (R r).data⟩) (fun _ xs => xs[root]?) id

/-! ## The unique id of the default group -/

/-- `bytes([b + 128 for b in nccl_id])` (nccl_backend.py 153): ValueError outside of 0..255 -/
def shiftId (id : List Int) : Except Err (List UInt8) := id.mapM fun b =>
  if 0 ≤ b + 128 ∧ b + 128 < 256 then .ok (UInt8.ofNat (b + 128).toNat) else .error .valueError

/-- `tuple([int(b) - 128 for b in nccl_id])` (160) -/
def unshiftId (bs : List UInt8) : List Int := bs.map fun b => (b.toNat : Int) - 128

/-- `_thread_request` (69-80) of a store request of `size` bytes that arrives in parts: one `recv`, which gives what is there.
`true`: the request is executed; else the thread ends with an exception or does nothing, and the connection is closed -/
def served (size : Nat) (parts : List Nat) : Bool := match parts with
  | [] => false
  | n :: _ => 0 < n ∧ size ≤ n

end Xoscar.Nccl
