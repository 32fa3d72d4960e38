import Verif.Model.Base
/-!
# Collective operations on arrays: `ProcessGroupGloo` (collective/process_group.py:127-342), collective/common.py:25-72 and
the C++ bindings (cpp/collective/gloo/src/*.cc, include/collective.h)

Every rank has a memory of bytes; an array is the addresses of its elements.  What is modelled is what this repository
computes: which windows of memory (pointer, number of bytes), which type, reduction and root are handed to the gloo library.
The library itself (not in the repository) is `gloo`: its documented contract on the bytes in those windows.  Input windows
are read before output windows are written (the contract for buffers that do not overlap, or are the same).
-/
namespace Xoscar.Gloo

abbrev Bytes := List Nat
/-- memory of one process: address ↦ byte -/
abbrev Mem := Nat → Nat

def read (m : Mem) (p n : Nat) : Bytes := (List.range n).map (fun i => m (p + i))

def write (m : Mem) (p : Nat) (bs : Bytes) : Mem := fun a => if p ≤ a then (bs[a - p]?).getD (m a) else m a

/-- NumPy scalar types: those of `TypeMappingGloo` (common.py:57-67), and the others with their item size -/
inductive DT where
  | int8 | uint8 | int32 | uint32 | int64 | uint64 | float16 | float32 | float64
  | other (size : Nat)
  deriving DecidableEq, Repr

/-- NumPy's itemsize -/
def DT.item : DT → Nat
  | .int8 | .uint8 => 1
  | .float16 => 2
  | .int32 | .uint32 | .float32 => 4
  | .int64 | .uint64 | .float64 => 8
  | .other n => n

/-- `glooDataType_t` (collective.h:71-81), bound in main.cc:63-74 -/
inductive GT where
  | glooInt8 | glooUint8 | glooInt32 | glooUint32 | glooInt64 | glooUint64 | glooFloat16 | glooFloat32 | glooFloat64
  deriving DecidableEq, Repr

/-- the C++ element types -/
inductive CT where
  | int8_t | uint8_t | int32_t | uint32_t | int64_t | uint64_t | float16 | float_t | double_t
  deriving DecidableEq, Repr

/-- `TypeMappingGloo` (common.py:57-67): KeyError (`none`) for other types -/
def DT.gloo : DT → Option GT
  | .int8 => some .glooInt8
  | .uint8 => some .glooUint8
  | .int32 => some .glooInt32
  | .uint32 => some .glooUint32
  | .int64 => some .glooInt64
  | .uint64 => some .glooUint64
  | .float16 => some .glooFloat16
  | .float32 => some .glooFloat32
  | .float64 => some .glooFloat64
  | .other _ => none

/-- the `switch (datatype)` of every wrapper (e.g. reduce.cc:61-101; the same in all of them) -/
def GT.ctype : GT → CT
  | .glooInt8 => .int8_t
  | .glooUint8 => .uint8_t
  | .glooInt32 => .int32_t
  | .glooUint32 => .uint32_t
  | .glooInt64 => .int64_t
  | .glooUint64 => .uint64_t
  | .glooFloat16 => .float16
  | .glooFloat32 => .float_t
  | .glooFloat64 => .double_t

/-- `sizeof(T)` (`float_t`/`double_t` are float/double on x86-64 and arm64) -/
def CT.sizeof : CT → Nat
  | .int8_t | .uint8_t => 1
  | .float16 => 2
  | .int32_t | .uint32_t | .float_t => 4
  | .int64_t | .uint64_t | .double_t => 8

/-- an array after `convert_data_to_np_array` (utils.py:21-25): an ndarray is taken as it is, with any strides.
`cells`: addresses of its elements in C order -/
structure Arr where
  dtype : DT
  cells : List Nat
  deriving DecidableEq, Repr

/-- `arr.ctypes.data`: the first element -/
def Arr.ptr (a : Arr) : Nat := a.cells.head?.getD 0
/-- `arr.size` -/
def Arr.size (a : Arr) : Nat := a.cells.length
/-- the elements -/
def Arr.value (m : Mem) (a : Arr) : List Bytes := a.cells.map (fun c => read m c a.dtype.item)

/-- `CollectiveReduceOp` (common.py:40-49) -/
inductive ROp where
  | sum | product | min | max | band | bor | bxor | unused
  deriving DecidableEq, Repr

/-- the value of the IntEnum; `xp.ReduceOp(value)` picks the C++ enumerator with the same number -/
def ROp.code : ROp → Nat
  | .sum => 0 | .product => 1 | .min => 2 | .max => 3 | .band => 4 | .bor => 5 | .bxor => 6 | .unused => 7

/-- gloo's reduction functions -/
inductive Fn where
  | sum | product | min | max
  deriving DecidableEq, Repr

inductive Err where
  /-- KeyError of `TypeMappingGloo` -/
  | keyError
  /-- `std::runtime_error` of `toFunction`/`getReductionFunction` -/
  | runtimeError
  /-- gloo's own checks, or sizes that do not agree between the ranks -/
  | gloo
  deriving DecidableEq, Repr

/-- `toFunction<T>` (collective.h:42-68), `getReductionFunction<T>` (reduce_scatter.cc:20-47): the same for every `T` -/
def toFunction : Nat → Except Err Fn
  | 0 => .ok .sum
  | 1 => .ok .product
  | 2 => .ok .min
  | 3 => .ok .max
  | _ => .error .runtimeError

/-- a window of memory: pointer and number of bytes -/
structure Win where
  ptr : Nat
  len : Nat
  deriving DecidableEq, Repr

/-- what is handed to gloo -/
structure Call where
  dt : CT
  fn : Option Fn
  ins : List Win
  /-- `none`: no output of the caller's (not the root, or a scratch buffer) -/
  out : Option Win
  deriving DecidableEq, Repr

inductive Coll where
  | reduce (op : ROp) (root : Nat)
  | allreduce (op : ROp)
  | gather (root : Nat)
  | allgather
  | scatter (root : Nat)
  | reduceScatter (elems : List Nat) (op : ROp)
  | alltoall
  | broadcast (root : Nat)
  deriving DecidableEq, Repr

/-- arguments of one rank: `send` is `[]` for None (broadcast) and a list for scatter -/
structure Args where
  send : List Arr
  recv : Arr
  deriving DecidableEq, Repr

/-- the C++ type the wrapper is instantiated with -/
def typed (d : DT) : Except Err CT :=
  match d.gloo with
  | none => .error .keyError
  | some g => .ok g.ctype

/-- the array given as `send_data` where one is needed (an empty one otherwise, does not happen) -/
def Args.one (a : Args) : Arr := a.send.head?.getD ⟨a.recv.dtype, []⟩

/-- `ProcessGroupGloo.reduce`, … (process_group.py:173-342) and the C++ wrapper it calls -/
def prepare (w rank : Nat) : Coll → Args → Except Err Call
  -- process_group.py:173-198, reduce.cc:20-52: only the root's output is the caller's
  | .reduce op root, a => do
    let s := a.one
    let d ← typed s.dtype
    let f ← toFunction op.code
    .ok ⟨d, some f, [⟨s.ptr, s.size * d.sizeof⟩], if rank = root then some ⟨a.recv.ptr, s.size * d.sizeof⟩ else none⟩
  -- process_group.py:200-224, allreduce.cc:20-42
  | .allreduce op, a => do
    let s := a.one
    let d ← typed s.dtype
    let f ← toFunction op.code
    .ok ⟨d, some f, [⟨s.ptr, s.size * d.sizeof⟩], some ⟨a.recv.ptr, s.size * d.sizeof⟩⟩
  -- process_group.py:226-241, gather.cc:20-41
  | .gather root, a => do
    let s := a.one
    let d ← typed s.dtype
    .ok ⟨d, none, [⟨s.ptr, s.size * d.sizeof⟩], if rank = root then some ⟨a.recv.ptr, w * s.size * d.sizeof⟩ else none⟩
  -- process_group.py:243-251, allgather.cc:20-36
  | .allgather, a => do
    let s := a.one
    let d ← typed s.dtype
    .ok ⟨d, none, [⟨s.ptr, s.size * d.sizeof⟩], some ⟨a.recv.ptr, s.size * w * d.sizeof⟩⟩
  -- process_group.py:253-267, scatter.cc:20-42: `size` is the sum of all sizes, used for every input and for the output
  | .scatter _, a => do
    let d ← typed a.recv.dtype
    let size := (a.send.map Arr.size).sum
    .ok ⟨d, none, a.send.map (fun s => ⟨s.ptr, size * d.sizeof⟩), some ⟨a.recv.ptr, size * d.sizeof⟩⟩
  -- process_group.py:269-292, reduce_scatter.cc:49-76
  | .reduceScatter elems op, a => do
    let s := a.one
    let d ← typed s.dtype
    let f ← toFunction op.code
    .ok ⟨d, some f, [⟨s.ptr, s.size * d.sizeof⟩], some ⟨a.recv.ptr, (elems[rank]?).getD 0 * d.sizeof⟩⟩
  -- process_group.py:294-302, all_to_all.cc:20-35
  | .alltoall, a => do
    let s := a.one
    let d ← typed s.dtype
    .ok ⟨d, none, [⟨s.ptr, s.size * d.sizeof⟩], some ⟨a.recv.ptr, s.size * d.sizeof⟩⟩
  -- process_group.py:304-331, broadcast.cc:20-42: size and type of recv_data; in place if send_data is None
  | .broadcast root, a => do
    let d ← typed a.recv.dtype
    let p := match a.send with
      | [] => a.recv.ptr
      | s :: _ => s.ptr
    .ok ⟨d, none, if rank = root then [⟨p, a.recv.size * d.sizeof⟩] else [], some ⟨a.recv.ptr, a.recv.size * d.sizeof⟩⟩

/-! ## The contract of the gloo library -/

def Call.inLen (c : Call) : Nat := (c.ins.head?.map Win.len).getD 0
def Call.outLen (c : Call) : Nat := (c.out.map Win.len).getD 0

/-- elementwise reduction of byte strings with elements of `item` bytes; `red` on the elements of all ranks, in rank order -/
def combine (red : List Bytes → Bytes) (item n : Nat) (xs : List Bytes) : Bytes :=
  ((List.range (n / item)).map (fun k => red (xs.map (fun x => (x.drop (k * item)).take item)))).flatten

/-- output bytes of each rank; `none`: gloo's checks fail, or sizes, types or reductions differ between the ranks.
`c`: the call of rank 0; `data`: what is in the input windows of each rank; `red f d`: reduction `f` on elements of type `d` -/
def glooOn (red : Fn → CT → List Bytes → Bytes) (w : Nat) (op : Coll) (c : Call) (calls : List Call)
    (data : List (List Bytes)) : Option (List Bytes) :=
    let n := c.inLen
    let first := data.map (fun x => x.head?.getD [])
    if ¬ calls.all (fun x => x.dt = c.dt ∧ x.fn = c.fn) then none else
    match op with
    | .allgather =>
      if calls.all (fun x => x.inLen = n ∧ x.outLen = w * n) then some (List.replicate w first.flatten) else none
    | .gather root =>
      if root < w ∧ calls.all (fun x => x.inLen = n) ∧ ((calls[root]?).map Call.outLen) = some (w * n)
      then some (List.replicate w first.flatten) else none
    | .broadcast root =>
      if root < w ∧ calls.all (fun x => x.outLen = c.outLen) ∧ ((calls[root]?).map Call.inLen) = some c.outLen
      then some (List.replicate w ((first[root]?).getD [])) else none
    | .alltoall =>
      if calls.all (fun x => x.inLen = n ∧ x.outLen = n) ∧ n % w = 0 then
        some ((List.range w).map (fun r => (first.map (fun x => (x.drop (r * (n / w))).take (n / w))).flatten))
      else none
    | .scatter root =>
      if root < w ∧ calls.all (fun x => x.outLen = c.outLen) ∧
          ((calls[root]?).map (fun x => decide (x.ins.length = w ∧ x.ins.all (fun i => i.len = c.outLen)))) = some true
      then some ((List.range w).map (fun r => (((data[root]?).getD [])[r]?).getD [])) else none
    | .reduce _ root =>
      match c.fn with
      | none => none
      | some f =>
        if root < w ∧ calls.all (fun x => x.inLen = n) ∧ ((calls[root]?).map Call.outLen) = some n
        then some (List.replicate w (combine (red f c.dt) c.dt.sizeof n first)) else none
    | .allreduce _ =>
      match c.fn with
      | none => none
      | some f =>
        if calls.all (fun x => x.inLen = n ∧ x.outLen = n)
        then some (List.replicate w (combine (red f c.dt) c.dt.sizeof n first)) else none
    | .reduceScatter elems _ =>
      match c.fn with
      | none => none
      | some f =>
        if calls.all (fun x => x.inLen = n) ∧ elems.length = w ∧ elems.sum * c.dt.sizeof = n then
          some ((List.range w).map (fun r =>
            ((combine (red f c.dt) c.dt.sizeof n first).drop ((elems.take r).sum * c.dt.sizeof)).take ((elems[r]?).getD 0 * c.dt.sizeof)))
        else none

/-- `glooOn` with rank 0's call -/
def gloo (red : Fn → CT → List Bytes → Bytes) (w : Nat) (op : Coll) (calls : List Call) (data : List (List Bytes)) :
    Option (List Bytes) :=
  match calls with
  | [] => none
  | c :: _ => glooOn red w op c calls data

/-- the calls of the ranks, in order -/
def prepAll (w : Nat) (op : Coll) (args : Nat → Args) : List Nat → Except Err (List Call)
  | [] => .ok []
  | r :: rs => match prepare w r op (args r) with
    | .error e => .error e
    | .ok c => match prepAll w op args rs with
      | .error e => .error e
      | .ok cs => .ok (c :: cs)

/-- what the windows of a call contain -/
def Call.data (m : Mem) (c : Call) : List Bytes := c.ins.map (fun i => read m i.ptr i.len)

/-- the memory of a rank afterwards -/
def store (m : Mem) (c : Call) (bs : Bytes) : Mem :=
  match c.out with
  | none => m
  | some o => write m o.ptr bs

/-- all `w` ranks of a group call the operation; the memories afterwards -/
def run (red : Fn → CT → List Bytes → Bytes) (w : Nat) (op : Coll) (args : Nat → Args) (mem : Nat → Mem) : Except Err (Nat → Mem) :=
  match prepAll w op args (List.range w) with
  | .error e => .error e
  | .ok calls =>
    match gloo red w op calls ((List.range w).zip calls |>.map (fun x => x.2.data (mem x.1))) with
    | none => .error .gloo
    | some outs => .ok (fun r => match calls[r]?, outs[r]? with
      | some c, some bs => store (mem r) c bs
      | _, _ => mem r)

end Xoscar.Gloo
