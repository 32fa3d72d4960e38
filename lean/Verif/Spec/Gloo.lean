import Verif.Model.Gloo
/-!
# What the documentation of the collective operations promises (collective/core.py:418-780), on arrays

`vals q` are the elements rank `q` sends.
-/
namespace Xoscar.Gloo

/-- C-contiguous: the elements follow each other -/
def Contig (a : Arr) : Prop := ∀ (i : Nat), i < a.size → a.cells[i]? = some (a.ptr + i * a.dtype.item)

/-- an address that does not belong to the buffer of the array -/
def Outside (a : Arr) (p : Nat) : Prop := p < a.ptr ∨ a.ptr + a.size * a.dtype.item ≤ p

/-- the array holds `v` now and nothing else in memory has changed -/
def Got (m m' : Mem) (a : Arr) (v : List Bytes) : Prop :=
  a.value m' = v ∧ ∀ p, Outside a p → m' p = m p

/-- element `i` of the result: the elements `i` of all ranks, reduced -/
def reduced (red : List Bytes → Bytes) (w k : Nat) (vals : Nat → List Bytes) : List Bytes :=
  (List.range k).map (fun i => red ((List.range w).map (fun q => ((vals q)[i]?).getD [])))

/-- the arrays of all ranks, one after the other -/
def concatenated (w : Nat) (vals : Nat → List Bytes) : List Bytes := (List.range w).flatMap vals

/-- part `r` of the array of every rank, one after the other; parts of `k` elements -/
def transposed (w k : Nat) (vals : Nat → List Bytes) (r : Nat) : List Bytes :=
  (List.range w).flatMap (fun q => ((vals q).drop (r * k)).take k)

/-- a proper argument: contiguous, of the type, of the size -/
structure Good (d : DT) (k : Nat) (a : Arr) : Prop where
  contig : Contig a
  dtype : a.dtype = d
  size : a.size = k

/-- what CollectiveReduceOp's names mean -/
inductive Meaning : ROp → Fn → Prop
  | sum : Meaning .sum .sum
  | product : Meaning .product .product
  | min : Meaning .min .min
  | max : Meaning .max .max

/-- the C++ type with the values of a NumPy type -/
inductive Same : DT → CT → Prop
  | int8 : Same .int8 .int8_t
  | uint8 : Same .uint8 .uint8_t
  | int32 : Same .int32 .int32_t
  | uint32 : Same .uint32 .uint32_t
  | int64 : Same .int64 .int64_t
  | uint64 : Same .uint64 .uint64_t
  | float16 : Same .float16 .float16
  | float32 : Same .float32 .float_t
  | float64 : Same .float64 .double_t

end Xoscar.Gloo
