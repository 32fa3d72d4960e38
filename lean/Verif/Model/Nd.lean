import Verif.Model.Base

/-!
# Array serializers

`serialization/numpy.py`, `serialization/scipy.py` and the parts of NumPy they call
(`ndarray.flags`, `ravel`, `ascontiguousarray`, the `ndarray` constructor, `dtype.descr`,
`np.lib.format.descr_to_dtype`), transcribed from NumPy's documentation and sources.

An array is a window of bytes seen through a shape and strides.  Memory is a list of bytes
(`Nat`); strides and offsets are integers, so negative and zero strides, overlapping views and
views into the middle of another array are all included.
-/
namespace Xoscar.Nd
open Xoscar

/-! ## dtypes -/

mutual
/-- NumPy dtypes: a scalar dtype is known by its `str` (`'<f8'`) and size; a structured dtype by
its fields and size.  `numpy.py:27,37-46`.  Simplification: no titles, no metadata, no sub-array
dtypes; `object` stands for any dtype with `hasobject`. -/
inductive DType
  | scalar (str : String) (size : Nat)
  | object
  | struct (fields : Fields) (size : Nat)
/-- Fields in the order of `dtype.names`: name, offset, dtype. -/
inductive Fields
  | nil
  | cons (name : String) (off : Nat) (ty : DType) (rest : Fields)
end

mutual
/-- `dtype.descr`: what is put in the header (`numpy.py:50-51`). -/
inductive Descr
  | str (str : String) (size : Nat)
  | list (items : DescrItems)
inductive DescrItems
  | nil
  | cons (name : String) (ty : Descr) (rest : DescrItems)
end

/-- `dtype.itemsize` -/
def DType.size : DType → Nat
  | .scalar _ n => n
  | .object => 8
  | .struct _ n => n

mutual
/-- `dtype.hasobject`, used at `numpy.py:27`. -/
def DType.hasObject : DType → Bool
  | .scalar .. => false
  | .object => true
  | .struct fs _ => fs.hasObject
def Fields.hasObject : Fields → Bool
  | .nil => false
  | .cons _ _ t r => t.hasObject || r.hasObject
end

/-- A field with its name and offset. -/
abbrev FieldRow := String × Nat × DType

def Fields.toList : Fields → List FieldRow
  | .nil => []
  | .cons n o t r => (n, o, t) :: r.toList

def Fields.ofList : List FieldRow → Fields
  | [] => .nil
  | (n, o, t) :: r => .cons n o t (Fields.ofList r)

/-- The padding entry `('', '|V<num>')` of `numpy._core._internal._array_descr`. -/
def padItem (num : Nat) (rest : DescrItems) : DescrItems :=
  .cons "" (.str "|V" num) rest

mutual
/-- `np.lib.format.dtype_to_descr`, called at `numpy.py:38,45`; `none` is the `ValueError` for
overlapping or out-of-order fields. -/
def DType.toDescr : DType → Option Descr
  | .scalar s n => some (.str s n)
  | .object => some (.str "|O" 8)
  | .struct fs n => (fs.toItems 0 n).map .list
/-- The loop of `_array_descr` over the fields, with the running `offset`. -/
def Fields.toItems (offset size : Nat) : Fields → Option DescrItems
  | .nil => if offset < size then some (padItem (size - offset) .nil) else some .nil
  | .cons name o t r =>
    if o < offset then none
    else match t.toDescr, r.toItems (o + t.size) size with
      | some d, some items =>
        some (if offset < o then padItem (o - offset) (.cons name d items) else .cons name d items)
      | _, _ => none
end

/-- `name == '' and dt.type is numpy.void and dt.names is None` in `descr_to_dtype`. -/
def isPad (name : String) : DType → Bool
  | .scalar s _ => name == "" && s == "|V"
  | _ => false

mutual
/-- `np.lib.format.descr_to_dtype`, called at `numpy.py:65`. -/
def Descr.toDType : Descr → DType
  | .str s n => .scalar s n
  | .list items => .struct (items.toFields 0) (items.total 0)
/-- The fields found by the loop of `descr_to_dtype`, from the running offset. -/
def DescrItems.toFields (offset : Nat) : DescrItems → Fields
  | .nil => .nil
  | .cons name d r =>
    if isPad name d.toDType then r.toFields (offset + d.toDType.size)
    else .cons name offset d.toDType (r.toFields (offset + d.toDType.size))
/-- The offset after the loop: the item size. -/
def DescrItems.total (offset : Nat) : DescrItems → Nat
  | .nil => offset
  | .cons _ d r => r.total (offset + d.toDType.size)
end

/-- `sorted(fields, key=lambda k: fields[k][1])` (`numpy.py:44`): a stable sort by offset. -/
def insertField (x : FieldRow) : List FieldRow → List FieldRow
  | [] => [x]
  | y :: r => if x.2.1 ≤ y.2.1 then x :: y :: r else y :: insertField x r

def sortFields : List FieldRow → List FieldRow
  | [] => []
  | x :: r => insertField x (sortFields r)

/-- `dtype[names]`: the named fields, keeping offsets and item size (`numpy.py:45,72`); `none` is
the `KeyError` for an unknown name. -/
def select (names : List String) : DType → Option DType
  | .struct fs n => (names.mapM fun k => fs.toList.find? (·.1 == k)).map
      fun l => .struct (Fields.ofList l) n
  | _ => none

/-- `dtype.fields` as rows; `list(fields)` are the names in order. -/
def DType.rows : DType → List FieldRow
  | .struct fs _ => fs.toList
  | _ => []

/-- `numpy.py:37-46`: `(desc, dtype_new_order)`, or the `ValueError` of the second attempt. -/
def describe (d : DType) : Option (Descr × List String) :=
  match d.toDescr with
  | some x => some (x, [])
  | none =>
    match select ((sortFields d.rows).map (·.1)) d with
    | some d' => d'.toDescr.map fun x => (x, d.rows.map (·.1))
    | none => none

/-- `numpy.py:64-72`: the dtype of the received array. -/
def undescribe (x : Descr) (order : List String) : Option DType :=
  if order.isEmpty then some x.toDType else select order x.toDType

/-! ## Arrays -/

/-- An `ndarray`: a window into `mem`. -/
structure Arr where
  mem : List Nat
  off : Int
  dtype : DType
  shape : List Nat
  strides : List Int

/-- The byte of memory at an address. -/
def at' (mem : List Nat) (p : Int) : Nat := mem.getD p.toNat 0

/-- `Σ idx * stride` -/
def dot : List Nat → List Int → Int
  | i :: is, s :: ss => i * s + dot is ss
  | _, _ => 0

def Arr.item (a : Arr) : Nat := a.dtype.size

/-- Byte `k` of the element at index `idx`. -/
def Arr.byte (a : Arr) (idx : List Nat) (k : Nat) : Nat :=
  at' a.mem (a.off + dot idx a.strides + k)

/-- The bytes of all elements, the last index moving fastest. -/
def flatten (mem : List Nat) (item : Nat) : List Nat → List Int → Int → List Nat
  | [], _, p => (List.range item).map fun k => at' mem (p + (k : Nat))
  | _ :: _, [], _ => []
  | n :: sh, s :: st, p => (List.range n).flatMap fun i => flatten mem item sh st (p + (i : Nat) * s)

/-- `obj.ravel(order="C")` as bytes -/
def Arr.ravelC (a : Arr) : List Nat := flatten a.mem a.item a.shape a.strides a.off
/-- `obj.ravel(order="F")` as bytes: the first index moves fastest. -/
def Arr.ravelF (a : Arr) : List Nat :=
  flatten a.mem a.item a.shape.reverse a.strides.reverse a.off

/-- The contiguity test of `_UpdateContiguousFlags` over the axes from the fastest one; axes of
length 1 do not count. -/
def contigFrom (sd : Nat) : List (Nat × Int) → Bool
  | [] => true
  | (n, s) :: r => if n = 1 then contigFrom sd r else s == (sd : Int) && contigFrom (sd * n) r

/-- `obj.flags.f_contiguous` (`numpy.py:33`); arrays without elements count as contiguous. -/
def Arr.fContig (a : Arr) : Bool :=
  a.shape.contains 0 || contigFrom a.item (a.shape.zip a.strides)
/-- `obj.flags.c_contiguous` (`numpy.py:35`) -/
def Arr.cContig (a : Arr) : Bool :=
  a.shape.contains 0 || contigFrom a.item (a.shape.zip a.strides).reverse

/-- The strides of a fresh C-ordered array. -/
def cStrides (item : Nat) : List Nat → List Int
  | [] => []
  | _ :: sh => ((item * sh.foldr (· * ·) 1 : Nat) : Int) :: cStrides item sh

/-- `np.ascontiguousarray(obj)` for an array that is not contiguous (`numpy.py:36`): a C-ordered
copy (padding bytes inside structured elements are copied too, where NumPy may leave them
undefined).  (On 0-d arrays, which are always contiguous, it would add an axis.) -/
def Arr.ascontiguous (a : Arr) : Arr :=
  if a.cContig then a
  else { mem := a.ravelC, off := 0, dtype := a.dtype, shape := a.shape,
         strides := cStrides a.item a.shape }

inductive Order | C | F
deriving DecidableEq

/-- The header of `numpy.py:47-56`. -/
structure Header where
  descr : Descr
  newOrder : List String
  shape : List Nat
  strides : List Int
  order : Order

/-- What `serial` returns: pickled, or a header with one buffer (`numpy.py:25-57`). -/
inductive Wire
  | pickled (a : Arr)
  | raw (h : Header) (buf : List Nat)

/-- The `order` chosen at `numpy.py:32-34`. -/
def Arr.order (a : Arr) : Order := if a.fContig then .F else .C
/-- The array after `numpy.py:32-36`. -/
def Arr.prepared (a : Arr) : Arr := if a.fContig then a else a.ascontiguous

/-- `obj.ravel(order=order).view("uint8")` (`numpy.py:57`): the buffer sent. -/
def Arr.sent (a : Arr) : List Nat :=
  match a.order with | .C => a.prepared.ravelC | .F => a.prepared.ravelF

/-- `NDArraySerializer.serial` (`numpy.py:24-57`); `none` is the `ValueError` of line 45.
`pickle_buffers` of object arrays is opaque. -/
def serial (a : Arr) : Option Wire :=
  if a.dtype.hasObject then some (.pickled a)
  else
    match describe a.dtype with
    | none => none
    | some (descr, newOrder) =>
      let o := a.prepared
      some (.raw { descr, newOrder, shape := o.shape, strides := o.strides, order := a.order } a.sent)

/-- `offset_bounds_from_strides` of NumPy: the lowest and highest address used, relative to the
first element, without the item size. -/
def bounds : List Nat → List Int → Int × Int
  | n :: sh, s :: st =>
    let (lo, hi) := bounds sh st
    if 0 < s * ((n : Int) - 1) then (lo, hi + s * ((n : Int) - 1)) else (lo + s * ((n : Int) - 1), hi)
  | _, _ => (0, 0)

/-- `PyArray_CheckStrides` for offset 0: do all elements lie in the buffer? -/
def checkStrides (item : Nat) (shape : List Nat) (strides : List Int) (len : Nat) : Bool :=
  shape.length == strides.length &&
  (shape.contains 0 ||
    (decide (0 ≤ (bounds shape strides).1) && decide ((bounds shape strides).2 + item ≤ len)))

/-- `NDArraySerializer.deserial` (`numpy.py:59-79`); `none` is a `ValueError` or `KeyError`.
When strides are given the `order` argument of `np.ndarray` has no effect. -/
def deserial : Wire → Option Arr
  | .pickled a => some a
  | .raw h buf =>
    match undescribe h.descr h.newOrder with
    | none => none
    | some dtype =>
      if checkStrides dtype.size h.shape h.strides buf.length then
        some { mem := buf, off := 0, dtype, shape := h.shape, strides := h.strides }
      else none

/-! ## Sparse matrices (`serialization/scipy.py`) -/

/-- A CSR matrix: three arrays and a shape. -/
structure Csr (A : Type) where
  data : A
  indices : A
  indptr : A
  shape : List Nat

/-- The header of `scipy.py:34-41`. -/
structure CsrHeader (H : Type) where
  dataH : H
  dataN : Nat
  idxH : H
  idxN : Nat
  ptrH : H
  shape : List Nat

/-- `CsrMatrixSerializer.serial` (`scipy.py:29-42`) over a serializer of the parts. -/
def csrSerial {A H B : Type} (ser : A → H × List B) (m : Csr A) : CsrHeader H × List B :=
  let d := ser m.data
  let i := ser m.indices
  let p := ser m.indptr
  ({ dataH := d.1, dataN := d.2.length, idxH := i.1, idxN := i.2.length, ptrH := p.1,
     shape := m.shape }, d.2 ++ i.2 ++ p.2)

/-- `CsrMatrixSerializer.deserial` (`scipy.py:44-68`). -/
def csrDeserial {A H B : Type} (de : H → List B → Option A) (h : CsrHeader H) (subs : List B) :
    Option (Csr A) :=
  match de h.dataH (subs.take h.dataN),
        de h.idxH ((subs.take (h.dataN + h.idxN)).drop h.dataN),
        de h.ptrH (subs.drop (h.dataN + h.idxN)) with
  | some data, some indices, some indptr => some { data, indices, indptr, shape := h.shape }
  | _, _, _ => none

end Xoscar.Nd
