import Verif.Model.Nd

/-!
# PyTorch tensors (`serialization/torch.py`) and CuPy arrays (`serialization/cuda.py`)

A tensor is a window into its storage, as an array of `Model/Nd`; offset and strides are in bytes
here (PyTorch counts in elements).  The PyTorch operations used are transcribed from its
documentation and sources: `is_contiguous`, `contiguous`, `numpy`, `view(torch.uint8)`, `set_`.
-/
namespace Xoscar.Tensor
open Xoscar Xoscar.Nd

/-- Where a tensor lives. -/
inductive Dev | cpu | cuda | other
deriving DecidableEq

structure Ten where
  arr : Arr
  dev : Dev
  grad : Bool

/-- `is_contiguous(memory_format=torch.channels_last)`: four axes, walked in the order 1, 3, 2, 0. -/
def channelsLast (a : Arr) : Bool :=
  match a.shape, a.strides with
  | [n, c, h, w], [sn, sc, sh, sw] => contigFrom a.item [(c, sc), (w, sw), (h, sh), (n, sn)]
  | _, _ => false

/-- `obj.contiguous()` -/
def copyC (a : Arr) : Arr :=
  { mem := a.ravelC, off := 0, dtype := a.dtype, shape := a.shape, strides := cStrides a.item a.shape }

/-- `obj.view(torch.uint8)` works: the element size stays, or there is a last axis whose stride is
one element. -/
def viewable (a : Arr) : Bool :=
  a.item == 1 || a.strides.getLast? == some (a.item : Int)

inductive Fmt | numpy | bytes
deriving DecidableEq

/-- The header of `torch.py:42-48,72-79` with `format` of lines 53, 62. -/
structure Header where
  dtype : DType
  dev : Dev
  shape : List Nat
  strides : List Int
  grad : Bool
  fmt : Fmt

/-- `TorchTensorSerializer.serial` (`torch.py:34-102`).  `np` says whether `obj.numpy()` supports
the dtype; it also refuses tensors that require a gradient.  `none` is an exception. -/
def serial (np : DType → Bool) (t : Ten) : Option (Header × List Nat) :=
  match t.dev with
  | .cpu =>
    let o := if t.arr.cContig then t.arr else copyC t.arr
    let h := fun fmt => { dtype := o.dtype, dev := .cpu, shape := o.shape, strides := o.strides, grad := t.grad, fmt }
    if np o.dtype && !t.grad then some (h .numpy, o.ravelC)
    else if viewable o then some (h .bytes, o.ravelC)
    else none
  | .cuda =>
    let o := if t.arr.cContig || channelsLast t.arr then t.arr else copyC t.arr
    some ({ dtype := o.dtype, dev := .cuda, shape := o.shape, strides := o.strides, grad := t.grad, fmt := .bytes },
      o.mem)
  | .other => none

/-- `TorchTensorSerializer.deserial` (`torch.py:104-175`): `frombuffer(...).view(shape)` for the
`numpy` format, `set_(storage, 0, size, stride)` otherwise. -/
def deserial (h : Header) (buf : List Nat) : Option Ten :=
  match h.dev, h.fmt with
  | .cpu, .numpy =>
    if buf.length = h.shape.foldr (· * ·) 1 * h.dtype.size then
      some { arr := { mem := buf, off := 0, dtype := h.dtype, shape := h.shape, strides := cStrides h.dtype.size h.shape },
             dev := .cpu, grad := h.grad }
    else none
  | .other, _ => none
  | _, _ =>
    if checkStrides h.dtype.size h.shape h.strides buf.length then
      some { arr := { mem := buf, off := 0, dtype := h.dtype, shape := h.shape, strides := h.strides },
             dev := h.dev, grad := h.grad }
    else none

/-! ## CuPy -/

/-- The buffer of `cuda.py:37-39`: `nbytes` bytes from the first element. -/
def fromFirst (a : Arr) : List Nat :=
  (List.range (a.shape.foldr (· * ·) 1 * a.item)).map fun i => at' a.mem (a.off + (i : Nat))

/-- `CupySerializer.serial` (`cuda.py:29-40`). -/
def cupySerial (a : Arr) : DType × List Nat × List Int × List Nat :=
  let o := if a.cContig || a.fContig then a else copyC a
  (o.dtype, o.shape, o.strides, fromFirst o)

/-- `CupySerializer.deserial` (`cuda.py:42-49`). -/
def cupyDeserial (w : DType × List Nat × List Int × List Nat) : Arr :=
  { mem := w.2.2.2, off := 0, dtype := w.1, shape := w.2.1, strides := w.2.2.1 }

end Xoscar.Tensor
