import Verif.Model.Nd
/-!
# MLX arrays: serialization/mlx.py

An MLX array is an array of `Model/Nd` (memory, offset, strides; MLX makes such for slices).  Parameters of the model: how `str` writes a dtype, and
which dtype `mlx.core` has under a name.  MLX's operations as documented: `reshape(-1)` puts the elements in a row, `view` reinterprets the bytes of the
last axis (which must be a whole number of elements), `reshape` keeps the number of elements.
-/
namespace Xoscar.Mlx
open Xoscar.Nd

/-- what `memoryview` of a buffer gives: its bytes and its format -/
structure Buf where
  bytes : List Nat
  format : String

structure Header where
  shape : List Nat
  format : String
  dtype : String

/-- `str(obj.dtype).rsplit(".", 1)[-1]`, mlx.py:47, and `getattr(mx, name)`, 66 -/
structure Names where
  name : DType → String
  attr : String → Option DType

/-- `MLXSerislizer.serial`, mlx.py:42-53: both branches of 49 send the bytes in the order of the elements, as bytes (format "B") -/
def serial (N : Names) (a : Arr) : Header × Buf :=
  (⟨a.shape, "B", N.name a.dtype⟩, ⟨a.ravelC, "B"⟩)

/-- how many elements an array of a shape has -/
def prod : List Nat → Nat
  | [] => 1
  | n :: t => n * prod t

/-- an array in a row of bytes -/
def arrayOf (t : DType) (shape : List Nat) (bytes : List Nat) : Arr := ⟨bytes, 0, t, shape, cStrides t.size shape⟩

/-- `ravel_array.view(…).reshape(shape)`, 66; `none`: an error -/
def viewed (t : DType) (shape : List Nat) (bytes : List Nat) : Option Arr :=
  if 0 < t.size ∧ bytes.length = prod shape * t.size then some (arrayOf t shape bytes) else none

/-- `MLXSerislizer.deserial`, 55-66.  In the branch of 60 the name is replaced by a numpy type, with which `getattr` is a TypeError; before that
`reshape` fails unless an element is one byte. -/
def deserial (N : Names) (h : Header) (b : Buf) : Option Arr :=
  if b.format ≠ h.format then none
  else match N.attr h.dtype with
    | none => none
    | some t => viewed t h.shape b.bytes

end Xoscar.Mlx
