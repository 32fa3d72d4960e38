import Verif.Model.Tensor
/-!
# Layouts, for C55

Written without the tests the code uses.
-/
namespace Xoscar.Tensor
open Xoscar Xoscar.Nd

/-- how many elements -/
def elems : List Nat → Nat
  | [] => 1
  | n :: sh => n * elems sh

/-- every axis (of length other than 1) steps over all the elements of the axes after it -/
def RowMajor (item : Nat) : List Nat → List Int → Prop
  | n :: sh, s :: st => (n ≠ 1 → s = ((item * elems sh : Nat) : Int)) ∧ RowMajor item sh st
  | _, _ => True

/-- images (number, channel, row, column) stored with the channels of a pixel next to each other, then the columns, then the rows -/
def Pixels (item : Nat) (shape : List Nat) (strides : List Int) : Prop :=
  ∃ n c h w sn sc sh sw, shape = [n, c, h, w] ∧ strides = [sn, sc, sh, sw] ∧
    (c ≠ 1 → sc = (item : Nat)) ∧ (w ≠ 1 → sw = ((item * c : Nat) : Int)) ∧ (h ≠ 1 → sh = ((item * c * w : Nat) : Int)) ∧
    (n ≠ 1 → sn = ((item * c * w * h : Nat) : Int))

/-- the tensor is sent as it lies in its storage -/
def Dense (a : Arr) : Prop := 0 ∈ a.shape ∨ RowMajor a.item a.shape a.strides ∨ Pixels a.item a.shape a.strides

end Xoscar.Tensor
