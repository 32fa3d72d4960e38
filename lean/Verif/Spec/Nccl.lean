import Verif.Model.Nccl
/-!
# What the operations of a group should do

Arrays of every rank before (`S`, `R`), contents of every rank's receive buffer after.
-/
namespace Xoscar.Nccl

/-- the array has as many elements as its shape says -/
def Arr.WF {α : Type} (a : Arr α) : Prop := a.data.length = a.shape.prod

/-- the contents of ranks 0 … w-1, one after the other -/
def concat {α : Type} (w : Nat) (f : Nat → List α) : List α := ((List.range w).map f).flatten

/-- the `j`-th part of `k` elements -/
def block {α : Type} (k j : Nat) (l : List α) : List α := (l.drop (j * k)).take k

/-- element `i` of the result is the reduction of the elements `i` of all ranks, in rank order -/
def IsReduction {α : Type} (red : List α → α) (w n : Nat) (S : Nat → List α) (out : List α) : Prop :=
  out.length = n ∧ ∀ i, i < n → ∃ xs : List α, xs.length = w ∧ (∀ r, r < w → xs[r]? = (S r)[i]?) ∧ out[i]? = some (red xs)

/-- the meaning of the operations that NCCL has -/
def Meaning : ROp → Fn → Prop
  | .sum, .sum => True
  | .product, .prod => True
  | .min, .min => True
  | .max, .max => True
  | _, _ => False

end Xoscar.Nccl
