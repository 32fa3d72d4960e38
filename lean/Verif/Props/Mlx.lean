import Verif.Model.Mlx
import Verif.Props.Tensor
/-!
# C106: MLX arrays
-/
namespace Xoscar.Mlx
open Xoscar.Nd

theorem prod_count (sh : List Nat) : prod sh = count sh := by
  induction sh with
  | nil => rfl
  | cons n t ih => simp [prod, count] at *; rw [ih]

theorem sent_length {a : Arr} (hv : a.Valid) : a.ravelC.length = prod a.shape * a.dtype.size := by
  rw [prod_count, Arr.ravelC, flatten_length _ _ _ _ _ hv.1]; rfl

/-- **C106** An MLX array arrives with its type, shape and elements, however it lies in memory, when MLX has the type under the name it prints for it. -/
theorem arrives (N : Names) (a : Arr) (hv : a.Valid) (hn : N.attr (N.name a.dtype) = some a.dtype) {h : Header} {b : Buf} (hs : serial N a = (h, b)) :
    ∃ c, deserial N h b = some c ∧ SameArray a c := by
  cases hs
  refine ⟨arrayOf a.dtype a.shape a.ravelC, ?_, ?_⟩
  · have : 0 < a.dtype.size := hv.2
    simp [deserial, hn, viewed, sent_length hv, this]
  · exact Tensor.same_of_ravelC a hv (cStrides_length _ _) fun _ => cStrides_contig _ _

/-- **C106** and only then: with another type under that name, or none, it does not. -/
theorem arrives_iff (N : Names) (a : Arr) (hv : a.Valid) {h : Header} {b : Buf} (hs : serial N a = (h, b)) :
    (∃ c, deserial N h b = some c ∧ SameArray a c) ↔ N.attr (N.name a.dtype) = some a.dtype := by
  constructor
  · rintro ⟨c, hc, hd⟩
    cases hs
    simp only [deserial, ne_eq, not_true_eq_false, if_false] at hc
    split at hc
    · cases hc
    · next t ht =>
      unfold viewed at hc
      split at hc
      · cases hc
        have : t = a.dtype := hd.2.1
        rw [ht, this]
      · cases hc
  · intro hn; exact arrives N a hv hn hs

/-- **Refuted**: "every MLX array can be received": not the arrays of a type MLX does not have under the name it prints; they are sent all the same. -/
theorem name_refuted (N : Names) (a : Arr) (hn : N.attr (N.name a.dtype) = none) {h : Header} {b : Buf} (hs : serial N a = (h, b)) : deserial N h b = none := by
  cases hs
  simp [deserial, hn]

/-- **Refuted**: "a buffer that shows its bytes in another format is converted": every array received in one is an error (a memoryview over a C array has format "<B"). -/
theorem format_refuted (N : Names) (a : Arr) {h : Header} {b : Buf} (hs : serial N a = (h, b)) (b' : Buf) (hb : b'.format ≠ "B") : deserial N h b' = none := by
  cases hs
  simp [deserial, hb]

/-- **C106** a buffer of the wrong length is an error, never an array. -/
theorem length_checked (N : Names) {h : Header} {b : Buf} {c : Arr} (hc : deserial N h b = some c) :
    c.shape = h.shape ∧ N.attr h.dtype = some c.dtype ∧ b.bytes.length = count c.shape * c.dtype.size := by
  unfold deserial at hc
  split at hc
  · cases hc
  · split at hc
    · cases hc
    · next t ht =>
      unfold viewed at hc
      split at hc
      · next hl => cases hc; exact ⟨rfl, ht, by rw [hl.2, prod_count]; rfl⟩
      · cases hc

/-! ## The hypotheses are met -/

def exN : Names := ⟨fun t => match t with | .scalar s _ => s | _ => "", fun s => if s = "int16" then some (.scalar "int16" 2) else none⟩
/-- a transposed table -/
def exA : Arr := ⟨[1, 0, 2, 0, 3, 0, 4, 0, 5, 0, 6, 0], 0, .scalar "int16" 2, [3, 2], [2, 6]⟩
example : exA.Valid := ⟨rfl, by show 0 < 2; omega⟩
example : exN.attr (exN.name exA.dtype) = some exA.dtype := by simp [exN, exA]
example : (serial exN exA).2.bytes = [1, 0, 4, 0, 2, 0, 5, 0, 3, 0, 6, 0] := by rfl
example : exN.attr (exN.name (.scalar "bool" 1)) = none := by simp [exN]

end Xoscar.Mlx
