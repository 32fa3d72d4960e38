import Verif.Model.Nd

/-! Specification vocabulary for array round trips. -/
namespace Xoscar.Nd

/-- `idx` is an index of an array of this shape. -/
def InRange : List Nat → List Nat → Prop
  | [], [] => True
  | i :: is, n :: ns => i < n ∧ InRange is ns
  | _, _ => False

/-- The array has an element at `idx`, whose bytes are `Arr.byte idx 0 … item-1`. -/
def Arr.Valid (a : Arr) : Prop := a.strides.length = a.shape.length ∧ 0 < a.item

/-- Number of elements of an array of a shape. -/
def count (shape : List Nat) : Nat := shape.foldr (· * ·) 1

/-- One field ends before the other begins. -/
def Before (x y : FieldRow) : Prop := x.2.1 + x.2.2.size ≤ y.2.1

mutual
/-- The facts NumPy guarantees of every dtype (names of fields are distinct and not empty, fields
lie inside the item), without objects or empty scalars. -/
def DType.WF : DType → Prop
  | .scalar _ n => 0 < n
  | .object => False
  | .struct fs n => 0 < n ∧ (fs.toList.map (·.1)).Nodup ∧ fs.WF n
def Fields.WF (size : Nat) : Fields → Prop
  | .nil => True
  | .cons name o t r => name ≠ "" ∧ t.WF ∧ o + t.size ≤ size ∧ r.WF size
end

mutual
/-- All fields, at every level, are in the order of their offsets and do not overlap. -/
def DType.Ordered : DType → Prop
  | .struct fs _ => fs.toList.Pairwise Before ∧ fs.Ordered
  | _ => True
def Fields.Ordered : Fields → Prop
  | .nil => True
  | .cons _ _ t r => t.Ordered ∧ r.Ordered
end

/-- The dtypes that can be sent: the fields of the array do not overlap (in any order), and the
fields of nested records are in the order of their offsets. -/
def DType.Sendable : DType → Prop
  | .struct fs _ => fs.toList.Pairwise (fun x y => Before x y ∨ Before y x) ∧ fs.Ordered
  | _ => True

/-- The dtype is, or has somewhere inside, Python objects. -/
inductive DType.Holds : DType → Prop
  | object : DType.Holds .object
  | field {fs : Fields} {n : Nat} {row : FieldRow} : row ∈ fs.toList → DType.Holds row.2.2 → DType.Holds (.struct fs n)

end Xoscar.Nd
