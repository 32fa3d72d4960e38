import Verif.Model.Order
/-! Specification vocabulary for C80: the order of calls. -/
namespace Xoscar.Order

/-- Some calls on lanes with the given numbers of hops. -/
inductive Run (big : Nat → Bool) (ks : List Nat) : List Label → St → Prop where
  | init : Run big ks [] (init ks)
  | snoc {ls l st st'} : Run big ks ls st → step big st l = some st' → Run big ks (ls ++ [l]) st'

/-- `a` stands before `b`. -/
def Before {α : Type} (l : List α) (a b : α) : Prop := ∃ x y z, l = x ++ a :: (y ++ b :: z)

/-- `await ref.method.tell(...)` has returned on lane `x`: the message is written; with a local reference, the task has started. -/
def Returned (x : Lane) (c : Nat) : Prop :=
  match x.hops with
  | [] => c ∉ x.last
  | h :: _ => c ∉ h.ready ∧ c ∉ h.threads

end Xoscar.Order
