import Verif.Model.Dispatch

/-! # The serializer of a type, from the history of the registry -/
namespace Xoscar.Dispatch

/-- `c` is the serializer registered last for the type `k`, and not un-registered since. -/
def Using (ops : List ROp) (k : Key) (c : Nat) : Prop :=
  ∃ a b, ops = a ++ .register c k :: b ∧ (∀ c', .register c' k ∉ b) ∧ ∀ c', .unregister c' k ∉ b

/-- The id is given back in this history: a serializer with it is un-registered, from whatever type. -/
def GivenBack (sid : Nat → Nat) (i : Nat) (ops : List ROp) : Prop := ∃ c k, .unregister c k ∈ ops ∧ sid c = i

/-- Nobody has the id: after every registration of a serializer with it, it was given back. -/
def Free (sid : Nat → Nat) (ops : List ROp) (i : Nat) : Prop :=
  ∀ a c k b, ops = a ++ .register c k :: b → sid c = i → GivenBack sid i b

/-- `c` was the first to be registered with the id when nobody had it, and it has not been given back since. -/
def Owns (sid : Nat → Nat) (ops : List ROp) (i c : Nat) : Prop :=
  ∃ a k b, ops = a ++ .register c k :: b ∧ sid c = i ∧ Free sid a i ∧ ¬ GivenBack sid i b

end Xoscar.Dispatch
