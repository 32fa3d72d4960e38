import Verif.Model.Front
/-! # What schemes are (RFC 3986), written apart from the model -/
namespace Xoscar.Front

/-- a letter, then letters, digits, plus, minus, dot -/
def IsScheme (s : List Char) : Prop :=
  ∃ c rest, s = c :: rest ∧ c.isAlpha = true ∧ ∀ x ∈ rest, x.isAlpha = true ∨ x.isDigit = true ∨ x ∈ ['+', '-', '.']

/-- the three characters between scheme and rest -/
def sep : List Char := [':', '/', '/']

/-- the last class registered for a scheme in a history (oldest first) -/
inductive LastReg (s : Option (List Char)) : List Event → Cls → Prop
  | here {es k} : LastReg s (es ++ [.register s k]) k
  | later {es k e} : LastReg s es k → (∀ k', e ≠ Event.register s k') → LastReg s (es ++ [e]) k

/-- the pairs with an address -/
def pairs {ρ : Type} (m : List (Option Addr × ρ)) : List (Addr × ρ) := m.filterMap fun p => p.1.map fun a => (a, p.2)

end Xoscar.Front
