import Verif.Model.Reach
import Verif.Spec.Front
/-! # Numbers as text and who uses a name, written apart from the model -/
namespace Xoscar.Reach
open Xoscar.Front (sep IsScheme)
open scoped List

/-- a decimal number with optional single underscores between the digits -/
inductive Decimal : Text → Nat → Prop
  | one {c : Char} : c.isDigit = true → Decimal [c] (c.toNat - 48)
  | next {t : Text} {n : Nat} {c : Char} : Decimal t n → c.isDigit = true → Decimal (t ++ [c]) (n * 10 + (c.toNat - 48))
  | under {t : Text} {n : Nat} {c : Char} : Decimal t n → c.isDigit = true → Decimal (t ++ ['_', c]) (n * 10 + (c.toNat - 48))

/-- white space of ASCII -/
def Blank (c : Char) : Prop := c ∈ [' ', '\t', '\n', '\r', '\x0b', '\x0c']

/-- Python's integer literals as `int()` takes them -/
def Number (t : Text) (i : Int) : Prop :=
  ∃ (l d r : Text) (n : Nat), (∀ c ∈ l, Blank c) ∧ (∀ c ∈ r, Blank c) ∧ Decimal d n ∧
    ((t = l ++ d ++ r ∧ i = n) ∨ (t = l ++ '+' :: d ++ r ∧ i = n) ∨ (t = l ++ '-' :: d ++ r ∧ i = -n))

/-- the address says host `h` and port `p`: the last colon divides them -/
def Says (a h : Text) (p : Int) : Prop := ∃ t, a = h ++ ':' :: t ∧ ':' ∉ t ∧ Number t p

/-- the host is of the IPv6 family: it has a colon, apart from a scheme and the first `://` in front of it -/
def V6 (h : Text) : Prop :=
  (¬ sep <:+: h ∧ ':' ∈ h) ∨ ∃ p r, h = p ++ sep ++ r ∧ ¬ sep <:+: p ++ [':', '/'] ∧ ':' ∈ r

/-- `w` is the wildcard of the family of `h` -/
def Wild (h w : Text) : Prop := (V6 h ∧ w = [':', ':']) ∨ (¬ V6 h ∧ w = ['0', '.', '0', '.', '0', '.', '0'])

/-- a connection to host `h` arrives at a socket bound to `b`: the same address, or the wildcard of its family -/
def Takes (b h : Text) : Prop := b = h ∨ Wild h b

/-- what a server for host `h` is bound to: the host, or with `elastic` its wildcard -/
def Listens (elastic : Bool) (h b : Text) : Prop := (elastic = false ∧ b = h) ∨ (elastic = true ∧ Wild h b)

/-- what a configuration asks for -/
def Asks : Config → Text → Int → Prop
  | .address a, h, p => Says a h p
  | .hostPort h' p', h, p => h' = h ∧ p' = p

/-- no other server has to do with the name in this part of a history: nobody is created there, and the servers `old` that were created
there before neither bind nor remove it; and nobody else writes it -/
def Alone (p : Text) (old : List ULabel) (l : List ULabel) : Prop :=
  (∀ s i, ULabel.clear s i p ∉ l) ∧ (∀ s i, ULabel.clear s i p ∈ old → ULabel.bind s ∉ l ∧ ULabel.remove s ∉ l) ∧ ULabel.write p ∉ l

/-- the address has this scheme: it contains `://`, and what is before its first colon is a scheme name, in lower case -/
def HasScheme (a s : Text) : Prop := sep <:+: a ∧ ∃ p r, a = p ++ ':' :: r ∧ IsScheme p ∧ s = p.map Char.toLower

end Xoscar.Reach
