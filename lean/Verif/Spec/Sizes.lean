import Verif.Model.Sizes
/-!
# Specification: decimal numbers, units and what they stand for
-/
namespace Xoscar.Sizes

/-- a decimal number as written: sign, digits before the point, digits after it if there is a point -/
structure Decimal where
  neg : Bool
  int : Text
  frac : Option Text

/-- there are only digits, and at least one -/
def Decimal.Ok (d : Decimal) : Prop :=
  (∀ c ∈ d.int, c.isDigit = true) ∧ (∀ f, d.frac = some f → ∀ c ∈ f, c.isDigit = true) ∧ (d.int ≠ [] ∨ ∃ c f, d.frac = some (c :: f))

/-- how it is written -/
def Decimal.text (d : Decimal) : Text :=
  (if d.neg then ['-'] else []) ++ d.int ++ (match d.frac with | none => [] | some f => '.' :: f)

/-- the number it stands for: all its digits, over ten to the number of those after the point -/
def Decimal.value (d : Decimal) : Rat :=
  let f := d.frac.getD []
  (if d.neg then -1 else 1) * ((Nat.ofDigitChars 10 (d.int ++ f) 0 : Nat) : Rat) / ((10 ^ f.length : Nat) : Rat)

/-- the units, in either case -/
def unitOf (c : Char) : Option Nat :=
  if c = 'k' ∨ c = 'K' then some 1 else if c = 'm' ∨ c = 'M' then some 2 else if c = 'g' ∨ c = 'G' then some 3
  else if c = 't' ∨ c = 'T' then some 4 else none

/-- white space -/
def Blank (s : Text) : Prop := ∀ c ∈ s, c ∈ [' ', '\t', '\n', '\r', '\x0b', '\x0c']

/-- the first of these characters is none of a number's -/
def Apart (s : Text) : Prop := ∀ c, s.head? = some c → ¬ (c.isDigit = true ∨ c = '.' ∨ c = '-')

/-- what a text reads as: a number and whether it is a share.  `b₁`, `b₂`, `b₃` are white space. -/
inductive Reads : Text → Rat → Bool → Prop
  /-- a number alone -/
  | plain {b₁ b₃ : Text} {d : Decimal} : Blank b₁ → Blank b₃ → d.Ok → Reads (b₁ ++ d.text ++ b₃) d.value false
  /-- a number, and a word that begins with a unit -/
  | unit {b₁ b₂ u b₃ : Text} {c : Char} {k : Nat} {d : Decimal} : Blank b₁ → Blank b₂ → Blank b₃ → d.Ok → unitOf c = some k →
      (∀ e, (c :: u).getLast? = some e → ¬ Blank [e] ∧ e ≠ '%') →
      Reads (b₁ ++ d.text ++ (b₂ ++ c :: u) ++ b₃) (d.value * ((1024 ^ k : Nat) : Rat)) false
  /-- a number, and anything that ends in a percent sign -/
  | share {b₁ w b₃ : Text} {d : Decimal} : Blank b₁ → Blank b₃ → d.Ok → Apart w →
      Reads (b₁ ++ d.text ++ (w ++ ['%']) ++ b₃) (d.value / 100) true

end Xoscar.Sizes
