import Verif.Model.Subproc
/-! Specification vocabulary for C79: the output of commands. -/
namespace Xoscar.Subproc

/-- A command, what it leaves behind, and the steps taken so far. -/
inductive Run (e : Env) (script : List (Bool × Nat)) (heir : Option (List (Bool × Nat))) : List Label → St → Prop where
  | init : Run e script heir [] (init script heir)
  | snoc {ls l st st'} : Run e script heir ls st → step e st l = some st' → Run e script heir (ls ++ [l]) st'

/-- Unicode scalar values. -/
def Scalar (c : Nat) : Prop := c < 0xD800 ∨ (0xE000 ≤ c ∧ c < 0x110000)

/-- UTF-8. -/
def utf8 (c : Nat) : List Nat :=
  if c < 0x80 then [c]
  else if c < 0x800 then [0xC0 + c / 64, 0x80 + c % 64]
  else if c < 0x10000 then [0xE0 + c / 4096, 0x80 + c / 64 % 64, 0x80 + c % 64]
  else [0xF0 + c / 262144, 0x80 + c / 4096 % 64, 0x80 + c / 64 % 64, 0x80 + c % 64]

/-- An ANSI control sequence: ESC, `[`, parameter bytes, intermediate bytes, one final byte. -/
def Ansi (s : List Nat) : Prop :=
  ∃ ps is f, s = [27, 91] ++ ps ++ is ++ [f] ∧ (∀ c ∈ ps, 0x30 ≤ c ∧ c ≤ 0x3F) ∧ (∀ c ∈ is, 0x20 ≤ c ∧ c ≤ 0x2F) ∧ 0x40 ≤ f ∧ f ≤ 0x7E

/-- The text with the control sequences taken out, read from left to right. -/
inductive Cleaned : List Nat → List Nat → Prop where
  | nil : Cleaned [] []
  | seq {a s t} : Ansi a → Cleaned s t → Cleaned (a ++ s) t
  | char {c s t} : (∀ a r, c :: s = a ++ r → ¬ Ansi a) → Cleaned s t → Cleaned (c :: s) (c :: t)

/-- The lines of a byte string: all of it in order, each ends in its only newline, except that the last may lack it; none is empty. -/
structure Lines (bs : List Nat) (ls : List (List Nat)) : Prop where
  all : ls.flatten = bs
  nonempty : ∀ l ∈ ls, l ≠ []
  inside : ∀ l ∈ ls, ∀ a b, l = a ++ 10 :: b → b = []
  ends : ∀ a l b, ls = a ++ l :: b → b ≠ [] → 10 ∈ l

/-- A text without its newline at the end. -/
def Chomped (s t : List Nat) : Prop := (s = t ∧ ∀ u, s ≠ u ++ [10]) ∨ s = t ++ [10]

/-- The log message `m` for the text `s` of a line. -/
def Message (s m : List Nat) : Prop := ∃ t, Chomped s t ∧ Cleaned t m

end Xoscar.Subproc
