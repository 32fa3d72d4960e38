import Verif.Model.Marker
/-!
# What an extended marker means

Python's own meaning of `and`, `or`, `not` and chained comparisons, with texts read as truth values, versions or GPU
architectures.  (Uses only the syntax trees and the values of the model.)
-/
namespace Xoscar.Marker

/-- the text in lower case -/
def lower (s : Str) : Str := s.map Char.toLower

def digits (s : Str) : Bool := s.all Char.isDigit

/-- the number decimal digits denote -/
def number : Str → Nat
  | [] => 0
  | c :: s => (c.toNat - 48) * 10 ^ s.length + number s

/-- what counts as true -/
def truthy : Val → Bool
  | .none => false
  | .bool b => b
  | .int n => n ≠ 0
  | .str s => s ≠ []
  | .ver _ => true

def yes : Str := ['t', 'r', 'u', 'e']
def no : Str := ['f', 'a', 'l', 's', 'e']

/-- components with dots between them -/
def dotted (parts : List Str) : Str := ['.'].intercalate parts

/-- what a value stands for where it is used: "true"/"false" in any case, dotted numbers and (in comparisons, `arch`) `sm_…`
are not mere texts.  A malformed version ("12.", "1..2") stands for nothing -/
inductive Reads (arch : Bool) : Val → Val → Prop
  | yes {s} : lower s = Marker.yes → Reads arch (.str s) (.bool true)
  | no {s} : lower s = Marker.no → Reads arch (.str s) (.bool false)
  | version {parts : List Str} : 2 ≤ parts.length → (∀ p ∈ parts, p ≠ [] ∧ digits p = true) →
      Reads arch (.str (dotted parts)) (.ver (parts.map number))
  | arch {r : Str} : arch = true → r ≠ [] → digits r = true → Reads arch (.str ('s' :: 'm' :: '_' :: r)) (.int (number r))
  | text {s : Str} : lower s ≠ Marker.yes → lower s ≠ Marker.no →
      (∀ parts : List Str, 2 ≤ parts.length → (∀ p ∈ parts, digits p = true) → s ≠ dotted parts) →
      (arch = true → ∀ r : Str, r ≠ [] → digits r = true → s ≠ 's' :: 'm' :: '_' :: r) →
      Reads arch (.str s) (.str s)
  | none : Reads arch .none .none
  | bool {b} : Reads arch (.bool b) (.bool b)
  | int {n} : Reads arch (.int n) (.int n)
  | ver {l} : Reads arch (.ver l) (.ver l)

/-- component `i` of a version; missing ones are 0 -/
def part (v : List Nat) (i : Nat) : Nat := (v[i]?).getD 0

def VerEq (a b : List Nat) : Prop := ∀ i, part a i = part b i
def VerLt (a b : List Nat) : Prop := ∃ i, part a i < part b i ∧ ∀ j, j < i → part a j = part b j

/-- order of texts: by the first character that differs, or a proper prefix -/
def TextLt (x y : Str) : Prop :=
  (∃ r, r ≠ [] ∧ y = x ++ r) ∨ ∃ p c d xs ys, x = p ++ c :: xs ∧ y = p ++ d :: ys ∧ c.toNat < d.toNat

/-- numbers: integers, and truth values as 0 and 1 -/
inductive Num : Val → Int → Prop
  | int {n} : Num (.int n) n
  | no : Num (.bool false) 0
  | yes : Num (.bool true) 1

inductive Equal : Val → Val → Prop
  | num {a b n} : Num a n → Num b n → Equal a b
  | ver {a b} : VerEq a b → Equal (.ver a) (.ver b)
  | str {s} : Equal (.str s) (.str s)
  | none : Equal .none .none

inductive Less : Val → Val → Prop
  | num {a b m n} : Num a m → Num b n → m < n → Less a b
  | ver {a b} : VerLt a b → Less (.ver a) (.ver b)
  | str {a b} : TextLt a b → Less (.str a) (.str b)

/-- values with an order between them: two numbers, two versions, two texts -/
inductive Ordered : Val → Val → Prop
  | num {a b m n} : Num a m → Num b n → Ordered a b
  | ver {a b} : Ordered (.ver a) (.ver b)
  | str {a b} : Ordered (.str a) (.str b)

/-- the comparison is defined and its outcome is `r` -/
inductive Compares : Op → Val → Val → Bool → Prop
  | eq {a b r} : (r = true ↔ Equal a b) → Compares .eq a b r
  | ne {a b r} : (r = true ↔ ¬ Equal a b) → Compares .ne a b r
  | lt {a b r} : Ordered a b → (r = true ↔ Less a b) → Compares .lt a b r
  | le {a b r} : Ordered a b → (r = true ↔ ¬ Less b a) → Compares .le a b r
  | gt {a b r} : Ordered a b → (r = true ↔ Less b a) → Compares .gt a b r
  | ge {a b r} : Ordered a b → (r = true ↔ ¬ Less a b) → Compares .ge a b r

mutual
/-- the meaning of a marker: `and`/`or` do not look at the right operand when the left one decides -/
inductive Means (env : Str → Option Val) : Expr → Val → Prop
  | andLeft {a b x} : Means env a x → truthy x = false → Means env (.and a b) x
  | andRight {a b x y} : Means env a x → truthy x = true → Means env b y → Means env (.and a b) y
  | orLeft {a b x} : Means env a x → truthy x = true → Means env (.or a b) x
  | orRight {a b x y} : Means env a x → truthy x = false → Means env b y → Means env (.or a b) y
  | not {a x} : Means env a x → Means env (.not a) (.bool (! truthy x))
  | compare {l rest x x' r} : Means env l x → Reads true x x' → ChainMeans env x' rest r → Means env (.compare l rest) (.bool r)
  | name {id v} : Reads false ((env id).getD .none) v → Means env (.name id) v
  | const {v} : Means env (.const v) v
/-- `x op right …`: true if every link holds; the links after the first that fails are not looked at -/
inductive ChainMeans (env : Str → Option Val) : Val → Chain → Bool → Prop
  | last {x op e y y' r} : Means env e y → Reads true y y' → Compares op x y' r → ChainMeans env x (.last op e) r
  | stop {x op e y y' rest} : Means env e y → Reads true y y' → Compares op x y' false → ChainMeans env x (.more op e rest) false
  | more {x op e y y' rest r} : Means env e y → Reads true y y' → Compares op x y' true → ChainMeans env y' rest r →
      ChainMeans env x (.more op e rest) r
end

mutual
/-- every operand of `and`/`or` has a meaning, also those that do not matter -/
def Whole (env : Str → Option Val) : Expr → Prop
  | .and a b => Whole env a ∧ Whole env b ∧ ∃ y, Means env b y
  | .or a b => Whole env a ∧ Whole env b ∧ ∃ y, Means env b y
  | .not a => Whole env a
  | .compare l rest => Whole env l ∧ ∀ x x', Means env l x → Reads true x x' → WholeChain env x' rest
  | _ => True
/-- the same of the comparisons that are reached -/
def WholeChain (env : Str → Option Val) (x : Val) : Chain → Prop
  | .last _ e => Whole env e
  | .more op e rest => Whole env e ∧ ∀ y y', Means env e y → Reads true y y' → Compares op x y' true → WholeChain env y' rest
end

end Xoscar.Marker
