import Verif.Model.Reqs
/-!
# What the list of requirements should become

Uses of the model only the types, the library `Lib`, and `Value.format`'s documented table (stated again here).
-/
namespace Xoscar.Reqs

/-- the text of a value in a marker: a Python literal -/
inductive Literal : Value → Str → Prop
  | none : Literal .none ['N', 'o', 'n', 'e']
  | yes : Literal (.bool true) ['T', 'r', 'u', 'e']
  | no : Literal (.bool false) ['F', 'a', 'l', 's', 'e']
  | number {r} : Literal (.number r) r
  | json {d} : Literal (.json d) d

/-! ## Markers with placeholders -/

/-- `#name#` -/
def hole (name : Str) : Str := ['#'] ++ name ++ ['#']

/-- text, then placeholders each with the text after it -/
def template (fill : Str → Str) (head : Str) (rest : List (Str × Str)) : Str :=
  head ++ (rest.map (fun x => fill x.1 ++ x.2)).flatten

def sep (c : Char) : Bool := c ∈ [' ', '=', '<', '>', '!', '(', ')', ',', '"', '\'']

/-- no `#` but in the placeholders, and something between two placeholders that is not part of a name -/
def Separated (head : Str) : List (Str × Str) → Prop
  | [] => '#' ∉ head
  | x :: rest => '#' ∉ head ∧ '#' ∉ x.1 ∧ (rest ≠ [] → ∃ c ∈ x.2, sep c = true) ∧ Separated x.2 rest

/-- the first value for the name -/
inductive Bound : List (Str × Value) → Str → Value → Prop
  | here {n v l} : Bound ((n, v) :: l) n v
  | there {n m v w l} : m ≠ n → Bound l n v → Bound ((m, w) :: l) n v

/-! ## The list -/

/-- what starts one of these is a URL, not a requirement -/
def Url (s : Str) : Prop :=
  ∃ p r, s = p ++ r ∧ p ∈ ["git+".toList, "svn+".toList, "hg+".toList, "bzr+".toList, "http://".toList, "https://".toList]

/-- `s` is `base ; marker` -/
def Marked (s base marker : Str) : Prop := ';' ∉ base ∧ s = base ++ [';'] ++ marker

/-- white space -/
def blank (c : Char) : Bool := c ∈ [' ', '\t', '\n', '\x0b', '\x0c', '\r']

/-- without the white space at both ends -/
def Stripped (s t : Str) : Prop :=
  ∃ a b, s = a ++ t ++ b ∧ (∀ c ∈ a, blank c = true) ∧ (∀ c ∈ b, blank c = true) ∧
    (∀ c, t.head? = some c → blank c = false) ∧ (∀ c, t.getLast? = some c → blank c = false)

/-- what should become of one requirement: `none` when its marker is false -/
inductive Becomes (lib : Lib) (vars : List (Str × Value)) : Str → Option Out → Prop
  | url {s} : Url s → Becomes lib vars s (some (.raw s))
  | plain {s t r m} : ¬ Url s → ';' ∉ s → Stripped s t → lib.parse t = some (r, m) → Becomes lib vars s (some (.req r))
  | standard {s r} : ¬ Url s → ';' ∈ s → lib.parse s = some (r, some true) → Becomes lib vars s (some (.req r))
  | unmarked {s r} : ¬ Url s → ';' ∈ s → lib.parse s = some (r, none) → Becomes lib vars s (some (.req r))
  | standardOff {s r} : ¬ Url s → ';' ∈ s → lib.parse s = some (r, some false) → Becomes lib vars s none
  | custom {s base marker m b r x} : ¬ Url s → Marked s base marker → lib.parse s = none → Stripped marker m →
      lib.isCustom (substitute vars m) = true → lib.evalCustom (substitute vars m) = some true → Stripped base b →
      lib.parse b = some (r, x) → Becomes lib vars s (some (.req r))
  | customOff {s base marker m} : ¬ Url s → Marked s base marker → lib.parse s = none → Stripped marker m →
      lib.isCustom (substitute vars m) = true → lib.evalCustom (substitute vars m) = some false → Becomes lib vars s none

/-- every item of the first list becomes the one in the same place of the second -/
inductive Each {α β : Type} (R : α → β → Prop) : List α → List β → Prop
  | nil : Each R [] []
  | cons {a b l k} : R a b → Each R l k → Each R (a :: l) (b :: k)

/-- the version without the build metadata -/
inductive Base : Str → Str → Prop
  | whole {v} : '+' ∉ v → Base v v
  | cut {v b} : '+' ∉ v → Base (v ++ ['+'] ++ b) v

/-- what a placeholder of a system package becomes -/
inductive Resolves (lib : Lib) : Str → Str → Prop
  | system {name v w} : lib.version name = some v → Base v w →
      Resolves lib ("#system_".toList ++ name ++ ['#']) (name ++ ['=', '='] ++ w)
  | other {s} : (∀ name, s ≠ "#system_".toList ++ name ++ ['#']) → Resolves lib s s

end Xoscar.Reqs
