import Verif.Model.Base
/-!
# Extended markers of requirements: `eval_custom_marker` (virtualenv/core.py:200-278)

The marker is taken after `ast.parse`: the syntax tree.  `a and b and c` is the tree `(a and b) and c`, which the loop over
`node.values` (239-245) evaluates the same way.  Simplified: floats and non-ASCII digits are left out, and `int()` in `sm_…`
takes plain digits only (not `+8`, `8_0`).
-/
namespace Xoscar.Marker

abbrev Str := List Char

/-- Python values that occur; `ver` is `packaging.version.Version` of a dotted number -/
inductive Val where
  | none
  | bool (b : Bool)
  | int (n : Int)
  | str (s : Str)
  | ver (release : List Nat)
  deriving DecidableEq, Repr

inductive Err where
  | typeError | keyError | valueError
  /-- `InvalidVersion`, a ValueError of packaging -/
  | invalidVersion
  deriving DecidableEq, Repr

/-- comparison operators of the syntax; `other`: in, not in, is, is not -/
inductive Op where
  | eq | ne | lt | le | gt | ge | other
  deriving DecidableEq, Repr

mutual
/-- `ast` expressions -/
inductive Expr where
  | and (a b : Expr)
  | or (a b : Expr)
  | not (a : Expr)
  | compare (left : Expr) (rest : Chain)
  | name (id : Str)
  | const (v : Val)
  /-- calls, arithmetic, attributes, … -/
  | unsupported
/-- `ops` and `comparators` of `ast.Compare` -/
inductive Chain where
  | last (op : Op) (right : Expr)
  | more (op : Op) (right : Expr) (rest : Chain)
end

/-! ## Strings -/

def pyLower (s : Str) : Str := s.map Char.toLower

/-- `s.split(".")` -/
def splitDot : Str → List Str
  | [] => [[]]
  | '.' :: s => [] :: splitDot s
  | c :: s => match splitDot s with
    | [] => [[c]]
    | p :: ps => (c :: p) :: ps

def isDigits (s : Str) : Bool := s.all Char.isDigit

/-- `int` of a digit string -/
def pyInt (s : Str) : Nat := s.foldl (fun n c => 10 * n + (c.toNat - '0'.toNat)) 0

/-- core.py 213-228.  `Version` refuses empty components ("12.", "1..2") -/
def normalize : Val → Except Err Val
  | .str s =>
    if pyLower s = ['t', 'r', 'u', 'e'] then .ok (.bool true)
    else if pyLower s = ['f', 'a', 'l', 's', 'e'] then .ok (.bool false)
    else if '.' ∈ s ∧ (splitDot s).all (fun p => p.isEmpty || isDigits p) then
      if (splitDot s).any List.isEmpty then .error .invalidVersion
      else .ok (.ver ((splitDot s).map pyInt))
    else .ok (.str s)
  | v => .ok v

/-- core.py 230-236 -/
def parseArch : Val → Val
  | .str s =>
    match s with
    | 's' :: 'm' :: '_' :: r => if ¬ r.isEmpty ∧ isDigits r then .int (pyInt r) else .str s
    | _ => .str s
  | v => v

def operand (v : Val) : Except Err Val :=
  match normalize v with
  | .error e => .error e
  | .ok v => .ok (parseArch v)

/-! ## Comparison: Python's, and that of `Version` -/

def dropZeros (l : List Nat) : List Nat := (l.reverse.dropWhile (· = 0)).reverse

/-- comparison of tuples and of strings -/
def lexLt {α : Type} [DecidableEq α] (lt : α → α → Bool) : List α → List α → Bool
  | [], [] => false
  | [], _ :: _ => true
  | _ :: _, [] => false
  | a :: as, b :: bs => if a = b then lexLt lt as bs else lt a b

def charLt (a b : Char) : Bool := a.toNat < b.toNat

/-- bools are integers -/
def Val.num? : Val → Option Int
  | .bool b => some (if b then 1 else 0)
  | .int n => some n
  | _ => .none

/-- `==` -/
def valEq (a b : Val) : Bool :=
  match a.num?, b.num? with
  | some x, some y => x = y
  | _, _ =>
    match a, b with
    | .ver x, .ver y => dropZeros x = dropZeros y
    | .none, .none => true
    | .str x, .str y => x = y
    | _, _ => false

/-- `<` -/
def valLt (a b : Val) : Except Err Bool :=
  match a.num?, b.num? with
  | some x, some y => .ok (x < y)
  | _, _ =>
    match a, b with
    | .ver x, .ver y => .ok (lexLt (· < ·) (dropZeros x) (dropZeros y))
    | .str x, .str y => .ok (lexLt charLt x y)
    | _, _ => .error .typeError

/-- `ops[type(op_node)](left, right)` (core.py 201-211, 258): KeyError for the other operators -/
def apply (op : Op) (a b : Val) : Except Err Bool :=
  match op with
  | .eq => .ok (valEq a b)
  | .ne => .ok (! valEq a b)
  | .lt => valLt a b
  | .gt => valLt b a
  | .le => match valLt b a with
    | .error e => .error e
    | .ok r => .ok (! r)
  | .ge => match valLt a b with
    | .error e => .error e
    | .ok r => .ok (! r)
  | .other => .error .keyError

def pyBool : Val → Bool
  | .none => false
  | .bool b => b
  | .int n => n ≠ 0
  | .str s => ! s.isEmpty
  | .ver _ => true

/-! ## `_eval` (core.py 238-275) -/

/-- `op(left, right)` of `ast.And`/`ast.Or`, on values that are both computed already -/
def both (isAnd : Bool) (a b : Val) : Val := if pyBool a = isAnd then b else a

mutual
def eval (env : Str → Option Val) : Expr → Except Err Val
  | .and a b => match eval env a with
    | .error e => .error e
    | .ok x => match eval env b with
      | .error e => .error e
      | .ok y => .ok (both true x y)
  | .or a b => match eval env a with
    | .error e => .error e
    | .ok x => match eval env b with
      | .error e => .error e
      | .ok y => .ok (both false x y)
  | .not a => match eval env a with
    | .error e => .error e
    | .ok x => .ok (.bool (! pyBool x))
  | .compare left rest => match eval env left with
    | .error e => .error e
    | .ok x => match operand x with
      | .error e => .error e
      | .ok x => match evalChain env x rest with
        | .error e => .error e
        | .ok r => .ok (.bool r)
  | .name id => normalize ((env id).getD .none)
  | .const v => .ok v
  | .unsupported => .error .valueError
/-- the loop 254-263 -/
def evalChain (env : Str → Option Val) (x : Val) : Chain → Except Err Bool
  | .last op right => match eval env right with
    | .error e => .error e
    | .ok y => match operand y with
      | .error e => .error e
      | .ok y => apply op x y
  | .more op right rest => match eval env right with
    | .error e => .error e
    | .ok y => match operand y with
      | .error e => .error e
      | .ok y => match apply op x y with
        | .error e => .error e
        | .ok false => .ok false
        | .ok true => evalChain env y rest
end

end Xoscar.Marker
