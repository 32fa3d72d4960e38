import Verif.Model.Base

/-!
# Binding arguments of extensible methods

`build_args_binder` and `_ExtensibleWrapper.bind` (`python/xoscar/batch.py` 28-75, 178-181, 184-200,
208-230), with the part of Python they rest on: how a call distributes its arguments over the
parameters of a function (CPython's `initialize_locals`, Python/ceval.c), `inspect.getfullargspec`
and the field name check of `collections.namedtuple`.

Values are opaque (`V`).  A call is a list of positional arguments and a dictionary of keyword
arguments; it yields the local variables or raises `TypeError` (`none`).
-/
namespace Xoscar.Bind
open Xoscar

/-- The signature of a function: `co_varnames` cut in parts, `__defaults__`, `__kwdefaults__`.
`args` has the positional parameters, the first `posonly` of which stand before a `/`. -/
structure Sig (V : Type) where
  posonly : Nat
  args : List String
  defaults : List V
  varargs : Option String
  kwonly : List String
  kwdefaults : Dict String V
  varkw : Option String

/-- What a local variable holds at the start of the body. -/
inductive Slot (V : Type)
  | one (v : V)
  | tuple (vs : List V)
  | dict (d : Dict String V)
deriving DecidableEq

variable {V : Type}

/-- The parameters that can be passed by keyword (ceval.c: the search starts at
`co_posonlyargcount`). -/
def Sig.named (s : Sig V) : List String := s.args.drop s.posonly ++ s.kwonly

/-- The loop over the keyword arguments in `initialize_locals`: a name that is a parameter is put in
its slot, `TypeError` if that is taken; another one goes to `**kw`, `TypeError` without it. -/
def kwLoop (s : Sig V) : List (String × V) → Dict String V × Dict String V → Option (Dict String V × Dict String V)
  | [], acc => some acc
  | (k, v) :: r, (slots, extra) =>
    if k ∈ s.named then
      if slots.has k then none else kwLoop s r (slots.set k v, extra)
    else if s.varkw.isSome then kwLoop s r (slots, extra.set k v)
    else none

/-- `__defaults__` belong to the last positional parameters. -/
def Sig.argDefaults (s : Sig V) : Dict String V :=
  (s.args.drop (s.args.length - s.defaults.length)).zip s.defaults

/-- A slot still empty after the arguments takes its default; without one: `TypeError`. -/
def fill (slots dflt : Dict String V) (a : String) : Option V :=
  match slots.get? a with
  | some v => some v
  | none => dflt.get? a

/-- The local variables, in the order of the signature. -/
def locals (s : Sig V) (as : List V) (rest : List V) (ks : List V) (extra : Dict String V) :
    Dict String (Slot V) :=
  s.args.zip (as.map .one) ++ (s.varargs.map fun n => (n, Slot.tuple rest)).toList ++
    s.kwonly.zip (ks.map .one) ++ (s.varkw.map fun n => (n, Slot.dict extra)).toList

/-- `initialize_locals`: positional arguments, surplus for `*args`, keywords, defaults. -/
def call (s : Sig V) (pos : List V) (kw : Dict String V) : Option (Dict String (Slot V)) :=
  match kwLoop s kw (s.args.zip pos, []) with
  | none => none
  | some (slots, extra) =>
    if s.args.length < pos.length ∧ s.varargs = none then none
    else
      match s.args.mapM (fill slots s.argDefaults), s.kwonly.mapM (fill slots s.kwdefaults) with
      | some as, some ks => some (locals s as (pos.drop s.args.length) ks extra)
      | _, _ => none

/-- `inspect.getfullargspec(func)` and the signature of the generated function
(`batch.py:30,34-50,60-63,70-71`): `spec.args` does not tell which parameters are positional only,
so the generated function has none; everything else is the same, a lone `*` standing for missing
`*args`. -/
def binderSig (s : Sig V) : Sig V :=
  { posonly := 0, args := s.args, defaults := s.defaults, varargs := s.varargs, kwonly := s.kwonly, kwdefaults := s.kwdefaults, varkw := s.varkw }

/-- `args_list` (`batch.py:35-50`): the fields of the named tuple, with `remove_self` the first
positional parameter is left out. -/
def fields (removeSelf : Bool) (s : Sig V) : List String :=
  (if removeSelf then s.args.drop 1 else s.args) ++ s.varargs.toList ++ s.kwonly ++ s.varkw.toList

/-- `namedtuple(ret_type_name, args_list)` (`batch.py:67`) raises `ValueError` for a field that begins
with an underscore.  (It also refuses keywords and duplicates, which parameters cannot be.) -/
def underscored (n : String) : Bool := n.toList.head? == some '_'

/-- `build_args_binder(func, remove_self)` (`batch.py:28-75`): `none` is the `ValueError` at the
decoration.  Simplification: `func` is a Python function (for others `getfullargspec` may raise
TypeError and the binder is `None`); the first parameter is not called like the generated type. -/
def build (removeSelf : Bool) (s : Sig V) : Option (Sig V × List String) :=
  if (fields removeSelf s).any underscored then none else some (binderSig s, fields removeSelf s)

/-- Calling the generated function (`batch.py:61-62`): a named tuple of its local variables. -/
def runBinder (b : Sig V × List String) (pos : List V) (kw : Dict String V) :
    Option (Dict String (Slot V)) :=
  match call b.1 pos kw with
  | none => none
  | some env => b.2.mapM fun n => (env.get? n).map fun v => (n, v)

/-- What came of `@extensible def m(self, …)` in a class and `obj.m.bind(*pos, **kw)`:
the decoration raised ValueError, the call TypeError, or the named tuple. -/
inductive Out (V : Type)
  | valueError
  | typeError
  | ok (fs : Dict String (Slot V))
deriving DecidableEq

/-- `_ExtensibleAccessor.__init__`, `__get__`, `_ExtensibleWrapper.bind` (`batch.py:184-189, 208-225,
178-181`): the binder is built with `remove_self=True` and bound to the instance. -/
def bind (s : Sig V) (self : V) (pos : List V) (kw : Dict String V) : Out V :=
  match build true s with
  | none => .valueError
  | some b => match runBinder b (self :: pos) kw with
    | none => .typeError
    | some fs => .ok fs

end Xoscar.Bind
