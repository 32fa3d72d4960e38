import Verif.Model.Base

/-!
What a caller gets when a remote method raised: `wrap_exception`
(python/xoscar/utils.py 82-121), `_AsCauseBase` and
`ErrorMessage.as_instanceof_cause` (python/xoscar/backends/message.pyx 207-255),
raised by `_process_result_message` (backends/context.py 106-111) from the message
made by `_ErrorProcessor` (backends/pool.py 94-115).

`Model/Calls` treats exceptions as names with a text.  Here an exception is a Python
object: its class's MRO with what each class defines, its `__dict__`, its C members and
its slots, and reading an attribute is Python's generic attribute lookup.
-/

namespace Xoscar.Raise

/-- Attribute names: those `wrap_exception` and `as_instanceof_cause` put into the new
class (utils.py 106-119, message.pyx 253), `__traceback__`, and all others. -/
inductive Name where
  | user (n : Nat)
  | args | address | pid | wrapped | wrapname | module | cause | context | suppress
  | traceback
deriving DecidableEq, Repr

/-- Values of attributes; `exc` is an exception object by identity, `obj` any other. -/
inductive Val where
  | none
  | num (n : Int)
  | text (s : String)
  | tuple (l : List Int)
  | exc (id : Nat)
  | obj (id : Nat)
deriving DecidableEq, Repr

/-- What a class may define under a name (Python's data model, not the code's):
a plain class attribute; a member of the C struct (a data descriptor that reads a default
when the member was never set, e.g. `OSError.errno`); a `__slots__` member (a data
descriptor that raises AttributeError when unset); a property `return g(self.f)`. -/
inductive Attr where
  | value (v : Val)
  | cmember (unset : Val)
  | slot
  | prop (f : Name) (g : Val → Val)

/-- Classes by identity: `derived` is the class made by `type(...)` in
utils.py 120. -/
inductive Cls where
  | user (n : Nat)
  | typeError
  | cancelled
  | asCause
  | derived
deriving DecidableEq, Repr

/-- One class of an MRO: what it defines; whether it defines a `__new__`, and whether
that one needs arguments; whether it defines an `__init_subclass__`, and whether that one
refuses; whether it can be a base at all. -/
structure Layer where
  cls : Cls
  attrs : Dict Name Attr := []
  newArgs : Option Bool := none
  initSub : Option Bool := none
  final : Bool := false

/-- An exception object: identity, class name and module, MRO, `__dict__`, C members, slots, and
what its `__str__` gives.  Simplification: classes define no `__getattr__` of their own
and `__new__` sets nothing. -/
structure Inst where
  id : Nat
  name : String
  modl : String := "builtins"
  mro : List Layer
  dict : Dict Name Val := []
  cs : Dict Name Val := []
  slots : Dict Name Val := []
  text : String := ""

/-- An exception, or a wrapper with its wrapped exception (the closure `exc` of
utils.py 95-96). -/
inductive Obj where
  | plain (i : Inst)
  | wrapper (w e : Inst)

/-- The first class of the MRO that defines a name (`_PyType_Lookup`). -/
def look : List Layer → Name → Option Attr
  | [], _ => none
  | l :: ls, n =>
    match l.attrs.get? n with
    | some a => some a
    | none => look ls n

/-- The object whose storage is read: `self`. -/
def Obj.self : Obj → Inst
  | .plain i => i
  | .wrapper w _ => w

/-- Level of a lookup: `generic` is `object.__getattribute__`, `full` adds
`__getattr__`. -/
inductive Lvl where
  | generic
  | full
deriving DecidableEq, Repr

/-- Python's `getattr`: `Gets lvl o n r` says that reading `n` of `o` gives `r`, where
`none` is AttributeError.  A wrapper's `__getattr__` reads the wrapped exception
(utils.py 95-96). -/
inductive Gets : Lvl → Obj → Name → Option Val → Prop where
  | cmem {o n d} : look o.self.mro n = some (.cmember d) →
      Gets .generic o n (some ((o.self.cs.get? n).getD d))
  | slot {o n} : look o.self.mro n = some .slot → Gets .generic o n (o.self.slots.get? n)
  | prop {o n f g v} : look o.self.mro n = some (.prop f g) → Gets .full o f (some v) →
      Gets .generic o n (some (g v))
  | propMiss {o n f g} : look o.self.mro n = some (.prop f g) → Gets .full o f none →
      Gets .generic o n none
  | own {o n v} : look o.self.mro n = none → o.self.dict.get? n = some v →
      Gets .generic o n (some v)
  | shadow {o n c v} : look o.self.mro n = some (.value c) → o.self.dict.get? n = some v →
      Gets .generic o n (some v)
  | cls {o n c} : look o.self.mro n = some (.value c) → o.self.dict.get? n = none →
      Gets .generic o n (some c)
  | miss {o n} : look o.self.mro n = none → o.self.dict.get? n = none →
      Gets .generic o n none
  | plain {i n r} : Gets .generic (.plain i) n r → Gets .full (.plain i) n r
  | hit {w e n v} : Gets .generic (.wrapper w e) n (some v) → Gets .full (.wrapper w e) n (some v)
  | hook {w e n r} : Gets .generic (.wrapper w e) n none → Gets .full (.plain e) n r →
      Gets .full (.wrapper w e) n r

/-- The text `[address=..., pid=...]` (message.pyx 209, 247). -/
def tag (addr : String) (pid : Nat) : String :=
  "[address=" ++ addr ++ ", pid=" ++ toString pid ++ "]"

/-- The namespace of the new class: utils.py 105-119 with `attr_dict` of
message.pyx 253; `address` and `pid` first, then updated with the others. -/
def newAttrs (addr : String) (pid : Nat) (e : Inst) (args cause context suppress : Val) :
    Dict Name Attr :=
  [(.address, .value (.text addr)), (.pid, .value (.num pid)),
   (.wrapname, .value .none), (.wrapped, .value (.exc e.id)),
   (.module, .value (.text e.modl)),
   (.cause, .value cause), (.context, .value context), (.suppress, .value suppress),
   (.args, .value args)]

/-- `type(type(exc).__name__, bases + (type(exc),), attr_dict)()` with its traceback
(utils.py 120-121; a message's traceback is never None): the MRO is the new class, `_AsCauseBase`, the error's MRO; storages
are fresh since `__init__` does nothing (92-93).  `__str__` (98-99) goes to
`_AsCauseBase.__str__` (message.pyx 208-209). -/
def wrapInst (addr : String) (pid : Nat) (tb : Val) (e : Inst)
    (args cause context suppress : Val) : Inst where
  id := e.id + 1
  name := e.name
  modl := e.modl
  mro := { cls := .derived, attrs := newAttrs addr pid e args cause context suppress } ::
    { cls := .asCause } :: e.mro
  cs := [(.traceback, tb)]
  text := tag addr pid ++ " " ++ e.text

/-- The classes of an object. -/
def Obj.classes (o : Obj) : List Cls := o.self.mro.map (·.cls)

/-- `isinstance` and `issubclass(type(...))`. -/
def Obj.isA (o : Obj) (c : Cls) : Bool := o.classes.contains c

/-- `str(error)`. -/
def Obj.str (o : Obj) : String := o.self.text

/-- `repr(error)` of a class without a `__repr__`: CPython's `BaseException_repr` uses
the C struct's arguments, which are `()` when `__init__` and `__new__` got none. -/
def Obj.repr (o : Obj) : String × Val := (o.self.name, (o.self.cs.get? .args).getD (.tuple []))

/-- The first `__new__` of an MRO decides whether the class can be called without
arguments. -/
def newArgs : List Layer → Bool
  | [] => false
  | l :: ls => match l.newArgs with
    | some b => b
    | none => newArgs ls

/-- The first `__init_subclass__` of an MRO decides whether it can be derived from. -/
def initSub : List Layer → Bool
  | [] => false
  | l :: ls => match l.initSub with
    | some b => b
    | none => initSub ls

/-- Whether the class itself cannot be a base. -/
def isFinal : List Layer → Bool
  | [] => false
  | l :: _ => l.final

/-- Whether `type(...)` and the call of utils.py 120-121 work. -/
def canWrap (e : Inst) : Bool :=
  !isFinal e.mro && !initSub e.mro && !newArgs e.mro

/-- What BaseException itself defines: its C members. -/
def baseAttrs : Dict Name Attr :=
  [(.args, .cmember (.tuple [])), (.cause, .cmember .none), (.context, .cmember .none),
   (.suppress, .cmember (.num 0)), (.traceback, .cmember .none)]

/-- The TypeError that Python raises from utils.py 120 or 121. -/
def typeErr : Inst where
  id := 0
  name := "TypeError"
  mro := [{ cls := .typeError }, { cls := .user 1 }, { cls := .user 0, attrs := baseAttrs }]
  text := "cannot create instance"

/-- `asyncio.CancelledError(tag)` (message.pyx 247). -/
def cancelErr (addr : String) (pid : Nat) (tb : Val) : Inst where
  id := 0
  name := "CancelledError"
  mro := [{ cls := .cancelled }, { cls := .user 0, attrs := baseAttrs }]
  cs := [(.traceback, tb)]
  text := tag addr pid

/-- The same exception with another `__traceback__`. -/
def Inst.withTb (i : Inst) (tb : Val) : Inst := { i with cs := i.cs.set .traceback tb }

/-- `with_traceback` of an object. -/
def Obj.withTb (o : Obj) (tb : Val) : Obj :=
  match o with
  | .plain i => .plain (i.withTb tb)
  | .wrapper w e => .wrapper (w.withTb tb) e

/-- `ErrorMessage.as_instanceof_cause` (message.pyx 232-254), raised at the caller
(context.py 111): the error that leaves a call answered by the pool `addr`, `pid` with
the error `o` and traceback `tb`. -/
inductive Answer (addr : String) (pid : Nat) (tb : Val) : Obj → Obj → Prop where
  | again {o} : o.isA .asCause = true → Answer addr pid tb o (o.withTb tb)
  | cancelled {o} : o.isA .asCause = false → o.isA .cancelled = true →
      Answer addr pid tb o (.plain (cancelErr addr pid tb))
  | cannot {e} : (Obj.plain e).isA .asCause = false → (Obj.plain e).isA .cancelled = false →
      canWrap e = false → Answer addr pid tb (.plain e) (.plain typeErr)
  | wrap {e args cause context suppress} :
      (Obj.plain e).isA .asCause = false → (Obj.plain e).isA .cancelled = false →
      canWrap e = true →
      Gets .full (.plain e) .args (some args) → Gets .full (.plain e) .cause (some cause) →
      Gets .full (.plain e) .context (some context) →
      Gets .full (.plain e) .suppress (some suppress) →
      Answer addr pid tb (.plain e)
        (.wrapper (wrapInst addr pid tb e args cause context suppress) e)

/-- An error that crosses the pools of a chain of calls, each method letting it pass
(pool.py 94-115 and context.py 111 at each). -/
inductive Hops : List (String × Nat × Val) → Obj → Obj → Prop where
  | nil {o} : Hops [] o o
  | cons {a p t ps o o' o''} : Answer a p t o o' → Hops ps o' o'' → Hops ((a, p, t) :: ps) o o''

/-- `try: ... except c0: ... except c1: ...`: the first clause that matches. -/
def handler (clauses : List Cls) (o : Obj) : Option Nat := clauses.findIdx? o.isA

end Xoscar.Raise
