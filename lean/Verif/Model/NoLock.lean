import Verif.Model.Base

/-!
# Methods that do not take the actor's lock

`no_lock`, `_has_no_lock_hint_for_method`, the four places that take the lock of an actor
(`python/xoscar/core.pyx` 34, 44-46, 276-297, 310-350, 458-492, 514-550, 566-585),
`extensible`, `_ExtensibleAccessor` (`python/xoscar/batch.py` 184-236) and `generator`
(`python/xoscar/api.py` 488-505) as decorators of the methods of a class.

A class body is a list of definitions, each with its decorators, the one nearest to `def` first.
-/
namespace Xoscar.NoLock
open Xoscar

abbrev Name := String

/-- What a name in a class body is bound to: a function, with or without the attribute
`__XOSCAR_ACTOR_METHOD_NO_LOCK__`, or an `_ExtensibleAccessor` object. -/
inductive Val
  | fn (mark : Bool)
  | acc (id : Nat)
deriving DecidableEq

/-- An `_ExtensibleAccessor` (batch.py:184-197): an attribute set on itself, `func`, `batch_func`. -/
structure Acc where
  mark : Bool
  single : Bool
  batch : Option Val
deriving DecidableEq

/-- A class body being executed: accessor objects, and the names bound so far. -/
structure Body where
  heap : List Acc
  names : Dict Name Val
deriving DecidableEq

/-- A decorator: `@no_lock`, `@extensible`, `@n.batch`, `@generator`. -/
inductive Deco
  | noLock
  | extensible
  | batch (n : Name)
  | generator
deriving DecidableEq

/-- `getattr(v, NO_LOCK_ATTRIBUTE_HINT, …) is True` of what is in the class body. -/
def Body.markOf (b : Body) : Val → Bool
  | .fn m => m
  | .acc i => (b.heap[i]?.map Acc.mark).getD false

/-- One decorator applied; `none`: the class body raises.
* `no_lock` sets the attribute on what it gets (core.pyx:44-46);
* `extensible` makes an accessor (batch.py:256) — an accessor has no `__name__`: AttributeError in
  `build_args_binder`;
* `n.batch` puts the function in the accessor `n` and returns that accessor (batch.py:199-201); a
  function has no attribute `batch`, an unbound `n` is a NameError;
* `generator` makes a new function that has the attributes of the old one (`functools.wraps`). -/
def apply (b : Body) (v : Val) : Deco → Option (Body × Val)
  | .noLock => match v with
    | .fn _ => some (b, .fn true)
    | .acc i => some ({ b with heap := b.heap.modify i fun a => { a with mark := true } }, .acc i)
  | .extensible => match v with
    | .fn m => some ({ b with heap := b.heap ++ [⟨false, m, none⟩] }, .acc b.heap.length)
    | .acc _ => none
  | .batch n => match b.names.get? n with
    | some (.acc i) => some ({ b with heap := b.heap.modify i fun a => { a with batch := some v } }, .acc i)
    | _ => none
  | .generator => some (b, .fn (b.markOf v))

/-- All decorators of a definition, from the inside. -/
def applyAll (b : Body) (v : Val) : List Deco → Option (Body × Val)
  | [] => some (b, v)
  | d :: ds => match apply b v d with
    | none => none
    | some (b', v') => applyAll b' v' ds

/-- `def name(self, …)` with its decorators. -/
def define (b : Body) (s : Name × List Deco) : Option Body :=
  match applyAll b (.fn false) s.2 with
  | none => none
  | some (b', v) => some { b' with names := b'.names.set s.1 v }

/-- A class body. -/
def runBody : Body → List (Name × List Deco) → Option Body
  | b, [] => some b
  | b, s :: r => match define b s with
    | none => none
    | some b' => runBody b' r

/-- `getattr(actor, name)`: the first class of the method resolution order that has the name. -/
def resolve : List Body → Name → Option (Body × Val)
  | [], _ => none
  | c :: r, n => match c.names.get? n with
    | some v => some (c, v)
    | none => resolve r n

/-- What the routes give to `_has_no_lock_hint_for_method`: a bound method, whose attributes are those
of the function and whose `__self__` is the actor; or the `_ExtensibleWrapper` made by
`_ExtensibleAccessor.__get__` (batch.py:203-236), which has the attribute if the single or the batch
function has it, and has no `__self__`; or a bound method of such a wrapper. -/
inductive Callee
  | method (mark actorMark : Bool)
  | wrapper (mark : Bool)
  | wrapperMethod (mark : Bool)

/-- `_has_no_lock_hint_for_method` (core.pyx:276-281): the attribute itself, or that of `__self__`; the methods of
`_ExtensibleWrapper` do not have it themselves. -/
def hint : Callee → Bool
  | .method m a => if m then true else a
  | .wrapper m => m
  | .wrapperMethod m => m

/-- `_ExtensibleAccessor.__get__` (batch.py:230-234) -/
def wrapperMark (b : Body) (a : Acc) : Bool :=
  a.single || (match a.batch with | some v => b.markOf v | none => false)

/-- How a call comes in: a message for one call (core.pyx:519-533) or for a batch (534-550); a local reference's
`__call__`, `send`, `tell` (310-332) or `batch` (342-350). -/
inductive Route
  | remoteCall | remoteBatch | localCall | localBatch
deriving DecidableEq

/-- What the route looks at; `none`: AttributeError, a plain method has no `call_with_lists` or `batch`. -/
def callee (r : Route) (b : Body) (actorMark : Bool) (v : Val) : Option Callee :=
  match v with
  | .fn m => match r with
    | .remoteCall | .localCall => some (.method m actorMark)
    | .remoteBatch | .localBatch => none
  | .acc i => match b.heap[i]? with
    | none => none
    | some a => match r with
      | .localBatch => some (.wrapperMethod (wrapperMark b a))
      | _ => some (.wrapper (wrapperMark b a))

/-- The function is written as a coroutine or plain function, or as an async generator. -/
inductive Kind | plain | asyncGen
deriving DecidableEq

/-- Does the body of the method run under the actor's lock?  `none`: the call raises AttributeError.
`async with self._lock` (core.pyx:289-293, 526-533, 541-550) unless hinted; the lock of a stateless actor is a fake
(571-585).  Calling an async generator function runs nothing of it: its body runs in `_run_actor_async_generator`
(458-492), which always takes the lock. -/
def bodyLocked (mro : List Body) (actorMark stateless : Bool) (k : Kind) (r : Route) (n : Name) : Option Bool :=
  match resolve mro n with
  | none => none
  | some (b, v) => match callee r b actorMark v with
    | none => none
    | some c => some (match k with
      | .plain => !stateless && !hint c
      | .asyncGen => !stateless)

end Xoscar.NoLock
