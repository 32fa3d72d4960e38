import Verif.Model.Base
/-!
# Registered implementations of actor classes: python/xoscar/api.py:382-395, 516-527; backends/pool.py:622
-/
namespace Xoscar.Impl

abbrev Cls := Nat
abbrev Args := Nat

/-- exceptions: `KeyError` or any other -/
inductive Exn where
  | keyError | recursion | other (n : Nat)
  deriving DecidableEq, Repr

/-- `_actor_implementation`, api.py:516 -/
abbrev Registry := Dict Cls Cls

/-- `register_actor_implementation`, api.py:519-520 -/
def register (r : Registry) (c impl : Cls) : Registry := r.set c impl

/-- `unregister_actor_implementation`, api.py:523-527 -/
def unregister (r : Registry) (c : Cls) : Registry := r.erase c

/-- What the classes are: `isinstance` of an object of class `a` for class `b`, and how the `__init__` of a class ends. -/
structure Classes where
  isSub : Cls → Cls → Bool
  init : Cls → Args → Option Exn

/-- what constructing gave (an object of a class, or an exception) and the calls of `__init__` it made, in order: the class of the object
and the arguments; objects that were given up are included -/
structure Made where
  result : Except Exn Cls
  inits : List (Cls × Args)

/-- `AsyncActorMixin.__new__`, api.py:387-391, after the lookup: what constructing the implementation gave -/
def afterImpl (c : Cls) (m : Made) : Made :=
  match m.result with
  | .ok d => ⟨.ok d, m.inits⟩
  | .error .keyError => ⟨.ok c, m.inits⟩
  | .error e => ⟨.error e, m.inits⟩

/-- Python's `type.__call__`: `__init__` of the object that `__new__` gave, if it is an instance of the class called -/
def afterNew (k : Classes) (c : Cls) (a : Args) (m : Made) : Made :=
  match m.result with
  | .error e => ⟨.error e, m.inits⟩
  | .ok d =>
    if k.isSub d c then
      match k.init d a with
      | none => ⟨.ok d, m.inits ++ [(d, a)]⟩
      | some e => ⟨.error e, m.inits ++ [(d, a)]⟩
    else ⟨.ok d, m.inits⟩

/-- `cls(*args, **kwargs)` (pool.py:622).  `depth` is Python's recursion limit. -/
def construct (k : Classes) (r : Registry) : Nat → Cls → Args → Made
  | 0, _, _ => ⟨.error .recursion, []⟩
  | depth + 1, c, a =>
    afterNew k c a
      (match r.get? c with
       | none => ⟨.ok c, []⟩
       | some impl => afterImpl c (construct k r depth impl a))

end Xoscar.Impl
