import Verif.Model.Base
/-!
# Type dispatcher and serializer registry

Models `python/xoscar/_utils.pyx` 36-110 (TypeDispatcher) and
`python/xoscar/serialization/core.pyx` 165-189 (Serializer.register / unregister).
-/
namespace Xoscar.Dispatch

/-- A dispatch key: a class, or `NamedType(name, class)` (_utils.pyx:36). Classes, names and
handlers are numbers. -/
inductive Key where
  | cls (t : Nat)
  | named (name : Nat) (t : Nat)
deriving DecidableEq, Repr

/-- _utils.pyx:39-46: `_handlers`, `_lazy_handlers` (keyed by dotted name), `_inherit_handlers`. -/
structure Disp where
  handlers : Dict Key Nat
  lazyH : Dict Nat Nat
  inherit : Dict Key Nat
deriving DecidableEq, Repr

def Disp.empty : Disp := ⟨[], [], []⟩

/-- _utils.pyx:48-55 `register` with a class or NamedType (a tuple of types is a sequence of
such calls). -/
def Disp.register (d : Disp) (k : Key) (h : Nat) : Disp := { d with handlers := d.handlers.set k h }

/-- _utils.pyx:49-50 `register` with a dotted name. -/
def Disp.registerLazy (d : Disp) (name : Nat) (h : Nat) : Disp :=
  { d with lazyH := d.lazyH.set name h }

/-- _utils.pyx:57-64 `unregister` of a class or NamedType: `_lazy_handlers.pop` never matches
(its keys are strings), `_handlers.pop`, `_inherit_handlers.clear()`. -/
def Disp.unregister (d : Disp) (k : Key) : Disp :=
  { d with handlers := d.handlers.erase k, inherit := [] }

/-- _utils.pyx:66-76 `_reload_lazy_handlers`; `imp` = the class a dotted name denotes (imports
are assumed to succeed). -/
def Disp.reload (imp : Nat → Nat) (d : Disp) : Disp :=
  { d with
    handlers := d.lazyH.foldl (fun hs nh => hs.set (.cls (imp nh.1)) nh.2) d.handlers,
    lazyH := [] }

/-- _utils.pyx:88-95: the keys tried, in order: the MRO of the class; for a named type each
class is tried first under the name, then plainly. -/
def chain (mro : Nat → List Nat) : Key → List Key
  | .cls t => (mro t).map .cls
  | .named n t => (mro t).flatMap (fun c => [.named n c, .cls c])

/-- _utils.pyx:96-101: first key of the chain with a handler. -/
def firstHandler (hs : Dict Key Nat) : List Key → Option Nat
  | [] => none
  | k :: ks => match hs.get? k with
    | some h => some h
    | none => firstHandler hs ks

/-- _utils.pyx:78-102 `get_handler`; result `none` = KeyError. -/
def Disp.get (mro : Nat → List Nat) (imp : Nat → Nat) (d : Disp) (k : Key) : Disp × Option Nat :=
  match d.handlers.get? k with
  | some h => (d, some h)
  | none =>
    match d.inherit.get? k with
    | some h => (d, some h)
    | none =>
      let d := d.reload imp
      match firstHandler d.handlers (chain mro k) with
      | some h => ({ d with inherit := d.inherit.set k h }, some h)
      | none => (d, none)

inductive Op where
  | register (k : Key) (h : Nat)
  | unregister (k : Key)
  | get (k : Key)
deriving DecidableEq, Repr

/-- A history of dispatcher operations (without dotted names). -/
def step (mro : Nat → List Nat) (d : Disp) : Op → Disp
  | .register k h => d.register k h
  | .unregister k => d.unregister k
  | .get k => (d.get mro id k).1

def run (mro : Nat → List Nat) (d : Disp) (ops : List Op) : Disp := ops.foldl (step mro) d

/-! ## Serializer registry -/

/-- Serializer classes and serializer ids are numbers; `sid c` is `c.serializer_id`. -/
structure Registry where
  disp : Disp
  deser : Dict Nat Nat        -- serializer_id -> class of the instance
deriving DecidableEq, Repr

/-- core.pyx:165-182 `Serializer.register`, and whether it returned; if not, AssertionError (another class owns the id), after
the dispatcher was changed. -/
def Registry.register (sid : Nat → Nat) (r : Registry) (c : Nat) (k : Key) : Registry × Bool :=
  let disp := r.disp.register k c
  match r.deser.get? (sid c) with
  | some c' => ({ r with disp := disp }, decide (c' = c))
  | none => ({ disp := disp, deser := r.deser.set (sid c) c }, true)

/-- core.pyx:184-189 `Serializer.unregister`. -/
def Registry.unregister (sid : Nat → Nat) (r : Registry) (c : Nat) (k : Key) : Registry :=
  { disp := r.disp.unregister k, deser := r.deser.erase (sid c) }

/-- What is done to the registry; `find`: a value is serialized (core.pyx:473, 488). -/
inductive ROp where
  | register (c : Nat) (k : Key)
  | unregister (c : Nat) (k : Key)
  | find (k : Key)
deriving DecidableEq, Repr

/-- one operation -/
def rstep (mro : Nat → List Nat) (sid : Nat → Nat) (r : Registry) : ROp → Registry
  | .register c k => (r.register sid c k).1
  | .unregister c k => r.unregister sid c k
  | .find k => { r with disp := (r.disp.get mro id k).1 }

/-- A history of the registry, from an empty one. -/
def rrun (mro : Nat → List Nat) (sid : Nat → Nat) (ops : List ROp) : Registry := ops.foldl (rstep mro sid) ⟨.empty, []⟩

end Xoscar.Dispatch
