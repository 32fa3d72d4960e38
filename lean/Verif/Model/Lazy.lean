import Verif.Model.Dispatch
/-!
# Handlers registered under dotted names

Models `python/xoscar/_utils.pyx` 40-110 with imports that may fail, that run code, and that give other answers at other times (Model/Dispatch has the
imports succeed always).
-/
namespace Xoscar.Lazy
open Dispatch

/-- what a failing lookup or reload raises -/
inductive Err where
  /-- the module cannot be imported (_utils.pyx:74) -/
  | importError
  /-- the module has no such attribute (_utils.pyx:75) -/
  | attributeError
  /-- no dot in the name (_utils.pyx:68) -/
  | valueError
  /-- the dictionary changed size during the loop (_utils.pyx:67) -/
  | runtimeError
  /-- no handler (_utils.pyx:102) -/
  | keyError
deriving DecidableEq, Repr

/-- What resolving a dotted name comes to: the class, or an error; and the dotted names which code run by the import registers (with the same
dispatcher). -/
structure Mod where
  cls : Except Err Nat
  registers : List (Nat × Nat)

/-- at one time: every dotted name's resolution -/
abbrev World := Nat → Mod

/-- the dispatcher, and the dotted names whose module has been imported (`sys.modules`: its code is not run again) -/
structure St where
  d : Disp
  imported : List Nat
deriving DecidableEq, Repr

def St.empty : St := ⟨.empty, []⟩

/-- whether the module's code is run to its end -/
def executes : Except Err Nat → Bool
  | .error .importError => false
  | .error .valueError => false
  | _ => true

/-- _utils.pyx:74 `importlib.import_module`: runs the module's code the first time.  A failing import is taken to register nothing. -/
def importMod (w : World) (st : St) (n : Nat) : St :=
  if n ∈ st.imported ∨ executes (w n).cls = false then st
  else ⟨(w n).registers.foldl (fun d e => d.registerLazy e.1 e.2) st.d, n :: st.imported⟩

/-- _utils.pyx:66-75: the loop over `_lazy_handlers.items()` from index `i` on, the dictionary having had `size` entries at first.  The iterator
compares the size before each item, and at the end. -/
def loop (w : World) (size : Nat) : Nat → Nat → St → St × Option Err
  | 0, _, st => (st, if st.d.lazyH.length = size then none else some .runtimeError)
  | todo + 1, i, st =>
    if st.d.lazyH.length = size then
      match st.d.lazyH[i]? with
      | none => (st, none)
      | some (n, h) =>
        let st := importMod w st n
        match (w n).cls with
        | .error e => (st, some e)
        | .ok c => loop w size todo (i + 1) { st with d := st.d.register (.cls c) h }
    else (st, some .runtimeError)

/-- _utils.pyx:66-76 `_reload_lazy_handlers`: only after the whole loop are the names forgotten -/
def reload (w : World) (st : St) : St × Option Err :=
  match loop w st.d.lazyH.length st.d.lazyH.length 0 st with
  | (st, none) => ({ st with d := { st.d with lazyH := [] } }, none)
  | (st, some e) => (st, some e)

/-- _utils.pyx:78-102 `get_handler` -/
def get (mro : Nat → List Nat) (w : World) (st : St) (k : Key) : St × Except Err Nat :=
  match st.d.handlers.get? k with
  | some h => (st, .ok h)
  | none =>
    match st.d.inherit.get? k with
    | some h => (st, .ok h)
    | none =>
      match reload w st with
      | (st, some e) => (st, .error e)
      | (st, none) =>
        match firstHandler st.d.handlers (chain mro k) with
        | some h => ({ st with d := { st.d with inherit := st.d.inherit.set k h } }, .ok h)
        | none => (st, .error .keyError)

/-- the operations of the dispatcher -/
inductive Op where
  | register (k : Key) (h : Nat)
  /-- `register("module.name", h)` -/
  | registerName (n h : Nat)
  | unregister (k : Key)
  /-- `unregister("module.name")` -/
  | unregisterName (n : Nat)
  | get (w : World) (k : Key)

/-- _utils.pyx:62-64: `_handlers` has no strings for keys -/
def unregisterName (d : Disp) (n : Nat) : Disp := { d with lazyH := d.lazyH.erase n, inherit := [] }

/-- one operation -/
def step (mro : Nat → List Nat) (st : St) : Op → St
  | .register k h => { st with d := st.d.register k h }
  | .registerName n h => { st with d := st.d.registerLazy n h }
  | .unregister k => { st with d := st.d.unregister k }
  | .unregisterName n => { st with d := unregisterName st.d n }
  | .get w k => (get mro w st k).1

def run (mro : Nat → List Nat) (st : St) (ops : List Op) : St := ops.foldl (step mro) st

/-- _utils.pyx:107-110 `reload_all_lazy_handlers`, called when a pool is created (backends/pool.py:824-826): the dispatchers one after the other, in the
set's order; modules are shared, dispatchers are not (what an import registers it registers with the dispatcher being reloaded) -/
def reloadAll (w : World) : List Disp → List Nat → List Disp × Option Err
  | [], _ => ([], none)
  | d :: ds, imported =>
    match reload w ⟨d, imported⟩ with
    | (st, some e) => (st.d :: ds, some e)
    | (st, none) => match reloadAll w ds st.imported with
      | (ds', r) => (st.d :: ds', r)

end Xoscar.Lazy
