import Verif.Model.Base
/-!
# Lazily imported modules

Models `python/xoscar/utils.py` 234-298: `lazy_import`, `LazyModule`, `lazy_import_on_load`, `ModulePlaceholder`.
-/
namespace Xoscar.LazyMod

/-- a text -/
abbrev Text := List Char

/-- what a name is bound to: the `LazyModule` object, the imported module, or something else -/
inductive Bind where
  | lazy
  | real
  | other (v : Nat)
deriving DecidableEq, Repr

/-- what a hook may do, apart from things that concern nobody here -/
inductive Act where
  /-- raise an exception -/
  | raises
  /-- `lazy.add_load_handler(h)` (utils.py:266-268) on the `LazyModule` object -/
  | adds (h : Nat)
  /-- `lazy.item` on the `LazyModule` object itself -/
  | touches (item : Text)
deriving DecidableEq, Repr

/-- The `LazyModule` and the name it is meant for.  `_on_loads` is a list object: `lists` are the list objects there have been, `cur` the present one
(utils.py:248, 263). -/
structure St where
  lists : List (List Nat)
  cur : Nat
  /-- `globals.get(rename)` -/
  glob : Option Bind
  /-- `locals`, if given: what `rename` is bound to there -/
  loc : Option (Option Bind)
  /-- the hooks started, in order -/
  trace : List Nat
deriving DecidableEq, Repr

/-- what `importlib.import_module` and `getattr` come to at the time of an access -/
structure Env where
  importable : Bool
  attr : Text → Option Nat

/-- how an access ends -/
inductive Out where
  | ok (v : Nat)
  | attributeError
  | importError
  /-- the exception of a hook -/
  | hookError
  /-- it does not end (or only when the recursion limit is hit) -/
  | endless
deriving DecidableEq, Repr

/-- items that are refused without importing (utils.py:251-252): `_pytest…`, `__bases__`, `__test__` -/
def refused (item : Text) : Bool :=
  ['_', 'p', 'y', 't', 'e', 's', 't'].isPrefixOf item || item == ['_', '_', 'b', 'a', 's', 'e', 's', '_', '_'] || item == ['_', '_', 't', 'e', 's', 't', '_', '_']

/-- utils.py:254-258: import, then bind the name in `globals` if it is there, else in `locals` if given -/
def rebind (st : St) : St :=
  match st.glob with
  | some _ => { st with glob := some .real }
  | none => match st.loc with
    | some _ => { st with loc := some (some .real) }
    | none => st

/-- `self._on_loads.append(h)` -/
def addHook (st : St) (h : Nat) : St := { st with lists := st.lists.modify st.cur (· ++ [h]) }

/-- what is being executed: an attribute access, the loop over a list of hooks from an index on, the acts of a hook -/
inductive Job where
  | access (item : Text)
  | loop (l i : Nat)
  | acts (as : List Act)

/-- utils.py:250-264 `LazyModule.__getattr__` with the hooks it runs.  `prog h c` is what hook `h` does when it was started `c` times before.  The
number bounds the depth of calls. -/
def exec (prog : Nat → Nat → List Act) (env : Env) : Nat → Job → St → St × Out
  | 0, _, st => (st, .endless)
  | f + 1, .access item, st =>
    if refused item then (st, .attributeError)
    else if env.importable = false then (st, .importError)
    else
      let st := rebind st
      match env.attr item with
      | none => (st, .attributeError)
      | some v => match exec prog env f (.loop st.cur 0) st with
        | (st, .ok _) => ({ st with lists := st.lists ++ [[]], cur := st.lists.length }, .ok v)
        | r => r
  | f + 1, .loop l i, st =>
    match (st.lists[l]?.getD [])[i]? with
    | none => (st, .ok 0)
    | some h => match exec prog env f (.acts (prog h (st.trace.count h))) { st with trace := st.trace ++ [h] } with
      | (st, .ok _) => exec prog env f (.loop l (i + 1)) st
      | r => r
  | _ + 1, .acts [], st => (st, .ok 0)
  | _ + 1, .acts (.raises :: _), st => (st, .hookError)
  | f + 1, .acts (.adds h :: as), st => exec prog env f (.acts as) (addHook st h)
  | f + 1, .acts (.touches item :: as), st => match exec prog env f (.access item) st with
    | (st, .ok _) => exec prog env f (.acts as) st
    | r => r

/-- what a program does with it -/
inductive Op where
  /-- `lazy.item` on the `LazyModule` object (in another module that imported it, say) -/
  | access (env : Env) (item : Text)
  /-- `lazy.add_load_handler(h)` on the object -/
  | add (h : Nat)
  /-- `@lazy_import_on_load(name)`: whatever the global name is bound to (utils.py:277-283) -/
  | onLoad (h : Nat)
  /-- the program binds the global name -/
  | assign (v : Nat)

/-- utils.py:277-283 with the object the name is bound to: only a `LazyModule` has `add_load_handler` (a module, None or a placeholder has none) -/
def onLoad (st : St) (h : Nat) : St := if st.glob = some .lazy then addHook st h else st

/-- an operation that ends, and how -/
inductive Does (prog : Nat → Nat → List Act) : St → Op → St → Out → Prop
  | access (env : Env) (item : Text) (f : Nat) (st st' : St) (o : Out) : exec prog env f (.access item) st = (st', o) → o ≠ .endless →
      Does prog st (.access env item) st' o
  | add (h : Nat) (st : St) : Does prog st (.add h) (addHook st h) (.ok 0)
  | onLoad (h : Nat) (st : St) : Does prog st (.onLoad h) (onLoad st h) (.ok 0)
  | assign (v : Nat) (st : St) : Does prog st (.assign v) { st with glob := some (.other v) } (.ok 0)

/-- a history, with how each operation ended -/
inductive Run (prog : Nat → Nat → List Act) (s0 : St) : List (Op × Out) → St → Prop
  | nil : Run prog s0 [] s0
  | snoc {h : List (Op × Out)} {st st' : St} {op : Op} {o : Out} : Run prog s0 h st → Does prog st op st' o → Run prog s0 (h ++ [(op, o)]) st'

/-- utils.py:245-248: a new `LazyModule`, the name bound to it in `globals` (the usual case) -/
def fresh : St := ⟨[[]], 0, some .lazy, none, []⟩

/-- what `lazy_import` returns (utils.py:270-275) -/
inductive Ret where
  | lazyModule
  | placeholder
  | none
deriving DecidableEq, Repr

/-- utils.py:242, 270-275: only the first part of the dotted name is looked for (`found`: the packages there are) -/
def lazyImport (found : List Nat) (name : List Nat) (placeholder : Bool) : Ret :=
  match name with
  | [] => .none
  | p :: _ => if p ∈ found then .lazyModule else if placeholder then .placeholder else .none

/-- utils.py:285-298 `ModulePlaceholder`: any attribute and any call -/
def placeholderUse (_item : Option Nat) : Out := .attributeError

end Xoscar.LazyMod
