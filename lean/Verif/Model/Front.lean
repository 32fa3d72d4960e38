import Verif.Model.Base
/-!
# The front of the API: schemes, contexts, arguments of `actor_ref`, uids, `setup_cluster`

`context.pyx` 241-300, 355-368, `backend.py` 50-67, `api.py` 52-75, 137-169, 307-322, `_utils.pyx` 113-136, 190-237.

Simplified: text is a list of characters; `urlparse` as in Python 3.12 for addresses without control characters (older versions do not ask
that a scheme starts with a letter).
-/
namespace Xoscar.Front

abbrev Addr := List Char

/-! ## schemes -/

/-- `'://' in address` -/
def hasSep : Addr → Bool
  | ':' :: '/' :: '/' :: _ => true
  | _ :: rest => hasSep rest
  | [] => false

/-- `urllib.parse.scheme_chars` -/
def schemeChar (c : Char) : Bool := c.isAlphanum || c = '+' || c = '-' || c = '.'

/-- `urlsplit`: `i = url.find(':')`, the text before, or `''`; in lower case -/
def urlScheme (a : Addr) : List Char :=
  let pre := a.takeWhile (· ≠ ':')
  if ':' ∈ a then
    match pre with
    | [] => []
    | c :: _ => if c.isAlpha && pre.all schemeChar then pre.map Char.toLower else []
  else []

/-- context.pyx:259-262, api.py:157-161, 311-315: `None` without `://`, otherwise `urlparse(address).scheme or None` -/
def schemeOf (a : Addr) : Option (List Char) :=
  if hasSep a then
    match urlScheme a with
    | [] => none
    | s => some s
  else none

/-! ## contexts -/

/-- a backend class -/
abbrev Cls := Nat

/-- a context object: its class and the address it was made with -/
structure Ctx where
  cls : Cls
  addr : Addr
  deriving DecidableEq, Repr

/-- module state: `_backend_context_cls` (context.pyx:22) and the `_backend_contexts` of the process's only `ClientActorContext`
(context.pyx:241-253, 359-368) -/
structure State where
  classes : Dict (Option (List Char)) Cls := []
  contexts : Dict (Option (List Char)) Ctx := []

inductive Event where
  /-- `register_backend` (backend.py:50-61) for one of its names -/
  | register (scheme : Option (List Char)) (cls : Cls)
  /-- any API call with this address (`none` = None) -/
  | use (address : Option Addr)
  deriving DecidableEq, Repr

inductive Served where
  | by (c : Ctx)
  | valueError
  | keyError
  /-- not a call -/
  | nothing
  deriving DecidableEq, Repr

/-- `_get_backend_context`, context.pyx:255-269, and `register_backend_context`, 355-357 -/
def step (st : State) : Event → State × Served
  | .register s c => ({ st with classes := st.classes.set s c }, .nothing)
  | .use none => (st, .valueError)
  | .use (some a) =>
    match st.contexts.get? (schemeOf a) with
    | some c => (st, .by c)
    | none => match st.classes.get? (schemeOf a) with
      | none => (st, .keyError)
      | some k => ({ st with contexts := st.contexts.set (schemeOf a) ⟨k, a⟩ }, .by ⟨k, a⟩)

def run (st : State) (es : List Event) : State := es.foldl (fun st e => (step st e).1) st

/-! ## uids of new actors -/

/-- what a program can pass as uid -/
inductive Uid where
  | none
  | str (s : List Char)
  | bytes (b : List UInt8)
  /-- any other object, with its truth value -/
  | other (truthy : Bool)
  deriving DecidableEq, Repr

/-- Python's truth of a uid -/
def Uid.truthy : Uid → Bool
  | .none => false
  | .str s => !s.isEmpty
  | .bytes b => !b.isEmpty
  | .other t => t

/-- `uid = uid or new_actor_id()` (context.pyx:279) and `to_binary(uid)` (context.py:139, _utils.pyx:126-136); `utf8` encodes text,
`random` is the new id; `none` = TypeError -/
def actorUid (utf8 : List Char → List UInt8) (random : List UInt8) (u : Uid) : Option (List UInt8) :=
  match if u.truthy then u else .bytes random with
  | .str s => some (utf8 s)
  | .bytes b => some b
  | .none => Option.none
  | .other _ => Option.none

/-! ## `actor_ref(...)` -/

/-- a positional argument of `actor_ref` -/
inductive Arg where
  | str (s : List Char)
  | bytes (b : List UInt8)
  /-- exactly an `ActorRef` or `LocalActorRef` -/
  | ref (address : Option Addr) (uid : List UInt8) (proxies : Option (List Addr))
  | list (l : List Addr)
  | none
  | other (id : Nat)
  deriving DecidableEq, Repr

/-- the keyword arguments: address, uid, proxy_addresses, and whether there are others -/
structure Kw where
  address : Option Arg := Option.none
  uid : Option Arg := Option.none
  proxies : Option (List Addr) := Option.none
  others : Bool := false
  deriving DecidableEq, Repr

structure Ref where
  address : Option Addr
  uid : Arg
  proxies : Option (List Addr)
  deriving DecidableEq, Repr

inductive Err where
  | typeError | valueError | decodeError
  deriving DecidableEq, Repr

/-- `to_str`, _utils.pyx:113-123; `decode` is UTF-8 decoding -/
def toStr (decode : List UInt8 → Option (List Char)) : Arg → Except Err (Option Addr)
  | .str s => .ok (some s)
  | .bytes b => match decode b with
    | some s => .ok (some s)
    | Option.none => .error .decodeError
  | .none => .ok Option.none
  | _ => .error .typeError

/-- `if address:` -/
def given : Option Addr → Bool
  | some (_ :: _) => true
  | _ => false

/-- the third positional argument, typed `list` in `ActorRef.__init__` (core.pyx:112) -/
def proxyArg : Arg → Except Err (Option (List Addr))
  | .list l => .ok (some l)
  | .none => .ok Option.none
  | _ => .error .typeError

/-- `ActorRef(address, uid, proxy_addresses=…)` at the end, _utils.pyx:232-237 -/
def finish (address : Option Addr) (uid : Option Arg) (proxies : Option (List Addr)) : Except Err Ref :=
  match uid with
  | Option.none => .error .valueError
  | some .none => .error .valueError
  | some u => .ok ⟨address, u, proxies⟩

/-- `create_actor_ref`, _utils.pyx:190-237 -/
def createRef (decode : List UInt8 → Option (List Char)) (args : List Arg) (kw : Kw) : Except Err Ref :=
  match toStr decode (kw.address.getD .none) with
  | .error e => .error e
  | .ok address =>
    if kw.others then .error .valueError
    else
      let text : Option (Arg × Arg × Option Arg) := match args with
        | [.str s, u] => some (.str s, u, Option.none)
        | [.bytes b, u] => some (.bytes b, u, Option.none)
        | [.str s, u, p] => some (.str s, u, some p)
        | [.bytes b, u, p] => some (.bytes b, u, some p)
        | _ => Option.none
      match text with
      | some (a, u, p) =>
        if given address then .error .valueError
        else match toStr decode a with
          | .error e => .error e
          | .ok address => match p with
            | Option.none => finish address (some u) kw.proxies
            | some p => match proxyArg p with
              | .error e => .error e
              | .ok l => finish address (some u) l
      | Option.none => match args with
        | [.ref a u p] => finish (if given address then address else a) (some (.bytes u)) p
        | [x] => finish address (some x) kw.proxies
        | _ => finish address kw.uid kw.proxies

/-! ## setup_cluster -/

/-- api.py:307-317: the resources grouped by scheme, in order of first appearance; `none` = ValueError (an address that is None) -/
def group {ρ : Type} : List (Option Addr × ρ) → Dict (Option (List Char)) (Dict Addr ρ) → Option (Dict (Option (List Char)) (Dict Addr ρ))
  | [], acc => some acc
  | (none, _) :: _, _ => none
  | (some a, r) :: rest, acc => group rest (acc.set (schemeOf a) (((acc.get? (schemeOf a)).getD []).set a r))

/-- api.py:318-319: the drivers called in turn (`get_backend` raises KeyError for an unknown scheme, after the earlier drivers ran) -/
def callDrivers {ρ : Type} (backends : Dict (Option (List Char)) Cls) :
    Dict (Option (List Char)) (Dict Addr ρ) → List (Cls × Dict Addr ρ) × Bool
  | [] => ([], true)
  | (s, d) :: rest => match backends.get? s with
    | none => ([], false)
    | some c => let r := callDrivers backends rest; ((c, d) :: r.1, r.2)

/-- `setup_cluster`: the driver calls made, and whether it returned; `none` = ValueError before any -/
def setupCluster {ρ : Type} (backends : Dict (Option (List Char)) Cls) (m : List (Option Addr × ρ)) :
    Option (List (Cls × Dict Addr ρ) × Bool) :=
  (group m []).map (callDrivers backends)

end Xoscar.Front
