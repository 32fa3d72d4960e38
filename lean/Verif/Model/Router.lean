import Verif.Model.Config
/-!
# The router: python/xoscar/backends/router.py

Left out: the communication configuration and `get_client_via_type` (used by copy_to, same caching with a
client type in the key).
-/
namespace Xoscar.Router
open Config (Addr)

/-- `Router` (router.py:32-77) without its client cache -/
structure Router where
  /-- `_curr_external_addresses` -/
  curr : List Addr
  /-- `_local_mapping` -/
  localMap : Dict Addr (Option Addr)
  /-- `_mapping` -/
  mapping : Dict Addr (Option Addr)
  /-- `_proxy_config` -/
  proxy : Dict Addr Addr
  deriving DecidableEq, Repr

/-- `__init__` (router.py:61-77) -/
def new (external : List Addr) (localAddr : Option Addr) (mapping : Dict Addr (Option Addr)) (proxy : Dict Addr Addr) : Router :=
  ⟨external, Config.setAll [] external localAddr, mapping, proxy⟩

/-- `set_mapping` (router.py:94-96) -/
def Router.setMapping (r : Router) (m : Dict Addr (Option Addr)) : Router := { r with mapping := m }

/-- `add_router` (router.py:98-104) -/
def Router.add (r o : Router) : Router :=
  ⟨r.curr ++ o.curr, r.localMap.update o.localMap, r.mapping.update o.mapping, r.proxy.update o.proxy⟩

/-- `for addr in keys: d.pop(addr, None)` -/
def popAll (d : Dict Addr β) (keys : List Addr) : Dict Addr β := keys.foldl (fun d a => d.erase a) d

/-- `for a in addrs: try: l.remove(a) except ValueError: pass` -/
def removeEach (l addrs : List Addr) : List Addr := addrs.foldl (fun l a => l.erase a) l

/-- `remove_router` (router.py:106-116); the proxy configuration is left as it is -/
def Router.remove (r o : Router) : Router :=
  ⟨removeEach r.curr o.curr, popAll r.localMap o.localMap.keys, popAll r.mapping o.mapping.keys, r.proxy⟩

/-- `external_address` (router.py:118-121) -/
def Router.externalAddress (r : Router) : Option Addr := r.curr.head?

/-- `get_internal_address` (router.py:123-129) -/
def Router.internal (r : Router) (a : Addr) : Option Addr :=
  match r.localMap.get? a with
  | some i => i
  | none => (r.mapping.get? a).join

/-- `from_addr.split(":", 1)[0]` -/
def host (a : Addr) : Addr := String.ofList (a.toList.takeWhile (· ≠ ':'))

/-- `if addr and addr != from_addr: return addr` -/
def usable (a : Addr) : Option Addr → Option Addr
  | some p => if p ≠ "" ∧ p ≠ a then some p else none
  | none => none

/-- `get_proxy` (router.py:239-266) -/
def Router.getProxy (r : Router) (a : Addr) : Option Addr :=
  match usable a (r.proxy.get? a) with
  | some p => some p
  | none => match usable a (r.proxy.get? (host a)) with
    | some p => some p
    | none => usable a (r.proxy.get? "*")

/-- the `while True` loop of `get_proxies` (router.py:277-285); `none`: not finished after `fuel` rounds -/
def Router.proxyLoop (r : Router) : Nat → Addr → List Addr → Option (List Addr)
  | 0, _, _ => none
  | fuel + 1, a, acc => match r.getProxy a with
    | none => some acc
    | some p => r.proxyLoop fuel p (acc ++ [p])

/-- `get_proxies` (router.py:268-285): `some []` stands for the result None -/
def Router.getProxies (r : Router) (fuel : Nat) (a : Addr) : Option (List Addr) := r.proxyLoop fuel a []

/-- the address `get_client` connects to (router.py:155-172) -/
def Router.dest (r : Router) (ext : Addr) (proxies : List Addr) : Addr :=
  match r.internal ext with
  | some a => a
  | none => match proxies.getLast? with
    | none => match r.getProxy ext with
      | some p => if r.externalAddress = some p then ext else p
      | none => ext
    | some last => match r.getProxy last with
      | some p => p
      | none => last

/-! ## The client cache (router.py:79-96, 131-176) -/

abbrev Thread := Nat
abbrev Cid := Nat

/-- cache key: external address, `from_who`, proxy addresses -/
structure Key where
  ext : Addr
  who : Nat
  proxies : List Addr
  deriving DecidableEq, Repr

structure Client where
  dest : Addr
  closed : Bool
  deriving DecidableEq, Repr

/-- a `get_client` that is connecting -/
structure Pending where
  thread : Thread
  key : Key
  cached : Bool
  dest : Addr
  /-- the cache whose lock it holds -/
  epoch : Nat
  deriving DecidableEq

structure St where
  router : Router
  /-- `_cache_local.cache` of each thread -/
  cache : Dict (Thread × Key) Cid
  /-- number of the current `_cache_local` -/
  epoch : Nat
  clients : List Client
  pending : List Pending
  /-- the clients handed out: thread, key, client -/
  given : List (Thread × Key × Cid)

inductive Label where
  | setMapping (m : Dict Addr (Option Addr))
  | add (o : Router)
  | remove (o : Router)
  /-- `get_client` is called (or gets the lock) -/
  | get (t : Thread) (k : Key) (cached : Bool)
  /-- the `n`-th connection being made is established -/
  | connected (n : Nat)
  /-- … or fails -/
  | failed (n : Nat)
  /-- a client is closed -/
  | close (c : Cid)

/-- replacing `_cache_local` -/
def St.reset (s : St) (r : Router) : St := { s with router := r, cache := [], epoch := s.epoch + 1 }

def isOpen (s : St) (c : Cid) : Bool := match s.clients[c]? with
  | some k => !k.closed
  | none => false

/-- connect: router.py:155-173; a cached client found closed was dropped from the cache -/
def St.connect (s : St) (t : Thread) (k : Key) (cached : Bool) : St :=
  { s with pending := s.pending ++ [⟨t, k, cached, s.router.dest k.ext k.proxies, s.epoch⟩] }

def step (s : St) : Label → Option St
  | .setMapping m => some (s.reset (s.router.setMapping m))
  | .add o => some (s.reset (s.router.add o))
  | .remove o => some (s.reset (s.router.remove o))
  | .get t k cached =>
    if s.pending.any (fun p => p.thread = t ∧ p.epoch = s.epoch) then none    -- the lock is taken
    else if cached then
      match s.cache.get? (t, k) with
      | some c => if isOpen s c then some { s with given := s.given ++ [(t, k, c)] }
                  else some ({ s with cache := s.cache.erase (t, k) }.connect t k cached)
      | none => some (s.connect t k cached)
    else some (s.connect t k cached)
  | .connected n => match s.pending[n]? with
    | none => none
    | some p => some { s with
        pending := s.pending.eraseIdx n
        clients := s.clients ++ [⟨p.dest, false⟩]
        cache := if p.cached then s.cache.set (p.thread, p.key) s.clients.length else s.cache
        given := s.given ++ [(p.thread, p.key, s.clients.length)] }
  | .failed n => match s.pending[n]? with
    | none => none
    | some _ => some { s with pending := s.pending.eraseIdx n }
  | .close c => some { s with clients := s.clients.modify c (fun k => { k with closed := true }) }

inductive Run (r : Router) : List Label → St → Prop
  | init : Run r [] ⟨r, [], 0, [], [], []⟩
  | snoc {ls l s s'} : Run r ls s → step s l = some s' → Run r (ls ++ [l]) s'

/-! ## Routers of the pools of one process (pool.py:333-341) -/

/-- `_sync_pool_config`.  `old`: the pool's router as it is when called — its mapping is the mapping
of the old configuration *object*; in a main pool that object has already been changed to the new
contents, in a sub pool it has not (the new configuration came in a message).
Returns (global router, pool's router). -/
def syncConfig (glob old : Router) (newMapping : Dict Addr (Option Addr)) : Router × Router :=
  let glob := glob.remove old
  let pool := old.setMapping newMapping
  (glob.add pool, pool)

/-- `remove_sub_pool` in the main process (indigen/pool.py:407-422): the configuration is changed in place
first, and with it the mapping of the pool's router -/
def removeSubPoolMain (glob pool : Router) (c : Config.Config) (idx : Nat) : Option (Router × Router) :=
  match Config.removePool c idx with
  | none => none
  | some c' => some (syncConfig glob { pool with mapping := c'.mapping } c'.mapping)

/-- a sub pool that gets the new configuration (pool.py:363-364) -/
def removeSubPoolOther (glob pool : Router) (c : Config.Config) (idx : Nat) : Option (Router × Router) :=
  match Config.removePool c idx with
  | none => none
  | some c' => some (syncConfig glob pool c'.mapping)

end Xoscar.Router
