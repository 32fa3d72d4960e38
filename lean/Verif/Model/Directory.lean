import Verif.Model.Config
/-!
# The main pool's directory of actors: python/xoscar/backends/pool.py:856-1273

One main pool and its sub pools, with a fixed configuration (sub pools added or lost later: Model/Recovery).
A request is a task that goes through atomic steps; between two steps of a task any step of any other task can
happen (the `await`s of the code and the messages between the pools).  Broken connections between
main and sub pool, and requests cancelled while they wait for another pool, are the label `lost`.

Left out: the class of the actor, its arguments, the message kept for recovery (Model/Recovery), proxy addresses.
-/
namespace Xoscar.Directory
open Config (Addr Strategy)

/-- actor ids (bytes in the code) -/
abbrev Uid := Nat
abbrev Tid := Nat

/-- the pools -/
structure Conf where
  config : Config.Config
  /-- external address of the main pool -/
  main : Addr

/-- the keys of `_allocated_actors` in order (pool.py:1021-1023) -/
def Conf.addrs (c : Conf) : List Addr := Config.externalAddresses c.config none

inductive Reply where
  | ok
  | already | notExist | hookFailed | keyError | callFailed
  | noAddress (e : Config.Err)
  deriving DecidableEq, Repr

/-- how far the creation at the pool that gets the actor is (pool.py:612-636) -/
inductive CPhase where
  /-- the request is about to be handled by that pool -/
  | body
  /-- the actor is in `_actors`, `__post_create__` runs -/
  | hook
  /-- the outcome is on its way to the main pool -/
  | told (r : Reply)
  deriving DecidableEq, Repr

/-- why an actor is destroyed -/
inductive Why where
  /-- a user's request at the main pool -/
  | mainReq
  /-- a user's request at the sub pool -/
  | direct
  /-- a sub pool told the main pool that it destroyed an actor -/
  | notified
  deriving DecidableEq, Repr

inductive Task where
  /-- creation at pool `addr`, decided by the main pool (`viaMain`) or asked there directly -/
  | create (addr : Addr) (uid : Uid) (strat : Strategy) (viaMain : Bool) (ph : CPhase)
  /-- `MainActorPoolBase.destroy_actor` (pool.py:1107) about to look the actor up -/
  | find (uid : Uid) (ref : Addr) (why : Why)
  /-- `ActorPoolBase.destroy_actor` (pool.py:650) at `addr`; `hook`: `__pre_destroy__` is running -/
  | destroy (addr : Addr) (uid : Uid) (why : Why) (hook : Bool)
  deriving DecidableEq, Repr

structure St where
  /-- the keys of `_actors` of every pool -/
  live : List (Addr × Uid)
  /-- `_allocated_actors` of the main pool, flattened: `(address, some uid)` for an actor reference,
  `(address, none)` for the placeholder `None`; the value is the strategy -/
  alloc : Dict (Addr × Option Uid) Strategy
  /-- the requests being handled -/
  tasks : Dict Tid Task
  next : Tid
  replies : List (Tid × Reply)
  /-- ghost: the actors created successfully that still exist, with the strategy asked for -/
  born : Dict (Addr × Uid) Strategy
  deriving Repr

def init : St := ⟨[], [], [], 0, [], []⟩

/-- `allocated[addr].values()` without the messages -/
def strategiesAt (alloc : Dict (Addr × Option Uid) Strategy) (a : Addr) : List Strategy :=
  (alloc.filter (fun e => e.1.1 = a)).map (·.2)

/-- the lookup loops of `has_actor` and `actor_ref` (pool.py:1097-1099, 1184-1186) -/
def lookupAlloc (c : Conf) (s : St) (u : Uid) : Option Addr :=
  c.addrs.find? (fun a => s.alloc.has (a, some u))

/-- `has_actor` at the main pool (pool.py:1094-1104) -/
def hasActorMain (c : Conf) (s : St) (u : Uid) : Bool := (lookupAlloc c s u).isSome

/-- `actor_ref` at the main pool (pool.py:1174-1197), `ref` the address in the reference asked for: the address
of the reference returned, or `none` for ActorNotExist -/
def actorRefMain (c : Conf) (s : St) (ref : Addr) (u : Uid) : Option Addr :=
  if ref = c.main ∧ (c.main, u) ∈ s.live then some c.main else lookupAlloc c s u

/-- `has_actor` at a sub pool (pool.py:639-646) -/
def hasActorSub (s : St) (a : Addr) (u : Uid) : Bool := (a, u) ∈ s.live

/-- `actor_ref` at a sub pool (pool.py:922-934): its own actors, else what the main pool says (asked with the main
pool's address) -/
def actorRefSub (c : Conf) (s : St) (a : Addr) (u : Uid) : Option Addr :=
  if (a, u) ∈ s.live then some a else actorRefMain c s c.main u

inductive Label where
  /-- a create request at the main pool -/
  | createMain (u : Uid) (st : Strategy) (r : Nat)
  /-- a create request at a sub pool -/
  | createSub (a : Addr) (u : Uid) (st : Strategy)
  /-- a destroy request for the actor `u` of the pool `a`, sent to that pool -/
  | destroy (a : Addr) (u : Uid)
  /-- the next step of a task (when it is running a hook: the hook ends successfully) -/
  | step (t : Tid)
  /-- the `__post_create__` that is running fails -/
  | createFails (t : Tid)
  /-- the `__pre_destroy__` that is running fails -/
  | destroyFails (t : Tid)
  /-- a message from one pool to another, or the answer to it, is lost: the call fails (broken connection), or the
  request is cancelled while it waits for it -/
  | lost (t : Tid)
  deriving DecidableEq, Repr

def St.reply (s : St) (t : Tid) (r : Reply) : St :=
  { s with tasks := s.tasks.erase t, replies := s.replies ++ [(t, r)] }

def St.put (s : St) (t : Tid) (k : Task) : St := { s with tasks := s.tasks.set t k }

def St.new (s : St) (k : Task) : St := { s with tasks := s.tasks.set s.next k, next := s.next + 1 }

/-- the outcome of a creation is known at the main pool: pool.py:1058-1064 and 1081-1089 (`viaMain`), or the
notification `add_sub_pool_actor` is handled: 1260-1270 (whatever the outcome was: 915-918) -/
def St.record (s : St) (a : Addr) (u : Uid) (st : Strategy) (viaMain : Bool) (r : Reply) : St :=
  if viaMain then
    { s with alloc := ((if r = .ok then s.alloc.set (a, some u) st else s.alloc).erase (a, none)) }
  else { s with alloc := s.alloc.set (a, some u) st }

/-- the actor is gone from its pool -/
def St.gone (s : St) (a : Addr) (u : Uid) : St :=
  { s with live := s.live.filter (· ≠ (a, u)), born := s.born.erase (a, u) }

/-- the steps of a task -/
def stepTask (c : Conf) (s : St) (t : Tid) (ok : Bool) : Task → St
  | .create a u st vm .body =>                                             -- 617-626
    if (a, u) ∈ s.live then
      if vm ∧ a = c.main then (s.record a u st vm .already).reply t .already
      else s.put t (.create a u st vm (.told .already))
    else { s with live := s.live ++ [(a, u)] }.put t (.create a u st vm .hook)
  | .create a u st vm .hook =>                                             -- 627-635
    let r := if ok then Reply.ok else .hookFailed
    let s := if ok ∧ (a, u) ∈ s.live then { s with born := s.born.set (a, u) st } else s
    if vm ∧ a = c.main then (s.record a u st vm r).reply t r               -- no await in between: 1058-1065, 1089
    else s.put t (.create a u st vm (.told r))
  | .create a u st vm (.told r) => (s.record a u st vm r).reply t r
  | .find u ref w =>                                                       -- 1107-1131
    match actorRefMain c s ref u with
    | none => s.reply t (if w = .notified then .ok else .notExist)
    | some a =>
      if a = c.main then s.put t (.destroy a u w false)
      else { s with alloc := s.alloc.erase (a, some u) }.put t (.destroy a u w false)
  | .destroy a u w false =>                                                -- 653-659
    if (a, u) ∈ s.live then s.put t (.destroy a u w true)
    else s.reply t (if w = .notified then .ok else .notExist)
  | .destroy a u w true =>                                                 -- 660-666
    if ok then
      if (a, u) ∈ s.live then
        match w with
        | .direct => (s.gone a u).put t (.find u a .notified)              -- 938-942
        | _ =>
          let s := s.gone a u
          if a = c.main then                                               -- 1116-1122
            if s.alloc.has (a, some u) then { s with alloc := s.alloc.erase (a, some u) }.reply t .ok
            else s.reply t (if w = .notified then .ok else .keyError)
          else s.reply t .ok
      else s.reply t (if w = .notified then .ok else .keyError)            -- the `del` finds nothing
    else s.reply t (if w = .notified then .ok else .hookFailed)

def step (c : Conf) (s : St) : Label → Option St
  | .createMain u st r =>                                                  -- 1042-1055
    match Config.allocate st c.config (strategiesAt s.alloc) r with
    | .error e => some ({ s with next := s.next + 1, replies := s.replies ++ [(s.next, .noAddress e)] })
    | .ok a =>
      if a ∈ c.addrs then some ({ s with alloc := s.alloc.set (a, none) st }.new (.create a u st true .body))
      else some ({ s with next := s.next + 1, replies := s.replies ++ [(s.next, .keyError)] })
  | .createSub a u st => if a ∈ c.addrs ∧ a ≠ c.main then some (s.new (.create a u st false .body)) else none
  | .destroy a u =>
    if a = c.main then some (s.new (.find u a .mainReq))
    else if a ∈ c.addrs then some (s.new (.destroy a u .direct false))
    else none
  | .step t => match s.tasks.get? t with
    | some k => some (stepTask c s t true k)
    | none => none
  | .createFails t => match s.tasks.get? t with
    | some (.create a u st vm .hook) => some (stepTask c s t false (.create a u st vm .hook))
    | _ => none
  | .destroyFails t => match s.tasks.get? t with
    | some (.destroy a u w true) => some (stepTask c s t false (.destroy a u w true))
    | _ => none
  -- When the call fails while the sub pool is in the middle of the request, the sub pool still finishes it: then
  -- the label comes at the end of it (`told`).
  | .lost t => match s.tasks.get? t with
    | some (.create a _ _ true .body) => if a = c.main then none else some (s.reply t .callFailed)
    | some (.create _ _ _ _ (.told _)) => some (s.reply t .callFailed)
    | some (.destroy a _ .mainReq false) => if a = c.main then none else some (s.reply t .callFailed)
    | some (.find _ _ .notified) => some (s.reply t .callFailed)
    | _ => none

inductive Run (c : Conf) : List Label → St → Prop
  | init : Run c [] init
  | snoc {ls l s s'} : Run c ls s → step c s l = some s' → Run c (ls ++ [l]) s'

end Xoscar.Directory
