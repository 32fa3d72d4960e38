import Verif.Model.Base
/-!
# Where references and iterators lead, with more than one machine

`backends/context.py` 127-154 (`create_actor`), 209-228 (`actor_ref`), `backends/pool.py` 607-632, 663-680, 926-938, 1041-1090, 1134-1196 (pools),
`api.py` 330-380, 487-505 (`IteratorWrapper`, `generator`), `utils.py` 503-522 (`fix_all_zero_ip`).

Simplified: an address is a host and a port (that `fix_all_zero_ip` does on texts what `fix` does here is proved in Props/Home); a machine
refers to itself as `0.0.0.0` (every interface; dialled, Linux takes it for the loopback) and `127.0.0.1`; other hosts belong to one machine.
The main pool's directory agrees with the pools (C25).  Left out: the in-process shortcut (C67), proxies (C58), cancellation, stopping.
-/
namespace Xoscar.Home

abbrev Machine := Nat
abbrev Uid := Nat
abbrev Actor := Nat

inductive Host where
  /-- `0.0.0.0` -/
  | any
  /-- `127.0.0.1` -/
  | loop
  | ip (text : List Char)
  deriving DecidableEq, Repr

structure Addr where
  host : Host
  port : Nat
  deriving DecidableEq, Repr

/-- a process of an actor pool -/
structure Pool where
  machine : Machine
  /-- `external_address`: what its server is bound to, and the `address` of its actors (pool.py:620) -/
  bind : Addr
  /-- `main_pool_address`; the main pool's own is its `external_address` -/
  main : Addr
  /-- `_actors` -/
  actors : Dict Uid Actor
  deriving Repr

structure Net where
  pools : List Pool
  /-- which machine a host belongs to -/
  owner : List Char → Option Machine

/-- the kernel: which machine a connection from `m` goes to -/
def Net.target (n : Net) (m : Machine) (a : Addr) : Option Machine := match a.host with
  | .any => some m
  | .loop => some m
  | .ip t => n.owner t

/-- the kernel: whether a server bound to `p.bind` gets a connection to `a` arriving at its machine -/
def Pool.accepts (p : Pool) (a : Addr) : Bool :=
  p.bind.port = a.port && (match p.bind.host with
    | .any => true
    | .loop => decide (a.host = .loop ∨ a.host = .any)
    | .ip t => decide (a.host = .ip t))

/-- connecting from machine `m` to `a`; `none`: refused -/
def Net.dial (n : Net) (m : Machine) (a : Addr) : Option Pool :=
  match n.target m a with
  | none => none
  | some k => n.pools.find? fun p => p.machine = k && p.accepts a

/-- utils.py:503-522 `fix_all_zero_ip` -/
def fix (remote connect : Addr) : Addr :=
  if remote = connect then remote
  else if remote.host ≠ .any then remote
  else if connect.host = .any then remote
  else ⟨connect.host, remote.port⟩

/-- the processes of the pool whose main process is `p` (`_allocated_actors` has an entry for each) -/
def Net.members (n : Net) (p : Pool) : List Pool := n.pools.filter fun q => q.machine = p.machine && q.main = p.bind

/-- pool.py:1173-1196 `MainActorPool.actor_ref`; `none`: ActorNotExist -/
def Net.lookupMain (n : Net) (p : Pool) (asked : Addr) (uid : Uid) : Option Addr :=
  if asked = p.bind ∧ p.actors.has uid then some asked
  else ((n.members p).find? fun q => q.actors.has uid).map (·.bind)

/-- what a process answers to an ActorRefMessage: pool.py:1173-1196 for a main one, 663-680 and 926-938 for others -/
def Net.lookup (n : Net) (p : Pool) (asked : Addr) (uid : Uid) : Option Addr :=
  if p.bind = p.main then n.lookupMain p asked uid
  else if p.actors.has uid then some p.bind
  else match n.dial p.machine p.main with
    | none => none
    | some q => n.lookupMain q p.main uid

/-- context.py:209-228 `actor_ref` on machine `m`; `none`: refused or ActorNotExist -/
def Net.actorRef (n : Net) (m : Machine) (a : Addr) (uid : Uid) : Option Addr :=
  match n.dial m a with
  | none => none
  | some p => match n.lookup p a uid with
    | none => none
    | some r => some (if r ≠ a then fix r a else r)

/-- a call made on machine `m` with a reference (`a`, `uid`): which actor runs it.  pool.py:682-700; 1134-1151 for a main process, which
passes it on -/
def Net.call (n : Net) (m : Machine) (a : Addr) (uid : Uid) : Option Actor :=
  match n.dial m a with
  | none => none
  | some p =>
    match p.actors.get? uid with
    | some x => some x
    | none =>
      if p.bind = p.main then
        match n.lookupMain p a uid with
        | none => none
        | some b => match n.dial p.machine b with
          | none => none
          | some q => q.actors.get? uid
      else none

/-- pool.py:607-632: the process `q` gets the actor `x` -/
def Net.put (n : Net) (q : Pool) (uid : Uid) (x : Actor) : Net :=
  { n with pools := n.pools.map fun p =>
      if p.machine = q.machine && p.bind = q.bind then { p with actors := p.actors.set uid x } else p }

/-- context.py:127-154 `create_actor(…, uid=uid, address=a)` on machine `m`; `pick`: the allocation strategy's choice among the processes
(pool.py:1041-1090).  The new actor is `x`.  The address in the reference returned is the process's own, as it is. -/
def Net.createActor (n : Net) (m : Machine) (a : Addr) (pick : List Pool → Option Pool) (uid : Uid) (x : Actor) : Option (Net × Addr) :=
  match n.dial m a with
  | none => none
  | some p =>
    match (if p.bind = p.main then pick (n.members p) else some p) with
    | none => none
    | some q => if q.actors.has uid then none else some (n.put q uid x, q.bind)

/-- an `IteratorWrapper` (api.py:331-337, 500) -/
structure Iter where
  /-- `_actor_addr`: `self.address` of the actor -/
  addr : Addr
  /-- `_actor_uid` -/
  uid : Uid
  deriving DecidableEq, Repr

/-- api.py:487-505: what the actor `uid` in process `q` returns for a generator -/
def iterOf (q : Pool) (uid : Uid) : Iter := ⟨q.bind, uid⟩

/-- api.py:366-380 `__anext__` on machine `m`: the actor asked for the next item -/
def Net.next (n : Net) (m : Machine) (i : Iter) : Option Actor :=
  match n.actorRef m i.addr i.uid with
  | none => none
  | some r => n.call m r i.uid

end Xoscar.Home
