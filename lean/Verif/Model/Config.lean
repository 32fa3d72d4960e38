import Verif.Model.Base
/-!
# The configuration of a pool and the allocation strategies

python/xoscar/backends/config.py and python/xoscar/backends/allocate_strategy.py.
Left out of a pool's entry: env, modules, suspend_sigint, use_uvloop, logging_conf, kwargs (stored and
given back untouched); metrics, comm and proxy sections.
-/
namespace Xoscar.Config

abbrev Addr := String

/-- an entry of `_conf["pools"]` (config.py:59-69) -/
structure PoolConf where
  label : Option String
  internal : Option Addr
  external : List Addr
  deriving DecidableEq, Repr

/-- `ActorPoolConfig._conf` -/
structure Config where
  pools : Dict Nat PoolConf
  mapping : Dict Addr (Option Addr)
  deriving DecidableEq, Repr

/-- `ActorPoolConfig()` (config.py:23-37) -/
def empty : Config := ⟨[], []⟩

/-- `for addr in external_address: mapping[addr] = internal_address` -/
def setAll (m : Dict Addr (Option Addr)) (addrs : List Addr) (internal : Option Addr) : Dict Addr (Option Addr) :=
  addrs.foldl (fun m a => m.set a internal) m

/-- `add_pool_conf` (config.py:43-73); a single address is passed as a one element list -/
def addPool (c : Config) (idx : Nat) (p : PoolConf) : Config :=
  ⟨c.pools.set idx p, setAll c.mapping p.external p.internal⟩

/-- `get_external_address` (config.py:83-84); `none` is KeyError / IndexError -/
def externalAddress (c : Config) (idx : Nat) : Option Addr :=
  match c.pools.get? idx with
  | some p => p.external.head?
  | none => none

/-- `remove_pool_config` (config.py:75-78); `none`: an exception -/
def removePool (c : Config) (idx : Nat) : Option Config :=
  match externalAddress c idx with
  | none => none
  | some a => if c.mapping.has a then some ⟨c.pools.erase idx, c.mapping.erase a⟩ else none

/-- the loop of `reset_pool_external_address` over the old addresses (config.py:106-110) -/
def dropOld (new0 : Option Addr) : List Addr → Dict Addr (Option Addr) × Option Addr → Dict Addr (Option Addr) × Option Addr
  | [], s => s
  | a :: as, (m, internal) => dropOld new0 as (m.erase a, if internal = some a then new0 else internal)

/-- `reset_pool_external_address` (config.py:97-116).  The changed internal address is written to the
mapping only. -/
def resetExternal (c : Config) (idx : Nat) (new : List Addr) : Option Config :=
  match c.pools.get? idx with
  | none => none
  | some p =>
    let r := dropOld new.head? p.external (c.mapping, p.internal)
    some ⟨c.pools.set idx { p with external := new }, setAll r.1 new r.2⟩

/-- `get_process_indexes` (config.py:86-87) -/
def processIndexes (c : Config) : List Nat := c.pools.keys

/-- `get_process_index` (config.py:89-95); `none`: ValueError -/
def processIndex (c : Config) (a : Addr) : Option Nat :=
  (c.pools.find? (fun e => a ∈ e.2.external)).map (·.1)

/-- `get_external_addresses` (config.py:118-126); entries without address (IndexError) do not occur -/
def externalAddresses (c : Config) (label : Option String) : List Addr :=
  c.pools.filterMap (fun e => match label with
    | none => e.2.external.head?
    | some l => if e.2.label = some l then e.2.external.head? else none)

/-! ## Allocation strategies (allocate_strategy.py) -/

inductive Strategy where
  | addressSpecified (a : Addr)
  | mainPool
  | random
  | randomSubPool
  | processIndex (i : Int)
  | randomLabel (label : Option String)
  | idleLabel (label : Option String) (mark : String)
  deriving DecidableEq, Repr

inductive Err where
  /-- `choice([])`, list index out of range -/
  | indexError
  | noIdleSlot
  deriving DecidableEq, Repr

/-- `strategy == self` for `self` an IdleLabel (allocate_strategy.py:137-142).  Strategies of other classes have no
`__eq__`; they are never equal to an IdleLabel. -/
def sameIdle (s self : Strategy) : Bool :=
  match s, self with
  | .idleLabel l m, .idleLabel l' m' => l = l' ∧ m = m'
  | _, _ => false

/-- `random.choice(l)`: the element at a random index; `r` is the outcome of the random generator -/
def choice (l : List Addr) (r : Nat) : Except Err Addr :=
  match l[r % l.length]? with
  | some a => .ok a
  | none => .error .indexError

/-- Python list indexing, negative indices counting from the end -/
def pyIndex (l : List α) (i : Int) : Option α :=
  if 0 ≤ i then l[i.toNat]? else if 0 ≤ l.length + i then l[(l.length + i).toNat]? else none

def orIndexError : Option Addr → Except Err Addr
  | some a => .ok a
  | none => .error .indexError

/-- the loop of `IdleLabel.get_allocated_address` (allocate_strategy.py:148-156) -/
def firstIdle (self : Strategy) (allocated : Addr → List Strategy) : List Addr → Except Err Addr
  | [] => .error .noIdleSlot
  | a :: as => if (allocated a).any (fun s => sameIdle s self) then firstIdle self allocated as else .ok a

/-- `get_allocated_address`.  `allocated a`: the strategies recorded for address `a`
(`allocated.get(addr, dict()).values()`). -/
def allocate (s : Strategy) (c : Config) (allocated : Addr → List Strategy) (r : Nat) : Except Err Addr :=
  match s with
  | .addressSpecified a => .ok a                                              -- 62-65
  | .mainPool => orIndexError ((processIndexes c)[0]?.bind (externalAddress c))      -- 72-77
  | .random => choice (externalAddresses c none) r                            -- 84-87
  | .randomSubPool => choice ((externalAddresses c none).drop 1) r            -- 94-97
  | .processIndex i => orIndexError ((pyIndex (processIndexes c) i).bind (externalAddress c))  -- 107-111
  | .randomLabel l => choice (externalAddresses c l) r                        -- 121-124
  | .idleLabel l m => firstIdle (.idleLabel l m) allocated (externalAddresses c l)  -- 145-160

end Xoscar.Config
