import Verif.Model.Config
import Verif.Model.Ports
/-!
# Starting pools: `create_actor_pool` (backends/pool.py:1515-1628), `MainActorPoolBase.create` (pool.py:1283-1338),
`ActorPoolBase.create` (pool.py:806-850), `append_sub_pool`/`remove_sub_pool` (indigen/pool.py:341-422)

On a system with Unix sockets.  An argument that is None or empty is `[]` (the code tests truth).  Left out: modules,
logging, uvloop, metrics, comm and proxy configuration (stored untouched), `get_external_addresses` (C33; its result is the
argument `exts`).
-/
namespace Xoscar.Create
open Config

abbrev Env := List (String × String)

/-- `auto_recover` as given -/
inductive AutoRecover where
  | true_ | false_ | actor | process
  /-- any other object -/
  | other
  deriving DecidableEq, Repr

structure Args where
  n : Nat
  labels : List (Option String)
  envs : List Env
  schemes : List (Option String)
  flags : List Bool
  autoRecover : AutoRecover
  deriving DecidableEq, Repr

inductive Err where
  | valueError
  /-- a sub pool could not be started (indigen/pool.py:337), or a server of the main pool -/
  | osError
  deriving DecidableEq, Repr

/-- pool.py:1536-1565: the checks before anything is done; returns the flags and `auto_recover` in use -/
def check (a : Args) : Except Err (List Bool × AutoRecover) :=
  if a.labels ≠ [] ∧ a.labels.length ≠ a.n + 1 then .error .valueError
  else if a.envs ≠ [] ∧ a.envs.length ≠ a.n then .error .valueError
  else if a.schemes ≠ [] ∧ a.schemes.length ≠ a.n + 1 then .error .valueError
  else if a.flags ≠ [] ∧ a.flags.length ≠ a.n + 1 then .error .valueError
  else
    let flags := if a.flags = [] then List.replicate (a.n + 1) true else a.flags
    match a.autoRecover with
    | .true_ => .ok (flags, .actor)
    | .other => .error .valueError
    | r => .ok (flags, r)

/-- `labels[i] if labels else None` -/
def labelOf (a : Args) (i : Nat) : Option String := (a.labels[i]?).join

/-- `env=envs[i] if envs else None` for the sub pools; no `env` for the main pool (index 0 here) -/
def envOf (a : Args) : Nat → Option Env
  | 0 => none
  | i + 1 => a.envs[i]?

/-- `gen_internal_address` (indigen/pool.py:128-136) -/
def internalAddress (idx : Nat) : Addr := s!"unixsocket:///{idx}"

/-- configuration and environments of the processes -/
structure Full where
  conf : Config
  env : Dict Nat (Option Env)

/-- one `add_pool_conf` of `create_actor_pool` (pool.py:1580-1616) for the process number `i` (0: the main pool) with process
index `idx i` and external address `ext` -/
def addOne (a : Args) (flags : List Bool) (idx : Nat → Nat) (c : Full) (i : Nat) (ext : Addr) : Full :=
  ⟨addPool c.conf (idx i) ⟨labelOf a i, if (flags[i]?).getD true then some (internalAddress (idx i)) else none, [ext]⟩,
   c.env.set (idx i) (envOf a i)⟩

/-- the loop over the processes -/
def addAll (a : Args) (flags : List Bool) (idx : Nat → Nat) : Full → Nat → List Addr → Full
  | c, _, [] => c
  | c, i, e :: es => addAll a flags idx (addOne a flags idx c i e) (i + 1) es

/-- the configuration a sub process or the main pool goes on with after its servers were made: `_update_stored_addresses`
(pool.py:745-782).  `bound`: the address its external server really listens on -/
def update (c : Config) (idx : Nat) (bound : Addr) : Option Config :=
  match c.pools.get? idx with
  | none => none
  | some p => if p.external = [bound] then some c else resetExternal c idx [bound]

/-- what one pool has after creation -/
structure Made where
  /-- the configuration of the main pool -/
  conf : Config
  env : Dict Nat (Option Env)
  /-- configuration each sub pool has, by process index -/
  subs : Dict Nat Config
  /-- `sub_processes`: address and process (number of the process) -/
  processes : Dict Addr Nat
  deriving DecidableEq

/-- `reset_pool_external_address` for all sub pools (pool.py:1310-1315) -/
def resetAll (idx : Nat → Nat) (bound : Nat → Addr) : Config → List Nat → Option Config
  | c, [] => some c
  | c, i :: is => match resetExternal c (idx i) [bound i] with
    | none => none
    | some c => resetAll idx bound c is

/-- the configurations of the sub pools when they have started -/
def subConfs (c : Config) (idx : Nat → Nat) (bound : Nat → Addr) : List Nat → Dict Nat Config
  | [] => []
  | i :: is => (idx i, (update c (idx i) (bound i)).getD c) :: subConfs c idx bound is

/-- `for addr, proc in zip(addresses, processes): pool.attach_sub_process(addr, proc)` (pool.py:1321-1325) -/
def attachAll : Dict Addr Nat → List (Addr × Nat) → Dict Addr Nat
  | d, [] => d
  | d, x :: xs => attachAll (Dict.set d x.1 x.2) xs

/-- `set(old) == set(now)` -/
def sameSet (old now : List Addr) : Bool := old.all (· ∈ now) && now.all (· ∈ old)

/-- the configurations of the sub pools after `sync_config` was sent, or not -/
def sync (same : Bool) (started : Dict Nat Config) (conf : Config) : Dict Nat Config :=
  if same then started else started.map (fun x => (x.1, conf))

/-- `create_actor_pool` when every process starts: `bound i` is the address process `i` listens on -/
def create (a : Args) (exts : List Addr) (idx : Nat → Nat) (bound : Nat → Addr) : Except Err Made :=
  match check a with
  | .error e => .error e
  | .ok (flags, _) =>
    let full := addAll a flags idx ⟨empty, []⟩ 0 exts
    let old := externalAddresses full.conf none
    let started := subConfs full.conf idx bound (List.range' 1 a.n)                     -- the sub processes
    match (resetAll idx bound full.conf (List.range' 1 a.n)).bind (fun c => update c (idx 0) (bound 0)) with
    | none => .error .valueError                                                       -- KeyError, does not happen
    | some conf =>
      let addresses := (externalAddresses conf none).drop 1                            -- pool.py:1319
      let processes := attachAll [] (addresses.zip (List.range' 1 a.n))
      let now := externalAddresses conf none
      -- sync_config only if the set of addresses changed (pool.py:1326-1335)
      .ok ⟨conf, full.env, sync (sameSet old now) started conf, processes⟩

/-! ## Failing start-up -/

/-- `wait_sub_pools_ready` (indigen/pool.py:150-167) and then the servers of the main pool.  `subOk`: which sub processes
start; `mainOk`: the main pool's servers can be made.  Result: the error, if any, and the sub processes running
afterwards.  The variable `error` of the code is never set, so the clean-up never runs. -/
def start (subOk : List Bool) (mainOk : Bool) : Option Err × List Nat :=
  let running := (List.range subOk.length).filter (fun i => (subOk[i]?).getD false)
  if subOk.all id then if mainOk then (none, running) else (some .osError, running)
  else (some .osError, running)

/-! ## Sub pools added and removed later -/

structure St where
  conf : Config
  /-- `sub_processes`: address ↦ process index of the process (the process object) -/
  processes : Dict Addr Nat
  /-- sub pools being started -/
  pending : List Nat
  /-- the sub pools whose process runs and serves, by process index -/
  running : Dict Nat Addr
  /-- `_allocated_actors`: the actors recorded for each address -/
  actors : Dict Addr (List Nat)
  deriving DecidableEq

inductive Label where
  /-- `append_sub_pool` called: configuration entry made (indigen/pool.py:355-391), process being started -/
  | append (idx : Nat) (label : Option String) (ext : Addr)
  /-- the process is up and listens on `bound` (394-405) -/
  | started (idx : Nat) (bound : Addr)
  /-- it could not be started: the exception leaves `append_sub_pool` -/
  | failed (idx : Nat)
  /-- `remove_sub_pool` (407-422), whole: the stop of the process is C49 -/
  | remove (a : Addr)
  /-- an actor is created at an address the main pool allocated -/
  | create (a : Addr) (uid : Nat)
  deriving DecidableEq

def step (s : St) : Label → Option St
  | .append idx label ext =>
    if s.conf.pools.has idx then none   -- process indices are unique (C32)
    else some { s with
      conf := addPool s.conf idx ⟨label, some (internalAddress idx), [ext]⟩
      pending := s.pending ++ [idx] }
  | .started idx bound =>
    if idx ∈ s.pending then
      match resetExternal s.conf idx [bound] with
      | none => none
      | some c =>
        -- the system lets nobody listen on an address in use; port 0 is never one that is listened on
        if s.conf.pools.any (fun e => e.1 ≠ idx ∧ bound ∈ e.2.external) then none else some { s with
          conf := c
          processes := s.processes.set bound idx
          pending := s.pending.erase idx
          running := s.running.set idx bound }
    else none
  | .failed idx => if idx ∈ s.pending then some { s with pending := s.pending.erase idx } else none
  | .remove a =>
    match s.processes.get? a with
    | none => none          -- KeyError
    | some i => match processIndex s.conf a with
      | none => none
      | some idx => match removePool s.conf idx with
        | none => none
        | some c => some { s with conf := c, processes := s.processes.erase a, running := s.running.erase i }
  | .create a uid =>
    -- only at a running pool can an actor be made
    if a ∈ s.running.vals then some { s with actors := s.actors.set a (((s.actors.get? a).getD []) ++ [uid]) } else none

inductive Run (s₀ : St) : List Label → St → Prop
  | init : Run s₀ [] s₀
  | snoc {ls l s s'} : Run s₀ ls s → step s l = some s' → Run s₀ (ls ++ [l]) s'

/-- `has_actor` of the main pool (pool.py:1093-1104): looks at the records only -/
def hasActor (s : St) (uid : Nat) : Bool := s.actors.any (fun x => uid ∈ x.2)

end Xoscar.Create
