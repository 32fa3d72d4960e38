import Verif.Model.Base
/-!
# Joining and using the default group: collective/core.py:35-81, 327-412, 441-738, collective/utils.py:37-41

Pools are processes with an address; the environment of a process holds the address of the `RankActor` that collective calls made in this process
go to.  Simplified: addresses are opaque words (`""` is the empty one), one pool per process; whether the group can be connected
(`ProcessGroupGloo`/`ProcessGroupNCCL`) is an input; the data moved are not modelled, only whether they land in the caller's own memory.
-/
namespace Xoscar.InitPg

/-- the backends by name -/
inductive Backend where
  | gloo | nccl | other
  deriving DecidableEq, Repr

/-- a process: the address of its pool, `RANK_ADDRESS_ENV_KEY` and `COLLECTIVE_DEVICE_ID_ENV_KEY` (`some none`: not a number), cupy installed -/
structure Proc where
  addr : String
  rankAddr : Option String
  device : Option (Option Int)
  cupy : Bool
  deriving DecidableEq, Repr

/-- a `RankActor`: what `__init__` keeps, core.py:45-51 -/
structure Rank where
  rank : Int
  world : Int
  backend : Backend
  device : Option Int
  deriving DecidableEq, Repr

structure St where
  procs : Dict Nat Proc
  /-- the pools by address: the process -/
  pools : Dict String Nat
  /-- the actor "RankActor" of the pool of this address -/
  actors : Dict String Rank
  deriving Repr

def init : St := ⟨[], [], []⟩

/-- how `init_process_group` ends -/
inductive Res where
  | ok
  /-- AssertionError "The device id should be set …" -/
  | device
  /-- AssertionError "cupy is required …" -/
  | cupy
  /-- `int(env_device_id)` -/
  | valueError
  /-- RuntimeError "Cannot decide which process …" -/
  | noAddress
  /-- there is no pool at the address -/
  | noPool
  /-- ActorAlreadyExist -/
  | already
  /-- the group cannot be set up -/
  | failed
  deriving DecidableEq, Repr

/-- the arguments of `init_process_group` -/
structure Args where
  rank : Int
  world : Int
  backend : Backend
  device : Option Int
  address : Option String
  deriving DecidableEq, Repr

/-- `env_device_id is not None and int(env_device_id) >= 0`, core.py:364-365 -/
def envOk : Option (Option Int) → Except Res Bool
  | none => .ok false
  | some none => .error .valueError
  | some (some i) => .ok (0 ≤ i)

/-- the first assertion, core.py:358-367 -/
def deviceOk (a : Args) (env : Option (Option Int)) : Except Res Bool :=
  match a.backend with
  | .gloo => .ok true
  | .other => .ok false
  | .nccl => match a.device with
    | some d => if 0 ≤ d then .ok true else envOk env
    | none => envOk env

/-- the second assertion, core.py:368-370 (and 44-46 in the actor) -/
def cupyOk (b : Backend) (cupy : Bool) : Bool :=
  match b with
  | .gloo => true
  | .nccl => cupy
  | .other => false

/-- `address or os.environ.get(…)`, core.py:371 -/
def addressOf (a : Args) (env : Option String) : Option String :=
  match a.address with
  | some x => if x = "" then env else some x
  | none => env

/-- core.py:377-378; `int` cannot fail here once the assertion has passed with no device given -/
def deviceOf (a : Args) (env : Option (Option Int)) : Option Int :=
  match a.backend, a.device, env with
  | .nccl, none, some (some i) => some i
  | _, d, _ => d

/-- `__post_create__`, core.py:57-81, after `__init__`: the environment of the pool's process is set first; a failure takes the actor away -/
def create (st : St) (x : String) (q : Nat) (pr : Proc) (r : Rank) (connected : Bool) : St × Res :=
  let st := { st with procs := st.procs.set q { pr with rankAddr := some x } }
  if connected then ({ st with actors := st.actors.set x r }, .ok) else (st, .failed)

/-- `ctx.create_actor(RankActor, …, address=address, uid="RankActor")`, core.py:379-385 -/
def createAt (st : St) (x : String) (r : Rank) (connected : Bool) : St × Res :=
  match st.pools.get? x with
  | none => (st, .noPool)
  | some q => match st.procs.get? q with
    | none => (st, .noPool)
    | some pr =>
      if (st.actors.get? x).isSome then (st, .already)
      else if cupyOk r.backend pr.cupy then create st x q pr r connected
      else (st, .cupy)

/-- `init_process_group`, core.py:327-385, called in process `pr` -/
def initPg (st : St) (pr : Proc) (a : Args) (connected : Bool) : St × Res :=
  match deviceOk a pr.device with
  | .error e => (st, e)
  | .ok false => (st, .device)
  | .ok true =>
    if cupyOk a.backend pr.cupy then
      match addressOf a pr.rankAddr with
      | none => (st, .noAddress)
      | some x => createAt st x ⟨a.rank, a.world, a.backend, deviceOf a pr.device⟩ connected
    else (st, .cupy)

/-- what a collective call comes to: which actor serves it, and whether the caller's buffers are the ones filled -/
inductive Call where
  /-- RuntimeError INVOKE_ERROR_MESSAGE -/
  | notInit
  /-- there is no pool or no "RankActor" at the address -/
  | noActor
  | acts (r : Rank) (filled : Bool)
  deriving DecidableEq, Repr

/-- `reduce`, … `broadcast` (core.py:441-738): the address from the environment, a reference, the call.  The call works in place: on the caller's
buffers if the actor is in the caller's process, else on copies that came over a channel -/
def call (st : St) (p : Nat) : Call :=
  match st.procs.get? p with
  | none => .notInit
  | some pr => match pr.rankAddr with
    | none => .notInit
    | some x => match st.pools.get? x, st.actors.get? x with
      | some q, some r => .acts r (q = p)
      | _, _ => .noActor

inductive Label where
  /-- a process with a pool is started by the user, with an environment of its own -/
  | start (p : Nat) (pr : Proc)
  /-- process `p` starts a process with a pool: the environment is inherited -/
  | child (p q : Nat) (addr : String)
  | init (p : Nat) (a : Args) (connected : Bool) (r : Res)
  /-- the actor is destroyed -/
  | destroy (x : String)
  deriving DecidableEq, Repr

def step (st : St) : Label → Option St
  | .start p pr => match st.procs.get? p, st.pools.get? pr.addr with
    | none, none => some { st with procs := st.procs.set p pr, pools := st.pools.set pr.addr p }
    | _, _ => none
  | .child p q x => match st.procs.get? p, st.procs.get? q, st.pools.get? x with
    | some pr, none, none => some { st with procs := st.procs.set q { pr with addr := x }, pools := st.pools.set x q }
    | _, _, _ => none
  | .init p a c r => match st.procs.get? p with
    | some pr => if (initPg st pr a c).2 = r then some (initPg st pr a c).1 else none
    | none => none
  | .destroy x => match st.actors.get? x with
    | some _ => some { st with actors := st.actors.erase x }
    | none => none

inductive Run : List Label → St → Prop
  | init : Run [] init
  | snoc {ls : List Label} {l : Label} {s s' : St} : Run ls s → step s l = some s' → Run (ls ++ [l]) s'

end Xoscar.InitPg
