import Verif.Model.Base
/-!
# References used in the process of the actor's own pool

`core.pyx` 60-106 (`_get_local_actor`, `register_local_pool`, `create_local_actor_ref`, `create_actor_ref`), 108-160 and 236-340
(`ActorRef`, `LocalActorRef` and their methods), `batch.py` 119-180, the lookups of `pool.py` 611-700 and `AbstractActorPool.stop`
(501-518), for one pool and one address.

Simplified: method bodies, locks and results (`Model/ActorLock`, `Model/Calls`); attributes of the reference class itself (`uid`,
`address`, `destroy`), which shadow methods of the same name on both kinds of reference; the debug option `log_cycle_send`, which
switches local references off (`cycleDebug`).
-/
namespace Xoscar.Local

abbrev Uid := String
abbrev Name := String
/-- identity of an actor object -/
abbrev Obj := Nat

/-- the part of a process that matters: one pool with its actors, and the objects alive -/
structure World where
  /-- `pool._actors`, pool.py:184 -/
  actors : Dict Uid Obj := []
  /-- actor objects that were created and not yet freed by the interpreter -/
  alive : List Obj := []
  /-- every object made so far (an identity is never used again) -/
  made : List Obj := []
  /-- the pool's servers accept messages, pool.py:493-518 -/
  serving : Bool := true
  /-- the weak reference in `_local_pool_map` still leads to the pool, core.pyx:66-67, 79-81 -/
  poolAlive : Bool := true

/-- what happens in the pool's process -/
inductive Event where
  /-- `create_actor` with a uid; `o` is the object the class makes -/
  | create (u : Uid) (o : Obj)
  | destroy (u : Uid)
  /-- the interpreter frees an object -/
  | collect (o : Obj)
  /-- `pool.stop()` -/
  | stop
  /-- the last reference to the pool itself goes away -/
  | dropPool
  deriving DecidableEq, Repr

/-- One event.  `create`: pool.py:611-634 (ActorAlreadyExist otherwise; `__post_create__` is taken to succeed, see C23).
`destroy`: pool.py:645-662.  Both arrive as messages, so only a serving pool sees them.  `collect`: only objects the pool does not hold
can be freed.  `stop` (pool.py:501-518) leaves `_actors` alone. -/
def step (w : World) : Event → World
  | .create u o =>
    if w.serving ∧ ¬ (w.actors.has u) ∧ o ∉ w.made then
      { w with actors := w.actors.set u o, alive := o :: w.alive, made := o :: w.made }
    else w
  | .destroy u => if w.serving then { w with actors := w.actors.erase u } else w
  | .collect o => if o ∈ w.actors.vals ∧ w.poolAlive then w else { w with alive := w.alive.filter (· ≠ o) }
  | .stop => { w with serving := false }
  | .dropPool => if w.serving then w else { w with poolAlive := false }

def run (w : World) (es : List Event) : World := es.foldl step w

/-- a `LocalActorRef` (core.pyx:236-249): address and uid as for any reference, and a weak reference to the actor object -/
structure LRef where
  uid : Uid
  weak : Obj
  deriving DecidableEq, Repr

/-- the weak reference called: the object, or None once it is freed -/
def deref (w : World) (o : Obj) : Option Obj := if o ∈ w.alive then some o else none

/-- `_get_local_actor`, core.pyx:60-73 -/
def getLocalActor (cycleDebug : Bool) (w : World) (u : Uid) : Option Obj :=
  if cycleDebug then none else if w.poolAlive then w.actors.get? u else none

/-- `create_local_actor_ref`, core.pyx:84-95, 245-249 (also the result of unpickling a reference, core.pyx:98-106) -/
def createLocalRef (cycleDebug : Bool) (w : World) (u : Uid) : Option LRef :=
  (getLocalActor cycleDebug w u).map fun o => ⟨u, o⟩

/-- `actor = self._actor_weakref() or self._weakref_local_actor()`, core.pyx:251-257, 264, 312: the actor and the new weak reference -/
def resolve (cycleDebug : Bool) (w : World) (r : LRef) : Option Obj × LRef :=
  match deref w r.weak with
  | some o => (some o, r)
  | none => match getLocalActor cycleDebug w r.uid with
    | some o => (some o, { r with weak := o })
    | none => (none, r)

/-- what a call comes to -/
inductive Out where
  /-- the method `name` of the object runs with these arguments -/
  | runs (o : Obj) (name : Name) (args : List Nat)
  | actorNotExist
  | attributeError
  /-- ServerClosed / ConnectionRefusedError -/
  | noConnection
  deriving DecidableEq, Repr

/-- `item.startswith('_') and item not in [...]`, core.pyx:130-131 -/
def hidden (name : Name) : Bool :=
  name.toList.head? = some '_' && !(name = "__xoscar_next__" || name = "__xoscar_destroy_generator__")

/-- `getattr(actor, name)` and the call; `methods o` are the method names of the object's class -/
def invoke (methods : Obj → List Name) (o : Obj) (name : Name) (args : List Nat) : Out :=
  if name ∈ methods o then .runs o name args else .attributeError

/-- `await ref.name(*args)` by an `ActorRef`: core.pyx:130-138, 176-181, then the receiving pool, pool.py:685-694 -/
def remoteCall (methods : Obj → List Name) (w : World) (u : Uid) (name : Name) (args : List Nat) : Out :=
  if hidden name then .attributeError
  else if w.serving then
    match w.actors.get? u with
    | none => .actorNotExist
    | some o => invoke methods o name args
  else .noConnection

/-- `await ref.name(*args)` by a `LocalActorRef`: core.pyx:259-271, 310-321 -/
def localCall (methods : Obj → List Name) (w : World) (r : LRef) (name : Name) (args : List Nat) : Out :=
  match (resolve false w r).1 with
  | none => .actorNotExist
  | some o => invoke methods o name args

/-- what the caller of `await ref.name.tell(*args)` sees and what runs -/
structure Told where
  /-- raised to the caller -/
  raised : Option Out
  /-- what runs in the pool (`none`: nothing) -/
  runs : Option Out
  deriving DecidableEq, Repr

/-- an outcome that is a running method -/
def ran : Out → Option Out
  | .runs o n a => some (.runs o n a)
  | _ => none

/-- `ActorRefMethod.tell`, core.pyx:183-185, context.py:255-265: the reply is never looked at -/
def remoteTell (methods : Obj → List Name) (w : World) (u : Uid) (name : Name) (args : List Nat) : Told :=
  match remoteCall methods w u name args with
  | .noConnection => ⟨some .noConnection, none⟩
  | .attributeError => if hidden name then ⟨some .attributeError, none⟩ else ⟨none, none⟩
  | o => ⟨none, ran o⟩

/-- `LocalActorRefMethod.tell`, core.pyx:331-336: the actor and the method are looked up before the task is made -/
def localTell (methods : Obj → List Name) (w : World) (r : LRef) (name : Name) (args : List Nat) : Told :=
  match localCall methods w r name args with
  | .runs o n a => ⟨none, some (.runs o n a)⟩
  | o => ⟨some o, none⟩

/-! ## batches -/

/-- a delayed call in the caller's program: `ref.method.delay(*args)` -/
structure Delay where
  method : Name
  args : List Nat
  deriving DecidableEq, Repr

/-- what `ref.name.batch(*delays)` does -/
inductive BatchOut where
  /-- the (batch form of the) method runs with these argument lists -/
  | runs (o : Obj) (name : Name) (args : List (List Nat))
  | valueError
  | actorNotExist
  | attributeError
  | noConnection
  deriving DecidableEq, Repr

def invokeBatch (methods : Obj → List Name) (o : Obj) (name : Name) (args : List (List Nat)) : BatchOut :=
  if name ∈ methods o then .runs o name args else .attributeError

/-- `last_method` after the loop, core.pyx:204-213: `none` = ValueError -/
def lastMethod : Option Name → List Delay → Option (Option Name)
  | last, [] => some last
  | none, d :: ds => lastMethod (some d.method) ds
  | some m, d :: ds => if d.method ≠ m then none else lastMethod (some d.method) ds

/-- `ActorRefMethod.batch`, core.pyx:191-226: the method is that of the delays.  `methods` are here the `@extensible` methods.
(Keyword arguments as in `Model/Calls`.) -/
def remoteBatch (methods : Obj → List Name) (w : World) (u : Uid) (name : Name) (ds : List Delay) : BatchOut :=
  if hidden name ∨ ∃ d ∈ ds, hidden d.method then .attributeError
  else match lastMethod none ds with
    | none => .valueError
    | some last =>
      if w.serving then
        match w.actors.get? u with
        | none => .actorNotExist
        | some o => invokeBatch methods o (last.getD name) (ds.map (·.args))
      else .noConnection

/-- the delays of a local reference are made by the actor's method (core.pyx:338-340, batch.py:134-136) and forget its name; a missing
actor or method shows when the delay is made -/
def localDelay (methods : Obj → List Name) (w : World) (r : LRef) (d : Delay) : Out :=
  localCall methods w r d.method d.args

/-- the first delay that fails -/
def firstFailure (methods : Obj → List Name) (w : World) (r : LRef) : List Delay → Option Out
  | [] => none
  | d :: ds => match localDelay methods w r d with
    | .runs _ _ _ => firstFailure methods w r ds
    | o => some o

/-- `LocalActorRefMethod.batch`, core.pyx:342-350, `_ExtensibleWrapper.batch`, batch.py:167-169: the method is that of the reference,
whatever the delays were made from -/
def localBatch (methods : Obj → List Name) (w : World) (r : LRef) (name : Name) (ds : List Delay) : BatchOut :=
  match firstFailure methods w r ds with
  | some .actorNotExist => .actorNotExist
  | some _ => .attributeError
  | none => match (resolve false w r).1 with
    | none => .actorNotExist
    | some o => invokeBatch methods o name (ds.map (·.args))

end Xoscar.Local
