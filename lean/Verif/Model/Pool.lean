import Verif.Model.Base
/-!
# One actor pool serving requests: python/xoscar/backends/pool.py

Every message received by a pool is served by a task of its own (pool.py:573-598).  Tasks run to
their next `await` without interruption; the model's steps are these stretches.  Modelled: the
handlers of `ActorPoolBase` (pool.py:612-733), `process_message`, `_run_coro`, `_send_channel`
(pool.py:386-445), `_ErrorProcessor` (pool.py:94-115).  The overrides of `MainActorPoolBase` and
`SubActorPoolBase` are in `Verif/Model/Directory.lean`.  Proxies, tracing and profiling are left out.
-/
namespace Xoscar.Pool

/-- actor ids -/
abbrev Uid := Nat
/-- message ids, chosen by the clients -/
abbrev Mid := Nat
/-- actor objects -/
abbrev Inst := Nat
/-- tasks, in the order of `create_task` -/
abbrev Tid := Nat

/-- requests.  `create`: `ctorOk` tells whether `actor_cls(*args, **kwargs)` returns.  `other`: a
request whose handler does something that has no bearing on the actors (control commands, forwarding,
copy_to).  `reply`: a message of a type without a handler (ResultMessage, ErrorMessage; pool.py:430). -/
inductive Req where
  | create (uid : Uid) (ctorOk : Bool)
  | has (uid : Uid)
  | destroy (uid : Uid)
  | ref (uid : Uid)
  | send (uid : Uid)
  | tell (uid : Uid)
  | cancel (target : Mid)
  | other
  | reply
  deriving DecidableEq

/-- exceptions -/
inductive Err where
  | alreadyExist | notExist | cannotCancel | keyError
  /-- raised by user code -/
  | user (n : Nat)
  | cancelled
  | sendFailed
  deriving DecidableEq

/-- what a handler returns: `ResultMessage` or `ErrorMessage` -/
inductive Reply where
  | actorRef (uid : Uid)
  | bool (b : Bool)
  | uid (u : Uid)
  | value (n : Nat)
  | none
  | error (e : Err)
  deriving DecidableEq

/-- how awaited user code ends -/
inductive Out where
  | ok (n : Nat)
  | exc (n : Nat)
  | cancelled
  deriving DecidableEq

/-- where a task is suspended -/
inductive Phase where
  | new                             -- created, not run yet
  | post (uid : Uid) (inst : Inst)  -- in `__post_create__`
  | pre (uid : Uid) (inst : Inst)   -- in `__pre_destroy__`
  | recv (uid : Uid) (inst : Inst)  -- in `__on_receive__`
  | told                            -- `await asyncio.sleep(0)` of `tell`
  | other
  | sending (r : Reply) (resend : Bool)  -- in `channel.send`
  | done
  deriving DecidableEq

structure Task where
  mid : Mid
  req : Req
  phase : Phase
  /-- `task.cancel()` was called -/
  cancelReq : Bool
  deriving DecidableEq

/-- what happens, for the properties -/
inductive Ev where
  /-- `self._actors[actor_id] = actor` -/
  | registered (t : Tid) (uid : Uid) (inst : Inst)
  /-- `del self._actors[actor_id]`, the actor being `inst` -/
  | removed (t : Tid) (uid : Uid) (inst : Inst)
  /-- `create_actor` raises ActorAlreadyExist -/
  | refused (t : Tid) (uid : Uid)
  /-- `has_actor` answers -/
  | hasAns (t : Tid) (uid : Uid) (b : Bool)
  /-- ActorNotExist raised by destroy / actor_ref / send / tell -/
  | missing (t : Tid) (uid : Uid)
  /-- actor_ref / send / tell use the actor -/
  | found (t : Tid) (uid : Uid) (inst : Inst)
  /-- `__pre_destroy__` called -/
  | preDestroy (t : Tid) (uid : Uid) (inst : Inst)
  /-- a reply was sent -/
  | replied (t : Tid) (mid : Mid) (r : Reply)
  deriving DecidableEq

structure St where
  /-- `self._actors` -/
  actors : Dict Uid Inst
  /-- number of actor objects made so far -/
  nextInst : Nat
  /-- `self._process_messages` -/
  running : Dict Mid Tid
  tasks : List Task
  log : List Ev

def St.init : St := ⟨[], 0, [], [], []⟩

/-- outcome of `channel.send`: sent; ChannelClosed or ConnectionResetError; another exception (e.g.
the reply cannot be serialized); CancelledError -/
inductive SendOut where
  | sent | closed | failed | aborted
  deriving DecidableEq

inductive Label where
  /-- a message arrives: `asyncio.create_task(self.process_message(…))` (pool.py:590) -/
  | recv (mid : Mid) (req : Req)
  /-- the task runs for the first time -/
  | start (t : Tid)
  /-- the user code awaited ends, the task goes on -/
  | finish (t : Tid) (o : Out)
  /-- `channel.send` ends -/
  | send (t : Tid) (o : SendOut)

def St.setPhase (s : St) (t : Tid) (p : Phase) : St :=
  { s with tasks := s.tasks.modify t (fun k => { k with phase := p }) }

def St.addLog (s : St) (e : Ev) : St := { s with log := s.log ++ [e] }

/-- the handler returned `r` (or raised, turned into an `ErrorMessage` by `_ErrorProcessor`): `finally`
of `_run_coro` (pool.py:390-391), then `_send_channel` -/
def St.reply (s : St) (t : Tid) (mid : Mid) (r : Reply) : St :=
  { s.setPhase t (.sending r true) with running := s.running.erase mid }

/-- the handler goes on waiting for user code: registered by `_run_coro` (pool.py:387) -/
def St.await (s : St) (t : Tid) (mid : Mid) (p : Phase) : St :=
  { s.setPhase t p with running := s.running.set mid t }

/-- `create_actor` up to `__post_create__` (pool.py:612-627) -/
def startCreate (s : St) (t : Tid) (mid : Mid) (uid : Uid) (ctorOk : Bool) : St :=
  match s.actors.get? uid with
  | some _ => (s.addLog (.refused t uid)).reply t mid (.error .alreadyExist)
  | none =>
    if ctorOk then
      ({ s with actors := s.actors.set uid s.nextInst, nextInst := s.nextInst + 1 }.addLog
        (.registered t uid s.nextInst)).await t mid (.post uid s.nextInst)
    else s.reply t mid (.error (.user 0))

/-- `destroy_actor` up to `__pre_destroy__` (pool.py:646-655) -/
def startDestroy (s : St) (t : Tid) (mid : Mid) (uid : Uid) : St :=
  match s.actors.get? uid with
  | some i => (s.addLog (.preDestroy t uid i)).await t mid (.pre uid i)
  | none => (s.addLog (.missing t uid)).reply t mid (.error .notExist)

/-- `send`, `tell`, `actor_ref` (pool.py:664-716): look the actor up, then `k` -/
def startUse (s : St) (t : Tid) (mid : Mid) (uid : Uid) (k : St → Inst → St) : St :=
  match s.actors.get? uid with
  | some i => k (s.addLog (.found t uid i)) i
  | none => (s.addLog (.missing t uid)).reply t mid (.error .notExist)

/-- `cancel` (pool.py:719-733).  The task of the cancel message is itself registered by
`process_message`; a message cancelling itself gets CancelledError where `channel.send` first really
waits, if it does: its reply may or may not go out. -/
def startCancel (s : St) (t : Tid) (mid target : Mid) : St :=
  match (s.running.set mid t).get? target with
  | none => s.reply t mid (.error .cannotCancel)
  | some t' =>
    if t' = t then s.reply t mid (.bool true)
    else ({ s with tasks := s.tasks.modify t' (fun k => { k with cancelReq := true }) }).reply t mid (.bool true)

/-- first run of a task: `process_message` (pool.py:429-445) and the handler, up to its first `await` -/
def startTask (s : St) (t : Tid) (mid : Mid) : Req → St
  | .create uid ctorOk => startCreate s t mid uid ctorOk
  | .has uid => (s.addLog (.hasAns t uid (s.actors.get? uid).isSome)).reply t mid (.bool (s.actors.get? uid).isSome)
  | .destroy uid => startDestroy s t mid uid
  | .ref uid => startUse s t mid uid (fun s _ => s.reply t mid (.actorRef uid))
  | .send uid => startUse s t mid uid (fun s i => s.await t mid (.recv uid i))
  | .tell uid => startUse s t mid uid (fun s _ => s.await t mid .told)
  | .cancel target => startCancel s t mid target
  | .other => s.await t mid .other
  | .reply => s.setPhase t .done      -- `self._message_handler[…]` raises KeyError in the task

/-- `del self._actors[actor_id]` and the result of `destroy_actor` (pool.py:656-661) -/
def finishDestroy (s : St) (t : Tid) (mid : Mid) (uid : Uid) : St :=
  match s.actors.get? uid with
  | some i => ({ s with actors := s.actors.erase uid }.addLog (.removed t uid i)).reply t mid (.uid uid)
  | none => s.reply t mid (.error .keyError)

/-- the exception of an awaited coroutine as an error reply -/
def Out.err : Out → Err
  | .ok _ => .cancelled      -- not used
  | .exc n => .user n
  | .cancelled => .cancelled

/-- the awaited coroutine ended.  User code may react to a cancellation as it likes; the `sleep(0)` of
`tell` is cut short exactly when the task was cancelled (`cr`). -/
def finishTask (s : St) (t : Tid) (mid : Mid) (cr : Bool) : Phase → Out → Option St
  | .post uid _, .ok _ => some (s.reply t mid (.actorRef uid))           -- pool.py:629-634
  | .pre uid _, .ok _ => some (finishDestroy s t mid uid)
  | .recv _ _, .ok n => some (s.reply t mid (.value n))                  -- pool.py:690-696
  | .told, .ok _ => if cr then none else some (s.reply t mid .none)      -- pool.py:710-716
  | .other, .ok n => some (s.reply t mid (.value n))
  | .post _ _, o => some (s.reply t mid (.error o.err))
  | .pre _ _, o => some (s.reply t mid (.error o.err))
  | .recv _ _, o => some (s.reply t mid (.error o.err))
  | .told, .cancelled => if cr then some (s.reply t mid (.error .cancelled)) else none
  | .other, o => some (s.reply t mid (.error o.err))
  | _, _ => none

/-- `_send_channel` (pool.py:393-427) after `channel.send` ended -/
def sendTask (s : St) (t : Tid) (mid : Mid) (r : Reply) (resend : Bool) : SendOut → St
  | .sent => (s.addLog (.replied t mid r)).setPhase t .done
  | .closed => s.setPhase t .done
  | .aborted => s.setPhase t .done
  | .failed => if resend then s.setPhase t (.sending (.error .sendFailed) false) else s.setPhase t .done

def step (s : St) : Label → Option St
  | .recv mid req => some { s with tasks := s.tasks ++ [⟨mid, req, .new, false⟩] }
  | .start t => match s.tasks[t]? with
    | some ⟨mid, req, .new, _⟩ => some (startTask s t mid req)
    | _ => none
  | .finish t o => match s.tasks[t]? with
    | some ⟨mid, _, p, cr⟩ => finishTask s t mid cr p o
    | none => none
  | .send t o => match s.tasks[t]? with
    | some ⟨mid, req, .sending r again, _⟩ =>
      if o = .aborted ∧ req ≠ .cancel mid then none      -- only a message cancelling itself
      else some (sendTask s t mid r again o)
    | _ => none

/-- histories -/
inductive Run : List Label → St → Prop
  | init : Run [] .init
  | snoc {ls l s s'} : Run ls s → step s l = some s' → Run (ls ++ [l]) s'

end Xoscar.Pool
