import Verif.Model.Router
/-!
# Calls through proxies: backends/core.py (`ActorCaller.call`), backends/pool.py (`forward`, `handle_control_command`),
backends/context.py (`kill_actor`, `wait_actor_pool_recovered`)

Pools are numbered.  A call is followed through the pools it visits.  Left out: timing, the client cache (C29), how a
message is processed by the pool that finally gets it (C22, C48), how a reply travels back over one connection (C20).
-/
namespace Xoscar.Forward
open Config (Addr)
open Router (Router)

abbrev Pid := Nat

/-- `ControlMessageType` (message.pyx) as far as `kill_actor` and `wait_actor_pool_recovered` use it -/
inductive Ctl where
  /-- `get_config` with content "main_pool_address" -/
  | getMain
  | stop
  | waitRecovered
  deriving DecidableEq, Repr

/-- what a message asks for.  `call`: everything that is neither a control
nor a cancel message -/
inductive Body where
  | ctl (addr : Addr) (c : Ctl)
  /-- `CancelMessage`: address and id of the message to cancel -/
  | cancel (addr : Addr) (target : Nat)
  | call (content : Nat)
  deriving DecidableEq, Repr

inductive Msg where
  | plain (id : Nat) (b : Body)
  /-- `ForwardMessage` (message.pyx): address and raw message -/
  | forward (id : Nat) (addr : Addr) (raw : Msg)
  deriving DecidableEq, Repr

def Msg.id : Msg → Nat
  | .plain i _ => i
  | .forward i _ _ => i

/-- `message.message_type == MessageType.control` -/
def Msg.isControl : Msg → Bool
  | .plain _ (.ctl _ _) => true
  | _ => false

inductive Err where
  /-- ConnectionError, ServerClosed -/
  | connection
  | keyError
  | typeError
  | valueError
  deriving DecidableEq, Repr

inductive Val where
  | result (content : Nat)
  | addr (a : Addr)
  | true_
  | error (e : Err)
  deriving DecidableEq, Repr

/-- what happened at the pool that did not pass the message on -/
inductive Effect where
  /-- the message was processed there -/
  | ran (content : Nat)
  /-- its task for this message was looked up and cancelled -/
  | cancels (target : Nat)
  /-- told its main pool's address -/
  | told
  /-- the pool stops itself -/
  | stopsItself
  /-- the main pool stops its sub pool at this address -/
  | stopsSub (a : Addr)
  /-- waits for the event "sub pool at this address has been recovered" -/
  | waits (a : Addr)
  /-- answered without doing anything -/
  | nothing
  deriving DecidableEq, Repr

/-- an actor pool, as far as it takes part -/
structure Pool where
  router : Router
  /-- `external_address` -/
  ext : Addr
  /-- MainActorPool or SubActorPool -/
  main : Bool
  /-- keys of `sub_processes` -/
  subs : List Addr
  /-- first external address of the first process in its configuration -/
  mainAddr : Addr
  autoRecover : Bool
  /-- the result of processing a message -/
  answer : Nat → Val

/-- what a pool does with a message -/
inductive Act where
  | done (e : Effect) (v : Val)
  /-- no reply until the event is set -/
  | wait (a : Addr)
  /-- `self.call(dest, m)`, whose result is the reply -/
  | pass (dest : Addr) (m : Msg)

/-- `AbstractActorPool.handle_control_command` (pool.py:343-381) -/
def ctlBase (p : Pool) : Ctl → Act
  | .stop => .done .stopsItself .true_
  | .getMain => .done .told (.addr p.mainAddr)
  | .waitRecovered => .done .nothing (.error .typeError)

/-- `MainActorPoolBase.handle_control_command` (pool.py:1208-1273) -/
def ctlMain (p : Pool) (id : Nat) (a : Addr) (c : Ctl) : Act :=
  if a = p.ext then ctlBase p c
  else match c with
    | .stop => if a ∈ p.subs then .done (.stopsSub a) .true_ else .done .nothing (.error .keyError)
    | .waitRecovered => if p.autoRecover then .wait a else .done .nothing .true_
    | .getMain => .pass a (.plain id (.ctl a c))

/-- `process_message` (pool.py:429-445): `forward` (pool.py:317-331), `handle_control_command` of main and sub pools
(the latter pool.py:949-954 differs from the base only for sync_config), `cancel` of the two (pool.py:1199-1205,
whether the task is still there is C46), and everything else -/
def handle (p : Pool) : Msg → Act
  | .forward _ a raw => .pass a raw
  | .plain id (.ctl a c) => if p.main then ctlMain p id a c else ctlBase p c
  | .plain id (.cancel a t) =>
    if p.main ∧ a ≠ p.ext then .pass a (.plain id (.cancel a t)) else .done (.cancels t) .true_
  | .plain _ (.call x) => .done (.ran x) (p.answer x)

/-- scheme of an address (communication/core.py:50-55): what stands before "://" -/
def remote (a : Addr) : Bool :=
  -- ChannelType of the client types: dummy.py:131 local, socket.py:442 ipc, socket.py:322 and ucx.py remote
  !("dummy://".toList.isPrefixOf a.toList || "unixsocket://".toList.isPrefixOf a.toList)

structure World where
  pool : Pid → Pool
  /-- the pool that answers when a pool connects to an address -/
  serves : Pid → Addr → Option Pid

/-- the message put on the wire (core.py:213-221) -/
def wrap (conn dest : Addr) (m : Msg) : Msg :=
  if remote conn ∧ conn ≠ dest ∧ ¬ m.isControl then .forward m.id dest m else m

/-- how a call ended for the one who made it -/
structure Out where
  /-- the pools the message visited, in order -/
  trail : List Pid
  /-- the pool at the end of the trail and what it did; `none`: could not connect any further -/
  done : Option (Pid × Effect)
  /-- id and content of the reply; `none`: waits for an event -/
  reply : Option (Nat × Val)
  deriving DecidableEq

/-- `ActorCaller.call` (core.py:202-222) made by pool `p`, with what happens at the receiver; `none`: still under way
after `fuel` hops.  A connection that fails raises in the caller; in a pool that passes the message on,
`_ErrorProcessor` (pool.py:431-445) makes an error reply of it, with the id of the message the pool got. -/
def World.send (w : World) : Nat → Pid → Addr → List Addr → Msg → Option Out
  | 0, _, _, _, _ => none
  | fuel + 1, p, dest, proxies, m =>
    let conn := (w.pool p).router.dest dest proxies
    match w.serves p conn with
    | none => some ⟨[], none, some (m.id, .error .connection)⟩
    | some q => match handle (w.pool q) (wrap conn dest m) with
      | .done e v => some ⟨[q], some (q, e), some (m.id, v)⟩
      | .wait a => some ⟨[q], some (q, .waits a), none⟩
      | .pass d raw => match w.send fuel q d [] raw with
        | none => none
        | some out => some { out with trail := q :: out.trail }

/-- `cancel` (context.py:267-272): made when a call with this reference is cancelled (context.py:103-115), without the
reference's proxy addresses -/
def World.cancel (w : World) (fuel : Nat) (p : Pid) (addr : Addr) (target i : Nat) : Option Out :=
  w.send fuel p addr [] (.plain i (.cancel addr target))

/-- how `kill_actor` ended -/
inductive Killed where
  /-- raised (locally or because of an error reply) -/
  | raised (e : Err)
  /-- returned, or is waiting -/
  | out (o : Out)
  deriving DecidableEq

/-- `kill_actor` (context.py:180-207) of the actor behind a reference with address `addr` and proxy addresses `proxies`;
`real` is the address of the reference `actor_ref` returns.  `i`, `i + 1`: message ids. -/
def World.kill (w : World) (fuel : Nat) (p : Pid) (addr : Addr) (proxies : List Addr) (real : Addr) (i : Nat) : Option Killed :=
  match w.send fuel p addr proxies (.plain i (.ctl addr .getMain)) with
  | none => none
  | some o => match o.reply with
    | some (_, .addr mainA) =>
      if real = mainA then some (.raised .valueError)
      else match w.send fuel p mainA proxies (.plain (i + 1) (.ctl real .stop)) with
        | none => none
        | some o' => match o'.reply with
          | some (_, .error e) => some (.raised e)
          | _ => some (.out o')
    | some (_, .error e) => some (.raised e)
    | _ => some (.out o)

/-- `wait_actor_pool_recovered` (context.py:276-306) with the main pool's address given -/
def World.waitRecovered (w : World) (fuel : Nat) (p : Pid) (addr mainA : Addr) (i : Nat) : Option Out :=
  if addr = mainA then some ⟨[], none, some (i, .true_)⟩
  else w.send fuel p mainA [] (.plain i (.ctl addr .waitRecovered))

end Xoscar.Forward
