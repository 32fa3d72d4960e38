import Verif.Model.Base
/-!
# Starting, stopping and joining a pool: python/xoscar/backends/pool.py

`start`, `join`, `stop` of `AbstractActorPool` (pool.py:493-524), `stop` of `MainActorPoolBase`
(pool.py:1347-1364) and of `SubActorPoolBase` (pool.py:968-972).  Any number of tasks may call them
concurrently; a step is a stretch between awaits.  Starting or stopping one server, the caller and the
sub pools is recorded as an event; each may fail.
-/
namespace Xoscar.Life

abbrev Cid := Nat

/-- the three calls -/
inductive Op where
  | start | join | stop
  deriving DecidableEq

/-- where a call is -/
inductive Ph where
  /-- `start`: awaiting `asyncio.gather(*start_servers)` (pool.py:497) -/
  | starting
  /-- `join`: awaiting the event (pool.py:503) -/
  | joining
  /-- main pool's `stop`: awaiting the monitor's end and `stop_sub_pools` (pool.py:1355-1363) -/
  | stoppingSubs
  /-- base `stop`: awaiting `asyncio.gather(*stop_tasks)` (pool.py:518) -/
  | stoppingServers
  /-- the call returned -/
  | returned
  /-- the call raised -/
  | raised
  deriving DecidableEq

inductive Ev where
  /-- `server.start()` -/
  | serverStart (c : Cid) (srv : Nat)
  /-- `server.stop()` -/
  | serverStop (c : Cid) (srv : Nat)
  /-- `self._caller.stop()` -/
  | callerStop (c : Cid)
  /-- `stop_sub_pools()` -/
  | subsStop (c : Cid)
  /-- `self._stopped.set()` -/
  | setStopped (c : Cid)
  /-- `RuntimeError("pool has been stopped, cannot start again")` -/
  | startRefused (c : Cid)
  /-- `join` returns because of the event -/
  | joined (c : Cid)
  /-- `join` returns because of its time limit -/
  | joinTimeout (c : Cid)
  deriving DecidableEq

structure St where
  isMain : Bool
  /-- `self._servers` -/
  servers : List Nat
  /-- `self._stopped.is_set()` -/
  stopped : Bool
  /-- the calls made so far and where they are -/
  calls : List (Op × Ph)
  log : List Ev

def St.init (isMain : Bool) (servers : List Nat) : St := ⟨isMain, servers, false, [], []⟩

inductive Label where
  | start | join | stop
  /-- what call `c` awaits ends, with an exception or not -/
  | ends (c : Cid) (ok : Bool)
  /-- the time limit of `join` -/
  | timeout (c : Cid)
  deriving DecidableEq

def St.setCall (s : St) (c : Cid) (o : Op) (p : Ph) : St := { s with calls := s.calls.set c (o, p) }

/-- base `stop` up to its `await` (pool.py:507-518) -/
def baseStop (s : St) (c : Cid) : St :=
  { s with log := s.log ++ s.servers.map (Ev.serverStop c) ++ [.callerStop c] }

/-- `finally: self._stopped.set()` -/
def setStopped (s : St) (c : Cid) : St := { s with stopped := true, log := s.log ++ [.setStopped c] }

def step (s : St) : Label → Option St
  | .start =>
    if s.stopped then
      some { s with calls := s.calls ++ [(.start, .raised)], log := s.log ++ [.startRefused s.calls.length] }
    else
      some { s with calls := s.calls ++ [(.start, .starting)], log := s.log ++ s.servers.map (Ev.serverStart s.calls.length) }
  | .join => some { s with calls := s.calls ++ [(.join, .joining)] }
  | .stop =>
    if s.isMain then
      let s := setStopped s s.calls.length
      some { s with calls := s.calls ++ [(.stop, .stoppingSubs)], log := s.log ++ [.subsStop s.calls.length] }
    else
      let s := baseStop s s.calls.length
      some { s with calls := s.calls ++ [(.stop, .stoppingServers)] }
  | .ends c ok => match s.calls[c]? with
    | some (o, .starting) => some (s.setCall c o (if ok then .returned else .raised))
    | some (o, .joining) =>
      if s.stopped then some { s.setCall c o .returned with log := s.log ++ [.joined c] } else none
    | some (o, .stoppingSubs) =>
      if ok then some ((baseStop s c).setCall c o .stoppingServers) else some (s.setCall c o .raised)
    | some (o, .stoppingServers) =>
      if ok then some ((setStopped { s with servers := [] } c).setCall c o .returned)
      else some ((setStopped s c).setCall c o .raised)
    | _ => none
  | .timeout c => match s.calls[c]? with
    | some (o, .joining) => some { s.setCall c o .returned with log := s.log ++ [.joinTimeout c] }
    | _ => none

inductive Run (isMain : Bool) (servers : List Nat) : List Label → St → Prop
  | init : Run isMain servers [] (.init isMain servers)
  | snoc {ls l s s'} : Run isMain servers ls s → step s l = some s' → Run isMain servers (ls ++ [l]) s'

end Xoscar.Life
