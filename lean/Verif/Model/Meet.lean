import Verif.Model.Store

/-!
Model of how the ranks of a process group meet at the rendezvous store: connecting with retries
(cpp/collective/rendezvous/src/socket.cpp 593-800) and the constructor of `TCPStore`
(cpp/collective/rendezvous/src/tcp_store.cpp 1080-1138), as used by python/xoscar/collective/process_group.py 143-156.
-/
namespace Xoscar.Meet
open Store (toStr stoll wrap)

/-! ## Connecting -/

/-- what connecting to one address leads to (socket.cpp 723-848): `refused` also stands for a reset, `stuck` for neither an answer nor an
error until the deadline, `other` for every other error -/
inductive Res where
  | ok | refused | other | interrupted | stuck
  deriving DecidableEq, Repr

/-- an attempt at one address: the time shown by the clock at its start (726, in ms) and what it leads to -/
structure Try where
  time : Nat
  res : Res
  deriving DecidableEq, Repr

/-- one turn of the loop, 660-717: the attempts at the addresses the name has (`none`: the lookup failed), and the time of the look at the
clock after them (693) -/
structure Round where
  tries : Option (List Try)
  done : Nat
  deriving DecidableEq, Repr

inductive Out where
  /-- connected by the attempt made at that time -/
  | connected (t : Nat)
  /-- no address can be used -/
  | useless
  | timeout
  | interrupted
  /-- still trying after the rounds given -/
  | trying
  deriving DecidableEq, Repr

/-- `delay_duration_`, 594 -/
def delay : Nat := 1000

/-- the addresses of a round, 680-690 and 723-772; `inr`: none of them decided, the flag says whether to try again -/
def tryAddrs (deadline : Nat) : List Try → Sum Out Bool
  | [] => .inr false
  | t :: ts =>
    if deadline ≤ t.time then .inl .timeout
    else match t.res with
      | .ok => .inl (.connected t.time)
      | .interrupted => .inl .interrupted
      | .stuck => .inl .timeout
      | .refused => match tryAddrs deadline ts with
        | .inl o => .inl o
        | .inr _ => .inr true
      | .other => tryAddrs deadline ts

/-- the result of the addresses; a failed lookup is tried again (677) -/
def tryRound (deadline : Nat) (r : Round) : Sum Out Bool := match r.tries with
  | none => .inr true
  | some l => tryAddrs deadline l

/-- `SocketConnectOp::tryConnect(int)`, 646-721, with the deadline computed at 653 -/
def tryFamily (deadline : Nat) : List Round → Out
  | [] => .trying
  | r :: rs => match tryRound deadline r with
    | .inl o => o
    | .inr false => .useless
    | .inr true => if r.done + delay < deadline then tryFamily deadline rs else .timeout

/-- the seconds given to a connection (tcp_store.cpp 939-942), in ms -/
def limit (timeout : Nat) : Nat := timeout / 1000 * 1000

/-- `SocketConnectOp::run`, 600-644: addresses of IPv6 (which includes mapped IPv4 addresses), and only if none of them can be used, those of
IPv4, with a new deadline.  `useless` at the end is the `SocketError` of 643. -/
def connect (timeout start6 : Nat) (rounds6 : List Round) (start4 : Nat) (rounds4 : List Round) : Out :=
  match tryFamily (start6 + limit timeout) rounds6 with
  | .useless => tryFamily (start4 + limit timeout) rounds4
  | o => o

/-! ## Meeting

Process 0 has the server (`isServer = rank == 0`). -/

abbrev Proc := Nat
abbrev Key := List Char

structure Cfg where
  /-- `numWorkers` -/
  world : Option Nat
  /-- `timeout`, in ms; 0 is `kNoTimeout` -/
  timeout : Nat
  deriving DecidableEq, Repr

inductive Phase where
  /-- `client_` is connected (1093) -/
  | connected
  /-- in the loop of `waitForWorkers` (1118-1137) -/
  | waiting
  /-- `waitForWorkers` is over -/
  | joined
  /-- the constructor has returned -/
  | back
  deriving DecidableEq, Repr

structure St where
  now : Nat
  listening : Bool
  store : Dict Key (List Char)
  phases : Dict Proc Phase
  /-- `start`, 1117 -/
  since : Nat
  /-- the sleep of 1135 ends -/
  wakeAt : Nat
  /-- the loop was left at 1132 -/
  gaveUp : Bool
  deriving DecidableEq, Repr

def init : St := ⟨0, false, [], [], 0, 0, false⟩

/-- `initKey_` -/
def initKey : Key := "init/".toList
/-- `keyPrefix_ + key` -/
def userKey (k : Key) : Key := '/' :: k

inductive Label where
  | tick (d : Nat)
  /-- process 0 starts the server, 1086 -/
  | listen
  /-- 1093; process 0 too -/
  | connect (p : Proc)
  /-- `incrementValueBy(initKey_, 1)`, 1112, or nothing if `numWorkers_` is not given (1108) -/
  | count (p : Proc)
  /-- one turn of the loop, 1118-1136 -/
  | poll
  /-- `callbackClient_` is connected and the constructor returns, 1099 -/
  | ret (p : Proc)
  /-- somebody sets or deletes a key through the interface of the store -/
  | set (k : Key) (v : List Char)
  | del (k : Key)
  /-- a process other than the server's ends; it may be started again -/
  | crash (p : Proc)
  deriving DecidableEq, Repr

/-- the `ADD` request (`addHandler`, 404-426): `none` when the value is not a number -/
def add (d : Dict Key (List Char)) (k : Key) (delta : Int) : Option (Dict Key (List Char)) := match d.get? k with
  | none => some (d.set k (toStr (wrap delta)))
  | some v => match stoll v with
    | some x => some (d.set k (toStr (wrap (delta + x))))
    | none => none

/-- `std::stoi` (1123): like `stoll`, but 32 bits -/
def stoi (v : List Char) : Option Int := match stoll v with
  | some x => if -2147483648 ≤ x ∧ x < 2147483648 then some x else none
  | none => none

/-- has the time been exceeded (1127-1131): the time that has passed is cut to whole seconds -/
def tooLate (c : Cfg) (elapsed : Nat) : Bool := c.timeout ≠ 0 && decide (elapsed / 1000 * 1000 > c.timeout)

/-- what a turn of the loop does when `n` processes have been counted -/
def decision (c : Cfg) (w : Nat) (s : St) (n : Int) : St :=
  if (w : Int) ≤ n then { s with phases := s.phases.set 0 .joined }
  else if tooLate c (s.now - s.since) then { s with phases := s.phases.set 0 .joined, gaveUp := true }
  else { s with wakeAt := s.now + 10 }

/-- the turn of the loop: the value is read (1120) and decided upon.  A value that is no number ends the constructor with an error, for which
there is no step -/
def look (c : Cfg) (s : St) : Option St := match c.world, s.store.get? initKey with
  | some w, some v => match stoi v with
    | some n => some (decision c w s n)
    | none => none
  | _, _ => none

/-- counting, 1107-1117 -/
def doCount (c : Cfg) (s : St) (p : Proc) : Option St := match c.world with
  | none => some { s with phases := s.phases.set p .joined }
  | some _ => match add s.store initKey 1 with
    | none => none
    | some d =>
      if p = 0 then some { s with store := d, phases := s.phases.set p .waiting, since := s.now, wakeAt := s.now }
      else some { s with store := d, phases := s.phases.set p .joined }

def step (c : Cfg) (s : St) : Label → Option St
  | .tick d => some { s with now := s.now + d }
  | .listen => if s.listening then none else some { s with listening := true }
  | .connect p => if s.listening ∧ s.phases.get? p = none then some { s with phases := s.phases.set p .connected } else none
  | .count p => if s.phases.get? p = some .connected then doCount c s p else none
  | .poll => if s.phases.get? 0 = some .waiting ∧ s.wakeAt ≤ s.now then look c s else none
  | .ret p => if s.phases.get? p = some .joined then some { s with phases := s.phases.set p .back } else none
  | .set k v => some { s with store := s.store.set (userKey k) v }
  | .del k => some { s with store := s.store.erase (userKey k) }
  | .crash p => if p = 0 then none else some { s with phases := s.phases.erase p }

inductive Run (c : Cfg) : List Label → St → Prop
  | init : Run c [] init
  | snoc {ls : List Label} {l : Label} {s s' : St} : Run c ls s → step c s l = some s' → Run c (ls ++ [l]) s'

end Xoscar.Meet
