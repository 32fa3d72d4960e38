import Verif.Model.Base
/-!
# In-process channels: python/xoscar/backends/communication/dummy.py

Two parts: one connection (39-97), and the servers of a process with their connections (100-255).
Messages are put into the queue as they are (80): no serialization; a message stands for the object itself.
-/
namespace Xoscar.Dummy

/-! ## One connection -/

/-- the two ends -/
inductive Side where
  | client
  | server
  deriving DecidableEq, Repr

def Side.other : Side → Side
  | .client => .server
  | .server => .client

abbrev Msg := Nat
/-- a call of `recv` -/
abbrev Rid := Nat

/-- what a call of `send` or `recv` gives -/
inductive Out where
  | sent
  | got (m : Msg)
  | channelClosed
  | cancelled
  deriving DecidableEq, Repr

/-- one direction: the `asyncio.Queue`, and the calls of `recv` waiting in `Queue.get` -/
structure Way where
  queue : List Msg
  waiting : List Rid
  deriving DecidableEq, Repr

/-- `toServer`: `q2`, `toClient`: `q1` (230-234); one event `closed` for both ends (232) -/
structure Conn where
  toServer : Way
  toClient : Way
  closed : Bool
  deriving DecidableEq, Repr

def Conn.init : Conn := ⟨⟨[], []⟩, ⟨[], []⟩, false⟩

/-- the way out of an end, i.e. into the other one -/
def Conn.out (c : Conn) : Side → Way
  | .client => c.toServer
  | .server => c.toClient

def Conn.setOut (c : Conn) (s : Side) (w : Way) : Conn := match s with
  | .client => { c with toServer := w }
  | .server => { c with toClient := w }

inductive Label where
  | send (s : Side) (m : Msg)
  /-- `recv` is called -/
  | recv (s : Side) (r : Rid)
  /-- a waiting `recv` runs and finds a message in the queue -/
  | wake (s : Side) (r : Rid)
  /-- a waiting `recv` is cancelled -/
  | cancel (s : Side) (r : Rid)
  | close (s : Side)
  deriving DecidableEq, Repr

/-- what a step shows: the end, and the outcome -/
structure Ev where
  side : Side
  out : Out
  deriving DecidableEq, Repr

/-- `DummyChannel` (76-97); `asyncio.Queue.get` gives the head when there is one (also if others wait), else it waits until
there is one -/
def step (c : Conn) : Label → Option (Conn × List Ev)
  | .send s m =>
    if c.closed then some (c, [⟨s, .channelClosed⟩])                                           -- 77-78
    else some (c.setOut s { c.out s with queue := (c.out s).queue ++ [m] }, [⟨s, .sent⟩])      -- 80
  | .recv s r =>
    if c.closed then some (c, [⟨s, .channelClosed⟩])                                           -- 84-85
    else if r ∈ (c.out s.other).waiting then none
    else match (c.out s.other).queue with                                                      -- 87
      | m :: rest => some (c.setOut s.other { c.out s.other with queue := rest }, [⟨s, .got m⟩])
      | [] => some (c.setOut s.other { c.out s.other with waiting := (c.out s.other).waiting ++ [r] }, [])
  | .wake s r =>
    if r ∈ (c.out s.other).waiting then match (c.out s.other).queue with
      | m :: rest => some (c.setOut s.other ⟨rest, (c.out s.other).waiting.filter (· ≠ r)⟩, [⟨s, .got m⟩])
      | [] => none
    else none
  | .cancel s r =>
    if r ∈ (c.out s.other).waiting then
      some (c.setOut s.other { c.out s.other with waiting := (c.out s.other).waiting.filter (· ≠ r) }, [⟨s, .cancelled⟩])
    else none
  | .close _ => some ({ c with closed := true }, [])                                           -- 92-93

/-- an execution: the labels, and what each showed -/
inductive Run : List (Label × List Ev) → Conn → Prop
  | init : Run [] Conn.init
  | snoc {ls c l evs c'} : Run ls c → step c l = some (c', evs) → Run (ls ++ [(l, evs)]) c'

/-! ## Servers -/

abbrev Addr := Nat
abbrev Sid := Nat
abbrev Cid := Nat
/-- a `channel_handler` -/
abbrev Handler := Nat

inductive Task where
  /-- created, has not run yet (236-237) -/
  | pending
  /-- in `channel_handler` -/
  | running
  | ended
  deriving DecidableEq, Repr

structure Server where
  addr : Addr
  handler : Handler
  stopped : Bool
  deriving DecidableEq, Repr

structure Link where
  server : Sid
  task : Task
  /-- in `_channels` -/
  registered : Bool
  closed : Bool
  deriving DecidableEq, Repr

structure World where
  servers : Dict Sid Server
  /-- `_address_to_instances` -/
  instances : Dict Addr Sid
  links : Dict Cid Link
  nextS : Sid
  nextC : Cid
  deriving Repr

def World.init : World := ⟨[], [], [], 0, 0⟩

inductive Answer where
  | server (s : Sid)
  | link (c : Cid)
  | keyError
  | connectionError
  | none
  deriving DecidableEq, Repr

inductive WLabel where
  /-- `DummyServer.create` -/
  | create (a : Addr) (h : Handler)
  /-- `DummyClient.connect` -/
  | connect (a : Addr)
  /-- the task of `on_connected` runs for the first time -/
  | begin (c : Cid)
  /-- the handler returns -/
  | finish (c : Cid)
  /-- `DummyServer.stop` -/
  | stop (s : Sid)
  /-- `DummyClient.close` -/
  | close (c : Cid)
  /-- the server end is collected when nothing but the weak set refers to it -/
  | collect (c : Cid)
  deriving DecidableEq, Repr

/-- `stop` (187-190) for one connection: its task is cancelled, its channel closed if registered.
`_tasks` holds the tasks that have not ended (239-244). -/
def stopLink (s : Sid) (l : Link) : Link :=
  if l.server = s then ⟨l.server, .ended, l.registered, l.closed || l.registered⟩ else l

def stopAll (s : Sid) : Dict Cid Link → Dict Cid Link
  | [] => []
  | (c, l) :: rest => (c, stopLink s l) :: stopAll s rest

def newServer (w : World) (a : Addr) (h : Handler) : World :=
  { w with servers := w.servers.set w.nextS ⟨a, h, false⟩, instances := w.instances.set a w.nextS, nextS := w.nextS + 1 }

/-- Simplified: server objects are not collected while registered (weak dictionary, 108-110). -/
def wstep (w : World) : WLabel → Option (World × Answer)
  | .create a h => match w.instances.get? a with                                   -- 155-163
    | some s => match w.servers.get? s with
      | some sv => if sv.stopped then some (newServer w a h, .server w.nextS) else some (w, .server s)
      | none => none
    | none => some (newServer w a h, .server w.nextS)
  | .connect a => match w.instances.get? a with                                    -- 219-246
    | none => some (w, .keyError)
    | some s => match w.servers.get? s with
      | none => none
      | some sv =>
        if sv.stopped then some (w, .connectionError)
        else some ({ w with links := w.links.set w.nextC ⟨s, .pending, false, false⟩, nextC := w.nextC + 1 }, .link w.nextC)
  | .begin c => match w.links.get? c with                                          -- 172-185
    | some ⟨s, .pending, r, cl⟩ => match w.servers.get? s with
      | none => none
      | some sv =>
        if sv.stopped then some ({ w with links := w.links.set c ⟨s, .ended, r, cl⟩ }, .none)
        else some ({ w with links := w.links.set c ⟨s, .running, true, cl⟩ }, .none)
    | _ => none
  | .finish c => match w.links.get? c with
    | some ⟨s, .running, r, cl⟩ => some ({ w with links := w.links.set c ⟨s, .ended, r, cl⟩ }, .none)
    | _ => none
  | .stop s => match w.servers.get? s with                                         -- 187-190
    | none => none
    | some sv => some ({ w with servers := w.servers.set s { sv with stopped := true }, links := stopAll s w.links }, .none)
  | .close c => match w.links.get? c with                                          -- 248-253
    | none => none
    | some l => some ({ w with links := w.links.set c { l with closed := true, task := .ended } }, .none)
  | .collect c => match w.links.get? c with
    | some ⟨s, .ended, _, cl⟩ => some ({ w with links := w.links.set c ⟨s, .ended, false, cl⟩ }, .none)
    | _ => none

inductive WRun : List (WLabel × Answer) → World → Prop
  | init : WRun [] World.init
  | snoc {ls w l a w'} : WRun ls w → wstep w l = some (w', a) → WRun (ls ++ [(l, a)]) w'

end Xoscar.Dummy
