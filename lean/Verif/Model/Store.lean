import Verif.Model.Base
/-!
# The rendezvous store of collective groups: cpp/collective/rendezvous/src/tcp_store.cpp

The server (`TCPStoreMasterDaemon`) handles one request after the other in one thread (597-660, 225-320); clients
(`TCPStore`, 1010-1332) hold a lock during each operation, so each client socket has at most one operation in progress.

Simplified: bytes are characters; a request or response is one unit on its socket (the framing, `tcputil`, is not
modelled); a client leaving and the server noticing it is one step; the listening socket, the stop signal and
`waitForWorkers` are left out.  `keyPrefix_` is added to every user key alike (1135 …) and left out.
-/
namespace Xoscar.Store

abbrev Key := Nat
abbrev Val := List Char
/-- a file descriptor: numbers are used again after they were closed -/
abbrev Sock := Nat
-- `Tag` is ghost: numbers the requests, to be able to say to which request a response belongs.  Not in the code.
scoped notation "Tag" => Nat

/-- `QueryType` with its arguments (141-154) -/
inductive Req where
  | set (k : Key) (v : Val)
  | cset (k : Key) (expected new : Val)
  | get (k : Key)
  | add (k : Key) (d : Int)
  | check (ks : List Key)
  | wait (ks : List Key)
  | numKeys
  | delete (k : Key)
  | append (k : Key) (v : Val)
  | mget (ks : List Key)
  | mset (kvs : List (Key × Val))
  | watch (k : Key)
  deriving DecidableEq, Repr

/-- a response.  `CheckResponseType::READY` and `WaitResponseType::STOP_WAITING` are the same byte 0, `NOT_READY` is 1 (156-158) -/
inductive Resp where
  | byte (b : Nat)
  | int (i : Int)
  | vec (v : Val)
  | vecs (vs : List Val)
  /-- a key update for a watching client (338-351) -/
  | update (k : Key)
  deriving DecidableEq, Repr

/-- operations that do not wait for a response (`setTCP`, `append`, `multiSet`) -/
def Req.silent : Req → Bool
  | .set _ _ => true
  | .append _ _ => true
  | .mset _ => true
  | _ => false

structure Entry where
  tag : Tag
  req : Req
  resp : Option Resp
  deriving DecidableEq, Repr

structure St where
  /-- `tcpStore_` -/
  store : Dict Key Val
  /-- `waitingSockets_`, as a list of pairs (the order of the keys plays no role) -/
  waiting : List (Key × Sock)
  /-- `keysAwaited_` -/
  awaited : Dict Sock Nat
  /-- `watchedSockets_`, as a list of pairs -/
  watchers : List (Key × Sock)
  /-- the sockets the server has open -/
  opened : List Sock
  /-- requests sent and not handled yet -/
  reqs : Dict Sock (List (Tag × Req))
  /-- responses sent and not read yet -/
  inbox : Dict Sock (List (Tag × Resp))
  /-- the operation the client at this socket is waiting for -/
  busy : Dict Sock (Tag × Req)
  /-- ghost: the wait a socket is registered for -/
  waitOf : Dict Sock (Tag × List Key)
  /-- ghost: what the server did, in order -/
  lin : List Entry
  /-- what the operations of the clients returned -/
  rets : List Entry
  next : Tag
  deriving Repr

def init : St := ⟨[], [], [], [], [], [], [], [], [], [], [], 1⟩

/-! ### numbers -/

/-- `std::to_string` (419) -/
def toStr (i : Int) : Val := (toString i).toList

/-- the digits at the front -/
def digits : Val → List Char
  | [] => []
  | c :: t => if c.isDigit then c :: digits t else []

def value (l : List Char) : Nat := Nat.ofDigitChars 10 l 0

def inRange (i : Int) : Bool := decide (-9223372036854775808 ≤ i ∧ i < 9223372036854775808)

/-- `std::stoll` (415): blanks, a sign, digits, anything; throws without digits or out of range.
Simplified: of the blanks only the space is skipped -/
def stoll (v : Val) : Option Int :=
  let r : Option Int := match v.dropWhile (· == ' ') with
    | '-' :: t => if digits t = [] then none else some (-(value (digits t) : Int))
    | '+' :: t => if digits t = [] then none else some (value (digits t))
    | t => if digits t = [] then none else some (value (digits t))
  match r with
  | some i => if inRange i then some i else none
  | none => none

/-- signed 64 bit addition.  Overflow is undefined in C++; modelled as wrapping -/
def wrap (i : Int) : Int := (i + 9223372036854775808) % 18446744073709551616 - 9223372036854775808

/-! ### server -/

def inboxOf (st : St) (s : Sock) : List (Tag × Resp) := (st.inbox.get? s).getD []
def reqsOf (st : St) (s : Sock) : List (Tag × Req) := (st.reqs.get? s).getD []

/-- write a response -/
def send (st : St) (s : Sock) (n : Tag) (r : Resp) : St := { st with inbox := st.inbox.set s (inboxOf st s ++ [(n, r)]) }

def record (st : St) (n : Tag) (r : Req) (o : Option Resp) : St := { st with lin := st.lin ++ [⟨n, r, o⟩] }

/-- `--keysAwaited_[socket]` of type `size_t` (329) -/
def dec : Option Nat → Nat
  | some (n + 1) => n
  | _ => 2 ^ 64 - 1

/-- one waiting socket (328-332) -/
def wakeOne (st : St) (s : Sock) : St :=
  let c := dec (st.awaited.get? s)
  let st := { st with awaited := st.awaited.set s c }
  if c = 0 then match st.waitOf.get? s with
    | some (n, ks) => record (send { st with waitOf := st.waitOf.erase s } s n (.byte 0)) n (.wait ks) (some (.byte 0))
    | none => send st s 0 (.byte 0)
  else st

def waitersOf (st : St) (k : Key) : List Sock := (st.waiting.filter (·.1 = k)).map (·.2)

/-- `wakeupWaitingClients` (323-335) -/
def wake (st : St) (k : Key) : St :=
  let st' := (waitersOf st k).foldl wakeOne st
  { st' with waiting := st'.waiting.filter (·.1 ≠ k) }

/-- `sendKeyUpdatesToClients` (337-350) for a list of sockets; false: a write failed (closed socket) and an exception is on its way -/
def notify (k : Key) : List Sock → St → St × Bool
  | [], st => (st, true)
  | s :: rest, st => if s ∈ st.opened then notify k rest (send st s 0 (.update k)) else (st, false)

def watchersOf (st : St) (k : Key) : List Sock := (st.watchers.filter (·.1 = k)).map (·.2)

/-- `doSet` (352-370) -/
def doSet (st : St) (n : Tag) (k : Key) (v : Val) : St × Bool :=
  let st := record { st with store := st.store.set k v } n (.set k v) none
  let st := wake st k
  notify k (watchersOf st k) st

/-- `multiSetHandler` (550-560) -/
def doSets (n : Tag) : List (Key × Val) → St → St × Bool
  | [], st => (st, true)
  | (k, v) :: rest, st => match doSet st n k v with
    | (st, true) => doSets n rest st
    | (st, false) => (st, false)

/-- `checkKeys` (562-567) -/
def hasAll (st : St) (ks : List Key) : Bool := ks.all (fun k => (st.store.get? k).isSome)

def missing (st : St) (ks : List Key) : List Key := ks.filter (fun k => !(st.store.get? k).isSome)

def getAll (st : St) : List Key → Option (List Val)
  | [] => some []
  | k :: rest => match st.store.get? k, getAll st rest with
    | some v, some vs => some (v :: vs)
    | _, _ => none

/-- send a response and record it -/
def answer (st : St) (s : Sock) (n : Tag) (r : Req) (o : Resp) : St := record (send st s n o) n r (some o)

/-- what `query` (282-321) does with a request; false: an exception was thrown -/
def exec (st : St) (s : Sock) (n : Tag) : Req → St × Bool
  | .set k v => doSet st n k v                                                     -- 372-376
  | .cset k e v => match st.store.get? k with                                      -- 378-407
    | none =>
      if e = [] then
        let st := record { st with store := st.store.set k v } n (.cset k e v) (some (.vec v))
        match notify k (watchersOf st k) st with
        | (st, true) => (send st s n (.vec v), true)
        | (st, false) => (st, false)
      else (answer st s n (.cset k e v) (.vec e), true)
    | some old =>
      if old = e then
        let st := record { st with store := st.store.set k v } n (.cset k e v) (some (.vec v))
        match notify k (watchersOf st k) st with
        | (st, true) => (send st s n (.vec v), true)
        | (st, false) => (st, false)
      else (answer st s n (.cset k e v) (.vec old), true)
  | .get k => match st.store.get? k with                                           -- 436-440
    | some v => (answer st s n (.get k) (.vec v), true)
    | none => (st, false)
  | .add k d =>                                                                    -- 409-434
    let cur : Option Int := match st.store.get? k with
      | none => some (wrap d)                                                      -- `d` is an int64: `wrap d = d`
      | some v => (stoll v).map (fun x => wrap (d + x))
    match cur with
    | none => (st, false)
    | some x =>
      let st := answer { st with store := st.store.set k (toStr x) } s n (.add k d) (.int x)
      let st := wake st k
      notify k (watchersOf st k) st
  | .check ks => (answer st s n (.check ks) (.byte (if hasAll st ks then 0 else 1)), true)       -- 460-478
  | .wait ks =>                                                                    -- 480-505
    if hasAll st ks then (answer st s n (.wait ks) (.byte 0), true)
    else ({ st with waiting := st.waiting ++ (missing st ks).map (fun k => (k, s)), awaited := st.awaited.set s (missing st ks).length,
                    waitOf := st.waitOf.set s (n, ks) }, true)
  | .numKeys => (answer st s n .numKeys (.int st.store.length), true)              -- 442-444
  | .delete k => match st.store.get? k with                                        -- 446-458
    | none => (answer st s n (.delete k) (.int 0), true)
    | some _ => match notify k (watchersOf st k) st with
      | (st, true) => (answer { st with store := st.store.erase k } s n (.delete k) (.int 1), true)
      | (st, false) => (st, false)
  | .append k v =>                                                                 -- 520-539
    let st := record { st with store := st.store.set k ((st.store.get? k).getD [] ++ v) } n (.append k v) none
    let st := wake st k
    notify k (watchersOf st k) st
  | .mget ks => match getAll st ks with                                            -- 541-549
    | some vs => (answer st s n (.mget ks) (.vecs vs), true)
    | none => (st, false)
  | .mset kvs => doSets n kvs st                                                   -- 550-560
  | .watch k => (answer { st with watchers := st.watchers ++ [(k, s)] } s n (.watch k) (.byte 3), true)   -- 507-518

/-- the server drops a connection (238-272): `waitingSockets_` and `keysAwaited_` are cleaned, `watchedSockets_` is not -/
def drop (st : St) (s : Sock) : St :=
  { st with opened := st.opened.filter (· ≠ s), waiting := st.waiting.filter (·.2 ≠ s), awaited := st.awaited.erase s,
            reqs := st.reqs.set s [], waitOf := st.waitOf.erase s }

inductive Label where
  /-- a client connects; the server's file descriptor for it is one not in use -/
  | connect (s : Sock)
  /-- the client starts an operation (`SendBuffer … flush`) -/
  | invoke (s : Sock) (r : Req)
  /-- the server handles the next request of this socket -/
  | handle (s : Sock)
  /-- the client reads the response and returns -/
  | ret (s : Sock)
  /-- the client's read runs into the timeout (`SO_RCVTIMEO`): its operation fails, the connection stays -/
  | timeout (s : Sock)
  /-- the client closes its connection -/
  | disconnect (s : Sock)
  deriving DecidableEq, Repr

def step (st : St) : Label → Option St
  | .connect s =>
    if s ∈ st.opened then none
    else some { st with opened := st.opened ++ [s], reqs := st.reqs.set s [], inbox := st.inbox.set s [], busy := st.busy.erase s }
  | .invoke s r =>
    if s ∈ st.opened ∧ st.busy.get? s = none then
      some { st with reqs := st.reqs.set s (reqsOf st s ++ [(st.next, r)]), next := st.next + 1,
                     busy := if r.silent then st.busy else st.busy.set s (st.next, r) }
    else none
  | .handle s =>
    if s ∈ st.opened then match reqsOf st s with
      | [] => none
      | (n, r) :: rest =>
        match exec { st with reqs := st.reqs.set s rest } s n r with
        | (st, true) => some st
        | (st, false) => some (drop st s)
    else none
  | .ret s => match st.busy.get? s, inboxOf st s with
    | some (n, r), (_, o) :: rest =>
      some { st with busy := st.busy.erase s, inbox := st.inbox.set s rest, rets := st.rets ++ [⟨n, r, some o⟩] }
    | _, _ => none
  | .timeout s => match st.busy.get? s with
    | some _ => some { st with busy := st.busy.erase s }
    | none => none
  | .disconnect s => if s ∈ st.opened then some { drop st s with busy := st.busy.erase s, inbox := st.inbox.set s [] } else none

inductive Run : List Label → St → Prop
  | init : Run [] init
  | snoc {ls l s s'} : Run ls s → step s l = some s' → Run (ls ++ [l]) s'

end Xoscar.Store
