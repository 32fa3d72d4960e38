import Verif.Model.Base
/-!
# The bytes of the rendezvous store: cpp/collective/rendezvous (tcp_store.cpp, include/utils.hpp `tcputil`)

`Model/Store` treats a request or a response as one unit on its socket.  Here they are bytes: what a client writes (`SendBuffer`), what the
server's single thread reads and when it has to wait for more, what it writes back and what the client reads.

Simplified: integers are little endian (x86, ARM); a length of 2^63 or more is refused by `std::vector`, a smaller one never (no
memory exhaustion); interrupted system calls are tried again at once (`SYSCHECK`, utils.hpp 315-331) and left out.  What a request does in the
server is in `Model/Store`; here it is only taken down.  `keyPrefix_` is part of the key.
-/
namespace Xoscar.StoreWire

abbrev Bytes := List UInt8
abbrev Sock := Nat

/-- the memory of an unsigned integer of `n` bytes -/
def le : Nat → Nat → Bytes
  | 0, _ => []
  | n + 1, x => UInt8.ofNat (x % 256) :: le n (x / 256)

/-- and back -/
def unle : Bytes → Nat
  | [] => 0
  | b :: t => b.toNat + 256 * unle t

/-- `int64_t` as memory: two's complement -/
def ofInt (i : Int) : Bytes := le 8 (i % 18446744073709551616).toNat

def toInt (b : Bytes) : Int :=
  let n : Int := unle b
  if n < 9223372036854775808 then n else n - 18446744073709551616

/-- the operations of a client with their arguments -/
inductive Req where
  | set (k v : Bytes)
  | cset (k expected new : Bytes)
  | get (k : Bytes)
  | add (k : Bytes) (d : Int)
  | check (ks : List Bytes)
  | wait (ks : List Bytes)
  | numKeys
  | watch (k : Bytes)
  | delete (k : Bytes)
  | append (k v : Bytes)
  | mget (ks : List Bytes)
  | mset (kvs : List (Bytes × Bytes))
  deriving DecidableEq, Repr

/-! ## The client -/

/-- `QueryType` (tcp_store.cpp 148-161) -/
def Req.code : Req → UInt8
  | .set .. => 0
  | .cset .. => 1
  | .get .. => 2
  | .add .. => 3
  | .check .. => 4
  | .wait .. => 5
  | .numKeys => 6
  | .watch .. => 7
  | .delete .. => 8
  | .append .. => 9
  | .mget .. => 10
  | .mset .. => 11

/-- `appendString`, `appendBytes` (1033-1043): what they put into the buffer, one entry for every call of `maybeFlush` -/
def str (s : Bytes) : List Bytes := [le 8 s.length, s]

/-- what the operation appends after the code (1140-1315) -/
def Req.parts : Req → List Bytes
  | .set k v => str k ++ str v                                        -- 1140-1147
  | .cset k e v => str k ++ str e ++ str v                            -- 1149-1158
  | .get k => str k                                                   -- 1172-1174
  | .add k d => str k ++ [ofInt d]                                    -- 1200-1203
  | .check ks => le 8 ks.length :: ks.flatMap str                     -- 1218-1224
  | .wait ks => le 8 ks.length :: ks.flatMap str                      -- 1257-1262
  | .numKeys => []                                                    -- 1210-1211
  | .watch k => str k                                                 -- 1007-1009 (not buffered)
  | .delete k => str k                                                -- 1186-1188
  | .append k v => str k ++ str v                                     -- 1273-1276
  | .mget ks => le 8 ks.length :: ks.flatMap str                      -- 1290-1295
  | .mset kvs => le 8 kvs.length :: kvs.flatMap (fun x => str x.1 ++ str x.2)   -- 1309-1315

/-- `SendBuffer` (1014-1058): `append…` adds to the buffer and passes it on when it has 1440 bytes; `flush` at the end -/
def sendBuffer (buf : Bytes) : List Bytes → List Bytes
  | [] => if buf.length > 0 then [buf] else []
  | p :: rest => if (buf ++ p).length ≥ 1440 then (buf ++ p) :: sendBuffer [] rest else sendBuffer (buf ++ p) rest

/-- the calls of `sendBytes` for one operation, in order -/
def Req.writes (r : Req) : List Bytes := sendBuffer [r.code] r.parts

/-! ## The server -/

/-- what reading gives: a value and the bytes behind it; not enough bytes yet (`recv` blocks); an exception -/
inductive Res (α : Type) where
  | ok (a : α) (rest : Bytes)
  | more
  | bad
  deriving DecidableEq, Repr

def Res.bind {α β : Type} (x : Res α) (f : α → Bytes → Res β) : Res β := match x with
  | .ok a rest => f a rest
  | .more => .more
  | .bad => .bad

/-- `recvBytes` of `n` bytes (utils.hpp 381-404) -/
def recvN (n : Nat) (b : Bytes) : Res Bytes := if n ≤ b.length then .ok (b.take n) (b.drop n) else .more

/-- `recvValue<SizeType>` -/
def recvSize (b : Bytes) : Res Nat := (recvN 8 b).bind fun x rest => .ok (unle x) rest

/-- `recvValue<int64_t>` -/
def recvI64 (b : Bytes) : Res Int := (recvN 8 b).bind fun x rest => .ok (toInt x) rest

/-- `recvString`, `recvVector<uint8_t>` (utils.hpp 416-422, 446-452) -/
def recvStr (b : Bytes) : Res Bytes := (recvSize b).bind fun n rest =>
  if n < 9223372036854775808 then recvN n rest else .bad

/-- `n` strings (465-473, 484-492) -/
def recvStrs : Nat → Bytes → Res (List Bytes)
  | 0, b => .ok [] b
  | n + 1, b => (recvStr b).bind fun s rest => (recvStrs n rest).bind fun ss rest => .ok (s :: ss) rest

/-- `n` pairs (551-560) -/
def recvPairs : Nat → Bytes → Res (List (Bytes × Bytes))
  | 0, b => .ok [] b
  | n + 1, b => (recvStr b).bind fun k rest => (recvStr rest).bind fun v rest => (recvPairs n rest).bind fun ss rest => .ok ((k, v) :: ss) rest

/-- the arguments of a request of each type (373-560) -/
def recvArgs (code : UInt8) (b : Bytes) : Res Req :=
  if code = 0 then (recvStr b).bind fun k b => (recvStr b).bind fun v b => .ok (.set k v) b
  else if code = 1 then (recvStr b).bind fun k b => (recvStr b).bind fun e b => (recvStr b).bind fun v b => .ok (.cset k e v) b
  else if code = 3 then (recvStr b).bind fun k b => (recvI64 b).bind fun d b => .ok (.add k d) b
  else if code = 2 then (recvStr b).bind fun k b => .ok (.get k) b
  else if code = 4 then (recvSize b).bind fun n b => (recvStrs n b).bind fun ks b => .ok (.check ks) b
  else if code = 5 then (recvSize b).bind fun n b => (recvStrs n b).bind fun ks b => .ok (.wait ks) b
  else if code = 6 then .ok .numKeys b
  else if code = 8 then (recvStr b).bind fun k b => .ok (.delete k) b
  else if code = 7 then (recvStr b).bind fun k b => .ok (.watch k) b
  else if code = 9 then (recvStr b).bind fun k b => (recvStr b).bind fun v b => .ok (.append k v) b
  else if code = 10 then (recvSize b).bind fun n b => (recvStrs n b).bind fun ks b => .ok (.mget ks) b
  else if code = 11 then (recvSize b).bind fun n b => (recvPairs n b).bind fun kvs b => .ok (.mset kvs) b
  else .bad                                                           -- 324: Unexpected query type

/-- `query` (288-326): the type, then its arguments.  Simplified: `multiSetHandler` and `multiGetHandler` act while they read (541-560) -/
def query (b : Bytes) : Res Req := match b with
  | [] => .more
  | c :: rest => recvArgs c rest

/-! ## Responses -/

/-- what a handler writes back; the client knows from the operation which one it is -/
inductive Resp where
  | byte (b : UInt8)
  | int (i : Int)
  | vec (v : Bytes)
  | vecs (vs : List Bytes)
  deriving DecidableEq, Repr

/-- what the client reads (1160, 1176, 1190, 1205, 1213, 1226, 1264, 1298-1300) -/
inductive Kind where
  | byte | int | vec
  | vecs (n : Nat)
  deriving DecidableEq, Repr

/-- `sendValue`, `sendVector` (utils.hpp 408-412, 426-428; tcp_store.cpp 391-549) -/
def Resp.bytes : Resp → Bytes
  | .byte b => [b]
  | .int i => ofInt i
  | .vec v => le 8 v.length ++ v
  | .vecs vs => vs.flatMap (fun v => le 8 v.length ++ v)

/-- `receiveValue`, `receiveBits` (920-928) -/
def readResp (k : Kind) (b : Bytes) : Res Resp := match k with
  | .byte => (recvN 1 b).bind fun x rest => .ok (.byte (x.headD 0)) rest
  | .int => (recvI64 b).bind fun i rest => .ok (.int i) rest
  | .vec => (recvStr b).bind fun v rest => .ok (.vec v) rest
  | .vecs n => (recvStrs n b).bind fun vs rest => .ok (.vecs vs) rest

/-! ## Connections -/

structure Conn where
  /-- written by the client, not taken by the network yet -/
  toSend : Bytes
  /-- at the server, not used yet -/
  net : Bytes
  /-- the client has closed its end -/
  closed : Bool
  /-- the client's operations, and those the server has read completely, in order -/
  asked : List Req
  handled : List Req
  deriving Repr

structure St where
  conns : Dict Sock Conn
  /-- the connection in whose request the server is blocked (`recv` in `query`) -/
  blocked : Option Sock
  deriving Repr

def init : St := ⟨[], none⟩

inductive Label where
  | connect (s : Sock)
  /-- the client does an operation -/
  | ask (s : Sock) (r : Req)
  /-- the network carries `n` bytes -/
  | carry (s : Sock) (n : Nat)
  /-- the client's end is closed (also: the process ends) -/
  | close (s : Sock)
  /-- the server's `poll` returns this socket -/
  | poll (s : Sock)
  /-- the server's `recv` goes on where it was blocked -/
  | resume
  deriving DecidableEq, Repr

/-- `query(fd)` with the `try` around it (237-279), on the bytes that are there -/
def serve (st : St) (s : Sock) (c : Conn) : St := match query c.net with
  | .ok r rest => { conns := st.conns.set s { c with net := rest, handled := c.handled ++ [r] }, blocked := none }
  | .bad => { conns := st.conns.erase s, blocked := none }
  | .more => if c.closed ∧ c.toSend = [] then { conns := st.conns.erase s, blocked := none }     -- `recv` gives 0
             else { st with blocked := some s }

def step (st : St) : Label → Option St
  | .connect s => if st.conns.get? s = none then some { st with conns := st.conns.set s ⟨[], [], false, [], []⟩ } else none
  | .ask s r => match st.conns.get? s with
    | some c => if c.closed then none
                else some { st with conns := st.conns.set s { c with toSend := c.toSend ++ r.writes.flatten, asked := c.asked ++ [r] } }
    | none => none
  | .carry s n => match st.conns.get? s with
    | some c => if 0 < n ∧ n ≤ c.toSend.length then
        some { st with conns := st.conns.set s { c with toSend := c.toSend.drop n, net := c.net ++ c.toSend.take n } }
      else none
    | none => none
  | .close s => match st.conns.get? s with
    | some c => some { st with conns := st.conns.set s { c with closed := true } }
    | none => none
  | .poll s => match st.blocked, st.conns.get? s with
    | none, some c => if c.net ≠ [] ∨ (c.closed ∧ c.toSend = []) then some (serve st s c) else none
    | _, _ => none
  | .resume => match st.blocked with
    | some s => match st.conns.get? s with
      | some c => some (serve st s c)
      | none => none
    | none => none

inductive Run : List Label → St → Prop
  | init : Run [] init
  | snoc {ls l s s'} : Run ls s → step s l = some s' → Run (ls ++ [l]) s'

/-! ## The thread that waits for key updates -/

/-- what `recv(…, MSG_PEEK)` gives (828) -/
inductive Peek where
  /-- the control pipe: stop (811-823) -/
  | stop
  /-- a complete message of the server -/
  | message
  /-- the server closed the connection: 0 -/
  | eof
  /-- the connection was reset: -1 -/
  | reset
  deriving DecidableEq, Repr

inductive Worker where
  | running
  | ended
  /-- an exception left the thread: `std::terminate` -/
  | terminated
  deriving DecidableEq, Repr

/-- one turn of `TCPStoreWorkerDaemon::run` (792-836): the state, and the updates handled -/
def turn : Worker × Nat → Peek → Worker × Nat
  | (.running, n), .stop => (.ended, n)
  | (.running, n), .eof => (.running, n)                              -- 829-831
  | (.running, n), .message => (.running, n + 1)
  | (.running, n), .reset => (.terminated, n)                         -- 834: `recvValue` throws
  | w, _ => w

end Xoscar.StoreWire
