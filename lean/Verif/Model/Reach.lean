import Verif.Model.Front
/-!
# From an address to a server

`backends/communication/core.py` 23-65 (which class serves a scheme), `socket.py` 210-322 (`host:port` addresses), 327-445 (Unix sockets),
`ucx.py` 380, 396-411, 515-520 (UCX addresses).

Simplified: text is a list of characters; hosts are IP addresses in their canonical text and all belong to one machine; decimal digits are
ASCII; the kernel is Linux with `SO_REUSEADDR` set (asyncio's default): binding and listening fail when another socket *listens* on an
overlapping address.  Left out: connect timeouts, name lookup, Windows, abstract Unix addresses, `[…]` in URLs.
-/
namespace Xoscar.Reach
open Xoscar.Front (hasSep urlScheme)

abbrev Text := List Char

/-! ## numbers as text -/

/-- `str(n)` -/
def str (n : Nat) : Text := Nat.toDigits 10 n

/-- characters `int()` strips -/
def blank (c : Char) : Bool := c = ' ' || c = '\t' || c = '\n' || c = '\r' || c = '\x0b' || c = '\x0c'

def strip (s : Text) : Text := ((s.dropWhile blank).reverse.dropWhile blank).reverse

/-- digits with single `_` between them; the flag tells whether the last character was a digit -/
def digitsFrom : Bool → Nat → Text → Option Nat
  | d, acc, [] => if d then some acc else none
  | d, acc, c :: cs =>
    if c.isDigit then digitsFrom true (10 * acc + (c.toNat - '0'.toNat)) cs
    else if c = '_' && d then digitsFrom false acc cs
    else none

/-- `int(text)`; `none`: ValueError -/
def pyInt (s : Text) : Option Int :=
  match strip s with
  | '-' :: r => (digitsFrom false 0 r).map fun (n : Nat) => -(n : Int)
  | '+' :: r => (digitsFrom false 0 r).map fun (n : Nat) => (n : Int)
  | r => (digitsFrom false 0 r).map fun (n : Nat) => (n : Int)

/-! ## which class serves an address -/

/-- the server classes and their clients -/
inductive Cls where
  | socket | unix | dummy | ucx
  deriving DecidableEq, Repr

inductive Err where
  | valueError | typeError | overflow | inUse | refused
  deriving DecidableEq, Repr

/-- the schemes of the classes (dummy.py:108, socket.py:344, ucx.py:368) -/
def dummyName : Text := ['d', 'u', 'm', 'm', 'y']
def unixName : Text := ['u', 'n', 'i', 'x', 's', 'o', 'c', 'k', 'e', 't']
def ucxName : Text := ['u', 'c', 'x']
/-- `://` -/
def colonSlashes : Text := [':', '/', '/']

/-- what `register_server` and `register_client` (core.py:27-34) leave behind: dummy.py:95, 202, socket.py:210, 298, 341, 414, ucx.py:365, 501 -/
def registry : Dict (Option Text) Cls :=
  [(some dummyName, .dummy), (none, .socket), (some unixName, .unix), (some ucxName, .ucx)]

/-- core.py:50-55 `get_scheme` -/
def getScheme (a : Text) : Option Text := if hasSep a then some (urlScheme a) else none

/-- core.py:37-47 `_check_scheme`.  For an unknown scheme the message joins the keys, and one of them is `None`: TypeError -/
def checkScheme (s : Option Text) (types : Dict (Option Text) Cls) : Except Err (Option Text) :=
  let s := if s = some [] then none else s
  if types.has s then .ok s
  else if types.has none then .error .typeError
  else .error .valueError

/-- core.py:58-65 `get_client_type`, `get_server_type` (the two tables have the same keys) -/
def typeOf (types : Dict (Option Text) Cls) (a : Text) : Except Err Cls :=
  match checkScheme (getScheme a) types with
  | .error e => .error e
  | .ok s => match types.get? s with
    | some c => .ok c
    | none => .error .typeError

/-! ## host and port -/

/-- `host, port = address.rsplit(":", 1)`; `none`: ValueError -/
def rsplit (a : Text) : Option (Text × Text) :=
  if ':' ∈ a then
    let port := (a.reverse.takeWhile (· ≠ ':')).reverse
    some (a.take (a.length - port.length - 1), port)
  else none

/-- socket.py:255-256, 308-309 -/
def endpoint (a : Text) : Option (Text × Int) :=
  match rsplit a with
  | none => none
  | some (h, p) => match pyInt p with
    | none => none
    | some n => some (h, n)

/-- socket.py:224 `f"{host}:{port}"` -/
def socketAddress (host : Text) (port : Nat) : Text := host ++ ':' :: str port

/-- ucx.py:380 -/
def ucxAddress (host : Text) (port : Nat) : Text := (ucxName ++ colonSlashes) ++ socketAddress host port

/-- ucx.py:402-406, 516-520 -/
def ucxEndpoint (a : Text) : Option (Text × Int) :=
  endpoint (if (ucxName ++ colonSlashes).isPrefixOf a then a.drop (ucxName ++ colonSlashes).length else a)

/-- `text.split("://", 1)[-1]` -/
def afterSep : Text → Option Text
  | ':' :: '/' :: '/' :: r => some r
  | _ :: r => afterSep r
  | [] => none

/-- utils.py:498-500 `is_v6_ip` -/
def isV6 (h : Text) : Bool := ':' ∈ (afterSep h).getD h

def any4 : Text := ['0', '.', '0', '.', '0', '.', '0']
def any6 : Text := [':', ':']

/-- socket.py:261-269: the host to listen on -/
def bindHost (elastic : Bool) (host : Text) : Text :=
  if elastic then (if isV6 host then any6 else any4) else host

/-- socket.py:253-260: the host and port of a configuration: an address, or host and port -/
inductive Config where
  | address (a : Text)
  | hostPort (h : Text) (p : Int)
  deriving DecidableEq

def Config.parse : Config → Option (Text × Int)
  | .address a => endpoint a
  | .hostPort h p => some (h, p)

/-- does a socket bound to `b` take connections to `h`? -/
def covers (b h : Text) : Bool := b = h || b = (if isV6 h then any6 else any4)

/-- do two sockets on one port overlap? -/
def overlap (b b' : Text) : Bool := covers b b' || covers b' b

inductive Phase where
  /-- made; bound but not listening -/
  | made
  /-- `start` has returned: listening -/
  | up
  /-- stopped, or its process died -/
  | gone
  deriving DecidableEq, Repr

structure Tcp where
  host : Text
  bound : Text
  port : Nat
  phase : Phase
  deriving DecidableEq

def Tcp.address (s : Tcp) : Text := socketAddress s.host s.port

abbrev Sid := Nat

inductive TcpLabel where
  /-- `SocketServer.create`; the port the kernel gives when none is asked for -/
  | create (s : Sid) (c : Config) (elastic : Bool) (given : Nat)
  | start (s : Sid)
  /-- `stop`, or the end of the process -/
  | gone (s : Sid)

/-- is somebody listening there? -/
def listened (st : Dict Sid Tcp) (b : Text) (p : Nat) : Bool := st.any fun x => x.2.phase = .up && x.2.port = p && overlap x.2.bound b

/-- has a socket been bound to the port? -/
def portTaken (st : Dict Sid Tcp) (p : Nat) : Bool := st.any fun x => x.2.phase ≠ .gone && x.2.port = p

/-- socket.py:248-295 `SocketServer.create`: the new server or an error (the port a kernel gives is free and not 0) -/
def tcpCreate (st : Dict Sid Tcp) (c : Config) (elastic : Bool) (given : Nat) : Except Err Tcp :=
  match c.parse with
  | none => .error .valueError
  | some (h, p) =>
    if p = 0 then
      if given = 0 ∨ 65535 < given ∨ portTaken st given then .error .inUse
      else .ok ⟨h, bindHost elastic h, given, .made⟩
    else if p < 0 ∨ 65535 < p then .error .overflow
    else if listened st (bindHost elastic h) p.toNat then .error .inUse
    else .ok ⟨h, bindHost elastic h, p.toNat, .made⟩

/-- socket.py:129-131 `start` -/
def tcpStart (st : Dict Sid Tcp) (t : Tcp) : Except Err Tcp :=
  if listened st t.bound t.port then .error .inUse else .ok { t with phase := .up }

/-- one step of one of the processes on the machine; a failing operation changes nothing -/
def tcpStep (st : Dict Sid Tcp) : TcpLabel → Dict Sid Tcp
  | .create s c e g =>
    if st.has s then st
    else match tcpCreate st c e g with
      | .ok t => st.set s t
      | .error _ => st
  | .start s => match st.get? s with
    | some t =>
      if t.phase = .made then
        match tcpStart st t with
        | .ok t => st.set s t
        | .error _ => st
      else st
    | none => st
  | .gone s => match st.get? s with
    | some t => st.set s { t with phase := .gone }
    | none => st

def tcpRun (ls : List TcpLabel) : Dict Sid Tcp := ls.foldl tcpStep []

/-- socket.py:303-316 `SocketClient.connect`: the server at the other end -/
def tcpConnect (st : Dict Sid Tcp) (a : Text) : Except Err Sid :=
  match endpoint a with
  | none => .error .valueError
  | some (h, p) =>
    if p < 0 ∨ 65535 < p then .error .overflow
    else match st.find? fun x => x.2.phase = .up && x.2.port = p.toNat && covers x.2.bound h with
      | some x => .ok x.1
      | none => .error .refused

/-! ## Unix sockets -/

/-- socket.py:353 `f"{scheme}:///{process_index}"` -/
def unixAddress (n : Nat) : Text := unixName ++ colonSlashes ++ ['/'] ++ str n

/-- `urlparse(addr).path`: without scheme, host, query and fragment -/
def urlPath (a : Text) : Text :=
  let rest := if urlScheme a = [] then a else a.drop ((urlScheme a).length + 1)
  let rest := if ['/', '/'].isPrefixOf rest then (rest.drop 2).dropWhile (fun c => c ≠ '/' && c ≠ '?' && c ≠ '#') else rest
  rest.takeWhile (fun c => c ≠ '?' && c ≠ '#')

/-- socket.py:373, 419-422: `int(urlparse(addr).path.lstrip("/"))` -/
def unixIndex (a : Text) : Option Int := pyInt ((urlPath a).dropWhile (· = '/'))

/-- `str` of an integer -/
def strInt (i : Int) : Text := if i < 0 then '-' :: str i.natAbs else str i.natAbs

/-- socket.py:327-337 `_gen_unix_socket_default_path`; `digest` is the hex text of md5 -/
def defaultPath (dir : Text) (digest : Text → Text) (i : Int) : Text := dir ++ '/' :: digest (strInt i)

/-- a name in the file system -/
inductive Entry where
  /-- the socket bound by a server -/
  | sock (s : Sid)
  /-- anything else -/
  | other
  deriving DecidableEq

inductive UPhase where
  /-- inside `start_unix_server`, before `bind` -/
  | clearing
  /-- bound; connections are refused -/
  | made
  /-- listening -/
  | up
  /-- `stop` has closed the socket and waits for the channels; the name is still there -/
  | closed
  /-- `stop` has returned -/
  | stopped
  /-- failed to bind, or its process died -/
  | gone
  deriving DecidableEq, Repr

structure Unix where
  index : Int
  path : Text
  phase : UPhase
  deriving DecidableEq

structure UState where
  files : Dict Text Entry := []
  servers : Dict Sid Unix := []

inductive ULabel where
  /-- `UnixSocketServer.create` for an index and a path, up to the removal of an old socket in asyncio's `create_unix_server` -/
  | clear (s : Sid) (i : Int) (path : Text)
  /-- its `bind` -/
  | bind (s : Sid)
  | start (s : Sid)
  /-- `stop` (socket.py:406-408): the first part; it may be called again -/
  | close (s : Sid)
  /-- the rest of `stop` (409-412): `os.remove(self.path)` -/
  | remove (s : Sid)
  /-- the process dies without stopping the server -/
  | crash (s : Sid)
  /-- somebody else writes a file there -/
  | write (path : Text)
  deriving DecidableEq

/-- socket.py:369-404 with asyncio: a socket (and nothing else) at the path is removed -/
def clearPath (files : Dict Text Entry) (p : Text) : Dict Text Entry :=
  match files.get? p with
  | some (.sock _) => files.erase p
  | _ => files

def setPhase (st : UState) (s : Sid) (u : Unix) (ph : UPhase) : UState := { st with servers := st.servers.set s { u with phase := ph } }

def ustep (st : UState) : ULabel → UState
  | .clear s i p =>
    if st.servers.has s then st
    else { files := clearPath st.files p, servers := st.servers.set s ⟨i, p, .clearing⟩ }
  | .bind s => match st.servers.get? s with
    | some u =>
      if u.phase = .clearing then
        if st.files.has u.path then setPhase st s u .gone
        else { setPhase st s u .made with files := st.files.set u.path (.sock s) }
      else st
    | none => st
  | .start s => match st.servers.get? s with
    | some u => if u.phase = .made then setPhase st s u .up else st
    | none => st
  | .close s => match st.servers.get? s with
    | some u => if u.phase = .made ∨ u.phase = .up ∨ u.phase = .stopped then setPhase st s u .closed else st
    | none => st
  | .remove s => match st.servers.get? s with
    | some u => if u.phase = .closed then { setPhase st s u .stopped with files := st.files.erase u.path } else st
    | none => st
  | .crash s => match st.servers.get? s with
    | some u => setPhase st s u .gone
    | none => st
  | .write p => if st.files.has p then st else { st with files := st.files.set p .other }

def urun (ls : List ULabel) : UState := ls.foldl ustep {}

/-- `open_unix_connection(path)` (socket.py:428-434): a missing file is reported as a refused connection -/
def dial (st : UState) (p : Text) : Except Err Sid :=
  match st.files.get? p with
  | some (.sock s) => match st.servers.get? s with
    | some u => if u.phase = .up then .ok s else .error .refused
    | none => .error .refused
  | some .other => .error .refused
  | none => .error .refused

/-- socket.py:424-434 `UnixSocketClient.connect` -/
def unixConnect (dir : Text) (digest : Text → Text) (st : UState) (a : Text) : Except Err Sid :=
  match unixIndex a with
  | none => .error .valueError
  | some i => dial st (defaultPath dir digest i)

end Xoscar.Reach
