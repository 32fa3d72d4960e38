import Verif.Model.Ports
import Verif.Model.Reach
/-!
# Which ports are in use: psutil or netstat

`python/xoscar/utils.py` 171-231: `_get_ports_from_netstat` and what `get_next_port` does
before it chooses (`Model/Ports`).

Simplified: text is a list of ASCII characters, already divided into lines (177; the
line separator is the platform's); a netstat run that times out is repeated (192-194), so that
only the last run counts.
-/
namespace Xoscar.Netstat
open Xoscar.Reach (Text blank pyInt)

/-- `line_str.split()` (utils.py:183); the first argument is the word being read, reversed -/
def wordsFrom : Text → Text → List Text
  | w, [] => if w = [] then [] else [w.reverse]
  | w, c :: cs =>
    if blank c then (if w = [] then wordsFrom [] cs else w.reverse :: wordsFrom [] cs)
    else wordsFrom (c :: w) cs

/-- `line_str.split()` -/
def words (t : Text) : List Text := wordsFrom [] t

/-- `part.replace(":", ".")` (utils.py:185) -/
def dots (w : Text) : Text := w.map fun c => if c = ':' then '.' else c

/-- `part.rsplit(".", 1)[1]`, if there is a dot (utils.py:186-187) -/
def afterDot (w : Text) : Option Text :=
  if '.' ∈ w then some (w.reverse.takeWhile (· ≠ '.')).reverse else none

/-- The inner loop, utils.py:183-193: the number after the last dot of the first word that has
one and does not end in `.*`; `error` is int()'s ValueError. -/
def portOf : List Text → Except Unit (Option Int)
  | [] => .ok none
  | w :: ws =>
    match afterDot (dots w) with
    | none => portOf ws
    | some s =>
      if s = ['*'] then portOf ws
      else
        match pyInt s with
        | none => .error ()
        | some p => .ok (some p)

/-- One line, utils.py:179-193: lines without a dot are skipped. -/
def lineOf (t : Text) : Except Unit (Option Int) := if '.' ∈ t then portOf (words t) else .ok none

/-- utils.py:171-194 `_get_ports_from_netstat`, for the lines of a run. -/
def netstat : List Text → Except Unit (List Nat)
  | [] => .ok []
  | t :: ts =>
    match lineOf t with
    | .error () => .error ()
    | .ok none => netstat ts
    | .ok (some p) =>
      match netstat ts with
      | .error () => .error ()
      | .ok ps => .ok (if (Ports.LOW : Int) ≤ p ∧ p ≤ (Ports.HIGH : Int) then p.toNat :: ps else ps)

/-- A socket as psutil reports it: type and local port. -/
structure Conn where
  typ : Nat
  port : Nat
deriving DecidableEq, Repr

/-- What the platform offers (utils.py:203-215): Windows, or psutil's list, or psutil's
AccessDenied (macOS). -/
inductive Host where
  | windows
  | psutil (conns : List Conn)
  | denied

/-- SOCK_STREAM -/
def STREAM : Nat := 1

/-- The result of get_next_port: as in Model/Ports, or int()'s ValueError. -/
inductive Out where
  | res (r : Ports.Res)
  | valueError
deriving DecidableEq, Repr

/-- `typ or socket.SOCK_STREAM` (utils.py:208) -/
def typeOr (typ : Option Nat) : Nat :=
  match typ with
  | none => STREAM
  | some 0 => STREAM
  | some t => t

/-- utils.py:201-231 `get_next_port` with the report it works on; `lines` is what netstat
would print. -/
def nextPort (h : Host) (lines : List Text) (typ : Option Nat) (randn : Nat) (occupy : Bool)
    (loc : List Nat) : Out × List Nat :=
  match h with
  | .psutil conns =>
    let r := Ports.getNextPort ((conns.filter (fun c => c.typ = typeOr typ)).map (·.port)) randn occupy loc
    (.res r.1, r.2)
  | _ =>
    match netstat lines with
    | .error () => (.valueError, loc)
    | .ok sys => let r := Ports.getNextPort sys randn occupy loc; (.res r.1, r.2)

end Xoscar.Netstat
