import Verif.Model.Base
/-!
# Address strings

Models `python/xoscar/utils.py` 478-522 (zero-ip handling) and
`python/xoscar/backends/indigen/pool.py` 82-126 (get_external_addresses).
A Python `str` is a `List Char`.
-/
namespace Xoscar.Addr

/-- `s.split(c)` for a one character separator. -/
def splitC (c : Char) : List Char → List (List Char)
  | [] => [[]]
  | x :: xs =>
    if x = c then [] :: splitC c xs
    else match splitC c xs with
      | [] => [[x]]
      | h :: t => (x :: h) :: t

/-- `c.join(parts)` -/
def joinC (c : Char) : List (List Char) → List Char
  | [] => []
  | [p] => p
  | p :: q :: rest => p ++ c :: joinC c (q :: rest)

/-- `s.split("://")`; `acc` holds the reversed current piece. -/
def splitScheme (acc : List Char) : List Char → List (List Char)
  | ':' :: '/' :: '/' :: rest => acc.reverse :: splitScheme [] rest
  | x :: xs => splitScheme (x :: acc) xs
  | [] => [acc.reverse]

/-- `s.split("://")[-1]` -/
def body (s : List Char) : List Char := (splitScheme [] s).getLastD []

/-- `l[-1]` on the never empty result of `split`. -/
def lastPart (c : Char) (s : List Char) : List Char := (splitC c s).getLastD []

/-- utils.py:478-479 `is_v4_zero_ip`. -/
def isV4Zero (s : List Char) : Bool := "0.0.0.0:".toList.isPrefixOf (body s)

/-- utils.py:487-490, the loop over `arr[0:-1]`.  `hex` models `int(part, 16)`
(`none` = ValueError). The result `none` is the ValueError escaping. -/
def v6Loop (hex : List Char → Option Int) : List (List Char) → Option Bool
  | [] => some true
  | p :: ps =>
    if p ≠ [] then
      match hex p with
      | none => none
      | some v => if v ≠ 0 then some false else v6Loop hex ps
    else v6Loop hex ps

/-- utils.py:482-491 `is_v6_zero_ip`. -/
def isV6Zero (hex : List Char → Option Int) (s : List Char) : Option Bool :=
  let arr := splitC ':' (body s)
  if arr.length ≤ 2 then some false else v6Loop hex arr.dropLast

/-- utils.py:494-495 `is_zero_ip` (Python `or` does not evaluate the second operand when the
first is true). -/
def isZero (hex : List Char → Option Int) (s : List Char) : Option Bool :=
  if isV4Zero s then some true else isV6Zero hex s

/-- utils.py:503-522 `fix_all_zero_ip`; `none` = ValueError out of `int(part, 16)`. -/
def fixAllZeroIp (hex : List Char → Option Int) (remote connect : List Char) :
    Option (List Char) :=
  if remote = connect then some remote
  else
    match isZero hex remote with          -- `not v4 and not v6` = not (v4 or v6)
    | none => none
    | some false => some remote
    | some true =>
      match isZero hex connect with
      | none => none
      | some true => some remote
      | some false =>
        let remotePort := lastPart ':' remote
        let connectIp := joinC ':' (splitC ':' connect).dropLast
        some (connectIp ++ ':' :: remotePort)

/-- An external address produced by `get_external_addresses`; the code renders it as
`f"{prefix}{host}:{port}"`. -/
structure Ext where
  pre : List Char
  host : List Char
  port : Nat
deriving DecidableEq, Repr

inductive ExtErr where
  | valueError            -- wrong number of ports, or `int(port_str)` failed
deriving DecidableEq, Repr

/-- indigen/pool.py:122: `f"{scheme}://" if scheme else ""`. -/
def schemePrefix (s : Option (List Char)) : List Char :=
  match s with
  | some s => if s = [] then [] else s ++ "://".toList
  | none => []

/-- indigen/pool.py:91-119: host, main port and sub ports from `address` and `ports`.
`int` models `int(port_str)`; port numbers are natural numbers; `ports=None` is `[]` (both
falsy). -/
def splitAddr (int : List Char → Option Nat) (address : List Char) (nProcess : Nat)
    (ports : List Nat) : Except ExtErr (List Char × List Nat) :=
  if ':' ∈ address then
    -- host, port_str = address.rsplit(":", 1)
    match int (lastPart ':' address) with
    | none => .error .valueError
    | some port =>
      if ports ≠ [] then
        if ports.length ≠ nProcess then .error .valueError
        else .ok (joinC ':' (splitC ':' address).dropLast, port :: ports)
      else .ok (joinC ':' (splitC ':' address).dropLast, port :: List.replicate nProcess 0)
  else
    if ports ≠ [] ∧ ports.length ≠ nProcess + 1 then .error .valueError
    else if ports = [] then .ok (address, List.replicate (nProcess + 1) 0)
    else .ok (address, ports)

/-- indigen/pool.py:120-126: zip the ports with the scheme prefixes (`schemes=None` is `[]`,
both falsy, giving `itertools.repeat("")`). -/
def render (host : List Char) (ports : List Nat) (schemes : List (Option (List Char))) :
    List Ext :=
  if schemes = [] then ports.map (fun p => ⟨[], host, p⟩)
  else (ports.zip (schemes.map schemePrefix)).map (fun (p, pre) => ⟨pre, host, p⟩)

/-- indigen/pool.py:82-126 `get_external_addresses`. -/
def getExternalAddresses (int : List Char → Option Nat) (address : List Char) (nProcess : Nat)
    (ports : List Nat) (schemes : List (Option (List Char))) : Except ExtErr (List Ext) :=
  match splitAddr int address nProcess ports with
  | .error e => .error e
  | .ok (host, all) => .ok (render host all schemes)

end Xoscar.Addr
