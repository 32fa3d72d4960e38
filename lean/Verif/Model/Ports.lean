import Verif.Model.Base
/-!
# Port and process-index allocation

Models `python/xoscar/utils.py` (get_next_port) and
`python/xoscar/backends/pool.py` (process_index_gen).
-/
namespace Xoscar.Ports

/-- utils.py:165 `LOW_PORT_BOUND`. -/
def LOW : Nat := 10000

/-- utils.py:166 `HIGH_PORT_BOUND`. -/
def HIGH : Nat := 65535

/-- Result of `get_next_port`: a port, or one of the two exceptions the body can raise. -/
inductive Res where
  | port (p : Nat)
  | zeroDivisionError
  | systemError
deriving DecidableEq, Repr

/-- utils.py:222-231, the `for i in range(LOW, HIGH + 1)` loop; the list argument is the
rest of the range. `none` is falling out of the loop. -/
def scan (occ : List Nat) : List Nat → Nat → Option Nat
  | [], _ => none
  | i :: rest, idx =>
    if i ∈ occ then scan occ rest idx
    else if idx = 0 then some i
    else scan occ rest (idx - 1)

/-- utils.py:207-217: the set of occupied ports: the local ports of the host's
connections that fall in the range (`sys` is what `psutil`/`netstat` reported), updated with
`_local_occupied_ports`.  A Python set is modelled as a duplicate-free list. -/
def occupied (sys loc : List Nat) : List Nat :=
  pySet (sys.filter (fun p => LOW ≤ p ∧ p ≤ HIGH) ++ loc)

/-- utils.py:201-231 `get_next_port`.  `sys` = ports reported by the operating system,
`randn` = the random number drawn at line 219, `loc` = `_local_occupied_ports` (module state),
returned updated. `randn % 0` raises ZeroDivisionError (line 221). -/
def getNextPort (sys : List Nat) (randn : Nat) (occupy : Bool) (loc : List Nat) : Res × List Nat :=
  let occ := occupied sys loc
  if 1 + HIGH - LOW - occ.length = 0 then (.zeroDivisionError, loc)
  else
    match scan occ (List.range' LOW (HIGH + 1 - LOW)) (randn % (1 + HIGH - LOW - occ.length)) with
    | some p => (.port p, if occupy then p :: loc else loc)
    | none => (.systemError, loc)

/-- A history of `get_next_port()` calls in one process, each seeing an arbitrary operating
system state and random number. Returns the results, oldest first, and the final module state. -/
def calls : List (List Nat × Nat × Bool) → List Nat → List Res × List Nat
  | [], loc => ([], loc)
  | (sys, randn, occupy) :: cs, loc =>
    let (r, loc') := getNextPort sys randn occupy loc
    let (rs, loc'') := calls cs loc'
    (r :: rs, loc'')

/-- pool.py:1031-1035 `process_index_gen`: `pid << 16 + idx`.  In Python `+` binds tighter
than `<<`, so the value is `pid << (16 + idx)`. -/
def processIndex (pid idx : Nat) : Nat := pid <<< (16 + idx)

/-- The first `n` indices handed out after `start` earlier ones were taken from the class-wide
counter `_process_index_gen` (pool.py:1028, `itertools.count()`). -/
def processIndices (pid start n : Nat) : List Nat :=
  (List.range' start n).map (processIndex pid)

end Xoscar.Ports
