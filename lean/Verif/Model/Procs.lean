import Verif.Model.Base
/-!
# The processes of sub pools: python/xoscar/backends/pool.py, backends/indigen/pool.py

`stop_sub_pool`, `stop_sub_pools` (pool.py:1385-1429), `kill_sub_pool` (indigen/pool.py:424-487), `_watch_main_pool` (pool.py:890-903),
`_check_ppid` (indigen/pool.py:189-200).
-/
namespace Xoscar.Procs

abbrev Pid := Nat

/-- A process; two that run at different times are different, even if they had the same pid. -/
abbrev Proc := Nat

/-- What the operating system and the other processes do: who has which pid at each moment, and who descends from whom.  Moments are the
program points of the code below. -/
structure World where
  /-- the pid of a process as long as it runs -/
  pid : Proc → Pid
  /-- who has the pid at the moment -/
  holder : Nat → Pid → Option Proc
  /-- `psutil.Process(..).children(recursive=True)` at the moment -/
  descendants : Nat → Proc → List Proc

def World.runs (w : World) (t : Nat) (p : Proc) : Bool := w.holder t (w.pid p) == some p

inductive Sig where
  | term | kill
  deriving DecidableEq, Repr

/-- a signal sent at a moment -/
structure Sent where
  time : Nat
  to : Proc
  sig : Sig
  deriving DecidableEq, Repr

/-- `asyncio`'s `terminate()`/`kill()` of a child at a moment: nothing when it has ended (ProcessLookupError, caught; or no-op). -/
def signalChild (w : World) (t : Nat) (p : Proc) (s : Sig) : List Sent := if w.runs t p then [⟨t, p, s⟩] else []

/-- the last part of `kill_sub_pool`, indigen/pool.py:474-487, at moment `t`: whoever has the pid now, with its descendants -/
def killByPid (w : World) (t : Nat) (pid : Pid) : List Sent :=
  match w.holder t pid with
  | none => []
  | some q => (w.descendants t q).map (fun c => ⟨t, c, .kill⟩) ++ [⟨t, q, .kill⟩]

/-- Result of a call: the signals sent, the moment it ends at, and the longest it takes in seconds. -/
structure Done where
  sent : List Sent
  time : Nat
  limit : Nat
  deriving DecidableEq, Repr

/-- `kill_sub_pool`, indigen/pool.py:424-487, for the child `p`, begun at moment `t`.  Moments: `t` terminate, `t+1` after at most 2 s of
waiting, then kill, `t+2` after at most 5 s of waiting, then the lookup by pid, `t+3` after at most 2 s of waiting. -/
def killSubPool (w : World) (t : Nat) (p : Proc) (force : Bool) : Done :=
  let termed := if force then [] else signalChild w t p .term
  let force' := force || w.runs (t + 1) p
  let killed := if force' then signalChild w (t + 1) p .kill else []
  ⟨termed ++ killed ++ killByPid w (t + 2) (w.pid p), t + 3, (if force then 0 else 2) + 5 + 2⟩

/-- how the stop request ended: a reply (of any kind) in time, the time limit, ConnectionError or ServerClosed, another exception -/
inductive Reply where
  | reply | timeout | lost | other
  deriving DecidableEq, Repr

inductive Stopped where
  | ok (d : Done)
  /-- the exception goes through, before anything is done to the process -/
  | raised
  deriving DecidableEq, Repr

/-- `stop_sub_pool`, pool.py:1399-1429; the request is made at moment `t` and has ended at `t+1`. -/
def stopSubPool (w : World) (t : Nat) (p : Proc) (timeout : Option Nat) (force : Bool) (r : Reply) : Stopped :=
  if force then .ok (killSubPool w t p true)
  else
    let limit := timeout.getD 2
    let go (f : Bool) := let d := killSubPool w (t + 1) p f; Stopped.ok { d with limit := limit + d.limit }
    match r with
    | .reply => go false
    | .timeout => go true
    | .lost => go true
    | .other => .raised

/-- `stop_sub_pools`, pool.py:1385-1397: those that run are stopped, all at once. `reply` says how each request ends.  (The moments of
the stops run in step; `gather` raises when one does.) -/
def stopSubPools (w : World) (t : Nat) (ps : List Proc) (reply : Proc → Reply) : List (Proc × Stopped) :=
  (ps.filter (w.runs t)).map (fun p => (p, stopSubPool w t p none false (reply p)))

def stopRaises (rs : List (Proc × Stopped)) : Bool := rs.any (fun r => r.2 == .raised)

/-! ## a sub pool watches the main process -/

/-- what `/proc` says about a pid -/
inductive Entry where
  /-- nobody has it -/
  | none
  /-- ended, but its parent has not collected it -/
  | zombie (p : Proc)
  | running (p : Proc)
  deriving DecidableEq, Repr

/-- `psutil.Process(pid)` and `.status()` do not raise: there is an entry, whoever it belongs to. -/
def Entry.found : Entry → Bool
  | .none => false
  | _ => true

/-- `_watch_main_pool` -/
inductive Watch where
  /-- the task has not begun -/
  | new
  /-- in the loop -/
  | watching
  /-- it called `self.stop()` -/
  | stopped
  /-- `psutil.Process(main_pool_pid)` raised: pool.py:891, outside the `try` -/
  | failed
  deriving DecidableEq, Repr

/-- one look at the main pool's pid: the first creates the `psutil.Process` (pool.py:891) and asks for the status, later ones (every 0.1 s)
ask for the status (pool.py:894).  The pool is not being stopped otherwise. -/
def Watch.look : Watch → Entry → Watch
  | .new, e => if e.found then .watching else .failed
  | .watching, e => if e.found then .watching else .stopped
  | s, _ => s

def Watch.run (es : List Entry) : Watch := es.foldl Watch.look .new

/-- `_check_ppid`, indigen/pool.py:189-200: the thread that looks every 10 s and ends the process; true means ended -/
def ppidEnds (es : List Entry) : Bool := es.any (fun e => !e.found)

end Xoscar.Procs
