import Verif.Model.Base
/-!
# A lost sub pool and its recovery: backends/pool.py `monitor_sub_pools`, backends/indigen/pool.py `recover_sub_pool`

One sub pool of a main pool: its process, the main pool's records of the actors on it, the monitor task and those who wait for the recovery.
The monitor looks at the sub pools one after the other; what it does for another pool is, for this one, time that passes.

Simplified: a dict is an array of slots, a new key goes to the end, a removed one leaves a hole (CPython without the reorganisation that
happens when the array is full).  The monitor is not cancelled (`stop`).
-/
namespace Xoscar.Recovery

abbrev Uid := Nat

/-- a `CreateActorMessage` -/
structure Msg where
  uid : Uid
  fromMain : Bool
  deriving DecidableEq, Repr

/-- `auto_recover` (pool.py 1556-1562) -/
inductive Mode where
  | off | process | actor
  deriving DecidableEq, Repr

/-- `_allocated_actors[address]`: the key is the actor, or `None` for the placeholder of a creation under way (pool.py 1055) -/
abbrev Slots := List (Option (Option Uid × Msg))

def used (s : Slots) : Nat := (s.filter (·.isSome)).length

def hasKey (k : Option Uid) (s : Slots) : Bool := s.any (fun x => match x with | some (k', _) => k' = k | none => false)

/-- `d[k] = m` -/
def put (k : Option Uid) (m : Msg) (s : Slots) : Slots :=
  if hasKey k s then s.map (fun x => match x with | some (k', m') => if k' = k then some (k, m) else some (k', m') | none => none)
  else s ++ [some (k, m)]

/-- `d.pop(k, None)` -/
def del (k : Option Uid) (s : Slots) : Slots := s.map (fun x => match x with | some (k', m') => if k' = k then none else some (k', m') | none => none)

/-- the iterator over `d.values()` at a position: the next entry and the position after it -/
def nextEntry : Slots → Nat → Option (Msg × Nat)
  | [], _ => none
  | some (_, m) :: _, 0 => some (m, 1)
  | none :: t, 0 => (nextEntry t 0).map (fun x => (x.1, x.2 + 1))
  | _ :: t, n + 1 => (nextEntry t n).map (fun x => (x.1, x.2 + 1))

/-- where the monitor is with this pool (pool.py 1457-1491, indigen/pool.py 495-506); `d` is `recover_events_discovered` -/
inductive Mon where
  | idle
  /-- the process is being started again -/
  | restarting (d : Bool)
  /-- the loop over the recorded messages, at `pos`; `size` is the number of entries when the loop began -/
  | looping (d : Bool) (pos size : Nat)
  /-- a creation was sent to the new process -/
  | calling (d : Bool) (pos size : Nat) (m : Msg)
  deriving DecidableEq, Repr

structure Waiter where
  /-- the event it waits for; `none`: it returned at once -/
  event : Option Nat
  /-- ghost: how many recoveries had finished, and how many had failed, when it began to wait -/
  recovers : Nat
  aborts : Nat
  /-- ghost: the loss was known to the main pool then -/
  known : Bool
  deriving DecidableEq, Repr

structure St where
  mode : Mode
  /-- the process runs -/
  up : Bool
  /-- `process.returncode is not None` -/
  noticed : Bool
  /-- `none`: the address is no key of `_allocated_actors` (a sub pool appended later) -/
  slots : Option Slots
  /-- the actors in the process -/
  actors : List Uid
  mon : Mon
  /-- `_recover_events`: the event for this address -/
  event : Option Nat
  nextEvent : Nat
  /-- events that are set -/
  woken : List Nat
  waiters : List Waiter
  /-- calls of `on_process_down` and `on_process_recover` -/
  downs : Nat
  recovers : Nat
  /-- exceptions logged by the monitor -/
  aborts : Nat
  /-- ghost: creations sent to the process since it was started again, those that failed, and whether the records were changed or the process
  died since -/
  sent : List Msg
  failed : List Msg
  dirty : Bool
  deriving Repr

def init (mode : Mode) (listed : Bool) : St :=
  ⟨mode, true, false, if listed then some [] else none, [], .idle, none, 1, [], [], 0, 0, 0, [], [], false⟩

/-- `if recover_events_discovered: self._recover_events.pop(address).set()` (pool.py 1474-1476) -/
def finish (s : St) (d : Bool) : St :=
  match d, s.event with
  | true, some e => { s with mon := .idle, event := none, woken := e :: s.woken }
  | _, _ => { s with mon := .idle }

/-- an exception reaches the `except` clauses (pool.py 1477-1489): it is logged, the event stays -/
def abort (s : St) : St := { s with mon := .idle, aborts := s.aborts + 1 }

inductive Label where
  /-- the main pool records an actor or a placeholder, or forgets one (pool.py 1055-1089, 1119-1124, 1263-1267) -/
  | record (k : Option Uid) (m : Msg)
  | forget (k : Option Uid)
  /-- an actor comes or goes in the process -/
  | born (u : Uid)
  | gone (u : Uid)
  /-- the process dies; the child watcher sets its return code -/
  | crash
  | notice
  /-- the monitor looks at the pool -/
  | check
  /-- the process was started again, or could not be -/
  | restarted
  | restartFailed
  /-- the loop takes its next entry, or ends -/
  | next
  /-- the process answered: the actor was created, or not -/
  | answered (ok : Bool)
  /-- the process died before it answered -/
  | lost
  /-- `wait_pool_recovered` (pool.py 1250-1259) -/
  | wait
  deriving DecidableEq, Repr

def recovering (s : St) : Bool := match s.mon with
  | .idle => false
  | _ => true

def step (s : St) : Label → Option St
  | .record k m => some { s with slots := s.slots.map (put k m), dirty := true }
  | .forget k => some { s with slots := s.slots.map (del k), dirty := true }
  | .born u => if s.up then some { s with actors := if u ∈ s.actors then s.actors else s.actors ++ [u] } else none
  | .gone u => if s.up then some { s with actors := s.actors.filter (· ≠ u), dirty := true } else none
  | .crash => if s.up then some { s with up := false, actors := [], dirty := true } else none
  | .notice => if s.up then none else some { s with noticed := true }
  | .check => match s.mon with
    | .idle =>
      let d := s.event.isSome                                                     -- 1463
      if s.noticed then
        let s := { s with downs := s.downs + 1 }                                  -- 1467-1468
        match s.mode with                                                         -- 1451-1455, 1470
        | .off => some (finish { s with slots := some [] } d)
        | .process => some { s with slots := some [], mon := .restarting d }
        | .actor => some { s with mon := .restarting d }
      else some (finish s d)
    | _ => none
  | .restarted => match s.mon with                                                -- indigen/pool.py 495-504
    | .restarting d =>
      let s := { s with up := true, noticed := false, actors := [], sent := [], failed := [], dirty := false }
      match s.mode, s.slots with
      | .actor, some l => some { s with mon := .looping d 0 (used l) }
      | .actor, none => some (abort s)                                            -- KeyError
      | _, _ => some (finish { s with recovers := s.recovers + 1 } d)
    | _ => none
  | .restartFailed => match s.mon with
    | .restarting _ => some (abort s)
    | _ => none
  | .next => match s.mon, s.slots with
    | .looping d pos size, some l =>
      if used l ≠ size then some (abort s)                                        -- RuntimeError: dictionary changed size during iteration
      else match nextEntry l pos with
        | some (m, pos') => some { s with mon := .calling d pos' size m, sent := s.sent ++ [m] }
        | none => some (finish { s with recovers := s.recovers + 1 } d)           -- 1472-1476
    | _, _ => none
  | .answered ok => match s.mon with
    | .calling d pos size m =>
      if s.up then
        let s := { s with mon := .looping d pos size,
                          actors := if ok then (if m.uid ∈ s.actors then s.actors else s.actors ++ [m.uid]) else s.actors,
                          failed := if ok then s.failed else s.failed ++ [m] }
        -- a sub pool tells the main pool about a creation that does not come from there (pool.py 919-924), whatever became of it
        if m.fromMain then some s else some { s with slots := s.slots.map (put (some m.uid) ⟨m.uid, true⟩), dirty := true }
      else none
    | _ => none
  | .lost => match s.mon with
    | .calling _ _ _ _ => if s.up then none else some (abort s)
    | _ => none
  | .wait =>
    if s.mode = .off then some { s with waiters := s.waiters ++ [⟨none, s.recovers, s.aborts, s.noticed || recovering s⟩] }
    else match s.event with
      | some e => some { s with waiters := s.waiters ++ [⟨some e, s.recovers, s.aborts, s.noticed || recovering s⟩] }
      | none => some { s with event := some s.nextEvent, nextEvent := s.nextEvent + 1,
                              waiters := s.waiters ++ [⟨some s.nextEvent, s.recovers, s.aborts, s.noticed || recovering s⟩] }

inductive Run (mode : Mode) (listed : Bool) : List Label → St → Prop
  | init : Run mode listed [] (init mode listed)
  | snoc {ls l s s'} : Run mode listed ls s → step s l = some s' → Run mode listed (ls ++ [l]) s'

end Xoscar.Recovery
