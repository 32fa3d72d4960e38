import Verif.Model.Base
/-!
# Calls between actors, their locks, and the warning about call cycles: debug.py:107-168; pool.py:681-697; context.py:245-264; core.pyx:510-560

Many calls at once.  The debug option `log_cycle_send` is on.  An actor of the model is a (uid, address) pair.
Simplified: a method waits for one call at a time (no gather); the order in which waiting calls get an actor's lock is free (C15 has it);
the trace of the message and the value of the context variable inside the handler are kept in one field.
Left out: results yielded by generators (the trace is put away and the lock released there), methods without lock of actors with one.
-/
namespace Xoscar.Cycle

abbrev Actor := Nat
abbrev Cid := Nat

inductive Phase where
  /-- waiting for the actor's lock (core.pyx:526) -/
  | queued
  | running
  /-- waiting for the answer to the call (context.py:260-262) -/
  | waits (d : Cid)
  | done
  deriving DecidableEq, Repr

/-- a call, or a background task a method started (`actor` = none) -/
structure Call where
  actor : Option Actor
  /-- the call that waits for the answer -/
  parent : Option Cid
  /-- `_message_trace_var` inside (debug.py:108-127) -/
  trace : List Actor
  phase : Phase
  deriving DecidableEq, Repr

structure St where
  calls : Dict Cid Call
  next : Cid
  /-- the calls that were warned about (debug.py:145-166) -/
  warned : List Cid
  deriving Repr

def init : St := ⟨[], 0, []⟩

inductive Label where
  /-- somebody outside calls an actor -/
  | client (a : Actor)
  /-- the method of call `c` calls an actor and waits for the answer -/
  | send (c : Cid) (a : Actor)
  /-- … does not wait (`tell`) -/
  | tell (c : Cid) (a : Actor)
  /-- … starts a background task, which gets a copy of the context -/
  | background (c : Cid)
  /-- the method of a queued call starts -/
  | grant (d : Cid)
  /-- a method (or background task) ends -/
  | finish (d : Cid)
  deriving DecidableEq, Repr

/-- `record_message_trace`, debug.py:112-122: the trace inside the handler of a message to `a` -/
def handlerTrace (messageTrace : Option (List Actor)) (a : Actor) : List Actor := messageTrace.getD [] ++ [a]

/-- `detect_cycle_send`, debug.py:131-147: the trace put on the message, and is there a warning -/
def detect (var : List Actor) (a : Actor) (waitResponse : Bool) : Option (List Actor) × Bool :=
  if waitResponse then (some var, decide (a ∈ var)) else (none, false)

/-- does the call hold its actor's lock: from start to end of the method (core.pyx:526-532) -/
def holds (c : Call) : Bool := match c.phase with | .running => true | .waits _ => true | _ => false

/-- may a call to `a` start: the actor has no lock (`StatelessActor`) or nobody holds it -/
def free (locking : Actor → Bool) (s : St) (a : Actor) : Bool :=
  !locking a || s.calls.all (fun x => !(x.2.actor == some a && holds x.2))

/-- a finished call lets the call waiting for it go on -/
def resume (calls : Dict Cid Call) (parent : Option Cid) : Dict Cid Call :=
  match parent with
  | none => calls
  | some c => match calls.get? c with
    | none => calls
    | some x => calls.set c { x with phase := .running }

def step (locking : Actor → Bool) (s : St) : Label → Option St
  | .client a => some { s with calls := s.calls.set s.next ⟨some a, none, handlerTrace none a, .queued⟩, next := s.next + 1 }
  | .send c a => match s.calls.get? c with
    | none => none
    | some x =>
      if x.phase = .running then
        some { calls := (s.calls.set c { x with phase := .waits s.next }).set s.next
                          ⟨some a, some c, handlerTrace (detect x.trace a true).1 a, .queued⟩,
               next := s.next + 1,
               warned := if (detect x.trace a true).2 then s.next :: s.warned else s.warned }
      else none
  | .tell c a => match s.calls.get? c with
    | none => none
    | some x =>
      if x.phase = .running then
        some { calls := s.calls.set s.next ⟨some a, none, handlerTrace (detect x.trace a false).1 a, .queued⟩,
               next := s.next + 1,
               warned := if (detect x.trace a false).2 then s.next :: s.warned else s.warned }
      else none
  | .background c => match s.calls.get? c with
    | none => none
    | some x =>
      if x.phase = .running then some { s with calls := s.calls.set s.next ⟨none, none, x.trace, .running⟩, next := s.next + 1 }
      else none
  | .grant d => match s.calls.get? d with
    | none => none
    | some x => match x.actor with
      | none => none
      | some a => if x.phase = .queued ∧ free locking s a = true then some { s with calls := s.calls.set d { x with phase := .running } }
        else none
  | .finish d => match s.calls.get? d with
    | none => none
    | some x => if x.phase = .running then some { s with calls := resume (s.calls.set d { x with phase := .done }) x.parent } else none

inductive Run (locking : Actor → Bool) : List Label → St → Prop
  | init : Run locking [] init
  | snoc {ls : List Label} {l : Label} {s s' : St} : Run locking ls s → step locking s l = some s' → Run locking (ls ++ [l]) s'

end Xoscar.Cycle
