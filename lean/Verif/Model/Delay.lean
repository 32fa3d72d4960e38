import Verif.Model.Base
/-!
# Delayed tells: `tell_delay` of a reference, python/xoscar/core.pyx 228-243 (remote), 349-355 (local)

Time is a natural number. A call of `tell_delay` makes a task at once; the task sleeps, then tells.
-/
namespace Xoscar.Delay

/-- Exceptions a tell can end with. -/
inductive Err where
  /-- `ConnectionRefusedError` -/
  | refused
  /-- `ActorNotExist`, core.pyx 308-313 -/
  | notExist
  /-- any other -/
  | other (n : Nat)
deriving DecidableEq, Repr

inductive Outcome where
  | ok
  /-- `await asyncio.sleep(None)` -/
  | typeError
  | cancelled
  | err (e : Err)
deriving DecidableEq, Repr

inductive Phase where
  | created
  | sleeping (till : Nat)
  /-- in `send`, the message is not written yet -/
  | sending
  | written
  | ended (o : Outcome)
deriving DecidableEq, Repr

/-- A task made by `ref.method.tell_delay(x, delay=…, ignore_conn_fail=…)`. `cell` is the object passed, `loc` tells whether the reference is
a `LocalActorRef`, `made` is the time of the call. -/
structure Task where
  loc : Bool
  made : Nat
  delay : Option Int
  ignore : Bool
  cell : Nat
  ph : Phase := .created
deriving DecidableEq, Repr

/-- `mem`: contents of the objects passed. `live`: the actor is there. `sent`: the calls made, with task, time and contents. `logged`: tasks
whose error was logged. -/
structure St where
  now : Nat := 0
  live : Bool := true
  mem : Nat → Nat := fun _ => 0
  tasks : List Task := []
  sent : List (Nat × Nat × Nat) := []
  logged : List Nat := []

inductive Label where
  | tellDelay (loc : Bool) (delay : Option Int) (ignore : Bool) (cell : Nat)
  | tick
  /-- the caller changes the object -/
  | mutate (cell v : Nat)
  /-- the actor is destroyed -/
  | destroy
  /-- the event loop starts the task -/
  | start (i : Nat)
  /-- the sleep is over -/
  | wake (i : Nat)
  /-- the message of a remote tell is written -/
  | write (i : Nat)
  /-- `send` ends, with an exception or not -/
  | sendEnds (i : Nat) (e : Option Err)
  /-- somebody cancels the task that `tell_delay` returned -/
  | cancel (i : Nat)
deriving DecidableEq, Repr

def St.setPh (st : St) (i : Nat) (t : Task) (p : Phase) : St := { st with tasks := st.tasks.set i { t with ph := p } }

/-- `asyncio.sleep(delay)`: an error without a delay; a delay that is not positive gives way once. -/
def startTask (st : St) (i : Nat) (t : Task) : St :=
  match t.delay with
  | none => { st.setPh i t (.ended .typeError) with logged := if t.loc then st.logged else st.logged ++ [i] }
  | some d => st.setPh i t (.sleeping (st.now + d.toNat))

/-- core.pyx 352-353, 331-338: a local tell looks the actor up and makes a task for the call; core.pyx 231-233: a remote one makes the message. -/
def wakeTask (st : St) (i : Nat) (t : Task) : St :=
  if t.loc then
    if st.live then { st.setPh i t (.ended .ok) with sent := st.sent ++ [(i, st.now, st.mem t.cell)] }
    else st.setPh i t (.ended (.err .notExist))
  else st.setPh i t .sending

/-- core.pyx 234-240 -/
def failTask (st : St) (i : Nat) (t : Task) (e : Err) : St :=
  if t.ignore && e == .refused then st.setPh i t (.ended .ok)
  else { st.setPh i t (.ended (.err e)) with logged := st.logged ++ [i] }

def step (st : St) : Label → Option St
  | .tellDelay loc delay ignore cell => some { st with tasks := st.tasks ++ [{ loc, made := st.now, delay, ignore, cell }] }
  | .tick => some { st with now := st.now + 1 }
  | .mutate cell v => some { st with mem := fun c => if c = cell then v else st.mem c }
  | .destroy => some { st with live := false }
  | .start i =>
    match st.tasks[i]? with
    | none => none
    | some t => if t.ph = .created then some (startTask st i t) else none
  | .wake i =>
    match st.tasks[i]? with
    | none => none
    | some t =>
      match t.ph with
      | .sleeping till => if till ≤ st.now then some (wakeTask st i t) else none
      | _ => none
  | .write i =>
    match st.tasks[i]? with
    | none => none
    | some t => if t.ph = .sending then some { st.setPh i t .written with sent := st.sent ++ [(i, st.now, st.mem t.cell)] } else none
  | .sendEnds i e =>
    match st.tasks[i]? with
    | none => none
    | some t =>
      match e with
      | none => if t.ph = .written then some (st.setPh i t (.ended .ok)) else none
      | some e => if t.ph = .sending ∨ t.ph = .written then some (failTask st i t e) else none
  | .cancel i =>
    match st.tasks[i]? with
    | none => none
    | some t =>
      match t.ph with
      | .ended _ => none
      | _ => some (st.setPh i t (.ended .cancelled))

end Xoscar.Delay
