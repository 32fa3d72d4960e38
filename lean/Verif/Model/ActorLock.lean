import Verif.Model.Base
/-!
# The actor lock and the call life cycle

`asyncio.Lock` (CPython 3.11-3.13 `asyncio/locks.py`, a library of the code base, transcribed here
because the actor's exclusion rests on it) and python/xoscar/core.pyx:392-564 (`__on_receive__`,
`_run_actor_async_generator`), core.pyx:570-588 (`_create_lock`).
-/
namespace Xoscar.ActorLock

/-- State of the future of a waiter in `Lock._waiters`: `pending`; `woken` = result set by
`_wake_up_first`, the task is scheduled; `wokenCancel` = result set, then the task was cancelled
before running (CancelledError will be thrown at the `await`); `cancelled` = the future was
cancelled, the task is scheduled with CancelledError. -/
inductive W where
  | pending | woken | wokenCancel | cancelled
  deriving DecidableEq, Repr

/-- `fut.done()` -/
def W.done : W → Bool
  | .pending => false
  | _ => true

/-- `fut.cancelled()` -/
def W.isCancelled : W → Bool
  | .cancelled => true
  | _ => false

/-- `asyncio.Lock`: `_locked`, `_waiters` (oldest first; the waiter is named by its task) -/
structure Lock where
  locked : Bool
  waiters : List (Nat × W)
  deriving DecidableEq, Repr

/-- `Lock._wake_up_first`: set the result of the first waiter unless its future is done. -/
def Lock.wakeFirst (l : Lock) : Lock :=
  match l.waiters with
  | [] => l
  | (t, w) :: ws => if w.done then l else { l with waiters := (t, .woken) :: ws }

/-- `Lock.acquire` up to its first suspension: `true` = acquired at once. -/
def Lock.acquire (l : Lock) (t : Nat) : Lock × Bool :=
  if !l.locked && l.waiters.all (fun w => w.2.isCancelled) then ({ l with locked := true }, true)
  else ({ l with waiters := l.waiters ++ [(t, .pending)] }, false)

/-- `self._waiters.remove(fut)` -/
def removeW (t : Nat) : List (Nat × W) → List (Nat × W)
  | [] => []
  | (u, w) :: ws => if u = t then ws else (u, w) :: removeW t ws

def lookW (t : Nat) : List (Nat × W) → Option W
  | [] => none
  | (u, w) :: ws => if u = t then some w else lookW t ws

def setW (t : Nat) (w' : W) : List (Nat × W) → List (Nat × W)
  | [] => []
  | (u, w) :: ws => if u = t then (u, w') :: ws else (u, w) :: setW t w' ws

/-- outcome of resuming a task suspended in `acquire` -/
inductive Resumed where
  | notScheduled | acquired | cancelled
  deriving DecidableEq, Repr

/-- `Lock.acquire` from its suspension to its end. -/
def Lock.resume (l : Lock) (t : Nat) : Lock × Resumed :=
  match lookW t l.waiters with
  | none => (l, .notScheduled)
  | some .pending => (l, .notScheduled)
  | some .woken => ({ locked := true, waiters := removeW t l.waiters }, .acquired)
  | some _ =>
    let l' : Lock := { l with waiters := removeW t l.waiters }
    (if l'.locked then l' else l'.wakeFirst, .cancelled)

/-- `Task.cancel()` on a task suspended in `acquire` -/
def Lock.cancelWait (l : Lock) (t : Nat) : Lock :=
  match lookW t l.waiters with
  | some .pending => { l with waiters := setW t .cancelled l.waiters }
  | some .woken => { l with waiters := setW t .wokenCancel l.waiters }
  | _ => l

/-- `Lock.release` (by `async with` on leaving the block, however it is left) -/
def Lock.release (l : Lock) : Lock := Lock.wakeFirst { l with locked := false }

/-! ## Calls -/

/-- what is passed to the user's code at the start of a stretch: `asend(v)` / `athrow(e)`,
core.pyx:474-477 -/
inductive Input where
  | send (v : Option Nat)
  | throw (e : Nat)
  deriving DecidableEq, Repr

/-- How a stretch of user code under the lock ends: `yield_` (async generator), `ret` (raise
Return(v)), `stop` (generator ends), `raise_`; `final y` = an ordinary method returned `y`. -/
inductive Outcome where
  | yield_ (y : Nat) | ret (v : Nat) | stop | raise_ (e : Nat) | final (y : Nat)
  deriving DecidableEq, Repr

/-- the result of `_handle_actor_result` -/
inductive Handled where
  | ok (v : Nat) | err (e : Nat)
  deriving DecidableEq, Repr

inductive Res where
  | value (v : Option Nat) | exc (e : Nat) | cancelled
  deriving DecidableEq, Repr

/-- where a call is -/
inductive Phase where
  | acquiring (inp : Input)
  | running (inp : Input)
  | handling
  | handlingFinal
  | done (r : Res)
  deriving DecidableEq, Repr

/-- A call with what has happened so far: each stretch's input, its outcome and what the handling of
the yielded object gave (none = not finished). -/
structure Call where
  phase : Phase
  trace : List (Input × Outcome × Option Handled)
  deriving DecidableEq, Repr

/-- one actor: its lock, its calls; ghost: requests for the lock and grants, in order -/
structure Actor where
  lock : Lock
  calls : Dict Nat Call
  asked : List Nat
  granted : List Nat

def Actor.init : Actor := ⟨⟨false, []⟩, [], [], []⟩

/-- `async with self._lock:` is entered by call `t` (core.pyx:471, 526, 543) -/
def Actor.enter (a : Actor) (t : Nat) (inp : Input) (tr : List (Input × Outcome × Option Handled)) : Actor :=
  let r := a.lock.acquire t
  if r.2 then { lock := r.1, calls := a.calls.set t ⟨.running inp, tr⟩, asked := a.asked ++ [t], granted := a.granted ++ [t] }
  else { lock := r.1, calls := a.calls.set t ⟨.acquiring inp, tr⟩, asked := a.asked ++ [t], granted := a.granted }

inductive Ev where
  /-- a new ordinary call arrives -/
  | start (t : Nat)
  /-- the event loop resumes a call scheduled in `acquire` -/
  | resume (t : Nat)
  /-- the task of the call is cancelled -/
  | cancel (t : Nat)
  /-- the user code of call `t` ends its stretch -/
  | stretch (t : Nat) (o : Outcome)
  /-- awaiting the yielded/returned object ends -/
  | handled (t : Nat) (h : Handled)
  deriving Repr

/-- fill in what handling the last yielded object gave -/
def closeLast (h : Handled) : List (Input × Outcome × Option Handled) → List (Input × Outcome × Option Handled)
  | [] => []
  | [(i, o, _)] => [(i, o, some h)]
  | x :: y :: l => x :: closeLast h (y :: l)

/-- what goes back to the generator (core.pyx:482-486, 474-477) -/
def Handled.toInput : Handled → Input
  | .ok v => .send (some v)
  | .err e => .throw e

/-- Where the call goes when its stretch under the lock ends: a yielded or returned object is
handled outside the lock (core.pyx:478-486, 556), `Return(v)` gives `v`, the end of the generator
None (core.pyx:490-493), other exceptions propagate. -/
def afterStretch : Outcome → Phase
  | .yield_ _ => .handling
  | .final _ => .handlingFinal
  | .ret v => .done (.value (some v))
  | .stop => .done (.value none)
  | .raise_ e => .done (.exc e)

/-- One step.  Events that do not apply (e.g. a stretch of a call that is not running) change
nothing. -/
def Actor.step (a : Actor) : Ev → Actor
  | .start t => match a.calls.get? t with
    | some _ => a
    | none => a.enter t (.send none) []
  | .resume t => match a.calls.get? t with
    | some ⟨.acquiring inp, tr⟩ =>
      let r := a.lock.resume t
      match r.2 with
      | .notScheduled => a
      | .acquired => { a with lock := r.1, calls := a.calls.set t ⟨.running inp, tr⟩, granted := a.granted ++ [t] }
      | .cancelled => { a with lock := r.1, calls := a.calls.set t ⟨.done .cancelled, tr⟩ }
    | _ => a
  | .cancel t => match a.calls.get? t with
    | some ⟨.acquiring _, _⟩ => { a with lock := a.lock.cancelWait t }
    | _ => a
  | .stretch t o => match a.calls.get? t with
    | some ⟨.running inp, tr⟩ =>
      let tr' := tr ++ [(inp, o, none)]
      { a with lock := a.lock.release, calls := a.calls.set t ⟨afterStretch o, tr'⟩ }
    | _ => a
  | .handled t h => match a.calls.get? t with
    | some ⟨.handling, tr⟩ => a.enter t h.toInput (closeLast h tr)
    | some ⟨.handlingFinal, tr⟩ =>
      let r := match h with
        | .ok v => Res.value (some v)
        | .err e => .exc e
      { a with calls := a.calls.set t ⟨.done r, closeLast h tr⟩ }
    | _ => a

/-- any history -/
def Actor.run (a : Actor) (evs : List Ev) : Actor := evs.foldl Actor.step a

end Xoscar.ActorLock
