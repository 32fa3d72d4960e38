import Verif.Model.Base
/-!
# `wait_for` (api.py:184-217)

The awaitable is a task of its own (`ensure_future`); a fresh future `new_fut` is filled in by the task's done callback, and
`asyncio.wait_for` waits on `new_fut`.  Steps are what the event loop can do next; the task may finish at any moment and in
any way, and need not react to a cancellation.

`asyncio.wait_for` (standard library, trusted): waits until `new_fut` is done, the timer fires, or the waiting task is
cancelled; in the last two cases it cancels `new_fut`.  With a timeout that is not positive it gives up at once unless the
future is done already.
-/
namespace Xoscar.WaitFor

/-- how the awaited task ended.  `truthy`: Python's truth value of the exception object (an exception class may define
`__bool__` or `__len__`) -/
inductive Outcome where
  | value (v : Nat)
  | raised (e : Nat) (truthy : Bool)
  | cancelled
  deriving DecidableEq, Repr

/-- what the caller of `wait_for` sees -/
inductive Result where
  | value (v : Nat)
  | raised (e : Nat)
  | cancelled
  | timeout
  deriving DecidableEq, Repr

inductive Timeout where
  | none
  | nonpositive
  | positive
  deriving DecidableEq, Repr

structure St where
  timeout : Timeout
  /-- the awaited task: running or done -/
  task : Option Outcome
  /-- the done callback is queued and has not run -/
  callback : Bool
  /-- `new_fut` -/
  fut : Option Result
  /-- number of `task.cancel()` -/
  cancels : Nat
  /-- what `wait_for` returned or raised, if it has -/
  caller : Option Result
  deriving DecidableEq, Repr

inductive Label where
  /-- the task ends -/
  | finish (o : Outcome)
  /-- the event loop runs `on_done` -/
  | onDone
  /-- the waiting task resumes because `new_fut` is done -/
  | wake
  /-- the timer of `asyncio.wait_for` fires -/
  | timer
  /-- the task that waits in `wait_for` is cancelled -/
  | cancel
  deriving DecidableEq, Repr

/-- `on_done` (api.py:195-203).  An exception that is false goes on to `f.result()`, which raises inside the callback:
`new_fut` stays pending -/
def onDone (fut : Option Result) (o : Outcome) : Option Result :=
  match fut with
  | some r => some r
  | none => match o with
    | .cancelled => some .cancelled
    | .raised e true => some (.raised e)
    | .raised _ false => none
    | .value v => some (.value v)

/-- api.py:207-217: the `except asyncio.TimeoutError` branch -/
def giveUp (s : St) : St :=
  { s with
    fut := some (s.fut.getD .cancelled)
    cancels := if s.task = none then s.cancels + 1 else s.cancels
    caller := some .timeout }

/-- entering `wait_for` with a task that runs or is done already (then its callback is queued by `add_done_callback`) -/
def enter (timeout : Timeout) (task : Option Outcome) : St :=
  let s : St := ⟨timeout, task, task.isSome, none, 0, none⟩
  if timeout = .nonpositive then giveUp s else s

/-- `new_fut` raised a TimeoutError of the task itself: same branch, the task is done, nothing to cancel -/
def step (s : St) : Label → Option St
  | .finish o => if s.task = none then some { s with task := some o, callback := true } else none
  | .onDone => match s.callback, s.task with
    | true, some o => some { s with callback := false, fut := onDone s.fut o }
    | _, _ => none
  | .wake => match s.caller, s.fut with
    | none, some r => some { s with caller := some r }
    | _, _ => none
  | .timer => if s.caller = none ∧ s.timeout = .positive then some (giveUp s) else none
  | .cancel => if s.caller = none then some { s with fut := some (s.fut.getD .cancelled), caller := some .cancelled } else none

inductive Run (s₀ : St) : List Label → St → Prop
  | init : Run s₀ [] s₀
  | snoc {ls l s s'} : Run s₀ ls s → step s l = some s' → Run s₀ (ls ++ [l]) s'

end Xoscar.WaitFor
