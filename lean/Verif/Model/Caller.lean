import Verif.Model.Base
/-!
# The reply listener of one client connection: python/xoscar/backends/core.py:55-170, 224-236

Message ids and futures are identified (each call registers its future under its own fresh id,
core.py:150-151).  The steps are the stretches between awaits of the listener task, of
`call_with_client` and of whoever cancels a call or closes the client.
-/
namespace Xoscar.Caller

/-- an exception set on a future -/
inductive Exc where
  | serverClosed
  | keyError
  | cause (n : Nat)     -- `e.__cause__` of DeserializeMessageFailed
  | other (n : Nat)     -- another exception of `client.recv()`
  deriving DecidableEq, Repr

/-- state of `wait_response`, i.e. what the caller of the message observes -/
inductive Fut where
  | pending
  | result (payload : Nat)
  | exc (e : Exc)
  | cancelled
  deriving DecidableEq, Repr

def Fut.done : Fut → Bool
  | .pending => false
  | _ => true

/-- the listener task `_listen` -/
inductive Listener where
  | running
  | ended        -- left the loop normally (core.py:134-138)
  | crashed      -- an exception escaped from an `except` block, or the task was cancelled
  deriving DecidableEq, Repr

structure St where
  /-- `_client_to_message_futures[client]`: ids in insertion order -/
  table : List Nat
  /-- all futures ever created -/
  futs : Dict Nat Fut
  /-- calls whose `send` failed: the caller got ServerClosed directly (core.py:156-162) -/
  sendFailed : List Nat
  closed : Bool
  listener : Listener
  deriving Repr

def St.init : St := ⟨[], [], [], false, .running⟩

/-- `for future in message_futures.values(): future.set_exception(...)` (core.py:119-120, 137-138):
`set_exception` on a future that is done raises InvalidStateError, which leaves the loop. Returns
whether the loop was completed. -/
def failAll (e : Exc) : List Nat → Dict Nat Fut → Dict Nat Fut × Bool
  | [], futs => (futs, true)
  | m :: ms, futs => match futs.get? m with
    | some .pending => failAll e ms (futs.set m (.exc e))
    | _ => (futs, false)

/-- `except Exception as e` (core.py:116-120): the table is emptied first. -/
def St.failPending (s : St) (e : Exc) : St :=
  let r := failAll e s.table s.futs
  if r.2 then { s with table := [], futs := r.1 }
  else { s with table := [], futs := r.1, closed := true, listener := .crashed }

inductive Ev where
  /-- `call_with_client`: register, send (fails iff the client is closed) -/
  | call (id : Nat)
  /-- `call_with_client` when `send` raises ConnectionError although the client looked open -/
  | callSendError (id : Nat)
  /-- the task awaiting `wait_response` is cancelled -/
  | cancel (id : Nat)
  /-- `client.recv()` returned a message -/
  | recv (id payload : Nat)
  /-- it raised DeserializeMessageFailed -/
  | recvBad (id cause : Nat)
  /-- it raised EOFError / ConnectionError -/
  | recvEof
  /-- it raised another exception -/
  | recvError (n : Nat)
  /-- the listener evaluates `while not client.closed` (after `await asyncio.sleep(0)`) -/
  | loop
  /-- somebody closes the client -/
  | close
  /-- `cancel_tasks` (core.py:234-236, from `stop`, 224-232, after the clients were closed, and from a context's `__del__`,
  context.py:75-76): the listener is cancelled wherever it waits; `CancelledError` is no `Exception`, so only the `finally` blocks run -/
  | cancelTasks
  deriving Repr

/-- register the future of a call: `…[client][message_id] = wait_response` -/
def St.register (s : St) (id : Nat) : St :=
  { s with table := s.table.filter (· ≠ id) ++ [id], futs := s.futs.set id .pending }

def St.step (s : St) : Ev → St
  | .call id =>
    if s.futs.has id then s   -- ids are fresh (new_message_id)
    else if s.closed then { s.register id with sendFailed := s.sendFailed ++ [id] }
    else s.register id
  | .callSendError id =>
    if s.futs.has id then s
    else { s.register id with sendFailed := s.sendFailed ++ [id], closed := true }
  | .cancel id => match s.futs.get? id with
    | some .pending => { s with futs := s.futs.set id .cancelled }
    | _ => s
  | .recv id payload =>
    if s.listener ≠ .running then s
    else if id ∈ s.table then
      match s.futs.get? id with
      | some .pending => { s with table := s.table.filter (· ≠ id), futs := s.futs.set id (.result payload) }
      | _ => { s with table := s.table.filter (· ≠ id) }
    else s.failPending .keyError
  | .recvBad id cause =>
    if s.listener ≠ .running then s
    else if id ∈ s.table then
      match s.futs.get? id with
      | some .pending => { s with table := s.table.filter (· ≠ id), futs := s.futs.set id (.exc (.cause cause)) }
      | _ => { s with table := s.table.filter (· ≠ id), closed := true, listener := .crashed }
    else { s with closed := true, listener := .crashed }
  | .recvEof =>
    if s.listener ≠ .running then s
    else { s with closed := true }.failPending .serverClosed
  | .recvError n =>
    if s.listener ≠ .running then s
    else s.failPending (.other n)
  | .loop =>
    if s.listener ≠ .running then s
    else if s.closed then
      let s' := s.failPending .serverClosed
      if s'.listener = .crashed then s' else { s' with listener := .ended }
    else s
  | .close => { s with closed := true }
  | .cancelTasks =>
    if s.listener ≠ .running then s
    else { s with closed := true, listener := .crashed }

def St.run (s : St) (evs : List Ev) : St := evs.foldl St.step s

/-- what the caller of message `id` observes -/
inductive View where
  | notCalled | waiting | returned (payload : Nat) | raised (e : Exc) | cancelled
  deriving DecidableEq, Repr

def St.view (s : St) (id : Nat) : View :=
  if id ∈ s.sendFailed then .raised .serverClosed
  else match s.futs.get? id with
    | none => .notCalled
    | some .pending => .waiting
    | some (.result p) => .returned p
    | some (.exc e) => .raised e
    | some .cancelled => .cancelled

end Xoscar.Caller
