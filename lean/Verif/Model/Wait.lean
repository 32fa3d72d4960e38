import Verif.Model.Base
/-!
# Waiting for a reply and cancelling the wait: python/xoscar/backends/context.py

`IndigenActorContext._wait` (context.py:113-124) and `_process_result_message` (context.py:106-111).
-/
namespace Xoscar.Wait

/-- what the future of a call holds: a `ResultMessage`, an `ErrorMessage` whose error is CancelledError,
an `ErrorMessage` with another error, or an exception set by the client side (e.g. ServerClosed) -/
inductive Fut where
  | result (n : Nat)
  | remoteCancelled
  | remoteError (n : Nat)
  | exc (n : Nat)
  deriving DecidableEq

/-- what the caller of the API gets -/
inductive Outcome where
  | value (n : Nat)
  | cancelledError
  | remoteError (n : Nat)
  | exc (n : Nat)
  deriving DecidableEq

/-- how `await asyncio.shield(future)` ends: the future is done, or the caller is cancelled -/
inductive First where
  | done
  | cancelled
  deriving DecidableEq

/-- how `await self.cancel(...)` ends -/
inductive CancelReply where
  | true_
  | cannotCancel
  /-- another exception, e.g. ServerClosed -/
  | exc (n : Nat)
  /-- the caller is cancelled once more -/
  | cancelled
  deriving DecidableEq

/-- how the last `await future` ends; a second cancellation cancels the future itself -/
inductive Last where
  | done
  | cancelled
  deriving DecidableEq

/-- `_process_result_message`, the exception of an error message being an instance of the remote
exception's class (`as_instanceof_cause`, see Verif/Model/Calls.lean) -/
def process : Fut → Outcome
  | .result n => .value n
  | .remoteCancelled => .cancelledError
  | .remoteError n => .remoteError n
  | .exc n => .exc n

/-- `_wait` followed by `_process_result_message`; also tells whether a cancel message was sent -/
def wait (f : Fut) (a : First) (b : CancelReply) (c : Last) : Bool × Outcome :=
  match a with
  | .done => (false, process f)          -- an exception is swallowed, then raised again by `await future`
  | .cancelled => match b with
    | .cannotCancel => (true, .cancelledError)
    | .exc n => (true, .exc n)
    | .cancelled => (true, .cancelledError)
    | .true_ => match c with
      | .done => (true, process f)
      | .cancelled => (true, .cancelledError)

end Xoscar.Wait
