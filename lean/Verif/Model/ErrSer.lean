import Verif.Model.Base

/-!
# Sending errors and results back (`serialization/exception.py`, `backends/pool.py:393-427`)

What a user's exception class does when it is pickled, unpickled, printed is arbitrary; it enters
as a `World`.
-/
namespace Xoscar.ErrSer
open Xoscar

/-- The two kinds of pickling failure told apart by `exception.py:40`. -/
inductive Pick (E : Type)
  | ok
  /-- `TypeError` or `pickle.PicklingError` -/
  | cannot (e : E)
  /-- any other exception raised while pickling -/
  | other (e : E)

/-- What user classes do.  `E` are exceptions, `R` results of methods. -/
structure World (E R : Type) where
  /-- instance of `Exception` (not only `BaseException`) -/
  isException : E → Bool
  pick : E → Pick E
  /-- unpickling at the caller: the exception rebuilt, or the error raised while rebuilding -/
  load : E → Except E E
  /-- `str(e)`, `repr(e)` and `str(type(e))` -/
  str : E → Except E String
  repr : E → Except E String
  typeName : E → String
  /-- serializing a result -/
  serResult : R → Except E Unit
  /-- `UnpickleableError(text)`, `SendMessageFailed(text)` -/
  unpickleable : String → E
  sendFailed : String → E
  /-- `DeserializeMessageFailed` for a message -/
  deserializeFailed : E → E

/-- The text of `UnpickleableError(raw_error)` (`exception.py:23-32`). -/
def unpickleableText (type text : String) : String :=
  "Error cannot be pickled, error type: " ++ type ++ ", raw error:\n" ++ text

/-- `ExceptionSerializer.serial` (`exception.py:35-45`) for exceptions; other `BaseException`s go
through the general pickling serializer.  The result is what travels. -/
def serialError {E R} (w : World E R) (e : E) : Except E E :=
  match w.pick e with
  | .ok => .ok e
  | .other x => .error x
  | .cannot x =>
    if w.isException e then
      match w.str e with
      | .error y => .error y
      | .ok s =>
        let u := w.unpickleable (unpickleableText (w.typeName e) s)
        match w.pick u with
        | .ok => .ok u
        | .cannot y => .error y
        | .other y => .error y
    else .error x

/-- A reply of the pool. -/
inductive Reply (E R : Type)
  | result (r : R)
  | error (e : E)

def serialReply {E R} (w : World E R) : Reply E R → Except E (Reply E R)
  | .result r => match w.serResult r with | .ok _ => .ok (.result r) | .error x => .error x
  | .error e => match serialError w e with | .ok p => .ok (.error p) | .error x => .error x

/-- The text of `SendMessageFailed` (`pool.py:414-425`); printing may raise. The traceback and the
message id are left out. -/
def failureText {E R} (w : World E R) (r : Reply E R) (x : E) : Except E String :=
  match w.repr x with
  | .error y => .error y
  | .ok sx =>
    match r with
    | .result _ => .ok ("Error when sending message. Caused by " ++ sx ++ ". See server logs for more details")
    | .error e =>
      match w.repr e with
      | .error y => .error y
      | .ok se => .ok ("Error when sending message. Caused by " ++ sx ++ ". \nOriginal error: " ++ se)

/-- `_send_channel` (`pool.py:393-427`) on an open channel: what is put on the wire, `none` if
nothing is.  An exception raised while building the text is caught by `_ErrorProcessor` and sent
instead. -/
def send {E R} (w : World E R) (r : Reply E R) : Option (Reply E R) :=
  match serialReply w r with
  | .ok p => some p
  | .error x =>
    let second := match failureText w r x with
      | .ok s => w.sendFailed s
      | .error y => y
    match serialReply w (.error second) with
    | .ok p => some p
    | .error _ => none

/-- What the caller gets: the error rebuilt, or the report of C06 that the reply to its call could
not be decoded. -/
def receive {E R} (w : World E R) : Reply E R → Reply E R
  | .result r => .result r
  | .error e => match w.load e with | .ok e' => .error e' | .error x => .error (w.deserializeFailed x)

/-- Reply as seen by the caller; `none`: the call never ends. -/
def outcome {E R} (w : World E R) (r : Reply E R) : Option (Reply E R) := (send w r).map (receive w)

end Xoscar.ErrSer
