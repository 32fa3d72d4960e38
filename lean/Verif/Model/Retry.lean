import Verif.Model.Base

/-!
# The retry wrapper

`retry_callable` (`python/xoscar/utils.py` 414-449), the coroutine wrapper and the plain one.
-/
namespace Xoscar.Retry

/-- One attempt: it returns, raises an exception of `ex_type`, or another one (a CancelledError, which is no `Exception`, is one of these). -/
inductive Attempt where
  | ok (v : Nat)
  | listed (e : Nat)
  | other (e : Nat)
deriving DecidableEq, Repr

/-- What the wrapper does: attempt number `n`, a sleep of `wait_interval`. -/
inductive Act where
  | call (n : Nat)
  | sleep
deriving DecidableEq, Repr

/-- How it ends.  `returnedNone`: it falls off the end of the function; `interrupted`: the exception that interrupted a sleep. -/
inductive Ended where
  | returned (v : Nat)
  | raised (e : Nat)
  | returnedNone
  | assertionError
  | interrupted
deriving DecidableEq, Repr

/-- What happens around it: the outcome of each attempt, and whether the sleep after it is interrupted (cancelled, Ctrl-C). -/
structure World where
  f : Nat → Attempt
  intr : Nat → Bool

/-- `num_retried`, `ex`, what was done so far, and the end. -/
structure St where
  n : Nat := 0
  ex : Option Nat := none
  acts : List Act := []
  ended : Option Ended := none
deriving DecidableEq, Repr

/-- After the loop: nothing in the coroutine (431), lines 446-447 in the plain wrapper. -/
def afterLoop (coro : Bool) (ex : Option Nat) : Ended :=
  if coro then .returnedNone
  else match ex with
    | none => .assertionError
    | some e => .raised e

/-- One turn of the loop: utils.py:426-431 (the coroutine keeps no `ex`), 439-445. -/
def turn (coro : Bool) (max : Int) (w : World) (s : St) : St :=
  if s.ended.isSome then s
  else if max < 0 ∨ (s.n : Int) < max then
    match w.f s.n with
    | .ok v => { s with n := s.n + 1, acts := s.acts ++ [.call s.n], ended := some (.returned v) }
    | .other e => { s with n := s.n + 1, acts := s.acts ++ [.call s.n], ended := some (.raised e) }
    | .listed e => { n := s.n + 1, ex := some e, acts := s.acts ++ [.call s.n, .sleep],
                     ended := if w.intr s.n then some .interrupted else none }
  else { s with ended := some (afterLoop coro s.ex) }

/-- The call after `m` turns. -/
def after (coro : Bool) (max : Int) (w : World) : Nat → St
  | 0 => {}
  | m + 1 => turn coro max w (after coro max w m)

end Xoscar.Retry
