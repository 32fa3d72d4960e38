import Verif.Model.Retry

/-! # Attempts and sleeps -/
namespace Xoscar.Retry

/-- `k` attempts failed with a listed exception, no sleep was interrupted, and that many attempts are allowed (negative: any number). -/
def Failed (max : Int) (w : World) (k : Nat) : Prop :=
  (∀ i < k, (∃ e, w.f i = .listed e) ∧ w.intr i = false) ∧ (max < 0 ∨ (k : Int) ≤ max)

/-- attempt, sleep, attempt, sleep, …: `k` of each -/
def attempts (k : Nat) : List Act := (List.range k).flatMap fun i => [.call i, .sleep]

/-- One more attempt is allowed after `k`. -/
def Allowed (max : Int) (k : Nat) : Prop := max < 0 ∨ (k : Int) < max

/-- How a call that failed `k` times ends, and what it has done: the next attempt returns, or raises what is not listed, or the sleep after
it is interrupted, or no more attempts are allowed. -/
inductive Ends (coro : Bool) (max : Int) (w : World) (k : Nat) : List Act → Ended → Prop
  | returns {v : Nat} : Allowed max k → w.f k = .ok v → Ends coro max w k (attempts k ++ [.call k]) (.returned v)
  | raises {e : Nat} : Allowed max k → w.f k = .other e → Ends coro max w k (attempts k ++ [.call k]) (.raised e)
  | interrupted {e : Nat} : Allowed max k → w.f k = .listed e → w.intr k = true →
      Ends coro max w k (attempts k ++ [.call k, .sleep]) .interrupted
  | exhausted {e j : Nat} : coro = false → max = k → k = j + 1 → w.f j = .listed e → Ends coro max w k (attempts k) (.raised e)
  | exhaustedCoro : coro = true → max = k → Ends coro max w k (attempts k) .returnedNone
  | noneAllowed : coro = false → max = 0 → k = 0 → Ends coro max w k [] .assertionError

end Xoscar.Retry
