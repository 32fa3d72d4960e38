import Verif.Model.Wait
/-!
# C46, caller's side
-/
namespace Xoscar.Wait

/-- not cancelled: the caller gets the reply, and no cancel message is sent -/
theorem not_cancelled (f : Fut) (b : CancelReply) (c : Last) : wait f .done b c =
    (false, match f with
      | .result n => .value n
      | .remoteCancelled => .cancelledError
      | .remoteError n => .remoteError n
      | .exc n => .exc n) := by cases f <;> rfl

/-- **C46** (caller): a cancelled wait always sends a cancel message, and raises CancelledError or ends with
the reply of the remote call — unless the cancel request itself failed with another exception. -/
theorem cancelled_wait (f : Fut) (b : CancelReply) (c : Last) :
    (wait f .cancelled b c).1 = true ∧
    ((wait f .cancelled b c).2 = .cancelledError ∨ (wait f .cancelled b c).2 = process f ∨
      ∃ n, b = .exc n ∧ (wait f .cancelled b c).2 = .exc n) := by
  cases b <;> cases c <;> simp [wait]

/-- **C46** (caller): the remote call was running and got cancelled -/
theorem cancelled_remote (c : Last) : (wait .remoteCancelled .cancelled .true_ c).2 = .cancelledError := by
  cases c <;> rfl

/-- **C46** (caller): the remote call had ended: its reply is dropped and CancelledError raised -/
theorem cancelled_after_end (f : Fut) (c : Last) : (wait f .cancelled .cannotCancel c).2 = .cancelledError := rfl

/-- **C46** (caller): the cancel request was accepted and the call answered all the same (its code ignored or outlived the
cancellation): the caller gets that reply — the value, the remote error, or CancelledError if the call was cancelled -/
theorem cancelled_reply (f : Fut) : wait f .cancelled .true_ .done =
    (true, match f with
      | .result n => .value n
      | .remoteCancelled => .cancelledError
      | .remoteError n => .remoteError n
      | .exc n => .exc n) := by cases f <;> rfl

/-- **C46** (caller): the cancel request itself failed, e.g. because the server is gone: that error is raised -/
theorem cancel_request_failed (f : Fut) (n : Nat) (c : Last) : wait f .cancelled (.exc n) c = (true, .exc n) := rfl

/-- **C46** (caller): the caller is cancelled once more, while it waits for the answer to its cancel request or for the
reply of the call: CancelledError at once -/
theorem cancelled_twice (f : Fut) : (∀ c, wait f .cancelled .cancelled c = (true, .cancelledError)) ∧
    wait f .cancelled .true_ .cancelled = (true, .cancelledError) := ⟨fun _ => rfl, rfl⟩

/-- a call whose code ignored the cancellation: the caller gets its value -/
example : wait (.result 3) .cancelled .true_ .done = (true, .value 3) := rfl

end Xoscar.Wait
