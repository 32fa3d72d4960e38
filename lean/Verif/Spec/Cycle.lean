import Verif.Model.Cycle
namespace Xoscar.Cycle

/-- call `x` waits, directly or through other calls, for call `d` to end -/
inductive WaitsFor (s : St) : Cid → Cid → Prop
  | direct {x d : Cid} {c : Call} (hc : s.calls.get? x = some c) (hp : c.phase = .waits d) : WaitsFor s x d
  | through {x y d : Cid} {c : Call} (hc : s.calls.get? x = some c) (hp : c.phase = .waits y) (hw : WaitsFor s y d) : WaitsFor s x d

/-- call `d` cannot start because a call that waits for `d` to end has the actor -/
def SelfDeadlock (locking : Actor → Bool) (s : St) (d : Cid) : Prop :=
  ∃ x cx cd a, WaitsFor s x d ∧ s.calls.get? x = some cx ∧ s.calls.get? d = some cd ∧ cx.actor = some a ∧ cd.actor = some a ∧
    cd.phase = .queued ∧ locking a = true

/-- nothing that waits for call `c` is a background task, nor is `c` -/
def NoBackground (s : St) (c : Cid) : Prop :=
  ∀ x cx, (x = c ∨ WaitsFor s x c) → s.calls.get? x = some cx → cx.actor ≠ none

/-- the method of the call has started and not ended -/
def Started (c : Call) : Prop := c.phase = .running ∨ ∃ d, c.phase = .waits d

end Xoscar.Cycle
