M="Model/WaitFor"
m(M,"onDone","| .cancelled => some .cancelled","| .cancelled => none","C61","cancellation of the call not passed on")
m(M,"onDone","| .raised e true => some (.raised e)","| .raised e true => some (.value e)","C61","exception returned as a value")
m(M,"onDone","| .raised _ false => none","| .raised e false => some (.raised e)","C61","`is not None` instead of truth (the fix): refutation must fail")
m(M,"onDone","  | some r => some r\n","  | some _ => none\n","C61","result overwritten after the future is done")
m(M,"giveUp","cancels := if s.task = none then s.cancels + 1 else s.cancels","cancels := s.cancels","C61","call not cancelled on timeout")
m(M,"giveUp","cancels := if s.task = none then s.cancels + 1 else s.cancels","cancels := s.cancels + 1","C61","finished call cancelled as well")
m(M,"giveUp","caller := some .timeout }","caller := some .cancelled }","C61","timeout reported as cancellation")
m(M,"enter","if timeout = .nonpositive then giveUp s else s","if timeout = .nonpositive ∧ task = none then giveUp s else s","C61","finished call with timeout 0 (the fix): refutation must fail")
m(M,"enter","⟨timeout, task, task.isSome, none, 0, none⟩","⟨timeout, task, false, none, 0, none⟩","C61","no callback for a task that is done already")
m(M,"step.timer","if s.caller = none ∧ s.timeout = .positive then some (giveUp s)","if s.caller = none ∧ s.timeout = .positive ∧ s.task ≠ none then some (giveUp s)","C61","timeout waits for the call to end (asyncio.wait_for on the call itself)")
m(M,"step.cancel","fut := some (s.fut.getD .cancelled), caller := some .cancelled }","fut := some (s.fut.getD .cancelled), caller := some .cancelled, cancels := s.cancels + 1 }","C61","cancel passed on to the call (the fix): refutation must fail")
m(M,"step.finish","callback := true }","callback := false }","C61","no callback registered")
m(M,"step.wake","some { s with caller := some r }","some { s with caller := some .timeout }","C61","every end reported as timeout")
