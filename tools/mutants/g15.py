M="Model/Cycle"
m(M,"handlerTrace","messageTrace.getD [] ++ [a]","messageTrace.getD []","C75","called actor not recorded")
m(M,"handlerTrace","messageTrace.getD [] ++ [a]","[a]","C75","trace dropped by the handler: only direct cycles seen")
m(M,"handlerTrace","messageTrace.getD [] ++ [a]","(messageTrace.getD []).drop 1 ++ [a]","C75","oldest entry dropped")
m(M,"detect","(some var, decide (a ∈ var))","(none, decide (a ∈ var))","C75","trace not put on the message")
m(M,"detect","(some var, decide (a ∈ var))","(some var, decide (var.getLast? = some a))","C75","only the last actor compared")
m(M,"detect","(some var, decide (a ∈ var))","(some var, decide (var.head? = some a))","C75","only the first actor compared")
m(M,"detect","(some var, decide (a ∈ var))","(some var, decide (var ≠ []))","C75","every nested call warned")
m(M,"detect","else (none, false)","else (some var, false)","C75","tell carries the trace")
m(M,"detect","else (none, false)","else (none, decide (a ∈ var))","C75","tell warned about")
m(M,"holds","| .waits _ => true","| .waits _ => false","C75","lock released while waiting")
m(M,"free","!locking a || s.calls","s.calls","C75","stateless actors lock")
m(M,"free","!(x.2.actor == some a && holds x.2)","!(x.2.actor == some a && x.2.phase == .running)","C75","reentrant while waiting")
m(M,"resume","calls.set c { x with phase := .running }","calls","C75","waiting call never resumed")
m(M,"step","⟨some a, none, handlerTrace none a, .queued⟩","⟨some a, none, handlerTrace none a, .running⟩","C75","client call starts without lock")
m(M,"step","else none\n  | .tell c a","else none\n  | .tell c a".replace("none","some s"),"C75","send by a call not running is accepted as nothing")
m(M,"step","(s.calls.set c { x with phase := .waits s.next }).set s.next","(s.calls.set c x).set s.next","C75","caller does not wait")
m(M,"step","if x.phase = .queued ∧ free locking s a = true then","if x.phase = .queued then","C75","lock not respected")
m(M,"step","if x.phase = .queued ∧ free locking s a = true then","if free locking s a = true then","C75","finished calls started again")
m(M,"step","⟨none, none, x.trace, .running⟩","⟨none, none, [], .running⟩","C75","background tasks do not inherit the trace (the fix)")
m(M,"step","resume (s.calls.set d { x with phase := .done }) x.parent","s.calls.set d { x with phase := .done }","C75","answer lost")
m(M,"step","handlerTrace (detect x.trace a true).1 a, .queued⟩,","handlerTrace (detect x.trace a true).1 c, .queued⟩,","C75","wrong actor recorded")
m(M,"step","warned := if (detect x.trace a true).2 then s.next :: s.warned else s.warned }","warned := if (detect x.trace a true).2 then c :: s.warned else s.warned }","C75","caller's message named in the warning")
