M="Model/Retry"
m(M,"turn","| .other e => { s with n := s.n + 1, acts := s.acts ++ [.call s.n], ended := some (.raised e) }","| .other e => { n := s.n + 1, ex := some e, acts := s.acts ++ [.call s.n, .sleep], ended := none }","C50","exceptions that are not listed are retried too",tightened="call_exact")
m(M,"turn","max < 0 ∨ (s.n : Int) < max then","max < 0 ∨ (s.n : Int) ≤ max then","C50","one attempt more than allowed",tightened="call_exact")
m(M,"turn","max < 0 ∨ (s.n : Int) < max then","(s.n : Int) < max then","C50","a negative limit means no attempt",tightened="call_exact")
m(M,"turn","max < 0 ∨ (s.n : Int) < max then","max ≤ 0 ∨ (s.n : Int) < max then","C50","a limit of 0 means no limit",tightened="call_exact")
m(M,"turn","ex := some e, acts","ex := s.ex.or (some e), acts","C50","the first exception is raised, not the last",tightened="call_exact plain_exhausted")
m(M,"turn","acts := s.acts ++ [.call s.n, .sleep]","acts := s.acts ++ [.call s.n]","C50","no sleep between attempts",tightened="call_exact")
m(M,"turn","acts := s.acts ++ [.call s.n, .sleep],\n                     ended := if w.intr s.n then some .interrupted else none","acts := if (s.n : Int) + 1 = max then s.acts ++ [.call s.n] else s.acts ++ [.call s.n, .sleep],\n                     ended := if w.intr s.n then some .interrupted else none","C50","last_sleep_refuted is about this code: no sleep after the last attempt",tightened="last_sleep_refuted")
m(M,"turn","ended := if w.intr s.n then some .interrupted else none","ended := none","C50","a cancellation during the sleep is swallowed and the call goes on",tightened="call_exact")
m(M,"afterLoop","if coro then .returnedNone\n  else match","match","C50","coroutine_exhausted_refuted is about this code: the coroutine raises the last exception",tightened="coroutine_exhausted_refuted")
m(M,"afterLoop","| some e => .raised e","| some _ => .assertionError","C50","AssertionError instead of the last exception",tightened="plain_exhausted")
m(M,"turn","| .ok v => { s with n := s.n + 1, acts := s.acts ++ [.call s.n], ended := some (.returned v) }","| .ok v => { s with n := s.n + 1, acts := s.acts ++ [.call s.n], ended := some (if v = 0 then .returnedNone else .returned v) }","C50","a false value is returned as None",tightened="call_exact")
