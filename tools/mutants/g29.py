M="Model/Wrap"
m(M,"step","some w => if isAt w then some { s with gen := false } else none","some w => if isAt w then none else some { s with gen := false }","C73","only wrappers under way can end the generator",tightened="destroy_works")
M="Model/Meet"
m(M,"tryAddrs","if deadline ≤ t.time then","if deadline < t.time then","C87","an attempt is made at the deadline")
m(M,"tryAddrs",".ok => .inl (.connected t.time)",".ok => .inr true","C87","a connection made is thrown away")
m(M,"tryAddrs","| .inr _ => .inr true","| .inr b => .inr b","C87","a refusing server is not waited for")
m(M,"tryAddrs",".other => tryAddrs deadline ts",".other => .inr false","C87","further addresses are not tried")
m(M,"tryAddrs",".stuck => .inl .timeout",".stuck => .inl .useless","C87","no answer until the deadline is taken for an unusable address")
m(M,"tryRound","| none => .inr true","| none => .inr false","C87","a failed lookup is final",)
m(M,"tryFamily","if r.done + delay < deadline then","if r.done < deadline then","C87","sleeps over the deadline")
m(M,"delay","def delay : Nat := 1000","def delay : Nat := 2000","C87","gives up two seconds early")
m(M,"limit","timeout / 1000 * 1000","timeout","C87","timeouts are not cut",note="breaks the refutation only")
m(M,"connect","| .useless => tryFamily (start4 + limit timeout) rounds4","| .timeout => tryFamily (start4 + limit timeout) rounds4","C87","IPv4 tried after a timeout")
m(M,"connect","tryFamily (start4 + limit timeout) rounds4","tryFamily (start6 + limit timeout) rounds4","C87","one deadline for both families")
m(M,"userKey","'/' :: k","k","C87","user keys are not prefixed")
m(M,"add","toStr (wrap (delta + x))","toStr (wrap (delta))","C87","add overwrites")
m(M,"tooLate","decide (elapsed / 1000 * 1000 > c.timeout)","decide (elapsed > c.timeout)","C87","elapsed time is not cut to seconds")
m(M,"tooLate","c.timeout ≠ 0 && ","","C87","no timeout means at once")
m(M,"decision","if (w : Int) ≤ n then","if (w : Int) < n then","C87","waits for one more")
m(M,"decision","if (w : Int) ≤ n then","if (w : Int) ≤ n + 1 then","C87","returns one early")
m(M,"decision","s.now - s.since","s.now","C87","time counted from the start of the process")
m(M,"decision","wakeAt := s.now + 10","wakeAt := s.now + 1000","C87","sleeps a second")
m(M,"doCount","if p = 0 then some { s with store := d, phases := s.phases.set p .waiting, since := s.now, wakeAt := s.now }","if p = 1 then some { s with store := d, phases := s.phases.set p .waiting, since := s.now, wakeAt := s.now }","C87","another process waits")
m(M,"doCount","since := s.now,","","C87","start of waiting not noted")
m(M,"step","if s.listening ∧ s.phases.get? p = none then","if s.phases.get? p = none then","C87","connects without a server")
m(M,"step",".ret p => if s.phases.get? p = some .joined then",".ret p => if s.phases.get? p = some .waiting then","C87","returns while waiting")
m(M,"doCount","| some _ => match add s.store initKey 1 with","| some _ => match add s.store initKey 2 with","C87","counts twice")
