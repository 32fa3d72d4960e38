M = "Model/Recovery"
m(M, "step born", "| .born u => if s.up then", "| .born u => if True then", "C45", "actors come to life in a dead process", tightened="thm lost_is_lost")
m(M, "step notice", "| .notice => if s.up then none else some", "| .notice => if False then none else some", "C45", "a running process is taken for lost", tightened="thm lost_is_lost")
m(M, "step crash", "some { s with up := false, actors := [], dirty := true }", "some { s with up := false, dirty := true }", "C45", "actors survive the crash", tightened="thm lost_is_lost")
m(M, "step lost", "| .calling _ _ _ _ => if s.up then none else some (abort s)", "| .calling _ _ _ _ => if False then none else some (abort s)", "C45", "a recovery gives up on a running process", tightened="thm aborts_why")
m(M, "step wait", "| some e => some { s with waiters := s.waiters ++ [⟨some e, ", "| some e => some { s with waiters := s.waiters ++ [⟨none, ", "C45", "the second who waits does not wait", tightened="thm wait_waits")
m(M, "step wait", "    if s.mode = .off then some { s with waiters", "    if s.mode = .process then some { s with waiters", "C45", "nobody waits for the restart of a process", tightened="thm wait_waits")
m(M, "step next", "      if used l ≠ size then some (abort s)", "      if used l = size then some (abort s)", "C45", "recovery fails unless the records changed", tightened="thm aborts_why")
