M="Model/Caller"
m(M,"St.step","    else { s with closed := true, listener := .crashed }\n\n","    else s.failPending .serverClosed\n\n","C21","cancelled listener completes its calls (refutation must fail)",tightened="stopped_caller_hangs_refuted")
m(M,"St.step","    else { s with closed := true, listener := .crashed }\n\n","    else { s with closed := true, table := [], futs := s.futs.map fun x => (x.1, .pending), listener := .crashed }\n\n","C21","stopping takes back replies already given",tightened="stopped_after_listener_partial")
