M="Model/Uv"
m(M,"result","if rc ≠ 0 then .raised rc else .returned","if rc < 0 then .raised rc else .returned","C98","positive statuses count as success")
m(M,"result","if rc ≠ 0 then .raised rc else .returned","if rc ≠ 0 then .raised 1 else .returned","C98","the status is not reported")
m(M,"step","some { s with inst := upd s.inst i (result rc), slot := none }","some { s with inst := upd s.inst i (result rc) }","C98","the process stays recorded after the end")
m(M,"step","some { s with inst := upd s.inst i (.waiting p), slot := some p } else none","some { s with inst := upd s.inst i (.waiting p) } else none","C98","the process is never recorded")
m(M,"step","some { s with inst := upd s.inst i (.started p), procs := s.procs + 1 } else none","some { s with inst := upd s.inst i (.started p), procs := s.procs + 1, slot := some p } else none","C98","recorded as started at once",note="unrecorded_refuted: the code would be better")
m(M,"step","    | .waiting p =>\n      match s.code p with\n      | some rc => some { s with inst := upd s.inst i (.waited p rc) }\n      | none => none","    | .waiting p =>\n      match s.code p with\n      | some rc => some { s with inst := upd s.inst i (.waited p rc) }\n      | none => some { s with inst := upd s.inst i (.waited p 0) }","C98","a time limit on the installation that counts as success")
m(M,"step","      | none => some { s with canc := upd s.canc c .idle }","      | none => some { s with canc := upd s.canc c .checked }","C98","no truth test: fails without an installation")
m(M,"step","        | some _ => some { s with canc := upd s.canc c .finished }\n        | none => some { s with canc := upd s.canc c .polled }","        | some _ => some { s with canc := upd s.canc c .polled }\n        | none => some { s with canc := upd s.canc c .finished }","C98","poll test reversed")
m(M,"step","      some { s with canc := upd s.canc c .termed } else none","      some { s with canc := upd s.canc c .stopped } else none","C98","cancel does not wait for the process")
m(M,"step","  | .term c p => if s.canc c = .polled ∧ s.slot = some p then","  | .term c p => if s.canc c = .polled ∧ p < s.procs then","C98","any process is signalled")
m(M,"step","      | some _ => some { s with canc := upd s.canc c .stopped }\n      | none => none","      | some _ => some { s with canc := upd s.canc c .stopped }\n      | none => some { s with canc := upd s.canc c .stopped }","C98","wait with a time limit")
m(M,"step","(if skip then .resolving else .ready)","(if skip then .ready else .ready)","C98","no dry run",note="early_refuted")
m(M,"step","  | .waited i => match s.inst i with\n    | .waiting p =>","  | .waited i => match s.inst i with\n    | .started p =>","C98","waits before recording")
m(M,"step","      some { s with canc := upd s.canc c .termed } else none","      some { s with canc := upd s.canc c .termed, slot := none } else none","C98","cancel clears the record")
m(M,"step","some { s with code := upd s.code p (some rc) } else none","some { s with code := upd s.code p (some 0) } else none","C98","statuses lost")
m(M,"step","      | none => some { s with canc := upd s.canc c .failed }\n      | some p => some { s with canc := upd s.canc c (.waiting p) }","      | none => some { s with canc := upd s.canc c .stopped }\n      | some p => some { s with canc := upd s.canc c (.waiting p) }","C98","the last read guarded",note="the code would be better: harmless")
