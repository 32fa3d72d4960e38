M="Model/Cycle"
m(M,"holds","match c.phase with | .running => true","match c.phase with | .running => false","C75","a running method does not hold its actor's lock",tightened="exclusive")
m(M,"step","if x.phase = .running then\n        some { calls := s.calls.set s.next ⟨some a, none, handlerTrace (detect x.trace a false).1 a, .queued⟩,","if ¬ x.phase = .running then\n        some { calls := s.calls.set s.next ⟨some a, none, handlerTrace (detect x.trace a false).1 a, .queued⟩,","C75","methods tell only while they do not run",tightened="acts_iff")
M="Model/Procs"
m(M,"killSubPool","(if force then 0 else 2) + 5 + 2⟩","(if force then 0 else 2) - 5 + 2⟩","C71","waiting for the end after SIGKILL is not counted",tightened="stop_bounded")
m(M,"stopSubPool","limit := limit + d.limit","limit := limit - d.limit","C71","time of the request is subtracted",tightened="stop_bounded")
m(M,"killSubPool","(if force then 0 else 2) + 5 + 2⟩","(if ¬ (force) then 0 else 2) + 5 + 2⟩","C71","waits for SIGTERM when forced",tightened="stop_bounded")
M="Model/Front"
m(M,"toStr","  | .none => .ok Option.none\n  | _ => .error .typeError\n\n/-- `if address:`","  | .none => .ok Option.none\n  | _ => .ok Option.none\n\n/-- `if address:`","C69","an address of a wrong type is taken for none",tightened="ref_types")
m(M,"proxyArg","  | .list l => .ok (some l)\n  | .none => .ok Option.none\n","  | .list l => .ok (some l)\n  | .none => .error .typeError\n","C69","None is refused as proxies",tightened="ref_types")
m(M,"createRef","| [.bytes b, u, p] => some (.bytes b, u, some p)","| [.bytes b, u, p] => Option.none","C69","bytes address with proxies is ignored",tightened="ref_types")
M="Model/Refs"
m(M,"handleBuffers","| [] => (h, true)\n  | e :: es => match lookup s p ⟨.buffer","| [] => (h, false)\n  | e :: es => match lookup s p ⟨.buffer","C70","a block that was written is answered by an error",tightened="buffers_answer")
m(M,"handleBuffers","else (h, false)","else (h, true)","C70","a block that does not fit is answered by success",tightened="buffers_answer")
m(M,"handleFiles","| [] => (h, true)\n  | e :: es => match lookup s p ⟨.file","| [] => (h, false)\n  | e :: es => match lookup s p ⟨.file","C70","written files are answered by an error",tightened="files_answer")
