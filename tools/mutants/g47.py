M="Model/Reach"
m(M,"isV6","':' ∈ (afterSep h).getD h","':' ∉ (afterSep h).getD h","C88","address families exchanged",tightened="reaches_exact create_exact start_exact overlap_exact")
m(M,"afterSep","  | _ :: r => afterSep r\n  | [] => none","  | _ :: _ => none\n  | [] => none","C88","the scheme is not taken off",tightened="reaches_exact create_exact")
m(M,"bindHost","(if isV6 host then any6 else any4)","(if isV6 host then any4 else any6)","C88","elastic servers listen on the wrong family")
M="Model/Meet"
m(M,"tryAddrs","      | .stuck => .inl .timeout","      | .stuck => .inl .interrupted","C87","no answer reported as an interrupt",tightened="attempt_decides")
m(M,"tryAddrs","      | .interrupted => .inl .interrupted","      | .interrupted => .inl .timeout","C87","an interrupt reported as a timeout",tightened="attempt_decides")
M="Model/Gpu"
m(M,"realIndex","if i < 0 then i + l.length else i","if i < 0 then i - l.length else i","C92","negative indices wrong",tightened="info_negative")
m(M,"getInfo","      | .absent => (st, .error .attributeError)\n      | .broken => (st, .error .cuda)","      | .absent => (st, .error .cuda)\n      | .broken => (st, .error .attributeError)","C92","errors of the library exchanged",tightened="info_library")
m(M,"scanMig","  | k, .dev v :: t => match isIn pid v with\n    | .error e => .error e","  | k, .dev v :: t => match isIn pid v with\n    | .error _ => .ok (some k)","C92","a MIG device that does not answer is taken for the context",tightened="context_sound")
m(M,"scan","    | _ => match isIn pid d.view with\n      | .error e => .error e","    | _ => match isIn pid d.view with\n      | .error _ => .ok (some ⟨i, none, d.uuid⟩)","C92","a device that does not answer is taken for the context",tightened="context_sound")
m(M,"indexAndUuid","  | .absent => (st, .ok none)\n  | .broken => (st, .error .nvml)\n  | .good => match pyInt t with","  | .absent => (st, .error .nvml)\n  | .broken => (st, .ok none)\n  | .good => match pyInt t with","C92","missing and broken library exchanged",tightened="index_uuid_library")
