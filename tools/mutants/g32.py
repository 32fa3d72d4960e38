M="Model/Metric"
m(M,"step","        ({ st with handles := hs, registered := reg }, false)","        ({ st with handles := hs, registered := reg }, true)","C66","init of the metrics raises although it succeeded",tightened="raises_exact")
m(M,"step","        ({ st with handles := hs, registered := reg }, false)","        ({ st with handles := hs }, false)","C66","names registered while binding early metrics are forgotten",tightened="exported_unique")
m(M,"step","  | .shutdown => ({ st with init := false, backend := .console }, false)","  | .shutdown => ({ st with init := false, backend := .console }, true)","C66","shutdown raises",tightened="raises_exact")
m(M,"step","some i⟩], registered := reg }, false)","some i⟩], registered := reg }, true)","C66","creating a metric raises",tightened="raises_exact")
m(M,"step","some i⟩], registered := reg }, false)","some i⟩] }, false)","C66","the name of a created metric is not registered",tightened="exported_unique")
m(M,"step","    | none => (st, false)\n    | some h => match","    | none => (st, true)\n    | some h => match","C66","recording on nothing raises",tightened="raises_exact")
m(M,"step","      | none => (st, false)\n      | some i","      | none => (st, true)\n      | some i","C66","recording before init raises",tightened="raises_exact")
m(M,"tagsAfter","  | .console => t","  | .console => t.update h.tags","C66","the console backend changes the caller's tags",tightened="console_tags")
M="Model/Nd"
m(M,"DType.hasObject","  | .object => true","  | .object => false","C53","object arrays are sent as memory",tightened="object_pickled")
m(M,"Fields.hasObject","t.hasObject || r.hasObject","t.hasObject","C53","only the first field is looked at for objects",tightened="object_pickled")
m(M,"Fields.hasObject","t.hasObject || r.hasObject","false","C53","objects in fields are missed",tightened="object_pickled")
m(M,"deserial","  | .pickled a => some a","  | .pickled a => none","C53","pickled arrays do not come back",tightened="object_pickled")
M="Model/AioFile"
m(M,"apply","({ f with pos := f.pos + bs.length }, .bytes bs)","(f, .bytes bs)","C78","read does not move the position",tightened="file_ops")
m(M,"apply","some n => (f.data.drop f.pos).take n","some n => f.data.take n","C78","read(n) reads from the start",tightened="file_ops")
m(M,"apply","| .seek p => ({ f with pos := p }, .num p)","| .seek p => (f, .num p)","C78","seek does nothing",tightened="file_ops")
m(M,"apply","List.replicate (n - f.data.length) 0 }, .num n)","List.replicate (n - f.data.length) 1 }, .num n)","C78","truncate fills with ones",tightened="file_ops")
m(M,"apply","if bs = [] then (f, .num 0)","if bs = [] then (f, .num 1)","C78","an empty write reports a byte",tightened="file_ops")
M="Model/Ucx"
m(M,"buffersOf","match prelude (p.dumps m.header).length 0 with","match prelude (p.dumps m.header).length 1 with","C74","messages are marked as compressed",tightened="format")
m(M,"recvBufs","      | .wait => .wait\n      | .broken => .broken\n    | .wait","      | .wait => .broken\n      | .broken => .broken\n    | .wait","C74","a message whose later buffers have not come breaks the connection",tightened="part_waits")
m(M,"recvBufs","      | .wait => .wait\n      | .broken => .broken\n    | .wait","      | .wait => .wait\n      | .broken => .wait\n    | .wait","C74","a wrong buffer is waited for",tightened="wrong_size_closes")
m(M,"recvBufs","      | .broken => .broken\n    | .wait => .wait\n    | .broken => .broken","      | .broken => .broken\n    | .wait => .broken\n    | .broken => .broken","C74","a missing buffer breaks the connection",tightened="part_waits")
m(M,"recv","      match recvFrame n fs1 with\n      | .wait => .wait","      match recvFrame n fs1 with\n      | .wait => .broken","C74","a missing header breaks the connection",tightened="part_waits")
m(M,"recv","        | none => .broken\n        | some h","        | none => .wait\n        | some h","C74","an undecodable header is waited for",tightened="undecodable_closes")
m(M,"serve","{ s with events := s.events ++ [.copied false] } fs'","{ s with events := [.copied false] ++ s.events } fs'","C74","the error answer overtakes earlier answers",tightened="unknown_buffer_answer")
