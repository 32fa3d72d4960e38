M="Model/Ucx"
m(M,"put","if b.isEmpty && !sendsEmpty then [] else [b]","if !sendsEmpty then [] else [b]","C74","nothing sent")
m(M,"put","if b.isEmpty && !sendsEmpty then [] else [b]","if b.isEmpty then [] else [b]","C74","empty buffers never sent (the fix for messages)")
m(M,"buffersOf","some (pre :: p.dumps m.header :: m.bufs.map Buf.data)","some (p.dumps m.header :: pre :: m.bufs.map Buf.data)","C74","header before its length")
m(M,"buffersOf","some (pre :: p.dumps m.header :: m.bufs.map Buf.data)","some (pre :: p.dumps m.header :: (m.bufs.map Buf.data).reverse)","C74","buffers reversed")
m(M,"buffersOf","prelude (p.dumps m.header).length 0","prelude (m.bufs.length) 0","C74","wrong length announced")
m(M,"jobBuffers","(· ++ j.raw)","(j.raw ++ ·)","C74","data before the request")
m(M,"jobBuffers","(· ++ j.raw)","(· ++ j.raw.drop 1)","C74","first buffer not sent")
m(M,"recvFrame","if f.length = n then .ok f fs else .broken","if f.length ≤ n then .ok f fs else .broken","C74","short frames accepted")
m(M,"recvFrame","if f.length = n then .ok f fs else .broken","if f.length = n then .ok f fs else .ok f fs","C74","wrong sizes accepted")
m(M,"recvBufs","if n = 0 then .ok [] fs else recvFrame n fs","recvFrame n fs","C74","empty buffers received (the fix)")
m(M,"recvBufs","if n = 0 then .ok [] fs else recvFrame n fs","if n ≤ 1 then .ok [] fs else recvFrame n fs","C74","boundary: one byte skipped")
m(M,"recvBufs","⟨if n = 0 then false else c, b⟩ :: bs","⟨if n = 0 then false else !c, b⟩ :: bs","C74","device flags inverted")
m(M,"recvBufs",".ok (⟨if n = 0 then false else c, b⟩ :: bs) fs''",".ok (bs ++ [⟨if n = 0 then false else c, b⟩]) fs''","C74","buffers reversed on receipt")
m(M,"recv","| none => .broken\n    | some n","| none => .wait\n    | some n","C74","foreign data waited on",tightened="foreign_data_closes")
m(M,"recv",".ok ⟨h.rest, bs⟩ fs3",".ok ⟨h.rest, bs⟩ fs2","C74","buffers received twice")
m(M,"recvInto","recvInto rs (mem.set r f) fs'","recvInto rs mem fs'","C74","data not stored")
m(M,"recvInto","recvInto rs (mem.set r f) fs'","recvInto rs (mem.set r f) (f :: fs')","C74","same frame into every buffer")
m(M,"recvInto","recvFrame ((mem.get? r).getD []).length fs","recvFrame ((mem.get? r).getD []).length (fs.drop 1)","C74","first frame skipped")
m(M,"serve","if refs.all (fun r => s.mem.has r) then","if true then","C74","unknown buffers not noticed")
m(M,"serve","| (mem, .ok _ fs'') => serve p copyRefs fuel ⟨mem, s.events ++ [.copied true]⟩ fs''","| (_, .ok _ fs'') => serve p copyRefs fuel ⟨s.mem, s.events ++ [.copied true]⟩ fs''","C74","memory restored after the copy")
m(M,"serve","| (mem, .ok _ fs'') => serve p copyRefs fuel ⟨mem, s.events ++ [.copied true]⟩ fs''","| (mem, .ok _ _) => serve p copyRefs fuel ⟨mem, s.events ++ [.copied true]⟩ fs'","C74","data left on the wire")
m(M,"serve","else serve p copyRefs fuel { s with events := s.events ++ [.copied false] } fs'","else serve p copyRefs fuel { s with events := s.events ++ [.copied false] } (fs'.drop refs.length)","C74","the fix: data of a refused copy is received")
m(M,"serve","| (mem, .broken) => (⟨mem, s.events ++ [.copied false, .closed]⟩, [])","| (mem, .broken) => (⟨mem, s.events ++ [.copied true, .closed]⟩, [])","C74","failed copy reported as done")
m(M,"act","| none, w :: ws => some { s with holder := some w, waiting := ws }","| _, w :: ws => some { s with holder := some w, waiting := ws }","C74","lock not respected")
m(M,"act","some { s with waiting := s.waiting ++ [(t, bs)] }","some { s with waiting := (t, bs) :: s.waiting }","C74","last come first served")
m(M,"act","| some (_, []) => some { s with holder := none }","| some _ => some { s with holder := none }","C74","lock given back early")
m(M,"act","wire := s.wire ++ put sendsEmpty b }","wire := s.wire }","C74","buffer not sent")
m(M,"act","| some _ => some { s with holder := none }\n    | none => none","| some _ => none\n    | none => none","C74","sends cannot be cancelled (shielded: the fix)")
m(M,"copyToReturns","let _ := answer; none","if answer then none else some \"error\"","C74","the fix: answer looked at")
