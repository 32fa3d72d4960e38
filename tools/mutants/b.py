# CopyTo
m("Model/CopyTo","check","if nLocal = 0 ∨ addrs.length = 0 then .valueError\n  else ","","C10","empty copy not refused with ValueError")
m("Model/CopyTo","check","if b > 0 then .ok","if b ≥ 0 then .ok","C10","block size 0 accepted")
m("Model/CopyTo","splitLoop","(start + remain) (buf.drop remain)","start (buf.drop remain)","C10","start offset not advanced")
m("Model/CopyTo","splitLoop","(start + remain) (buf.drop remain)","(start + remain) (buf.drop (remain + 1))","C10","one byte lost per split")
m("Model/CopyTo","splitLoop","if s.cur + buf.length > bs then","if s.cur + buf.length > bs + 1 then","C11","blocks one byte too large")
m("Model/CopyTo","addBuf","{ s with block := s.block ++ [⟨b.1, 0, b.2.length, b.2⟩], cur := s.cur + b.2.length }","{ s with block := s.block ++ [⟨b.1, 0, b.2.length, b.2⟩] }","C11","size of small buffers not counted")
m("Model/CopyTo","addBuf","{ s with block := s.block ++ [⟨b.1, 0, b.2.length, b.2⟩],","{ s with block := s.block ++ [⟨b.1, s.cur, b.2.length, b.2⟩],","C10","small buffers written at a wrong offset")
m("Model/CopyTo","blocks","if s.block.isEmpty then s.sent else s.sent ++ [s.block]","s.sent","C10","last block never sent")
m("Model/CopyTo","writeEntry","old.take e.start ++ e.data ++ old.drop (e.start + e.len)","e.data ++ old.drop e.len","C10","receiver ignores the start offset")
m("Model/CopyTo","handleBlock","    | some r' => handleBlock r' es","    | some r' => (r', true)","C10","only the first entry of a message written")
m("Model/CopyTo","effBlock","| some b => b","| some b => b + 1","C11","block size off by one",tightened="Xoscar.CopyTo.block_size_used")
m("Model/CopyTo","deliver","    | .down => (r, .raised)\n    | .up => deliver net (i + 1) bs (handleBlock r b).1","    | .down => deliver net (i + 1) bs r\n    | .up => deliver net (i + 1) bs (handleBlock r b).1","C12","connection failures ignored")
m("Model/CopyTo","deliver","    | .up => deliver net (i + 1) bs (handleBlock r b).1","    | .up => if (handleBlock r b).2 then deliver net (i + 1) bs (handleBlock r b).1 else (r, .raised)","C12","the repaired program (errors reported): the refutation must fail")
m("Model/CopyTo","addRead","if size ≥ bs then ⟨[], 0, s.sent ++ [block]⟩","if size ≥ bs then ⟨[], 0, s.sent ++ [s.block]⟩","C13","the read that fills the block is lost")
m("Model/CopyTo","addRead","else ⟨block, size, s.sent⟩","else ⟨(uid, d) :: s.block, size, s.sent⟩","C13","reads sent in reverse order")
m("Model/CopyTo","fileBlocks","if s.size > 0 then s.sent ++ [s.block] else s.sent","s.sent","C13","last block never sent")
m("Model/CopyTo","handleFileBlock","(r.set uid (old ++ d))","(r.set uid d)","C13","receiver overwrites")
# Wire
m("Model/Wire","le","UInt8.ofNat (n % 256) :: le k (n / 256)","UInt8.ofNat (n % 256) :: le k (n / 255)","C07 C09","wrong byte encoding")
m("Model/Wire","prelude","some (v ++ q ++ h)","some (v ++ h ++ q)","C07","fields swapped in the frame")
m("Model/Wire","cudaWrites","cudaWrites chunk data fuel (offset + size)","cudaWrites chunk data fuel (offset + chunk)","C07","same while slices are full; the last offset is past the end","probe")
m("Model/Wire","cudaWrites","if offset + chunk < data.length then chunk else data.length - offset","chunk - 1","C07","last byte of each chunk dropped (or endless)","slices stay contiguous: only too small; fuel runs out")
m("Model/Wire","bufWrites","else [b.data]","else [b.data.take 65536]","C07","long buffers cut")
m("Model/Wire","writes","(m.bufs.map bufWrites).flatten","(m.bufs.reverse.map bufWrites).flatten","C07","buffers in reverse order")
m("Model/Wire","headerLength","if unle (hb.take 1) ≠ version then none else ","","C07","foreign version accepted")
m("Model/Wire","headerLength","some (unle ((hb.drop 1).take 8))","some (unle ((hb.drop 1).take 4))","C07","long headers misparsed")
m("Model/Wire","readBufs","| .ok bs s'' => .ok (b :: bs) s''","| .ok bs s'' => .ok (bs ++ [b]) s''","C07","buffers reversed at the receiver")
m("Model/Wire","readCuda","readCuda chunk size fuel (acc ++ c) s'","readCuda chunk size fuel (c ++ acc) s'","C07","chunks in wrong order")
m("Model/Wire","getSize","11 + h.length + hd.sizes.sum","h.length + hd.sizes.sum","C07","size without the prelude")
m("Model/Wire","sstep","      | some ws => { wire := ws.foldl (· ++ ·) st.wire\n                     senders := st.senders.set t ⟨m :: ms, .draining⟩ }","      | some ws => { wire := (ws.take 1).foldl (· ++ ·) st.wire\n                     senders := st.senders.set t ⟨m :: ms, .draining⟩ }","C08","only the prelude is written before the task suspends")
m("Model/Wire","sstep","| .draining, _ :: ms => { st with senders := st.senders.set t ⟨ms, .serializing⟩ }","| .draining, m :: ms => { st with senders := st.senders.set t ⟨m :: ms, .serializing⟩ }","C08","a message is sent again and again")
m("Model/Wire","sstep","      | some ws => { wire := ws.foldl (· ++ ·) st.wire\n","      | some ws => { wire := st.wire.take 1000 ++ ws.flatten\n","C08","a send overwrites bytes of others")
m("Model/Wire","rstep","    | .bufs r done [] => { st with phase := .idle, out := st.out ++ [⟨r, done⟩] }","    | .bufs r done [] => { st with phase := .idle, out := ⟨r, done⟩ :: st.out }","C07","messages given back in reverse order")
m("Model/Wire","rstep","  | .call => match st.phase with\n    | .idle => { st with phase := .prelude }\n    | _ => st","  | .call => { st with phase := .prelude }","C07","receive lock missing: a second recv starts in the middle of a frame")
# Shm
m("Model/Shm","put","some (slice 4 (le 4 serialized.length), slice 8 serialized, slice 0 (le 4 seq))","some (slice 0 (le 4 seq), slice 4 (le 4 serialized.length), slice 8 serialized)","C09","sequence number written first")
m("Model/Shm","put","if serialized.length < shmSize - 8 then","if serialized.length < shmSize + 8 then","C09","too long payloads accepted")
m("Model/Shm","get","if unle (readSlice m 0 4) ≠ seq then none\n  else ","","C09","reader does not look at the sequence number")
m("Model/Shm","put","slice 8 serialized, slice 0","slice 9 serialized, slice 0","C09","payload at a wrong offset")
# ActorLock
m("Model/ActorLock","Lock.acquire","if !l.locked && l.waiters.all (fun w => w.2.isCancelled) then","if l.waiters.all (fun w => w.2.isCancelled) then","C14","lock acquired while held")
m("Model/ActorLock","Lock.acquire","if !l.locked && l.waiters.all (fun w => w.2.isCancelled) then","if !l.locked then","C15","newcomers overtake woken waiters")
m("Model/ActorLock","Lock.acquire","l.waiters ++ [(t, .pending)]","(t, .pending) :: l.waiters","C15","last come first served")
m("Model/ActorLock","Lock.resume","    (if l'.locked then l' else l'.wakeFirst, .cancelled)","    (l', .cancelled)","C15","a waiter cancelled after being woken loses the wake-up")
m("Model/ActorLock","Lock.release","Lock.wakeFirst { l with locked := false }","{ l with locked := false }","C15","release wakes nobody")
m("Model/ActorLock","Lock.wakeFirst","(t, .woken) :: ws }","(t, w) :: ws }","C15","nobody is woken")
m("Model/ActorLock","Lock.resume","({ locked := true, waiters := removeW t l.waiters }, .acquired)","({ locked := false, waiters := removeW t l.waiters }, .acquired)","C14","woken waiter forgets to mark the lock")
m("Model/ActorLock","Lock.cancelWait","| some .woken => { l with waiters := setW t .wokenCancel l.waiters }","| some .woken => { l with waiters := removeW t l.waiters }","C15","cancel of a woken waiter drops it")
m("Model/ActorLock","Actor.step","{ a with lock := a.lock.release, calls := a.calls.set t ⟨afterStretch o, tr'⟩ }","{ a with lock := if o = .raise_ 0 then a.lock else a.lock.release, calls := a.calls.set t ⟨afterStretch o, tr'⟩ }","C15","lock not released on an exception")
m("Model/ActorLock","Actor.step","some ⟨.handling, tr⟩ => a.enter t h.toInput (closeLast h tr)","some ⟨.handling, tr⟩ => { a with calls := a.calls.set t ⟨.running h.toInput, closeLast h tr⟩ }","C14 C16","the generator continues without the lock")
m("Model/ActorLock","afterStretch","| .yield_ _ => .handling","| .yield_ y => .done (.value (some y))","C16","the first yield ends the call")
m("Model/ActorLock","afterStretch","| .stop => .done (.value none)","| .stop => .done (.value (some 0))","C16","generator end gives a value")
m("Model/ActorLock","Handled.toInput","| .err e => .throw e","| .err _ => .send none","C16","failure of the yielded awaitable is not thrown in")
m("Model/ActorLock","Handled.toInput","| .ok v => .send (some v)","| .ok _ => .send none","C16","awaited value not sent back")
m("Model/ActorLock","Actor.step","        | .err e => .exc e\n      { a with","        | .err _ => .value none\n      { a with","C16","error of the returned awaitable swallowed")
# Caller
m("Model/Caller","St.step","    else if id ∈ s.table then\n      match s.futs.get? id with\n      | some .pending => { s with table := s.table.filter (· ≠ id), futs := s.futs.set id (.result payload) }","    else if id ∈ s.table then\n      match s.futs.get? id with\n      | some .pending => { s with table := s.table.filter (· ≠ id), futs := s.futs.set (s.table.headD id) (.result payload) }","C20","the oldest call gets the reply")
m("Model/Caller","St.step","      | some .pending => { s with table := s.table.filter (· ≠ id), futs := s.futs.set id (.result payload) }\n      | _ => { s with table","      | some _ => { s with futs := s.futs.set id (.result payload) }\n      | _ => { s with table","C20","a call may be completed twice")
m("Model/Caller","St.step","futs := s.futs.set id (.result payload) }","futs := s.futs.set id (.result id) }","C20","wrong payload")
m("Model/Caller","St.step","else { s with closed := true }.failPending .serverClosed","else { s with closed := true, table := [] }","C21","pending calls forgotten at EOF")
m("Model/Caller","St.step","      let s' := s.failPending .serverClosed\n      if s'.listener = .crashed then s' else { s' with listener := .ended }","      { s with listener := .ended }","C21","pending calls forgotten when the client is closed locally")
m("Model/Caller","failAll","| some .pending => failAll e ms (futs.set m (.exc e))","| some .pending => (futs.set m (.exc e), true)","C21","only the first pending call is failed")
m("Model/Caller","failAll","    | _ => (futs, false)","    | _ => failAll e ms futs","C21","repaired program: cancelled futures are skipped; the refutations must fail")
m("Model/Caller","St.register","table := s.table.filter (· ≠ id) ++ [id]","table := [id]","C20","registering a call forgets the others")
m("Model/Caller","St.step","else if s.closed then { s.register id with sendFailed := s.sendFailed ++ [id] }\n    else","else","C21","a call on a closed client is not refused")
# Life
m("Model/Life","step","    if s.stopped then\n      some { s with calls := s.calls ++ [(.start, .raised)], log := s.log ++ [.startRefused s.calls.length] }\n    else\n      some","    some","C49","restart after stop possible")
m("Model/Life","step","      if s.stopped then some { s.setCall c o .returned with log := s.log ++ [.joined c] } else none","      some { s.setCall c o .returned with log := s.log ++ [.joined c] }","C49","join returns before stop")
m("Model/Life","step","      else some ((setStopped s c).setCall c o .raised)","      else some (s.setCall c o .raised)","C49","failed stop leaves joiners waiting")
m("Model/Life","baseStop","s.servers.map (Ev.serverStop c) ++ [.callerStop c]","[.callerStop c]","C49","servers not stopped")
m("Model/Life","step","let s := setStopped s s.calls.length\n","let s := s\n","C49","main pool's stop marks stopped only at the end")
m("Model/Life","step","some ((setStopped { s with servers := [] } c)","some ((setStopped s c)","C49","servers stopped again by a later stop","behaviour: repeated serverStop events; probe")
# Wait
m("Model/Wait","wait","  | .done => (false, process f)","  | .done => (true, process f)","C46","a finished call sends a cancel message")
m("Model/Wait","wait","| .cannotCancel => (true, .cancelledError)","| .cannotCancel => (true, process f)","C46","caller gets a result although it was cancelled","the code raises CancelledError here")
m("Model/Wait","wait","      | .done => (true, process f)\n","      | .done => (true, .cancelledError)\n","C46","a result that came before the cancellation is dropped",tightened="Xoscar.Wait.cancelled_reply Xoscar.Wait.not_cancelled")
m("Model/Wait","process","| .remoteCancelled => .cancelledError","| .remoteCancelled => .remoteError 0","C46","cancelled remote call reported as another error")
