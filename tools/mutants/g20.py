M="Model/Order"
m(M,"startAt","if big c then some ({ h with ready := r, threads := h.threads ++ [c] } :: hs)","if !big c then some ({ h with ready := r, threads := h.threads ++ [c] } :: hs)","C80","small messages go to the thread pool")
m(M,"startAt","else some ({ h with ready := r, wire := h.wire ++ [c] } :: hs)","else some ({ h with ready := r, wire := c :: h.wire } :: hs)","C80","message written before those already written")
m(M,"startAt","else some ({ h with ready := r, wire := h.wire ++ [c] } :: hs)","else some ({ h with ready := r } :: hs)","C80","message not written")
m(M,"startAt","if big c then some ({ h with ready := r, threads := h.threads ++ [c] } :: hs)","if big c then some ({ h with ready := r, wire := h.wire ++ [c] } :: hs)","C80","serialized without threads (a fix): the refutations fall")
m(M,"startAt","some ({ h with ready := r, threads := h.threads ++ [c] } :: hs)","some ({ h with threads := h.threads ++ [c] } :: hs)","C80","task started twice")
m(M,"finishAt","some ({ h with threads := h.threads.erase c, wire := h.wire ++ [c] } :: hs)","some ({ h with wire := h.wire ++ [c] } :: hs)","C80","large message written twice")
m(M,"finishAt","some ({ h with threads := h.threads.erase c, wire := h.wire ++ [c] } :: hs)","some ({ h with threads := h.threads.erase c, wire := c :: h.wire } :: hs)","C80","large message written first")
m(M,"finishAt","some ({ h with threads := h.threads.erase c, wire := h.wire ++ [c] } :: hs)","some ({ h with threads := h.threads.tail, wire := h.wire ++ [c] } :: hs)","C80","another message forgotten")
m(M,"recvAt","| c :: w => some ([{ h with wire := w }], last ++ [c])","| c :: w => some ([{ h with wire := w }], c :: last)","C80","pool puts the message first")
m(M,"recvAt","| c :: w => some ([{ h with wire := w }], last ++ [c])","| _ :: w => some ([{ h with wire := w }], last)","C80","pool forgets the message")
m(M,"recvAt","{ h' with ready := h'.ready ++ [c] }","{ h' with ready := c :: h'.ready }","C80","proxy puts the message first")
m(M,"recvAt","{ h' with ready := h'.ready ++ [c] }","{ h' with wire := h'.wire ++ [c] }","C80","proxy writes without serializing")
m(M,"recvAt","{ h with wire := w } :: { h'","h :: { h'","C80","proxy receives the message again")
m(M,"push","{ x with last := x.last ++ [c] }","{ x with last := c :: x.last }","C80","local tell goes first")
m(M,"push","{ h with ready := h.ready ++ [c] } :: hs }","{ h with ready := c :: h.ready } :: hs }","C80","client tasks last in first out")
m(M,"push","{ h with ready := h.ready ++ [c] } :: hs }","{ h with wire := h.wire ++ [c] } :: hs }","C80","new call written before the waiting ones")
m(M,"ask","waiting := st.waiting ++ [c] }","waiting := c :: st.waiting }","C80","lock last in first out")
m(M,"ask","waiting := st.waiting ++ [c] }","started := st.started ++ [c] }","C80","lock not waited for")
m(M,"ask","| none => { st with asked := st.asked ++ [(l, c)], running := some c, started := st.started ++ [c] }","| none => { st with asked := st.asked ++ [(l, c)], started := st.started ++ [c] }","C80","free lock not taken",note="a method without lock: order of starts is kept; C15 is about exclusion")
m(M,"handOn","| c :: w => { st with running := some c, waiting := w, started := st.started ++ [c] }","| c :: w => { st with running := some c, waiting := w }","C80","next call forgotten")
m(M,"handOn","| c :: w => { st with running := some c, waiting := w, started := st.started ++ [c] }","| c :: w => { st with running := none, waiting := w, started := st.started ++ [c] }","C80","lock free although others wait")
m(M,"handOn","| [] => { st with running := none }","| [] => st","C80","lock never free again",tightened="one_at_a_time")
m(M,"step","else some (ask { st with issued := st.issued ++ [(l, c)] } l c)","else some ({ st with issued := st.issued ++ [(l, c)] }.setLane l (push x c))","C80","awaited local call as a task (a fix)")
m(M,"step","| c :: r => some (ask (st.setLane l { x with last := r }) l c)","| c :: r => some (ask (st.setLane l { x with last := r.reverse }) l c)","C80","tasks of the pool started from both ends")
m(M,"step","| c :: r => some (ask (st.setLane l { x with last := r }) l c)","| _ :: r => some (st.setLane l { x with last := r })","C80","call dropped before the lock")
m(M,"step","some { st with waiting := st.waiting.erase c, dropped := st.dropped ++ [c] } else none","some { st with waiting := st.waiting.tail, dropped := st.dropped ++ [c] } else none","C80","cancel hits another call")
m(M,"step","some { st with waiting := st.waiting.erase c, dropped := st.dropped ++ [c] } else none","some { st with waiting := [], dropped := st.dropped ++ [c] } else none","C80","cancel drops all waiting calls")
m(M,"step","| some hs => some (st.setLane l { x with hops := hs })\n  | .finish","| some hs => some (st.setLane 0 { x with hops := hs })\n  | .finish","C80","message goes to another connection")
