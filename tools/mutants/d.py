# Recovery
m("Model/Recovery","finish","| true, some e => { s with mon := .idle, event := none, woken := e :: s.woken }","| true, some e => { s with mon := .idle, event := none }","C45","waiters are never woken")
m("Model/Recovery","step.check","| .process => some { s with slots := some [], mon := .restarting d }","| .process => some { s with mon := .idle }","C45","process mode does not restart")
m("Model/Recovery","step.check","| .actor => some { s with mon := .restarting d }","| .actor => some { s with slots := some [], mon := .restarting d }","C45","actor mode forgets its actors before the restart")
m("Model/Recovery","step.restarted","| .actor, some l => some { s with mon := .looping d 0 (used l) }","| .actor, some l => some { s with mon := .looping d 1 (used l) }","C45","the first recorded actor is not created again")
m("Model/Recovery","step.restarted","let s := { s with up := true, noticed := false, actors","let s := { s with up := true, actors","C45","the return code stays: the pool is taken for dead again")
m("Model/Recovery","step.restartFailed","| .restarting _ => some (abort s)","| .restarting d => some (finish s d)","C45","waiters woken after a failed restart")
m("Model/Recovery","step.next","| none => some (finish { s with recovers := s.recovers + 1 } d)           -- 1472-1476","| none => some { s with recovers := s.recovers + 1, mon := .idle }           -- 1472-1476","C45","waiters not woken after the loop")
m("Model/Recovery","nextEntry","| none :: t, 0 => (nextEntry t 0).map (fun x => (x.1, x.2 + 1))","| none :: t, 0 => none","C45","the loop stops at a hole")
m("Model/Recovery","step.next","sent := s.sent ++ [m] }","sent := s.sent }","C45","ghost: creations not recorded as sent",note="ghost edit")
m("Model/Recovery","step.wait","if s.mode = .off then some","if s.mode ≠ .actor then some","C45","nobody waits in process mode")
m("Model/Recovery","step.check","else some (finish s d)\n    | _ => none","else some s\n    | _ => none","C45","a pool that is up does not wake its waiters")
m("Model/Recovery","step.answered","actors := if ok then (if m.uid ∈ s.actors then s.actors else s.actors ++ [m.uid]) else s.actors,","actors := s.actors,","C45","created actors do not exist")
m("Model/Recovery","step.check","if s.noticed then\n        let s := { s with downs","if s.noticed ∧ d = true then\n        let s := { s with downs","C45","recovered only when somebody waits")
m("Model/Recovery","step.restarted","| _, _ => some (finish { s with recovers := s.recovers + 1 } d)","| _, _ => some (finish s d)","C45","recover callback not called in process mode")
# Lru
m("Model/Lru","touch","c.erase k ++ [(k, e)]","(k, e) :: c.erase k","C39","a hit makes the entry the oldest")
m("Model/Lru","touch","| some e => c.erase k ++ [(k, e)]","| some _ => c","C39","a hit does not refresh: FIFO instead of LRU")
m("Model/Lru","miss","if cache.length > n then cache.drop 1","if cache.length > n + 1 then cache.drop 1","C39","one entry too many")
m("Model/Lru","miss","if cache.length > n then cache.drop 1","if cache.length > n then cache.dropLast","C39","evicts the newest")
m("Model/Lru","call","if noException r ∨ p.cacheExceptions then hit s k e","if true then hit s k e","C39","failures always cached")
m("Model/Lru","call","if noException r ∨ p.cacheExceptions then hit s k e","if noException r ∧ p.cacheExceptions then hit s k e","C39","nothing cached unless cache_exceptions")
m("Model/Lru","call","| none => hit s k e\n","| none => miss p s k\n","C39","evaluations under way are not shared")
m("Model/Lru","hit","hits := s.hits + 1","hits := s.hits","C39","hits not counted")
m("Model/Lru","miss","misses := s.misses + 1","misses := s.misses","C39","misses not counted")
m("Model/Lru","call","if s.closed then { s with calls","if false then { s with calls","C39","closed cache goes on")
m("Model/Lru","step.invalidate","some { s with cache := s.cache.erase k } ","some s ","C39","invalidate does nothing")
m("Model/Lru","clear","{ s with hits := 0, misses := 0, cache := [], tasks := [] }","{ s with hits := 0, misses := 0, tasks := [] }","C39","clear keeps the entries")
m("Model/Lru","step.closeWaited","if s.closing ∧ s.tasks = [] then","if s.closing then","C39","close does not wait for the evaluations")
m("Model/Lru","step.finish","evals := s.evals.set e ⟨k, some r⟩, tasks := s.tasks.filter (· ≠ e)","evals := s.evals.set e ⟨k, some r⟩","C39","finished evaluations stay in tasks")
# Gen
m("Model/Gen","advance","| ⟨i :: rest, fin, _, a⟩ => (⟨rest, fin, false, a⟩, .item i)","| ⟨i :: rest, fin, _, a⟩ => (⟨rest.drop 1, fin, false, a⟩, .item i)","C40","every other item skipped")
m("Model/Gen","advance","| ⟨[], .raises e, _, a⟩ => (⟨[], .done, false, a⟩, consume e)","| ⟨[], .raises e, _, a⟩ => (⟨[], .done, false, a⟩, .stop)","C40","errors of the producer are swallowed")
m("Model/Gen","advance","consume ⟨\"Exception\", \"StopIteration\"⟩","consume ⟨\"Exception\", \"Stop\"⟩","C40","end of the generator raises")
m("Model/Gen","step.ready","table := if over p then s.table.filter (· ≠ g) else s.table, log","table := s.table, log","C40","finished generators stay in the table")
m("Model/Gen","over","p.items.isEmpty","p.items.length ≤ 1","C40","generator forgotten with its last item")
m("Model/Gen","step.next","else some { s with log := s.log ++ [(g, consume (noIterator g))] }","else some { s with log := s.log ++ [(g, .stop)] }","C40","unknown generators end quietly")
m("Model/Gen","step.destroy","some { s with table := s.table.filter (· ≠ g) } else none","some s else none","C40","destroy does nothing")
m("Model/Gen","wstep","some (w.set i false ++ [true])","some (w ++ [true])","C40","a sent wrapper still destroys the generator")
m("Model/Gen","wstep","some (w.set i false ++ [true])","some (w.set i false ++ [false])","C40","nobody destroys the generator")
m("Model/Gen","step.create","table := s.table ++ [s.next], next := s.next + 1","table := s.table ++ [s.next], next := s.next","C40","generator ids are reused")
m("Model/Gen","step.ready","log := s.log ++ [(g, (advance p).2)] }","log := (g, (advance p).2) :: s.log }","C40","items out of order")
m("Model/Gen","free","stateless || s.waiting.isEmpty","true","C40","no lock in actors")
m("Model/Gen","step.ready","else some { s with objs := s.objs.set g (advance p).1 }       --","else some s      --","C40","interrupted plain generator does not go on")
# Dummy
m("Model/Dummy","step.send","queue := (c.out s).queue ++ [m]","queue := m :: (c.out s).queue","C51","last in first out")
m("Model/Dummy","step.send","if c.closed then some (c, [⟨s, .channelClosed⟩])                                           -- 77-78","if false then some (c, [⟨s, .channelClosed⟩])","C51","send on a closed channel succeeds")
m("Model/Dummy","step.recv","if c.closed then some (c, [⟨s, .channelClosed⟩])                                           -- 84-85","if false then some (c, [⟨s, .channelClosed⟩])","C51","recv on a closed channel goes on")
m("Model/Dummy","step.recv","some (c.setOut s.other { c.out s.other with queue := rest }, [⟨s, .got m⟩])","some (c, [⟨s, .got m⟩])","C51","a message is delivered twice")
m("Model/Dummy","step.wake","some (c.setOut s.other ⟨rest, (c.out s.other).waiting.filter (· ≠ r)⟩, [⟨s, .got m⟩])","some (c.setOut s.other ⟨rest, (c.out s.other).waiting⟩, [⟨s, .got m⟩])","C51","a recv gets two messages")
m("Model/Dummy","Conn.out","  | .client => c.toServer\n  | .server => c.toClient","  | .client => c.toServer\n  | .server => c.toServer","C51","server reads what it sent")
m("Model/Dummy","step.close","some ({ c with closed := true }, [])","some (c, [])","C51","close does nothing")
m("Model/Dummy","step.cancel","waiting := (c.out s.other).waiting.filter (· ≠ r) }, [⟨s, .cancelled⟩]","waiting := (c.out s.other).waiting.filter (· ≠ r), queue := (c.out s.other).queue.drop 1 }, [⟨s, .cancelled⟩]","C51","cancelled recv loses a message")
m("Model/Dummy","wstep.create","if sv.stopped then some (newServer w a h, .server w.nextS) else some (w, .server s)","some (newServer w a h, .server w.nextS)","C51","a second server at an address replaces the first")
m("Model/Dummy","wstep.create","if sv.stopped then some (newServer w a h, .server w.nextS) else some (w, .server s)","some (w, .server s)","C51","stopped server handed out")
m("Model/Dummy","wstep.connect","if sv.stopped then some (w, .connectionError)","if false then some (w, .connectionError)","C51","connects to a stopped server")
m("Model/Dummy","stopLink","if l.server = s then","if l.server ≠ s then","C51","stop closes the others' connections")
m("Model/Dummy","stopLink","l.closed || l.registered⟩","l.closed⟩","C51","stop leaves channels open")
m("Model/Dummy","wstep.begin","some ({ w with links := w.links.set c ⟨s, .running, true, cl⟩ }, .none)","some ({ w with links := w.links.set c ⟨s, .running, false, cl⟩ }, .none)","C51","channels not registered")
m("Model/Dummy","wstep.close","{ l with closed := true, task := .ended }","{ l with closed := true }","C51","handler task survives the close of its client",note="probe")
# Collective
m("Model/Collective","checks","if ¬ (ranks.length : Int) ≤ world then","if ¬ (ranks.length : Int) < world then","C47","the full group is refused")
m("Model/Collective","checks","decide (world > r ∧ r ≥ 0)","decide (world ≥ r ∧ r ≥ 0)","C47","rank = world accepted")
m("Model/Collective","checks","decide (world > r ∧ r ≥ 0)","decide (world > r)","C47","negative ranks accepted")
m("Model/Collective","checks","else if ¬ (pySet ranks).length = ranks.length then some .duplicate","else if false then some .duplicate","C47","duplicates accepted")
m("Model/Collective","newGroup","if a.rank ∉ ranks then (a, .ok none)","if false then (a, .ok none)","C47","non-members get a group")
m("Model/Collective","newGroup","let global := sorted ranks","let global := ranks","C47","name and positions depend on the order given")
m("Model/Collective","newGroup","⟨global.idxOf a.rank, global.length⟩","⟨ranks.idxOf a.rank, global.length⟩","C47","positions depend on the order given")
m("Model/Collective","newGroup","⟨global.idxOf a.rank, global.length⟩","⟨global.idxOf a.rank, a.world.toNat⟩","C47","group has the size of the job")
m("Model/Collective","newGroup","if (a.groups.get? name).isSome then (a, .ok (some name))\n      else ","","C47","same ranks make a new group again",note="equivalent if group is overwritten with equal content")
m("Model/Collective","plain","backend ++ ['_'].intercalate","backend ++ [].intercalate","C47","1_12 and 11_2 get the same name")
m("Model/Collective","newGroup","else if (ranks.length : Int) = a.world then (a, .ok (some dflt))\n    else","else","C47","the full list gets another group",note="probe")
m("Model/Collective","newGroup","else (a, .error .connect)","else (a, .ok (some name))","C47","failed connection reported as success")
# Store
m("Model/Store","exec.cset","      if old = e then","      if old ≠ e then","C52","compare-set sets on a mismatch")
m("Model/Store","exec.cset","      if e = [] then","      if True then","C52","compare-set creates with any expectation")
m("Model/Store","exec.cset","else (answer st s n (.cset k e v) (.vec e), true)","else (answer st s n (.cset k e v) (.vec v), true)","C52","failed compare-set returns the new value")
m("Model/Store","exec.add","| some v => (stoll v).map (fun x => wrap (d + x))","| some v => (stoll v).map (fun x => wrap x)","C52","add forgets the delta")
m("Model/Store","exec.add","st.store.set k (toStr x) } s n (.add k d) (.int x)","st.store.set k (toStr x) } s n (.add k d) (.int d)","C52","add returns the delta")
m("Model/Store","exec.check","(.byte (if hasAll st ks then 0 else 1))","(.byte (if hasAll st ks then 1 else 0))","C52","check inverted")
m("Model/Store","hasAll","ks.all (fun","ks.any (fun","C52","one key is enough")
m("Model/Store","exec.wait","awaited := st.awaited.set s (missing st ks).length","awaited := st.awaited.set s 1","C52","wait returns after one of its keys")
m("Model/Store","exec.delete","answer { st with store := st.store.erase k } s n (.delete k) (.int 1)","answer st s n (.delete k) (.int 1)","C52","delete does not delete")
m("Model/Store","exec.append","((st.store.get? k).getD [] ++ v)","(v ++ (st.store.get? k).getD [])","C52","append prepends")
m("Model/Store","exec.numKeys","(.int st.store.length)","(.int (st.store.length + 1))","C52","one key too many counted")
m("Model/Store","exec.get","| some v => (answer st s n (.get k) (.vec v), true)","| some _ => (answer st s n (.get k) (.vec []), true)","C52","get returns nothing")
m("Model/Store","getAll","some (v :: vs)","some (vs ++ [v])","C52","multi get in reverse order")
m("Model/Store","doSet","let st := wake st k\n  notify k (watchersOf st k) st\n\n/-- `multiSetHandler`","notify k (watchersOf st k) st\n\n/-- `multiSetHandler`","C52","set does not wake waiting clients")
m("Model/Store","wake","{ st' with waiting := st'.waiting.filter (·.1 ≠ k) }","st'","C52","woken waits stay registered")
m("Model/Store","drop","waiting := st.waiting.filter (·.2 ≠ s), awaited","awaited","C52","waits of closed connections stay")
m("Model/Store","step.ret","inbox := st.inbox.set s rest, rets","rets","C52","a response is read twice")
m("Model/Store","step.invoke","(reqsOf st s ++ [(st.next, r)])","((st.next, r) :: reqsOf st s)","C52","requests overtake each other")
m("Model/Store","wakeOne","if c = 0 then match","if c = 1 then match","C52","wakes one key early")
m("Model/Store","doSets","| (st, true) => doSets n rest st","| (st, true) => (st, true)","C52","multi set sets only the first key")
m("Model/Store","stoll","'-' :: t => if digits t = [] then none else some (-(value (digits t) : Int))","'-' :: t => if digits t = [] then none else some (value (digits t) : Int)","C52","negative counters read as positive")
