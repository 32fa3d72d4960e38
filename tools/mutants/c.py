# SerialMachine / Serial
m("Model/SerialMachine","Frame.record","{ fr with done := fr.done ++ [s] }","{ fr with done := s :: fr.done }","C01","subcomponents recorded in reverse order")
m("Model/SerialMachine","stepChild","| .bufs bs => ⟨fr :: rest, some (.tup r.head), r.st, s.bufs ++ bs, s.n + 1⟩","| .bufs bs => ⟨fr :: rest, some (.tup r.head), r.st, bs ++ s.bufs, s.n + 1⟩","C01","buffers prepended")
m("Model/SerialMachine","stepChild","| .objs [] => ⟨fr :: rest, some (.tup r.head), r.st, s.bufs, s.n + 1⟩","| .objs [] => ⟨fr :: rest, some (.tup r.head), s.st, s.bufs, s.n + 1⟩","C01 C02","context lost after an empty container")
m("Model/SerialMachine","step","⟨rest, some (.tup (fr.head ++ fr.done)), s.st, s.bufs, s.n + 1⟩","⟨rest, some (.tup (fr.done ++ fr.head)), s.st, s.bufs, s.n + 1⟩","C01","header and subcomponents swapped")
m("Model/SerialMachine","serializeWithSpawn","      match loop single 0 fuel s with","      match loop single 0 fuel { s with bufs := [] } with","C03","resumed run forgets the buffers")
m("Model/SerialMachine","serializeWithSpawn","      match loop single 0 fuel s with","      match loop single 0 fuel { s with serialized := none } with","C03","resumed run forgets the pending header")
m("Model/SerialMachine","serializeWithSpawn","      match loop single 0 fuel s with","      match loop single 0 fuel { s with st := init } with","C03","resumed run starts with a fresh context")
m("Model/SerialMachine","loop","if 0 < overflow ∧ overflow < (s'.n : Int) then","if overflow < (s'.n : Int) then","C01 C03","plain serialize is interrupted")
m("Model/SerialMachine","dstepChild","| .ok (v, st') => ⟨fr :: rest, .has v, st', s.pos + n⟩","| .ok (v, st') => ⟨fr :: rest, .has v, st', s.pos⟩","C01","buffer position not advanced")
m("Model/SerialMachine","dstepChild","if final || n == 0 then\n      match D.single s.st fs","if final then\n      match D.single s.st fs","C01","empty containers pushed as frames (behaviour the same)","probe: equivalent")
m("Model/SerialMachine","DFrame.record","{ fr with done := fr.done ++ [v] }","{ fr with done := [v] }","C01","only the last subcomponent kept")
m("Model/SerialMachine","dstep","      | some e' => ⟨rest, .exc e', s.st, s.pos⟩","      | some _ => ⟨rest, .exc e, s.st, s.pos⟩","C06","replaced exception ignored")
m("Model/Serial","inlinable","| .prim true a => some a","| .prim _ a => some a","C01","numpy scalars left in the header (value still the same atom)","probe")
m("Model/Serial","inlinable","if s.length < maxStrPrimitiveLen then some (.str s) else none","if s.length < maxStrPrimitiveLen then some (.str (s.take 10).toString) else none","C01","long strings cut")
m("Model/Serial","inlinable","| .bytes none b => if b.size < maxStrPrimitiveLen","| .bytes none b => if b.size ≤ maxStrPrimitiveLen","C01","threshold off by one (values unaffected)","probe: equivalent")
m("Model/Serial","serialIterable","| none => (.atom .none :: r.1, idx :: r.2.1, x :: r.2.2)","| none => (.atom .none :: r.1, 0 :: r.2.1, x :: r.2.2)","C01","wrong positions of propagated items")
m("Model/Serial","serialIterable","let r := serialIterable h (idx + 1) xs","let r := serialIterable h idx xs","C01","index not advanced")
m("Model/Serial","buffered","if x ∈ c.ctx then .placeholder else .done sid body subs true","if x ∈ c.ctx then .placeholder else .done sid body subs false","C02 C04","objects never entered into the context (cycles do not end)")
m("Model/Serial","serial","[.list r.1, .list (r.2.1.map .nat), tyPV ty] (.objs r.2.2)\n  | .dict none [] => .done 6 [] (.bufs []) false","[.list r.1, .list (r.2.1.map .nat), tyPV none] (.objs r.2.2)\n  | .dict none [] => .done 6 [] (.bufs []) false","C01","class of list subclasses lost")
m("Model/Serial","serial","(.objs (k.2.2 ++ v.2.2))","(.objs (v.2.2 ++ k.2.2))","C01","keys and values swapped")
m("Model/Serial","serial",".nat k.2.2.length, tyPV ty]",".nat v.2.2.length, tyPV ty]","C01","wrong number of key buffers")
m("Model/Serial","serialSingle","⟨if registered then c.ctx ++ [x] else c.ctx, c.d.set x c.d.length⟩⟩","⟨if registered then c.ctx ++ [x] else c.ctx, c.d⟩⟩","C02","ordered ids not recorded: placeholders refer to object 0")
m("Model/Serial","serialSingle",".nat ((c.d.get? x).getD 0)",".nat ((c.d.get? x).getD 0 + 1)","C02","placeholder refers to the next object")
m("Model/Serial","addCbs","| idx, .ph o :: vs, s => addCbs addr (idx + 1) vs (s.addCb o ⟨addr, idx⟩)","| idx, .ph o :: vs, s => addCbs addr (idx + 1) vs s","C04","back references never filled in")
m("Model/Serial","addCbs","| idx, _ :: vs, s => addCbs addr (idx + 1) vs s","| idx, _ :: vs, s => addCbs addr idx vs s","C04","back reference stored at a wrong position")
m("Model/Serial","settle","heap := runCbs res ((s.cbs.get? p).getD []) s.heap","heap := s.heap","C04","callbacks not run")
m("Model/Serial","settle","let res := if res.isPh then (s.ctx.get? oid).getD (.ph oid) else res","let res := if res.isPh then (.ph oid) else res","C02","placeholder not resolved to the known object")
m("Model/Serial","deserial","if res.any Val.isPh then .error .assertion else .ok (s.alloc (.tuple ty res))",".ok (s.alloc (.tuple ty res))","C04","a tuple in a cycle silently keeps a placeholder")
m("Model/Serial","deserial","| 6, [] => .ok (s.alloc (.dict none []))","| 6, [] => .ok (s.alloc (.list none []))","C01","empty dict becomes a list")
m("Model/Serial","deserial","(subs.drop numKeyBufs), t.toTy with","subs, t.toTy with","C01","values taken from the keys")
m("Model/Serial","RSt.addCb","((s.cbs.get? oid).getD [] ++ [cb])","[cb]","C04","only the last back reference of a placeholder is filled")
# Message
m("Model/Message","Msg.serial","| .error b a p x y z => (b.serial 2 ++ [a, p], [x, y, z])","| .error b a p x y z => (b.serial 2 ++ [p, a], [x, y, z])","C05","address and pid swapped")
m("Model/Message","Msg.serial","| .tell b r x => (b.serial 8","| .tell b r x => (b.serial 7","C05","tell sent as send")
m("Model/Message","Msg.serial","| .forward b a raw => (b.serial 12 ++ [a] ++ raw.serial.1, raw.serial.2)","| .forward b a raw => (b.serial 12 ++ [a] ++ raw.serial.1, [])","C05","payload of a forwarded message lost")
m("Model/Message","Base.serial","[.nat t, b.id, b.protocol, b.trace, b.profiling]","[.nat t, b.id, b.protocol, b.profiling, b.trace]","C05","trace and profiling swapped")
m("Model/Message","members","| 4 => return .destroyActor b (← refMembers s 4) (← neg? s 1)","| 4 => return .destroyActor b (← refMembers s 3) (← neg? s 1)","C05","reference read from a wrong position")
m("Model/Message","members","return .forward (← baseMembers (s.take 5)) (← s[5]?)","return .forward (← baseMembers (s.drop 6)) (← s[5]?)","C05","outer message gets the inner id")
m("Model/Message","members","| 2 => return .error b (← neg? s 2) (← neg? s 1) (← subs[0]?) (← subs[1]?) (← subs[2]?)","| 2 => return .error b (← neg? s 2) (← neg? s 1) (← subs[0]?) (← subs[2]?) (← subs[1]?)","C05","error and traceback swapped")
m("Model/Message","msgOnError","| _ :: _ :: _ :: _ :: id :: _ => some (.failed id)","| _ :: _ :: _ :: id :: _ :: _ => some (.failed id)","C06","wrong field reported as message id")
m("Model/Message","msgOnError","      | _ :: _ :: _ :: _ :: id :: _ => some (.failed id)","      | _ :: _ :: _ :: _ :: _ :: _ => some e","C06","failure not reported against the message")
m("Model/Message","serializeMsg","  | .nat 0 => (serialize","  | .nat _ => (serialize","C06","other protocols accepted")
m("Model/Message","msgSingle","⟨c.ctx, c.d.set x c.d.length⟩⟩\n","⟨c.ctx, c.d⟩⟩\n","C05","message takes no ordered id (payload ids still consistent?)","probe")
# Pool
m("Model/Pool","startCreate","  | some _ => (s.addLog (.refused t uid)).reply t mid (.error .alreadyExist)\n  | none =>\n    if ctorOk","  | some _ =>\n    ({ s with actors := s.actors.set uid s.nextInst, nextInst := s.nextInst + 1 }.addLog (.registered t uid s.nextInst)).await t mid (.post uid s.nextInst)\n  | none =>\n    if ctorOk","C22","a second create replaces the actor")
m("Model/Pool","startCreate","    else s.reply t mid (.error (.user 0))","    else ({ s with actors := s.actors.set uid s.nextInst, nextInst := s.nextInst + 1 }.addLog (.registered t uid s.nextInst)).reply t mid (.error (.user 0))","C23","failed constructor leaves an actor")
m("Model/Pool","finishDestroy","({ s with actors := s.actors.erase uid }.addLog (.removed t uid i)).reply","(s.addLog (.removed t uid i)).reply","C22","destroy does not remove")
m("Model/Pool","finishDestroy","| none => s.reply t mid (.error .keyError)","| none => s.reply t mid (.uid uid)","C24","a destroy that finds nothing succeeds")
m("Model/Pool","startUse","  | none => (s.addLog (.missing t uid)).reply t mid (.error .notExist)\n\n","  | none => k (s.addLog (.found t uid 0)) 0\n\n","C22","messages to missing actors are accepted")
m("Model/Pool","startCancel","(fun k => { k with cancelReq := true }) }).reply t mid (.bool true)","(fun k => { k with cancelReq := false }) }).reply t mid (.bool true)","C46","cancel does nothing")
m("Model/Pool","startCancel","| none => s.reply t mid (.error .cannotCancel)","| none => s.reply t mid (.bool true)","C46","cancel of unknown message succeeds")
m("Model/Pool","startCancel","({ s with tasks := s.tasks.modify t' (fun k => { k with cancelReq := true }) })","({ s with tasks := s.tasks.map (fun k => { k with cancelReq := true }) })","C46","cancel hits every task")
m("Model/Pool","St.reply","{ s.setPhase t (.sending r true) with running := s.running.erase mid }","{ s.setPhase t (.sending r true) with running := s.running }","C46","finished calls stay cancellable")
m("Model/Pool","St.await","running := s.running.set mid t","running := s.running","C46","running calls not registered")
m("Model/Pool","sendTask","| .failed => if resend then s.setPhase t (.sending (.error .sendFailed) false) else s.setPhase t .done","| .failed => s.setPhase t .done","C48","unsendable reply: caller never hears")
m("Model/Pool","sendTask","| .failed => if resend then s.setPhase t (.sending (.error .sendFailed) false) else s.setPhase t .done","| .failed => s.setPhase t (.sending (.error .sendFailed) true)","C48","error reply attempted again and again","two error replies never sent, but unbounded attempts")
m("Model/Pool","sendTask","| .sent => (s.addLog (.replied t mid r)).setPhase t .done","| .sent => (s.addLog (.replied t mid r)).setPhase t (.sending r false)","C48","reply sent twice")
m("Model/Pool","sendTask","(.replied t mid r)","(.replied t 0 r)","C48","reply carries a wrong id")
m("Model/Pool","finishTask","| .recv _ _, .ok n => some (s.reply t mid (.value n))","| .recv _ _, .ok _ => some (s.reply t mid .none)","C48","result of a call lost")
m("Model/Pool","finishTask","| .recv _ _, o => some (s.reply t mid (.error o.err))","| .recv _ _, _ => some (s.setPhase t .done)","C48","failed calls get no reply")
m("Model/Pool","startTask","(.bool (s.actors.get? uid).isSome)\n","(.bool true)\n","C22","has_actor always true")
m("Model/Pool","startDestroy","| some i => (s.addLog (.preDestroy t uid i)).await t mid (.pre uid i)","| some i => s.await t mid (.pre uid i)","C24","__pre_destroy__ not called")
# Directory
m("Model/Directory","St.record","if r = .ok then s.alloc.set (a, some u) st else s.alloc","s.alloc.set (a, some u) st","C25","failed creations recorded")
m("Model/Directory","St.record","{ s with alloc := ((if r = .ok then s.alloc.set (a, some u) st else s.alloc).erase (a, none)) }","{ s with alloc := (if r = .ok then s.alloc.set (a, some u) st else s.alloc) }","C26","placeholder never removed")
m("Model/Directory","St.record","  else { s with alloc := s.alloc.set (a, some u) st }","  else s","C25","actors created at a sub pool unknown to the main pool")
m("Model/Directory","stepTask","      else { s with alloc := s.alloc.erase (a, some u) }.put t (.destroy a u w false)","      else s.put t (.destroy a u w false)","C25","destroyed actors stay in the directory")
m("Model/Directory","stepTask","        | .direct => (s.gone a u).put t (.find u a .notified)","        | .direct => (s.gone a u).reply t .ok","C25","main pool not told of a destruction at a sub pool")
m("Model/Directory","step","some ({ s with alloc := s.alloc.set (a, none) st }.new (.create a u st true .body))","some (s.new (.create a u st true .body))","C26","no placeholder during creation: two idle actors on one process")
m("Model/Directory","lookupAlloc","c.addrs.find? (fun a => s.alloc.has (a, some u))","c.addrs.head?.bind (fun a => if s.alloc.has (a, some u) then some a else none)","C25","only the main pool is searched")
m("Model/Directory","actorRefMain","then some c.main else lookupAlloc c s u","then some c.main else (lookupAlloc c s u).map (fun _ => c.main)","C25","reference with the main pool's address for a sub pool's actor")
m("Model/Directory","strategiesAt","(alloc.filter (fun e => e.1.1 = a)).map (·.2)","(alloc.filter (fun e => e.1.1 = a ∧ e.1.2 ≠ none)).map (·.2)","C26","placeholders ignored by the allocation")
m("Model/Directory","stepTask","          if a = c.main then                                               -- 1116-1122\n            if s.alloc.has (a, some u) then { s with alloc := s.alloc.erase (a, some u) }.reply t .ok","          if a = c.main then                                               -- 1116-1122\n            if s.alloc.has (a, some u) then s.reply t .ok","C25","main pool's own destroyed actors stay in the directory")
# Router
m("Model/Router","Router.internal","  match r.localMap.get? a with\n  | some i => i\n  | none => (r.mapping.get? a).join","  match r.mapping.get? a with\n  | some i => i\n  | none => (r.localMap.get? a).join","C29","router mapping before local mapping")
m("Model/Router","Router.add","r.mapping.update o.mapping","o.mapping.update r.mapping","C29","adding a router does not override")
m("Model/Router","Router.remove","popAll r.mapping o.mapping.keys, r.proxy","r.mapping, r.proxy","C29 C30","removed router's mapping stays")
m("Model/Router","Router.remove","removeEach r.curr o.curr","r.curr","C29","removed router's external addresses stay")
m("Model/Router","usable","if p ≠ \"\" ∧ p ≠ a then some p else none","if p ≠ \"\" then some p else none","C31","an address may be its own proxy")
m("Model/Router","Router.getProxy","  | none => match usable a (r.proxy.get? (host a)) with\n    | some p => some p\n    | none => usable a (r.proxy.get? \"*\")","  | none => match usable a (r.proxy.get? \"*\") with\n    | some p => some p\n    | none => usable a (r.proxy.get? (host a))","C31","wildcard before host")
m("Model/Router","Router.proxyLoop","| some p => r.proxyLoop fuel p (acc ++ [p])","| some p => r.proxyLoop fuel p (p :: acc)","C31","chain reversed")
m("Model/Router","step","| some c => if isOpen s c then some","| some c => if true then some","C29","closed clients handed out")
m("Model/Router","St.reset","{ s with router := r, cache := [], epoch := s.epoch + 1 }","{ s with router := r, epoch := s.epoch + 1 }","C29","cache survives a change of the mapping")
m("Model/Router","step","cache := if p.cached then s.cache.set (p.thread, p.key) s.clients.length else s.cache","cache := if p.cached then s.cache.set (0, p.key) s.clients.length else s.cache","C29","cache shared between threads")
m("Model/Router","syncConfig","let pool := old.setMapping newMapping","let pool := old","C30","pool's router keeps the old mapping")
m("Model/Router","syncConfig","let glob := glob.remove old\n","let glob := glob\n","C30","old mapping stays in the process-wide router")
m("Model/Router","host","(a.toList.takeWhile (· ≠ ':'))","(a.toList.takeWhile (· ≠ '/'))","C31","host entry never found")
