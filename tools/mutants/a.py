# Stats
m("Model/Stats","Pct.store","if top < sv then sv else top","if sv < top then sv else top","C42","a full heap keeps the smaller of the two negated values, so the callback gets another order statistic")
m("Model/Stats","Pct.store","if s.heap.length < s.capacity then sv","if s.heap.length ≤ s.capacity then sv","C42","heap holds one item too many")
m("Model/Stats","Pct.record","({ s with heap := [], curNum := 0 }, (minOf","({ s with heap := heap, curNum := 0 }, (minOf","C42","heap is not emptied between windows")
m("Model/Stats","Pct.record","if curNum % s.window = 0 then","if curNum % (s.window + 1) = 0 then","C42","window one observation too long")
m("Model/Stats","Pct.new","if capacity ≤ 0 ∨ window ≤ 0 then none","if capacity < 0 ∨ window ≤ 0 then none","C42","capacity 0 is accepted")
m("Model/Stats","CallStats.collect","if c.1 < s.threshold then s","if c.1 < s.threshold - 1 then s","C43","calls below the threshold are reported")
m("Model/Stats","CallStats.collect","else if s.slow.length < 10 then","else if s.slow.length < 11 then","C43","eleven entries kept")
m("Model/Stats","CallStats.collect","{ s with slow := c :: s.slow.erase m }","{ s with slow := s.slow }","C43","once full, later slow calls are dropped")
m("Model/Stats","CallStats.collect","((s.counter.get? key).getD 0 + 1)","((s.counter.get? key).getD 1 + 1)","C43","counter starts at one")
m("Model/Stats","detectCycle","i.uid == ref.uid && i.address == ref.address","i.uid == ref.uid","C44","actors with the same uid elsewhere are flagged")
m("Model/Stats","recordTrace","messageTrace.getD [] ++ [ref]","[ref]","C44","only the last caller is kept in the trace")
m("Model/Stats","detectCycle","if on = false ∨ waitResponse = false then (none, false)","if on = false then (none, false)","C44","tells are flagged")
# Ports
m("Model/Ports","scan","if i ∈ occ then scan occ rest idx","if i ∈ occ then (if idx = 0 then some i else scan occ rest idx)","C34","an occupied port is returned")
m("Model/Ports","occupied","(sys.filter (fun p => LOW ≤ p ∧ p ≤ HIGH) ++ loc)","(sys.filter (fun p => LOW ≤ p ∧ p ≤ HIGH))","C34","ports handed out before are forgotten")
m("Model/Ports","getNextPort","if occupy then p :: loc else loc","loc","C34","a returned port is not remembered")
m("Model/Ports","getNextPort","(List.range' LOW (HIGH + 1 - LOW))","(List.range' LOW (HIGH - LOW))","C34","the highest port is never tried")
m("Model/Ports","getNextPort","(List.range' LOW (HIGH + 1 - LOW))","(List.range' LOW (HIGH + 2 - LOW))","C34","port 65536 is tried")
m("Model/Ports","processIndex","pid <<< (16 + idx)","pid <<< (16 + idx / 2)","C32","two indices coincide")
m("Model/Ports","processIndex","pid <<< (16 + idx)","(pid <<< 16) + idx","C32","the intended formula (a correct program for the refuted part): refutation must fail")
# Addr
m("Model/Addr","isV4Zero","\"0.0.0.0:\".toList","\"0.0.0:\".toList","C35","wrong prefix")
m("Model/Addr","v6Loop","if v ≠ 0 then some false else v6Loop hex ps","if v ≠ 0 then v6Loop hex ps else v6Loop hex ps","C35","every v6 address counts as wildcard")
m("Model/Addr","isV6Zero","if arr.length ≤ 2 then some false","if arr.length ≤ 1 then some false","C35","plain host:port goes to the hex parser")
m("Model/Addr","fixAllZeroIp","      | some true => some remote\n","      | some true => some connect\n","C35","wildcard connect address replaces the wildcard reply")
m("Model/Addr","fixAllZeroIp","let remotePort := lastPart ':' remote","let remotePort := lastPart ':' connect","C35","port of the connect address is used")
m("Model/Addr","fixAllZeroIp","    | some false => some remote\n    | some true =>","    | some false => some connect\n    | some true =>","C35","a concrete address is replaced")
m("Model/Addr","splitAddr","if ports.length ≠ nProcess then .error .valueError","if ports.length ≠ nProcess + 1 then .error .valueError","C33","wrong number of ports accepted with an explicit address")
m("Model/Addr","splitAddr","port :: List.replicate nProcess 0)","port :: List.replicate nProcess port)","C33","sub pools get the main port")
m("Model/Addr","splitAddr","if ports ≠ [] ∧ ports.length ≠ nProcess + 1 then .error .valueError\n    else ","","C33","number of ports unchecked for a bare host")
m("Model/Addr","render","(ports.zip (schemes.map schemePrefix)).map (fun (p, pre) => ⟨pre, host, p⟩)","ports.map (fun p => ⟨schemePrefix (schemes.headD none), host, p⟩)","C33","all addresses get the first scheme")
m("Model/Addr","schemePrefix","s ++ \"://\".toList","s ++ \":/\".toList","C33","wrong separator")
# Calls
m("Model/Calls","refEq","a.address == b.address && a.uid.data == b.uid.data","a.uid.data == b.uid.data","C36","references at different addresses equal")
m("Model/Calls","mkRefStr","uid.toUTF8, proxies, false","(uid ++ \"x\").toUTF8, proxies, false","C36","str uid encoded differently from bytes")
m("Model/Calls","unpickleRef","⟨a.address, a.uid, [], true⟩","⟨a.address, ByteArray.empty, [], true⟩","C36","uid lost")
m("Model/Calls","refHash","h (a.address, a.uid)","h (a.address ++ (if a.isLocal then \"l\" else \"\"), a.uid)","C36","hash depends on locality")
m("Model/Calls","toBinary","| .str s => .ok (some s.toUTF8)","| .str s => .ok (some (s ++ \"\\n\").toUTF8)","C36","conversions not inverse")
m("Model/Calls","checkMethods","if d.method ≠ m then none","if d.method < m then none","C19","mixed methods accepted")
m("Model/Calls","buildBatch","last.getD selfMethod","selfMethod","C19","message carries the wrong method")
m("Model/Calls","buildBatch","let argsList := delays.map Delay.args","let argsList := (delays.map Delay.args).reverse","C19","argument lists reversed")
m("Model/Calls","buildBatch","if hasKw then some kwargsList else none","none","C19","keyword arguments dropped")
m("Model/Calls","callWithLists","  if al.length = 0 then .values []\n","  if al.length = 0 then .noneValue\n","C18","empty batch gives None")
m("Model/Calls","callWithLists","    | none => collectSeq ((al.zip kl).map (fun (a, k) => singleRes (i.single a k)))","    | none => collectSeq ((al.zip kl).reverse.map (fun (a, k) => singleRes (i.single a k)))","C18","results reversed")
m("Model/Calls","callWithLists","    else match i.batch with\n      | some f => manyRes (f al kl)\n      | none =>\n        let rs","    else match i.batch with\n      | some f => manyRes (f (al.take 1) kl)\n      | none =>\n        let rs","C18","batch function gets only the first call")
m("Model/Calls","callWithLists","if rs.any CallRes.isRaise then .raised (firstFail (rs.filter CallRes.isRaise))\n        else .values rs",".values rs","C18","failures returned as values")
m("Model/Calls","collectSeq","if r.isRaise then .raised r\n    else match","match","C18","failures returned as values (sync)")
m("Model/Calls","onReceiveBatch","(List.replicate al.length [])","(List.replicate 1 [])","C18","missing kwargs list too short: only one call made")
m("Model/Calls","call","| none => .notImplementedError","| none => .noneValue","C18","NotImplementedError swallowed")
m("Model/Calls","replaceOne","| .val v :: rest => v :: replaceOne r rest\n  | .aw _ _ :: rest => r :: replaceOne r rest","| .val _ :: rest => r :: replaceOne r rest\n  | .aw _ _ :: rest => r :: replaceOne r rest","C17","all elements replaced")
m("Model/Calls","fillLoop","| some (.exc e) => .exc e\n    | some (.ok v) => fillLoop tasks rest (vals.set pos v)","| some (.exc _) => fillLoop tasks rest vals\n    | some (.ok v) => fillLoop tasks rest (vals.set pos v)","C17","failure swallowed, placeholder returned")
m("Model/Calls","fillLoop","fillLoop tasks rest (vals.set pos v)","fillLoop tasks rest (vals.set (pos+1) v)","C17","result stored at the next position")
m("Model/Calls","asInstanceofCause","  | e@(.wrapped ..) => e\n","  | .wrapped _ _ c t => .wrapped address pid c t\n","C41","wrapping repeated at each hop")
m("Model/Calls","asInstanceofCause",".wrapped address pid c t\n\n",".wrapped address pid 0 t\n\n","C41","class lost")
m("Model/Calls","asInstanceofCause","| .cancelled _ => .cancelled (tag address pid)","| .cancelled t => .wrapped address pid 0 t","C41","CancelledError becomes another class")
m("Model/Calls","Exc.str","| .wrapped a p _ t => tag a p ++ \" \" ++ t","| .wrapped a p _ _ => tag a p","C41","text lost")
# Dispatch
m("Model/Dispatch","firstHandler","  | k :: ks => match hs.get? k with\n    | some h => some h\n    | none => firstHandler hs ks","  | k :: ks => match firstHandler hs ks with\n    | some h => some h\n    | none => hs.get? k","C37","least specific handler wins")
m("Model/Dispatch","chain","[.named n c, .cls c]","[.cls c, .named n c]","C37","named handlers come after plain ones")
m("Model/Dispatch","Disp.unregister","{ d with handlers := d.handlers.erase k, inherit := [] }","{ d with handlers := d.handlers.erase k }","C37","inherit cache kept after unregister")
m("Model/Dispatch","Disp.reload","    lazyH := [] }","    lazyH := d.lazyH }","C37","lazy handlers stay pending (behaviour may be the same)","probe")
m("Model/Dispatch","Disp.reload","d.lazyH.foldl (fun hs nh => hs.set (.cls (imp nh.1)) nh.2) d.handlers","d.handlers","C37","lazy handlers never loaded")
m("Model/Dispatch","Disp.get","  match d.handlers.get? k with\n  | some h => (d, some h)\n  | none =>\n    match d.inherit.get? k with\n    | some h => (d, some h)","  match d.inherit.get? k with\n  | some h => (d, some h)\n  | none =>\n    match d.handlers.get? k with\n    | some h => (d, some h)","C37","cached inherited handler before the exact one")
m("Model/Dispatch","Registry.unregister","deser := r.deser.erase (sid c)","deser := []","C38","unregistering one drops all deserializers")
m("Model/Dispatch","Registry.register","decide (c' = c)","true","C38","id clash accepted")
m("Model/Dispatch","Registry.register","deser := r.deser.set (sid c) c","deser := r.deser","C38","deserializer not recorded")
# Config
m("Model/Config","addPool","setAll c.mapping p.external p.internal","setAll c.mapping (p.external.take 1) p.internal","C28","only the first address is mapped")
m("Model/Config","removePool","⟨c.pools.erase idx, c.mapping.erase a⟩","⟨c.pools.erase idx, c.mapping⟩","C28","mapping of a removed pool stays")
m("Model/Config","removePool","⟨c.pools.erase idx, c.mapping.erase a⟩","⟨c.pools, c.mapping.erase a⟩","C28","entry of a removed pool stays")
m("Model/Config","dropOld","dropOld new0 as (m.erase a,","dropOld new0 as (m,","C28","old addresses stay mapped after re-addressing")
m("Model/Config","dropOld","if internal = some a then new0 else internal","internal","C28","internal address equal to an old external one is kept")
m("Model/Config","resetExternal","{ p with external := new }","p","C28","re-addressing does not change the pool entry")
m("Model/Config","processIndex","(c.pools.find? (fun e => a ∈ e.2.external))","(c.pools.find? (fun e => e.2.external.head? ≠ some a))","C28","wrong index found")
m("Model/Config","externalAddresses","if e.2.label = some l then e.2.external.head? else none","e.2.external.head?","C28 C27","label ignored")
m("Model/Config","sameIdle","l = l' ∧ m = m'","m = m'","C27","idle labels of different labels confused")
m("Model/Config","pyIndex","if 0 ≤ l.length + i then l[(l.length + i).toNat]? else none","none","C27","negative process index rejected")
m("Model/Config","pyIndex","if 0 ≤ i then l[i.toNat]? else","if 0 ≤ i then l[i.toNat + 1]? else","C27","index off by one")
m("Model/Config","allocate","choice ((externalAddresses c none).drop 1) r","choice (externalAddresses c none) r","C27","RandomSubPool may choose the main pool")
m("Model/Config","allocate","choice ((externalAddresses c none).drop 1) r","choice ((externalAddresses c none).drop 2) r","C27","RandomSubPool never chooses the first sub pool")
m("Model/Config","allocate","(processIndexes c)[0]?.bind","(processIndexes c)[1]?.bind","C27","MainPool gives a sub pool")
m("Model/Config","firstIdle","then firstIdle self allocated as else .ok a","then .error .noIdleSlot else .ok a","C27","gives up at the first taken process")
m("Model/Config","firstIdle","if (allocated a).any (fun s => sameIdle s self) then","if (allocated a).any (fun s => s = self) ∧ as ≠ [] then","C27","last process given although taken")
m("Model/Config","choice","l[r % l.length]?","l[r % (l.length - 1)]?","C27","last element never chosen")
