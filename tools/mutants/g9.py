M="Model/Front"
m(M,"hasSep","| ':' :: '/' :: '/' :: _ => true","| ':' :: '/' :: _ => true","C68","one slash is enough")
m(M,"schemeChar","|| c = '+' || c = '-' || c = '.'","|| c = '-' || c = '.'","C68","plus not allowed in schemes")
m(M,"urlScheme","pre.map Char.toLower","pre","C68","schemes case-sensitive")
m(M,"urlScheme","c.isAlpha && pre.all schemeChar","pre.all schemeChar","C68","schemes may start with a digit")
m(M,"urlScheme","c.isAlpha && pre.all schemeChar","c.isAlpha","C68","any characters in schemes")
m(M,"schemeOf","  if hasSep a then\n    match urlScheme a with","  if true then\n    match urlScheme a with","C68","host:port taken for scheme host")
m(M,"step.register","{ st with classes := st.classes.set s c }","{ st with classes := st.classes.set s c, contexts := st.contexts.erase s }","C68","the fix: registering forgets the context (one_context fails)")
m(M,"step.register","st.classes.set s c","if st.classes.has s then st.classes else st.classes.set s c","C68","first registration wins")
m(M,"step.use","match st.contexts.get? (schemeOf a) with\n    | some c => (st, .by c)","match st.contexts.get? none with\n    | some c => (st, .by c)","C68","default context for all schemes")
m(M,"step.use","st.contexts.set (schemeOf a) ⟨k, a⟩ }","st.contexts }","C68","a new context for every call")
m(M,"step.use","| none => (st, .keyError)","| none => ({ st with contexts := st.contexts.set (schemeOf a) ⟨0, a⟩ }, .keyError)","C68","an unknown scheme leaves a context")
m(M,"step.use","| .use none => (st, .valueError)","| .use none => (st, .keyError)","C68","wrong error without an address")
m(M,"actorUid","match if u.truthy then u else .bytes random with","match u with","C69","no default uid")
m(M,"actorUid","match if u.truthy then u else .bytes random with","match if u = .none then .bytes random else u with","C69","the fix: only None is replaced")
m(M,"Uid.truthy","| .bytes b => !b.isEmpty","| .bytes b => b.isEmpty","C69","bytes uids replaced")
m(M,"toStr","| some s => .ok (some s)\n    | Option.none => .error .decodeError","| some s => .ok (some s)\n    | Option.none => .ok Option.none","C69","undecodable address dropped")
m(M,"given","| some (_ :: _) => true","| some (_ :: _) => false","C69","address keyword ignored")
m(M,"proxyArg","| .list l => .ok (some l)","| .list _ => .ok Option.none","C69","proxies dropped")
m(M,"finish","| some .none => .error .valueError\n  | some u => .ok","| some u => .ok","C69","None accepted as uid")
m(M,"createRef","if kw.others then .error .valueError\n    else","if false then .error .valueError\n    else","C69","unknown keywords ignored")
m(M,"createRef","if given address then .error .valueError\n        else match toStr","if false then .error .valueError\n        else match toStr","C69","two addresses accepted")
m(M,"createRef","finish (if given address then address else a) (some (.bytes u)) p","finish a (some (.bytes u)) p","C69","address keyword ignored next to a reference")
m(M,"createRef","finish (if given address then address else a) (some (.bytes u)) p","finish (if given address then address else a) (some (.bytes u)) kw.proxies","C69","the fix: proxies of the keyword (those of the reference are lost)")
m(M,"createRef","| some p => match proxyArg p with\n              | .error e => .error e\n              | .ok l => finish address (some u) l","| some p => match proxyArg p with\n              | .error e => .error e\n              | .ok _ => finish address (some u) kw.proxies","C69","third argument ignored")
m(M,"createRef","| [x] => finish address (some x) kw.proxies","| [x] => finish address kw.uid kw.proxies","C69","single argument ignored")
m(M,"createRef","| _ => finish address kw.uid kw.proxies","| _ => finish address kw.uid Option.none","C69","proxy keyword ignored")
m(M,"group","(((acc.get? (schemeOf a)).getD []).set a r)","([(a, r)])","C68","only the last address of a scheme")
m(M,"group","| (none, _) :: _, _ => none","| (none, _) :: rest, acc => group rest acc","C68","None addresses skipped")
m(M,"callDrivers","((c, d) :: r.1, r.2)","(r.1 ++ [(c, d)], r.2)","C68","drivers called in reverse order",note="order of the driver calls is not part of the claim")
m(M,"callDrivers","| none => ([], false)","| none => callDrivers backends rest","C68","unknown schemes skipped")
m(M,"callDrivers","((c, d) :: r.1, r.2)","((c, d) :: (c, d) :: r.1, r.2)","C68","drivers called twice")
