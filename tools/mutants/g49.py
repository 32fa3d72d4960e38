M="Model/Router"
m(M,"Router.dest","      | some p => if r.externalAddress = some p then ext else p","      | some p => p","C29","a pool connects to itself as proxy",tightened="dest_exact")
m(M,"step","    else if cached then\n","    else if true then\n","C29","a client asked for without the cache comes from it",tightened="uncached_connects")
m(M,"step","        cache := if p.cached then s.cache.set (p.thread, p.key) s.clients.length else s.cache","        cache := s.cache.set (p.thread, p.key) s.clients.length","C29","a private client is put into the cache",tightened="uncached_private")
m(M,"Router.dest","      | some p => p\n      | none => last","      | some _ => last\n      | none => last","C29","the proxy of the last proxy is not used",tightened="dest_exact")
