M="Model/Conns"
m(M,"held","x.2.thread == th && x.2.lockOf == lockOf","x.2.lockOf == lockOf","C76","one lock for all threads")
m(M,"held","x.2.thread == th && x.2.lockOf == lockOf && x.2.phase != .waiting","false","C76","no lock")
m(M,"held","x.2.thread == th && x.2.lockOf == lockOf && x.2.phase != .waiting","x.2.thread == th && x.2.lockOf == lockOf","C76","waiting counts as holding")
m(M,"listen","if c ∈ l then l else l ++ [c]","l","C76","replies not listened to")
m(M,"listen","if c ∈ l then l else l ++ [c]","[c]","C76","only the last connection listened to")
m(M,"give","reqs := s.reqs.erase tk, listened","reqs := s.reqs, listened","C76","lock kept")
m(M,"give","listened := listen s.listened c, ","","C76","_listen_client forgotten")
m(M,"begin_",".connecting (s.route x.key)",".connecting (s.route x.thread)","C76","wrong address")
m(M,"begin_",".connecting (s.route x.key)",".connecting x.key","C76","router not asked")
m(M,"step","s.cache.get? (x.thread, x.key) with                            -- 143-152","s.cache.get? (0, x.key) with","C76","cache shared between threads")
m(M,"step","if i.isOpen then some (give s tk c)","if true then some (give s tk c)","C76","closed connections used")
m(M,"step","if i.isOpen then some (give s tk c)","if !i.isOpen then some (give s tk c)","C76","test inverted")
m(M,"step","if i.isOpen then some (give s tk c)","if false then some (give s tk c)","C76","never reused")
m(M,"step","(begin_ { s with cache := s.cache.erase (x.thread, x.key) } tk x)","(begin_ s tk x)","C76","closed connection stays in the cache while connecting","the entry is overwritten afterwards; only `none_` notices")
m(M,"step","cache := s.cache.set (x.thread, x.key) s.next } tk s.next)","cache := s.cache } tk s.next)","C76","not cached")
m(M,"step","cache := s.cache.set (x.thread, x.key) s.next } tk s.next)","cache := s.cache.set (x.key, x.thread) s.next } tk s.next)","C76","key swapped")
m(M,"step","⟨x.thread, x.key, d, true⟩","⟨x.thread, x.key, s.route x.key, true⟩","C76","address looked up after connecting (a fix)")
m(M,"step","| some _ => some { s with reqs := s.reqs.erase tk }","| some _ => some s","C76","failed connect keeps the lock")
m(M,"step","{ i with isOpen := false }","{ i with isOpen := true }","C76","connections reopen")
m(M,"step","epoch := s.epoch + 1, cache := [] }","epoch := s.epoch + 1 }","C76","cache kept at a change of the router")
m(M,"step","if x.phase = .waiting ∧ held s x.thread x.lockOf = false then","if x.phase = .waiting then","C76","lock not taken")
m(M,"step","⟨th, k, s.epoch, .waiting⟩","⟨th, k, 0, .waiting⟩","C76","lock not replaced at a change of the router")
