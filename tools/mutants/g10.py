M="Model/Refs"
m(M,"create","match k with\n        | .buffer => { s p with buffers := (s p).buffers.set (a, u) o }\n        | .file => { s p with files := (s p).files.set (a, u) o }","{ s p with buffers := (s p).buffers.set (a, u) o }","C70","one registry for both kinds, files in the buffers' one")
m(M,"create","buffers := (s p).buffers.set (a, u) o","buffers := (s p).buffers.set (a, 0) o","C70","uid forgotten in the key")
m(M,"create","files := (s p).files.set (a, u) o","files := (s p).files.set (\"\", u) o","C70","address forgotten in the key")
m(M,"create","if q = p then\n        match k","if true then\n        match k","C70","registered in every process")
m(M,"create","  if weakly o then\n    (fun q","  if true then\n    (fun q","C70","objects without weak references accepted")
m(M,"create","else (s, .typeError)","else (s, .ref ⟨k, a, u⟩)","C70","refusal not reported")
m(M,"create",".ref ⟨k, a, u⟩)\n",".ref ⟨k, a, u + 1⟩)\n","C70","wrong reference handed out")
m(M,"die","{ buffers := (s p).buffers.filter (fun e => e.2 != o), files","{ buffers := (s p).buffers, files","C70","buffers kept by the registry (strong references)")
m(M,"die","files := (s p).files.filter (fun e => e.2 != o) }","files := [] }","C70","one file's end forgets all files")
m(M,"die","buffers := (s p).buffers.filter (fun e => e.2 != o)","buffers := (s p).buffers.filter (fun e => e.2 == o)","C70","filter inverted")
m(M,"lookup","| .file => (s p).files.get?","| .file => (s p).buffers.get?","C70","files looked up among the buffers")
m(M,"lookup","| .buffer => (s p).buffers.get? (r.addr, r.uid)","| .buffer => (s p).buffers.get? (r.addr, r.uid + 0 * r.uid) <|> (s p).files.get? (r.addr, r.uid)","C70","buffers also found among files (the mixed list would be written)")
m(M,"handleBuffers","match lookup s p ⟨.buffer, a, e.uid⟩ with","match lookup s p ⟨.file, a, e.uid⟩ with","C70","handlers swapped")
m(M,"handleBuffers","(h o).drop (e.start + e.len)","(h o).drop e.len","C70","wrong rest kept")
m(M,"handleBuffers","(h o).take e.start ++ e.data","e.data","C70","start ignored")
m(M,"handleBuffers","      else (h, false)","      else (h.put o e.data, true)","C70","too long data replaces the buffer",note="resizing write; C70 speaks only of buffers that are large enough, copy_touches_only still true")
m(M,"handleFiles","h o ++ e.2","e.2","C70","files overwritten")
m(M,"handleFiles","match lookup s p ⟨.file, a, e.1⟩","match lookup s p ⟨.buffer, a, e.1⟩","C70","handlers swapped")
m(M,"handleFiles","| some o => handleFiles s p a (h.put o (h o ++ e.2)) es","| some o => (h.put o (h o ++ e.2), true)","C70","only the first entry written")
m(M,"leadingBuffers","(r.uid, b) :: leadingBuffers xs","leadingBuffers xs","C70","first pair dropped")
m(M,"leadingFiles","| (.file ds, r) :: xs => (r.uid, ds) :: leadingFiles xs","| (.file ds, r) :: xs => leadingFiles xs ++ [(r.uid, ds)]","C70","files sent in reverse order",note="harmless: different files")
m(M,"copyBuffers",".sent.foldl (fun h b => (handleBuffers s p a h b).1) h, .typeError)",".sent.foldl (fun h b => (handleBuffers s p a h b).1) h, .returned)","C70","a file among buffers silently ends the copy")
m(M,"copyFiles",", .attributeError)",", .returned)","C70","a buffer among files silently ends the copy")
m(M,"copyTo","| .valueError, _ => (h, .valueError)","| .valueError, _ => (h, .returned)","C70","nothing to transfer is a success")
m(M,"copyTo","| none => (h, .noConnection)","| none => (h, .returned)","C70","no listener is a success")
m(M,"copyTo","| .buffer => copyBuffers s p r.addr bs (locals.zip refs) h","| .buffer => copyFiles s p r.addr bs (locals.zip refs) h","C70","paths swapped")
m(M,"copyTo","| .buffer => copyBuffers s p r.addr bs (locals.zip refs) h","| .buffer => copyBuffers s p r.addr bs (locals.zip refs.reverse) h","C70","references reversed")
m(M,"step","| .die p o => die s p o","| .die _ _ => s","C70","objects never leave")
m(M,"step","(create weakly s p k a u o).1","(create weakly s (p + 1) k a u o).1","C70","wrong process")
