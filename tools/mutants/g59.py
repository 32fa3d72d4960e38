M="Model/NoLock"
m(M,"apply","| .fn _ => some (b, .fn true)","| .fn m => some (b, .fn m)","C103","no_lock does nothing to a function")
m(M,"apply","heap := b.heap ++ [⟨false, m, none⟩]","heap := b.heap ++ [⟨false, false, none⟩]","C103","extensible loses the mark of the function")
m(M,"apply","{ a with batch := some v }","{ a with batch := a.batch.orElse fun _ => some v }","C103","the first batch implementation is kept")
m(M,"apply","some ({ b with heap := b.heap.modify i fun a => { a with batch := some v } }, .acc i)","some ({ b with heap := b.heap.modify i fun a => { a with batch := some v } }, v)","C103","batch returns the function, not the accessor")
m(M,"apply","| .generator => some (b, .fn (b.markOf v))","| .generator => some (b, .fn false)","C103","generator loses the mark")
m(M,"resolve","    | some v => some (c, v)\n    | none => resolve r n","    | some v => (resolve r n).orElse fun _ => some (c, v)\n    | none => resolve r n","C103","base classes win over the class")
m(M,"hint","| .method m a => if m then true else a","| .method m a => m && a","C103","mark and actor attribute are both needed")
m(M,"hint","| .method m a => if m then true else a","| .method m _ => m","C103","the attribute of the actor is not looked at")
m(M,"hint","| .wrapperMethod m => m","| .wrapperMethod _ => false","C103","local batches do not look at __self__: they take the lock of a marked method")
m(M,"wrapperMark","a.single || (match","a.single && (match","C103","both functions must be marked")
m(M,"wrapperMark","a.single || (match a.batch with | some v => b.markOf v | none => false)","a.single","C103","the mark of the batch function is not looked at")
m(M,"wrapperMark","a.single || (match","a.mark || a.single || (match","C103","a mark on the accessor counts (a repair: the characterization must notice)")
m(M,"bodyLocked","| .plain => !stateless && !hint c","| .plain => !hint c","C103","stateless actors take a lock")
m(M,"bodyLocked","| .plain => !stateless && !hint c","| .plain => !stateless && hint c","C103","only marked methods take the lock")
m(M,"bodyLocked","| .asyncGen => !stateless)","| .asyncGen => !stateless && !hint c)","C103","marked async generators run without the lock (a repair)")
m(M,"define","names := b'.names.set s.1 v","names := b'.names.set s.1 (.fn false)","C103","the name is bound to the undecorated function")
