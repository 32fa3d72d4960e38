M="Model/Lazy"
m(M,"importMod","n ∈ st.imported ∨ executes (w n).cls = false","executes (w n).cls = false","C93","a module's code is run at each import",tightened="import_runs_once")
m(M,"importMod","n :: st.imported⟩","st.imported⟩","C93","imports are not remembered",tightened="import_runs_once")
m(M,"importMod","(fun d e => d.registerLazy e.1 e.2)","(fun d e => d.registerLazy e.2 e.1)","C93","name and handler swapped while importing")
m(M,"loop","some .runtimeError)\n  | todo","none)\n  | todo","C93","no size check at the end (the last import may register)")
m(M,"loop","loop w size todo (i + 1) {","loop w size todo i {","C93","the first name is handled over and over")
m(M,"loop","st.d.register (.cls c) h }","st.d }","C93","names are resolved but not registered")
m(M,"loop","st.d.register (.cls c) h }","st.d.register (.cls h) c }","C93","class and handler swapped")
m(M,"loop","| .error e => (st, some e)","| .error _ => loop w size todo (i + 1) st","C93","failing names are skipped (the repair: broken_blocks must fail)")
m(M,"loop","| .error e => (st, some e)","| .error _ => (st, none)","C93","a failing name ends the loop quietly and all later names are lost")
m(M,"reload","({ st with d := { st.d with lazyH := [] } }, none)","(st, none)","C93","names are never forgotten")
m(M,"reload","| (st, some e) => (st, some e)","| (st, some e) => ({ st with d := { st.d with lazyH := [] } }, some e)","C93","names are forgotten although resolving failed")
m(M,"get","| (st, some e) => (st, .error e)","| (st, some _) => (st, .error .keyError)","C93","the import's error is hidden")
m(M,"get","inherit := st.d.inherit.set k h } }, .ok h)","inherit := st.d.inherit.set k 0 } }, .ok h)","C93","the cache holds a wrong handler")
m(M,"get","firstHandler st.d.handlers (chain mro k)","firstHandler st.d.handlers (chain mro k).reverse","C93","the most general class first")
m(M,"get","| none => (st, .error .keyError)","| none => (st, .ok 0)","C93","no KeyError")
m(M,"unregisterName","lazyH := d.lazyH.erase n, inherit := [] }","lazyH := [], inherit := [] }","C93","all waiting names are dropped")
m(M,"step","| .registerName n h => { st with d := st.d.registerLazy n h }","| .registerName n h => { st with d := if st.d.lazyH.get? n = none then st.d.registerLazy n h else st.d }","C93","the first registration of a name wins")
m(M,"reloadAll","| (st, some e) => (st.d :: ds, some e)","| (st, some _) => (st.d :: ds, none)","C93","a pool starts although names failed")
m(M,"reloadAll","| (ds', r) => (st.d :: ds', r)","| (ds', _) => (st.d :: ds', none)","C93","only the first dispatcher's failure counts")
M="Model/Dispatch"
m(M,"Disp.registerLazy","lazyH := d.lazyH.set name h","lazyH := [(name, h)]","C93","a name replaces all waiting names")
m(M,"chain","[.named n c, .cls c]","[.cls c, .named n c]","C93","the plain class before the named one")
