M="Model/LazyMod"
m(M,"refused","isPrefixOf item","isSuffixOf item","C94","names ending in _pytest are refused",tightened="refused_items")
m(M,"refused","|| item == ['_', '_', 't', 'e', 's', 't', '_', '_']","","C94","__test__ imports the module",tightened="refused_items")
m(M,"refused","'_', 'p', 'y', 't', 'e', 's', 't'].is","'_', 'p', 'y'].is","C94","names beginning with _py are refused",tightened="refused_items")
m(M,"rebind","| some _ => { st with glob := some .real }","| some _ => st","C94","the name stays bound to the lazy object")
m(M,"rebind","| some _ => { st with glob := some .real }","| some b => if b = .lazy then { st with glob := some .real } else st","C94","a name bound to something else is left alone (the repair)")
m(M,"rebind","| some _ => { st with loc := some (some .real) }","| some _ => { st with glob := some .real }","C94","bound in globals instead of locals")
m(M,"addHook","(· ++ [h])","(h :: ·)","C94","hooks run in reverse order")
m(M,"addHook","(· ++ [h])","(fun _ => [h])","C94","only the last hook is kept")
m(M,"exec","if refused item then (st, .attributeError)","if refused item then (st, .importError)","C94","a refused item raises the wrong error",tightened="refused_items")
m(M,"exec","      | none => (st, .attributeError)\n      | some v => match exec prog env f (.loop st.cur 0) st with","      | none => match exec prog env f (.loop st.cur 0) st with | (st, .ok _) => (st, .attributeError) | r => r\n      | some v => match exec prog env f (.loop st.cur 0) st with","C94","hooks run although the attribute is missing")
m(M,"exec","({ st with lists := st.lists ++ [[]], cur := st.lists.length }, .ok v)","(st, .ok v)","C94","hooks run at every access")
m(M,"exec","exec prog env f (.loop st.cur 0) st with\n        | (st, .ok _) =>","exec prog env f (.loop st.cur 1) st with\n        | (st, .ok _) =>","C94","the first hook is skipped")
m(M,"exec","| (st, .ok _) => exec prog env f (.loop l (i + 1)) st\n      | r => r","| (st, .ok _) => exec prog env f (.loop l (i + 1)) st\n      | (st, .hookError) => exec prog env f (.loop l (i + 1)) st\n      | r => r","C94","errors of hooks are swallowed (the repair: raising_hook_refuted must fail)")
m(M,"exec","else if env.importable = false then (st, .importError)","else if env.importable = false then (rebind st, .importError)","C94","the name is rebound although the import failed")
m(M,"exec","else if env.importable = false then (st, .importError)","else if false then (st, .importError)","C94","failing imports are ignored")
m(M,"onLoad","if st.glob = some .lazy then addHook st h else st","addHook st h","C94","late hooks are registered (the repair: late_hook_refuted must fail)")
m(M,"lazyImport","if p ∈ found then .lazyModule","if p ∉ found then .lazyModule","C94","lazy for missing packages")
m(M,"lazyImport","if placeholder then .placeholder else .none","if placeholder then .none else .placeholder","C94","placeholder when not asked for")
m(M,"fresh","some .lazy, none, []⟩","some .lazy, none, [0]⟩","C94","a hook has run from the start")
m(M,"placeholderUse",": Out := .attributeError",": Out := .ok 0","C94","using a placeholder works")
