M="Model/Watch"
m(M,"defaults",'("actor_lock_timeout", some 30)','("actor_lock_timeout", some 0)',"C86","a wrong default",tightened="reload_one")
m(M,"reload","if v.text = \"0\" then some none","if v.text = \"\" then some none","C86","0 does not switch debugging off")
m(M,"reload","if given.all (fun kv => defaults.has kv.1) then","if true then","C86","unknown options are accepted")
m(M,"reload","(given.foldl (fun d kv => d.set kv.1 kv.2) defaults)","(given.foldl (fun d kv => d.set kv.1 kv.2) [])","C86","options that are not given have no default")
m(M,"period","(some (-1))","(some 1)","C86","unknown options warn after one second")
m(M,"period","if v > 0 then some v.toNat","if v ≥ 0 then some v.toNat","C86","a timeout of 0 warns at once")
m(M,"enter","now + p.getD 0","now","C86","the first warning comes at once")
m(M,"enter","⟨p, now, now, 1,","⟨p, now, now, 0,","C86","the second warning comes too early")
m(M,"step","if g.inside ∧ g.due ≤ g.now then","if g.due ≤ g.now then","C86","the task is not cancelled when the body ends")
m(M,"step","if g.inside ∧ g.due ≤ g.now then","if g.inside then","C86","warnings without waiting")
m(M,"step","due := g.now + t * (g.rnd + 1)","due := g.now + t","C86","warnings in equal distances")
m(M,"step","warned := g.warned ++ [g.now - g.start]","warned := g.warned ++ [g.now - g.due]","C86","the warning tells a wrong time")
m(M,"inside","a.isPrefixOf b || inside a t","a.isPrefixOf b","C86","filters match at the start only")
m(M,"splitSemi","if c = ';' then [] :: splitSemi t","if c = ';' then splitSemi t","C86","semicolons do not separate")
m(M,"pick","if v = 0 then d else v","v","C86","a limit of 0 counts")
m(M,"settings","some (pick interval (envInterval.getD (-1)), pick seconds (envSeconds.getD (pick interval (envInterval.getD (-1)))),","some (pick interval (envInterval.getD (-1)), pick seconds (envSeconds.getD (-1)),","C86","no default for the limit")
m(M,"settings","(if filters.isEmpty then splitSemi (envFilters.getD \"xoscar\".toList) else filters) ++ [","(if filters.isEmpty then splitSemi (envFilters.getD \"xoscar\".toList) else []) ++ [","C86","the filters given are ignored")
m(M,"settings"," ++ [\"asyncio_task_timeout_detector\".toList])"," ++ [])","C86","the detector reports itself")
m(M,"check","!t.done && decide","decide","C86","finished tasks are reported")
m(M,"check","≥ seconds","> seconds","C86","limit not reached yet at exactly the limit")
m(M,"check","(t.created.getD now : Int)","(t.created.getD 0 : Int)","C86","tasks made before the patch are as old as the clock")
m(M,"check","!filters.any","filters.any","C86","only excluded tasks are reported")
