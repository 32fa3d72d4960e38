M="Model/UcxInit"
m(M,"splitDash","if c = '-' then [] :: splitDash t","if c = '_' then [] :: splitDash t","C104","names are split at underscores")
m(M,"keyOf",".map (·.map Char.toUpper)",".map (·.map id)","C104","names of settings are not upper-cased")
m(M,"joinUnder","w ++ '_' :: joinUnder ws","w ++ joinUnder ws","C104","the words are joined without underscore")
m(M,"tls","if c.nvlink || c.cudaCopy then t","if c.nvlink && c.cudaCopy then t","C104","cuda_copy needs both flags")
m(M,"tls","if c.infiniband then ['i', 'b', ','] ++ t","if c.infiniband then t ++ [',', 'i', 'b']","C104","ib is put last")
m(M,"tls","if c.nvlink then t ++ [',', 'c', 'u', 'd', 'a', '_', 'i', 'p', 'c'] else t","t","C104","cuda_ipc is never added")
m(M,"options","if c.tcp || c.nvlink || c.infiniband then","if c.tcp || c.infiniband then","C104","nvlink alone does not count as a high level setting")
m(M,"options","if c.tcp || c.nvlink || c.infiniband then","if c.tcp || c.nvlink || c.infiniband || c.cudaCopy then","C104","cuda-copy alone sets the transports")
m(M,"envsLoop","(envs.set (keyOf k) v)","(if envs.has (keyOf k) then envs else envs.set (keyOf k) v)","C104","the first of two entries with one name wins")
m(M,"ucxTls","(env.get? UCX_TLS).getD (((options c env).get? TLS).getD (((envs c env).get? UCX_TLS).getD []))","((options c env).get? TLS).getD ((env.get? UCX_TLS).getD (((envs c env).get? UCX_TLS).getD []))","C104","the high level settings come before the external environment")
m(M,"ucxTls","(((envs c env).get? UCX_TLS).getD [])","[]","C104","UCX_TLS in ucx.environment is not looked at")
m(M,"wantsContext","&& !inside ['^', 'c', 'u', 'd', 'a'] (ucxTls c env)","","C104","excluded cuda counts as cuda")
m(M,"wantsContext","c.createContex || (inside","c.createContex && (inside","C104","asking outright is not enough")
m(M,"init","if p.inited then (.done, p)\n","if false then (.done, p)\n","C104","UCX is initialised again and again")
m(M,"init","then (.importError, p)","then (.importError, { p with inited := true })","C104","marked as initialised before the context is there")
m(M,"init","if wantsContext c env && !numba then (.importError, p)\n    else\n      let p := if wantsContext c env then","if false then (.importError, p)\n    else\n      let p := if wantsContext c env && numba then","C104","without Numba, no context and no error")
m(M,"init","let p := { p with pyEnv := env }\n","","C104","os.environ is not restored")
m(M,"init","      let p := { p with pyEnv := env }\n      if works then (.done, { p with inited := true }) else (.ucxError, p)","      if works then (.done, { p with inited := true, pyEnv := env }) else (.ucxError, p)","C104","os.environ is restored on success only")
m(M,"init","{ p with inits := p.inits ++ [([], p.cEnv)] }","{ p with inits := p.inits ++ [(options c env, p.cEnv)] }","C104","settings_refuted is about this code: options are passed on")
m(M,"init","{ p with pyEnv := env.update e }","{ p with pyEnv := env.update e, cEnv := env.update e }","C104","the C environment is changed and not restored")
m(M,"init","if works then (.done, { p with inited := true }) else (.ucxError, p)","if works then (.done, { p with inited := true }) else (.ucxError, { p with inited := true })","C104","after a failure UCX counts as initialised")
m(M,"init","if works then (.done, { p with inited := true })","if works then (.done, p)","C104","never marked as initialised")
m(M,"reset","{ p with inited := false }","p","C104","reset has no effect")
