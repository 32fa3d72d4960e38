M="Model/Gpu"
m(M, "fork", "def fork (st : St) (pid : Nat) : St := { st with pid := pid }", "def fork (st : St) (pid : Nat) : St := { st with pid := pid, infos := [] }", "C92", "a child forgets the parent's devices", tightened="thm status_stale_refuted")
m(M, "getInfo", "  | some x => (st, .ok (some x))\n  | none =>\n    let st := initAll st w", "  | some x => if st.initPid = some st.pid then (st, .ok (some x)) else (st, .error .cuda)\n  | none =>\n    let st := initAll st w", "C92", "the cache only in the process that filled it", tightened="thm status_stale_refuted")
