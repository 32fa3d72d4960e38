M = "Model/Forward"
m(M, "ctlMain", "if p.autoRecover then .wait a", "if True then .wait a", "C58", "the main pool lets callers wait for a recovery that never comes", tightened="thm wait_recovered_main_pool")
m(M, "World.waitRecovered", "if addr = mainA then some ⟨[], none, some (i, .true_)⟩", "if False then some ⟨[], none, some (i, .true_)⟩", "C58", "also for the main pool itself a message is sent", tightened="thm wait_recovered_self")
M = "Model/Gen"
m(M, "running", "if isAsync then ⟨\"RuntimeError\", \"anext()", "if False then ⟨\"RuntimeError\", \"anext()", "C40", "async and plain generators fail alike", tightened="thm concurrent_next")
m(M, "step create", "    if free stateless s then\n      some { s with objs", "    if True then\n      some { s with objs", "C40", "a generator method starts while the lock is held", tightened="thm one_at_a_time")
m(M, "step cancel", "      if g ∈ s.waiting then\n        some { s with objs := s.objs.set g (interrupted p)", "      if True then\n        some { s with objs := s.objs.set g (interrupted p)", "C40", "an answer for a request that is not there", tightened="thm one_answer")
m(M, "step destroy", "| .destroy g => if free stateless s then", "| .destroy g => if True then", "C40", "destruction does not wait for the lock", tightened="thm one_at_a_time")
m(M, "step ready", "        if g ∈ s.waiting then\n          some { s with objs := s.objs.set g (advance p).1", "        if True then\n          some { s with objs := s.objs.set g (advance p).1", "C40", "items of cancelled requests are delivered too")
M = "Model/Wrap"
m(M, "step send", "      if isAt w then\n        some { s with wraps := (s.wraps.set i", "      if True then\n        some { s with wraps := (s.wraps.set i", "C73", "a wrapper under way is handed on", tightened="thm used_after_arrival")
m(M, "step lose", "| some w => if isAt w then none else some { s with wraps := s.wraps.erase i }", "| some w => if False then none else some { s with wraps := s.wraps.erase i }", "C73", "a wrapper is lost after it arrived", tightened="thm arrives_once")
m(M, "step arrive", "if isAt w then none else some { s with wraps := s.wraps.set i { w with place := .at p } }", "if False then none else some { s with wraps := s.wraps.set i { w with place := .at p } }", "C73", "a wrapper arrives twice", tightened="thm arrives_once")
m(M, "step drop", "| some w => if isAt w then some { s with gen := del s w ok", "| some w => if True then some { s with gen := del s w ok", "C73", "a wrapper is collected before it arrived", tightened="thm used_after_arrival")
M = "Model/Local"
m(M, "getLocalActor", "else if w.poolAlive then w.actors.get? u", "else if True then w.actors.get? u", "C67", "references to a pool that is gone", tightened="thm pool_gone")
m(M, "remoteTell", "if hidden name then ⟨some .attributeError, none⟩", "if False then ⟨some .attributeError, none⟩", "C67", "a message to a hidden method is dropped silently", tightened="thm remote_tell_hidden")
M = "Model/Dummy"
m(M, "step cancel", "    if r ∈ (c.out s.other).waiting then\n      some", "    if False then\n      some", "C51", "a waiting recv cannot be cancelled", tightened="thm cancel_frees")
M = "Model/Lazy"
m(M, "reloadAll", "| (st, some e) => (st.d :: ds, some e)", "| (st, some e) => (ds, some e)", "C93", "a dispatcher is lost when a reload fails", tightened="thm reload_all_keeps")
m(M, "reloadAll", "| (ds', r) => (st.d :: ds', r)", "| (ds', r) => (ds', r)", "C93", "reloaded dispatchers are lost", tightened="thm reload_all_settles")
m(M, "reloadAll", "| (ds', r) => (st.d :: ds', r)", "| (ds', r) => (d :: ds', r)", "C93", "the reload has no effect", tightened="thm reload_all_settles")
