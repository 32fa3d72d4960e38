m("Model/Lru","step.closeWaited","if s.closing ∧ s.tasks = [] then","if s.closing then","C39","close does not wait for the evaluations",tightened="Lru.close_waits")
m("Model/Lru","step.finish","evals := s.evals.set e ⟨k, some r⟩, tasks := s.tasks.filter (· ≠ e)","evals := s.evals.set e ⟨k, some r⟩","C39","finished evaluations stay in tasks",tightened="Lru.close_waits")
m("Model/Lru","step.invalidate","some { s with cache := s.cache.erase k } ","some s ","C39","invalidate does nothing",tightened="Lru.after_invalidate")
m("Model/Lru","clear","{ s with hits := 0, misses := 0, cache := [], tasks := [] }","{ s with hits := 0, misses := 0, tasks := [] }","C39","clear keeps the entries",tightened="Lru.after_clear")
m("Model/Gen","step.destroy","some { s with table := s.table.filter (· ≠ g) } else none","some s else none","C40","destroy does nothing",tightened="Gen.destroyed_refused")
m("Model/Dummy","step.wake","some (c.setOut s.other ⟨rest, (c.out s.other).waiting.filter (· ≠ r)⟩, [⟨s, .got m⟩])","some (c.setOut s.other ⟨rest, (c.out s.other).waiting⟩, [⟨s, .got m⟩])","C51","a recv gets two messages",tightened="Dummy.wake_once")
m("Model/Dummy","wstep.begin","some ({ w with links := w.links.set c ⟨s, .running, true, cl⟩ }, .none)","some ({ w with links := w.links.set c ⟨s, .running, false, cl⟩ }, .none)","C51","channels not registered",tightened="Dummy.running_registered")
m("Model/Dummy","wstep.close","{ l with closed := true, task := .ended }","{ l with closed := true }","C51","handler task survives the close of its client",tightened="Dummy.close_ends")
m("Model/Recovery","step.check","| .actor => some { s with mon := .restarting d }","| .actor => some { s with slots := some [], mon := .restarting d }","C45","actor mode forgets its actors before the restart",tightened="Recovery.records_kept")
m("Model/Recovery","step.restarted","let s := { s with up := true, noticed := false, actors","let s := { s with up := true, actors","C45","the return code stays: the pool is taken for dead again",tightened="Recovery.restarted_up")
