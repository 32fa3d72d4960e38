M="Model/Linear"
m(M,"step","if st.holder = none then some ({ st with holder := some c }.went","if st.holder ≠ some c then some ({ st with holder := some c }.went","C83","the lock does not exclude")
m(M,"step","if st.holder = none then some ({ st with holder := some c }.went c k (code.start k.arg st.actor)) else none","if st.holder = none then some (st.went c k (code.start k.arg st.actor)) else none","C83","the lock is not taken")
m(M,"step","        if k.locked then\n","        if !k.locked then\n","C83","the lock hint is inverted")
m(M,"St.went","  | (s, .inl l) => { st with actor := s, coros","  | (s, .inl l) => { st with actor := s, holder := none, coros","C83","the lock is released at the first await")
m(M,"St.went","holder := if st.holder = some c then none else st.holder,","","C83","the lock is never released")
m(M,"St.went","  | (s, .inr r) => { st with actor := s, coros","  | (_, .inr r) => { st with coros","C83","the last part of a method does not change the actor")
m(M,"St.went","  | (s, .inl l) => { st with actor := s,","  | (_, .inl l) => { st with","C83","the part before an await does not change the actor")
m(M,"step","some { st with calls := st.calls.set c { k with seen := .got r } }","some { st with calls := st.calls.map fun p => if p.2.seen matches .waiting then (p.1, { p.2 with seen := .got r }) else p }","C83","a reply answers every waiting call")
m(M,"step","      | .replied none, .waiting => some { st with calls := st.calls.set c { k with seen := .failed } }","      | .lost, .waiting => some { st with calls := st.calls.set c { k with seen := .failed } }","C83","a refusal never reaches the caller",note="progress of refused calls is not claimed")
m(M,"step","    | some k, none => if k.phase matches .arrived then some (st.phase c k (.replied none)) else none","    | some k, none => if k.phase matches .arrived then some (st.phase c k .sent) else none","C83","a cancelled call is delivered again")
m(M,"step","    | some k, some l => if k.phase matches .running then some (st.went c k (code.resume l code.cancelled st.actor)) else none","    | some k, some l => if k.phase matches .running then some { st with holder := none, coros := st.coros.erase c, calls := st.calls.set c { k with phase := .replied none } } else none","C83","a cancelled method counts as never run")
m(M,"step","    | some k, some l => if k.phase matches .running then some (st.went c k (code.resume l i st.actor)) else none","    | some k, some l => if k.phase matches .running then some (st.went c k (code.start k.arg st.actor)) else none","C83","after an await the method begins anew")
m(M,"step","if st.calls.has c then none else some","if false then none else some","C83","message ids are used twice")
m(M,"step","    | some k => if k.phase matches .sent then some (st.phase c k .arrived) else none","    | some k => if k.phase matches .sent | .replied _ then some (st.phase c k .arrived) else none","C83","an answered call is run again")
m(M,"step","    | some k => if k.phase matches .arrived then some (st.phase c k (.replied none)) else none\n    | none => none\n  | .lose","    | some k => if k.phase matches .arrived | .running then some (st.phase c k (.replied none)) else none\n    | none => none\n  | .lose","C83","a call under way is refused")
m(M,"step","if k.phase matches .sent | .replied _ then some (st.phase c k .lost)","if k.phase matches .sent | .replied _ then some (st.phase c k .sent)","C83","a lost reply makes the call be sent again")
m(M,"step","      | .replied (some r), .waiting =>","      | .replied (some r), .failed =>","C83","results reach only those who gave up")
m(M,"step","(code.start k.arg st.actor)) else none\n        else some","(code.start k.arg st.actor)) else some st\n        else some","C83","a step that does nothing",note="equivalent: no such step changes anything")
M="Model/Lru"
m(M,"clear","hits := 0, misses := 0, cache := [], tasks := [] }","hits := 0, misses := 0, cache := [] }","C39","clear keeps the evaluations under way",tightened="close_after_clear_refuted open_close")
m(M,"step","if s.closed ∧ s.hits = 0 ∧ s.misses = 0","if s.closed ∨ s.hits = 0 ∧ s.misses = 0","C39","open works on an open cache",tightened="open_close")
m(M,"step","s.misses = 0 ∧ s.tasks = [] ∧ s.cache = [] then some { s with closed := false }","s.misses = 0 then some { s with closed := false }","C39","open while evaluations are under way",tightened="open_close")
m(M,"step","closing := s.closing ++ [if cancel then [] else s.tasks],","","C39","close does not wait",tightened="close_waits close_ends")
m(M,"step","closing := s.closing ++ [if cancel then [] else s.tasks],","closing := s.closing ++ [s.tasks.drop 1],","C39","close waits for all but one",tightened="close_waits")
m(M,"step","    if s.closed then none\n","    if ¬ s.closed then none\n","C39","only a closed cache can be closed",tightened="open_close")
m(M,"step","if es.all (ended s) then","if es.any (ended s) then","C39","close waits for the first evaluation",tightened="close_waits")
m(M,"step","{ clear s with closing := s.closing.eraseIdx i }","{ s with closing := s.closing.eraseIdx i }","C39","close does not clear",tightened="close_waits")
m(M,"ended","  | some ⟨_, some _⟩ => true\n  | _ => false","  | some ⟨_, some (.ok _)⟩ => true\n  | _ => false","C39","close waits forever for a failed evaluation",tightened="close_ends")
m(M,"step","some { s with closed := false } else none","some s else none","C39","open does not open",tightened="open_close")
M="Model/Router"
m(M,"St.reset",", epoch := s.epoch + 1 }"," }","C29","the lock survives a change of routes",tightened="lock_fresh")
m(M,"step","p.thread = t ∧ p.epoch = s.epoch","p.thread = t ∨ p.epoch = s.epoch","C29","one lock for all threads",tightened="lock_per_thread")
m(M,"step","p.thread = t ∧ p.epoch = s.epoch","p.thread = t ∧ p.epoch < s.epoch","C29","the lock excludes nothing",tightened="lock_taken")
m(M,"step","  | .add o => some (s.reset (s.router.add o))","  | .add o => some (s.reset (s.router.remove o))","C29","add removes",tightened="add_remove_live")
m(M,"step","  | .remove o => some (s.reset (s.router.remove o))","  | .remove o => some (s.reset (s.router.add o))","C29","remove adds",tightened="add_remove_live")
M="Model/Pool"
m(M,"finishTask","  | .other, o => some (s.reply t mid (.error o.err))\n","","C48","errors of control messages are never answered",tightened="any_outcome")
M="Model/Calls"
m(M,"CallRes.isRaise","  | .value _ | .noneValue => false\n  | _ => true","  | .value _ | .noneValue => false\n  | _ => false","C18","errors in a batch become results",tightened="batch_single_impl_fail batch_single_impl_fail_async")
m(M,"manyRes","  | .err e => .raised (.err e)","  | .err e => .noneValue","C18","the error of a batch implementation is lost",tightened="batch_whole_list")
m(M,"firstOf","else .typeError\n  | .err e => .err e","else .typeError\n  | .err e => if isAsync then .noneValue else .typeError","C18","the error of a batch implementation is lost in single calls",tightened="single_via_batch")
m(M,"firstOf","  | .list [] => .indexError","  | .list [] => .noneValue","C18","no result becomes None",tightened="single_via_batch")
m(M,"unpickleRef","if localHere then ⟨a.address, a.uid, [], true⟩ else ⟨a.address, a.uid, a.proxies, false⟩","if localHere then ⟨a.address, a.uid, [], false⟩ else ⟨a.address, a.uid, a.proxies, true⟩","C36","references elsewhere become local",tightened="unpickle_local")
m(M,"toStr","  | .other => .error ()\n\n/-- `_utils.pyx:126","  | .other => .ok none\n\n/-- `_utils.pyx:126","C36","to_str turns anything into None",tightened="toStr_total")
m(M,"toStr","    | none => .error ()","    | none => .ok none","C36","to_str turns invalid bytes into None",tightened="toStr_total")
m(M,"toBinary","  | .none => .ok none\n  | .other => .error ()\n\n/-- core","  | .none => .error ()\n  | .other => .error ()\n\n/-- core","C36","to_binary refuses None",tightened="toBinary_total")
m(M,"mkRefStr","⟨address, uid.toUTF8, proxies, false⟩","⟨address, uid.toUTF8, proxies, true⟩","C36","made references are local",tightened="made_remote")
