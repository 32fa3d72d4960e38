M="Model/AioEvent"
m(M,"enter","if e ∈ on then .sure else .waiting e limit","if e ∈ on then .waiting e limit else .sure","C105","the flag is looked at the wrong way round")
m(M,"enter","if e ∈ on then .sure else .waiting e limit",".waiting e limit","C105","wait blocks although the event is set")
m(M,"wake","if e' = e then .woken e' else .waiting e' limit",".woken e'","C105","set of one event wakes the waits of others")
m(M,"wake","if e' = e then .woken e' else .waiting e' limit","if e' = e ∧ limit = false then .woken e' else .waiting e' limit","C105","waits with a time limit are not woken")
m(M,"answer","| .woken e => some (if mp e then decide (e ∈ on) else true)","| .woken e => some (decide (e ∈ on))","C105","a threading event answers with the flag at the end: a set that is undone at once is missed")
m(M,"answer","| .expired e => some (if mp e then decide (e ∈ on) else false)","| .expired _ => some true","C105","a wait whose time is over returns True")
m(M,"answer","| .waiting _ _ => none","| .waiting _ _ => some false","C105","a wait returns False at any time")
m(M,"answer","| .waiting _ _ => none","| .waiting _ _ => some true","C105","a wait returns True at any time")
m(M,"answer","| .woken e => some (if mp e then decide (e ∈ on) else true)","| .woken _ => some true","C105","mp_false_refuted is about this code: a multiprocessing event that woke a wait gives True")
m(M,"step",", busy := s.busy.map (fun x => (x.1, wake e x.2)) }"," }","C105","set notifies nobody")
m(M,"step","some { s with on := s.on.filter (· ≠ e) }","some s","C105","clear does nothing")
m(M,"step","some { s with on := s.on.filter (· ≠ e) }","some { s with on := [] }","C105","clear of one event clears all")
m(M,"step","on := s.on.insert e","on := s.on","C105","set does not set the flag")
m(M,"step","| some (.waiting e true) =>","| some (.waiting e _) =>","C105","waits without a time limit expire")
m(M,"step","if s.busy.length < n then","if s.busy.length ≤ n then","C105","exhausted_refuted is about this code: one thread more than the executor has")
m(M,"step","if s.busy.length < n then","if s.busy.length + 1 < n then","C105","one thread is never used")
m(M,"step","queue := rest, busy","busy","C105","a job stays in the queue when a thread takes it")
m(M,"step","busy := s.busy.erase j, results := if j ∈ s.gone then s.results else s.results ++ [(j, b)]","busy := s.busy.erase j, results := s.results ++ [(j, b)]","C105","a cancelled call returns")
m(M,"step","busy := s.busy.erase j, results := if j","results := if j","C105","the thread is not given back when a job ends")
m(M,"step","queue := s.queue.filter (· ≠ j), gone := j :: s.gone","gone := j :: s.gone","C105","a cancelled job stays in the queue and is run")
m(M,"step","else if s.busy.has j ∧ j ∉ s.gone then some { s with gone := j :: s.gone }","else if s.busy.has j ∧ j ∉ s.gone then some { s with busy := s.busy.erase j, gone := j :: s.gone }","C105","given_up_stays_refuted is about this code: the thread of a cancelled wait is given back")
m(M,"step","queue := s.queue ++ [j] }","queue := s.queue }","C105","a call is not handed to the executor")
