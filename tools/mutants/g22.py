M="Model/Wait"
m(M,"wait","    | .exc n => (true, .exc n)","    | .exc _ => (true, .cancelledError)","C46","a failed cancel request is reported as CancelledError",tightened="cancel_request_failed")
m(M,"wait","      | .cancelled => (true, .cancelledError)","      | .cancelled => (true, process f)","C46","a second cancellation is ignored",tightened="cancelled_twice")
M="Model/Life"
m(M,"step","some (s.setCall c o (if ok then .returned else .raised))","some (s.setCall c o (if ok then .raised else .returned))","C49","start succeeds when a server failed to start",tightened="start_outcome")
m(M,"step","      if ok then some ((setStopped { s with servers := [] } c).setCall c o .returned)\n      else some ((setStopped s c).setCall c o .raised)","      if ok then some ((setStopped s c).setCall c o .raised)\n      else some ((setStopped { s with servers := [] } c).setCall c o .returned)","C49","stop succeeds when stopping a server failed",tightened="stop_outcome")
m(M,"step","      else some ((setStopped s c).setCall c o .raised)","      else some ((setStopped { s with servers := [] } c).setCall c o .raised)","C49","a failed stop forgets the servers",tightened="stop_outcome")
M="Model/Transport"
m(M,"View.ofBytes","rowBytes := 1,","rowBytes := 2,","C56","bytes objects are sliced two at a time",tightened="ofBytes_isBytes")
m(M,"Ev.ok","taken = some n → n ≤ v.bytes.length","taken = some n → n < v.bytes.length","C56","the socket never takes a whole buffer",tightened="all_can_be_sent")
m(M,"Ev.ok","| .flush n => n ≤","| .flush n => n <","C56","the socket never takes the whole queue",tightened="all_can_be_sent")
M="Model/Ports"
m(M,"scan","scan occ rest (idx - 1)","scan occ rest (idx - 2)","C34","every second free port is skipped",tightened="getNextPort_any")
M="Model/ErrSer"
m(M,"unpickleableText",'error type: " ++ type ++ ", raw','error type: " ++ text ++ ", raw',"C57","the class of the error is left out",tightened="unpicklable_arrives")
m(M,"unpickleableText",' ++ ", raw error:\\n" ++ text',' ++ ", raw error:\\n"',"C57","the text of the error is left out",tightened="unpicklable_arrives")
m(M,"serialError","      | .error y => .error y\n      | .ok s =>","      | .error _ => .error x\n      | .ok s =>","C57","the cause reported is the pickling error",tightened="unsendable_iff")
m(M,"failureText",'Caused by " ++ sx ++ ". See','Caused by " ++ ". See',"C57","the cause is left out of the report on a result",tightened="bad_result_reported")
m(M,"failureText",'Original error: " ++ se)','Original error: " ++ sx)',"C57","the cause instead of the original error",tightened="send_failure_reported")
M="Model/Collective"
m(M,"newGroup","a.backend = gloo ∨ a.backend = nccl","a.backend = gloo ∧ a.backend = nccl","C47","no backend makes groups",tightened="group_made_iff")
m(M,"newGroup","        if connected then","        if !connected then","C47","a group whose members could not be connected is kept",tightened="group_made_iff")
M="Model/Dispatch"
m(M,"Disp.registerLazy","  { d with lazyH := d.lazyH.set name h }","  d","C37","dotted-name registrations are lost",tightened="registerLazy_used")
M="Model/Caller"
m(M,"St.step","""    else if id ∈ s.table then
      match s.futs.get? id with
      | some .pending => { s with table := s.table.filter (· ≠ id), futs := s.futs.set id (.exc""","""    else if id ∉ s.table then
      match s.futs.get? id with
      | some .pending => { s with table := s.table.filter (· ≠ id), futs := s.futs.set id (.exc""","C21","an undecodable reply crashes the listener",tightened="bad_reply_delivered")
M="Model/Directory"
m(M,"hasActorSub","Bool := (a, u) ∈ s.live","Bool := (a, u) ∉ s.live","C25","has_actor at a sub pool is wrong",tightened="actor_ref_exact_partial")
