M="Model/Procs"
m(M,"signalChild","if w.runs t p then [⟨t, p, s⟩] else []","[⟨t, p, s⟩]","C71","signals to ended children")
m(M,"killByPid","(w.descendants t q).map (fun c => ⟨t, c, .kill⟩) ++ [⟨t, q, .kill⟩]","[⟨t, q, .kill⟩]","C71","tree not killed")
m(M,"killByPid","++ [⟨t, q, .kill⟩]","","C71","only the descendants killed")
m(M,"killByPid","match w.holder t pid with","match w.holder (t - 1) pid with","C71","looked up before the wait")
m(M,"killSubPool","let force' := force || w.runs (t + 1) p","let force' := force","C71","no kill after an ignored SIGTERM")
m(M,"killSubPool","let force' := force || w.runs (t + 1) p","let force' := true","C71","always killed",note="equivalent: kill() of an ended child does nothing")
m(M,"killSubPool","let termed := if force then [] else signalChild w t p .term","let termed := if force then [] else signalChild w t p .kill","C71","SIGKILL instead of SIGTERM")
m(M,"killSubPool","let termed := if force then [] else signalChild w t p .term","let termed := signalChild w (t + 1) p .kill","C71","killed at once")
m(M,"killSubPool","signalChild w (t + 1) p .kill else []","signalChild w (t + 1) p .term else []","C71","second SIGTERM instead of SIGKILL")
m(M,"killSubPool","killByPid w (t + 2) (w.pid p)","[]","C71","the fix: nobody is killed by pid")
m(M,"killSubPool","+ 5 + 2⟩","+ 50 + 2⟩","C71","waits longer")
m(M,"stopSubPool","if force then .ok (killSubPool w t p true)","if force then .ok (killSubPool w t p false)","C71","force only terminates",note="still ends the process (SIGTERM then SIGKILL); only slower: limit 9 s instead of 7")
m(M,"stopSubPool","| .timeout => go true","| .timeout => .raised","C71","time limit raises, process left")
m(M,"stopSubPool","| .lost => go true","| .lost => .raised","C71","lost connection raises, process left")
m(M,"stopSubPool","| .reply => go false","| .reply => .ok ⟨[], t + 1, limit⟩","C71","process not killed after a reply")
m(M,"stopSubPool","| .reply => go false","| .reply => go true","C71","killed although it answered")
m(M,"stopSubPool","| .other => .raised","| .other => go true","C71","the fix: other failures kill too")
m(M,"stopSubPool","timeout.getD 2","timeout.getD 20","C71","longer default time limit")
m(M,"stopSubPools","(ps.filter (w.runs t)).map","(ps.filter (fun p => !w.runs t p)).map","C71","only dead ones stopped")
m(M,"stopSubPools","(ps.filter (w.runs t)).map","((ps.filter (w.runs t)).take 1).map","C71","only the first stopped")
m(M,"stopRaises","rs.any (fun r => r.2 == .raised)","rs.all (fun r => r.2 == .raised)","C71","raises only if all do")
m(M,"Entry.found","| .none => false\n  | _ => true","| .running _ => true\n  | _ => false","C71","the fix: zombies count as gone")
m(M,"Watch.look","| .new, e => if e.found then .watching else .failed","| .new, e => if e.found then .watching else .stopped","C71","the fix: gone before the first look")
m(M,"Watch.look","| .watching, e => if e.found then .watching else .stopped","| .watching, _ => .watching","C71","never stops")
m(M,"Watch.look","| .watching, e => if e.found then .watching else .stopped","| .watching, e => if e.found then .stopped else .watching","C71","stops while the main process runs")
m(M,"Watch.look","  | s, _ => s","  | _, e => if e.found then .watching else .stopped","C71","a stopped one watches again")
m(M,"ppidEnds","es.any (fun e => !e.found)","es.all (fun e => !e.found)","C71","second watcher ends only if never found")
