m("Model/Local","hidden","name.toList.head? = some '_' && !(","name.toList.head? = some '_' || !(","C67","public names are hidden")
m("Model/Local","hidden","name.toList.head? = some '_' && !(name = \"__xoscar_next__\" || name = \"__xoscar_destroy_generator__\")","false","C67","private methods can be called through a reference")
m("Model/Local","hidden","&& !(name = \"__xoscar_next__\" || name = \"__xoscar_destroy_generator__\")","","C67","the generator methods are hidden")
m("Model/ActorLock","W.done","  | .pending => false\n  | _ => true","  | .pending => true\n  | _ => true","C15","a pending waiter counts as done")
m("Model/Recovery","recovering","  | .idle => false\n  | _ => true","  | .idle => false\n  | _ => false","C45","a recovery in progress is not seen")
m("Model/Router","isOpen","  | some k => !k.closed","  | some k => k.closed","C29","a closed connection counts as open")
m("Model/Venv","Node.there","  | .absent => false\n  | _ => true","  | .absent => true\n  | _ => true","C99","what is absent is there")
m("Model/Venv","existsEnv","| .dir cfg _ _ => cfg","| .dir _ _ _ => true","C99","any directory is an environment")
m("Model/Watch","inside","a.isPrefixOf b || inside a t","a.isPrefixOf b","C86","only prefixes count as inside")
m("Model/Stats","callLe","a.1 < b.1 || (a.1 == b.1 && a.2 ≤ b.2)","a.1 ≤ b.1","C43","calls of equal duration are not told apart")
m("Model/Metric","labelsOk","(∀ k ∈ t.keys, k ∈ i.tagKeys) ∧ ∀ k ∈ i.tagKeys, k ∈ t.keys","∀ k ∈ i.tagKeys, k ∈ t.keys","C66","unknown labels are accepted")
m("Model/LazyMod","refused","['_', 'p', 'y', 't', 'e', 's', 't'].isPrefixOf item || ","","C94","_pytest attributes import the module")
m("Model/Raise","Obj.isA","o.classes.contains c","o.classes.head? == some c","C95","isinstance holds of the own class only")
m("Model/Procs","ppidEnds","es.any (fun e => !e.found)","es.all (fun e => !e.found)","C71","the watcher ends the process only if it never found the main process")
m("Model/Procs","stopRaises","rs.any (fun r => r.2 == .raised)","rs.all (fun r => r.2 == .raised)","C71","stopping raises only if every stop raised")
m("Model/Forward","Msg.isControl","  | .plain _ (.ctl _ _) => true\n  | _ => false","  | .plain _ (.ctl _ _) => false\n  | _ => false","C58","control messages are not recognised")
m("Model/Gen","occurs","s.isPrefixOf (c :: t) || occurs s t","s.isPrefixOf (c :: t)","C40","only texts that begin with StopIteration end the iteration")
m("Model/Gen","destroysOnGc","w[i]?.getD false","w[i]?.getD true","C40","a wrapper that is not there destroys the generator")
m("Model/Nccl","served","0 < n ∧ size ≤ n","0 < n","C85","parts of a request are served")
m("Model/Ucx","copyToReturns","let _ := answer; none","if answer then none else some \"error\"","C74","the answer of copy_to is looked at (a repair)")
m("Model/Directory","hasActorSub","Bool := (a, u) ∈ s.live","Bool := decide (∃ p ∈ s.live, p.2 = u)","C25","has_actor finds actors of other pools")
