M="Model/Home"
m(M,"fix","  else ⟨connect.host, remote.port⟩","  else connect","C100","the repaired reference has the port of the process asked")
m(M,"fix","  else if remote.host ≠ .any then remote\n","","C100","addresses that are no wildcards are rewritten too")
m(M,"Net.actorRef","some (if r ≠ a then fix r a else r)","some r","C100","no repair at all")
m(M,"Net.actorRef","some (if r ≠ a then fix r a else r)","some (if r ≠ a then fix a r else r)","C100","the repair with its arguments swapped")
m(M,"Net.lookupMain","  if asked = p.bind ∧ p.actors.has uid then some asked","  if asked = p.bind then some asked","C100","main process answers for actors it has not")
m(M,"Net.lookup","  else if p.actors.has uid then some p.bind","  else if p.actors.has uid then some p.main","C100","sub process answers with the main process's address")
m(M,"Net.lookup","    | some q => n.lookupMain q p.main uid","    | some q => some q.bind","C100","sub process sends everybody to the main process")
m(M,"Net.lookup","    | some q => n.lookupMain q p.main uid","    | some q => n.lookupMain p p.main uid","C100","sub process searches its own members")
m(M,"Net.put","if p.machine = q.machine && p.bind = q.bind then","if p.bind = q.bind then","C100","pools of other machines with this address get the actor too")
m(M,"Net.put","p.actors.set uid x }","p.actors.erase uid }","C100","the actor created is not kept")
m(M,"Net.createActor","some (n.put q uid x, q.bind)","some (n.put q uid x, p.bind)","C100","the reference has the address of the process asked")
m(M,"Net.createActor","some (n.put q uid x, q.bind)","some (n.put p uid x, q.bind)","C100","the actor is created in the main process always")
m(M,"Net.createActor","some (n.put q uid x, q.bind)","some (n.put q uid x, fix q.bind a)","C100","create_actor repaired (the refutation and the exact condition must fail)")
m(M,"Net.members","q.machine = p.machine && q.main = p.bind","q.main = p.bind","C100","processes of another machine's pool are taken for own")
m(M,"Net.call","        | some b => match n.dial p.machine b with","        | some b => match n.dial m b with","C100","the caller is redirected to the bound address")
