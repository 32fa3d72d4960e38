M="Model/Home"
m(M,"Net.createActor","if q.actors.has uid then none else some","if false then none else some","C100","creating an actor replaces one of the same uid",tightened="created_replaces_none")
