M="Model/Local"
m(M,"step.create","if w.serving ∧ ¬ (w.actors.has u) ∧ o ∉ w.made then","if w.serving ∧ o ∉ w.made then","C67","a second creation replaces the actor")
m(M,"step.create","alive := o :: w.alive, made","alive := w.alive, made","C67","new actors not held")
m(M,"step.create","if w.serving ∧ ¬ (w.actors.has u)","if ¬ (w.actors.has u)","C67","a stopped pool creates actors")
m(M,"step.destroy","{ w with actors := w.actors.erase u }","{ w with actors := w.actors.erase u, alive := w.alive.filter (fun o => w.actors.get? u ≠ some o) }","C67","the fix: destroy frees the object at once (the refutation must fail)")
m(M,"step.destroy","{ w with actors := w.actors.erase u }","w","C67","destroy does nothing")
m(M,"step.collect","if o ∈ w.actors.vals ∧ w.poolAlive then w else","if false then w else","C67","registered actors can be freed")
m(M,"step.stop","{ w with serving := false }","{ w with serving := false, actors := [], alive := [] }","C67","the fix: stop drops the actors")
m(M,"step.stop","| .stop => { w with serving := false }","| .stop => w","C67","stop does nothing")
m(M,"step.dropPool","if w.serving then w else { w with poolAlive := false }","{ w with poolAlive := false }","C67","a serving pool is freed")
m(M,"deref","if o ∈ w.alive then some o else none","none","C67","the weak reference is always dead: the fix")
m(M,"deref","if o ∈ w.alive then some o else none","some o","C67","strong instead of weak reference")
m(M,"getLocalActor","if cycleDebug then none else","if cycleDebug then w.actors.get? u else","C67","cycle detection off for local references")
m(M,"getLocalActor","if w.poolAlive then w.actors.get? u else none","none","C67","no local references at all")
m(M,"createLocalRef","fun o => ⟨u, o⟩","fun o => ⟨u, o + 1⟩","C67","reference to another object")
m(M,"resolve","    | some o => (some o, { r with weak := o })\n","    | some o => (none, { r with weak := o })\n","C67","a revived reference fails once")
m(M,"resolve","| some o => (some o, { r with weak := o })","| some o => (some o, { r with weak := o, uid := \"\" })","C67","a revived reference forgets its uid")
m(M,"hidden","name.toList.head? = some '_' &&","","C67","every method hidden")
m(M,"hidden","!(name = \"__xoscar_next__\" || name = \"__xoscar_destroy_generator__\")","true","C67","generator methods hidden")
m(M,"invoke","(args : List Nat) : Out :=\n  if name ∈ methods o then .runs o name args else .attributeError","(args : List Nat) : Out :=\n  if name ∈ methods o then .runs o name [] else .attributeError","C67","arguments dropped")
m(M,"remoteCall","    | none => .actorNotExist\n    | some o => invoke methods o name args\n  else .noConnection","    | none => .attributeError\n    | some o => invoke methods o name args\n  else .noConnection","C67","wrong error for a missing actor")
m(M,"remoteCall","if hidden name then .attributeError\n  else if w.serving","if w.serving","C67","the fix for hidden names")
m(M,"remoteCall","    | some o => invoke methods o name args\n  else .noConnection","    | some o => invoke methods o name args\n  else .actorNotExist","C67","a stopped pool answers")
m(M,"remoteTell","| .noConnection => ⟨some .noConnection, none⟩","| .noConnection => ⟨none, none⟩","C67","tell to a stopped pool is silent",tightened="remote_tell")
m(M,"remoteTell","  | o => ⟨none, ran o⟩","  | .actorNotExist => ⟨some .actorNotExist, none⟩\n  | o => ⟨none, ran o⟩","C67","the fix: tell reports a missing actor")
m(M,"localTell","  | o => ⟨some o, none⟩","  | _ => ⟨none, none⟩","C67","local tell silent: the other fix")
m(M,"localTell","| .runs o n a => ⟨none, some (.runs o n a)⟩","| .runs o n a => ⟨none, some (.runs o n a)⟩\n  | .attributeError => ⟨none, none⟩","C67","local tell of an unknown method is silent",tightened="local_tell")
m(M,"lastMethod","| some m, d :: ds => if d.method ≠ m then none else lastMethod (some d.method) ds","| some m, d :: ds => lastMethod (some d.method) ds","C67 C19","mixed batches accepted remotely")
m(M,"remoteBatch","(last.getD name) (ds.map (·.args))","name (ds.map (·.args))","C67","remote batch runs the method it is called on")
m(M,"remoteBatch","invokeBatch methods o (last.getD name) (ds.map (·.args))","invokeBatch methods o (last.getD name) (ds.map (·.args)).reverse","C67","order of the batch reversed")
m(M,"localBatch","| some o => invokeBatch methods o name (ds.map (·.args))","| some o => invokeBatch methods o name ((ds.filter (·.method = name)).map (·.args))","C67","local batch keeps its own method's calls only")
m(M,"localBatch","  | some .actorNotExist => .actorNotExist\n","","C67","missing actor reported as attribute error")
m(M,"firstFailure","| .runs _ _ _ => firstFailure methods w r ds","| .runs _ _ _ => none","C67","only the first delay is checked")
