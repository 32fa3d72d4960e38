M="Model/Impl"
m(M,"register","r.set c impl","r.set impl c","C72","swapped arguments")
m(M,"register","r.set c impl","if r.has c then r else r.set c impl","C72","first registration wins")
m(M,"register","r.set c impl","r.update [(c, impl), (impl, impl)]","C72","implementation registered for itself too")
m(M,"unregister","r.erase c","r","C72","un-registration forgotten")
m(M,"unregister","r.erase c","[]","C72","all un-registered")
m(M,"afterImpl","| .error .keyError => ⟨.ok c, m.inits⟩","| .error .keyError => ⟨.error .keyError, m.inits⟩","C72","the fix: KeyError reported")
m(M,"afterImpl","| .error .keyError => ⟨.ok c, m.inits⟩\n  | .error e => ⟨.error e, m.inits⟩","| .error _ => ⟨.ok c, m.inits⟩","C72","every failure swallowed")
m(M,"afterImpl","| .ok d => ⟨.ok d, m.inits⟩","| .ok _ => ⟨.ok c, m.inits⟩","C72","the object is thrown away")
m(M,"afterNew","if k.isSub d c then","if k.isSub c d then","C72","isinstance the wrong way round")
m(M,"afterNew","if k.isSub d c then","if d == c then","C72","initialised again only if the same class")
m(M,"afterNew","if k.isSub d c then","if true then","C72","always initialised again")
m(M,"afterNew","| some e => ⟨.error e, m.inits ++ [(d, a)]⟩","| some _ => ⟨.ok d, m.inits ++ [(d, a)]⟩","C72","failing initialisation ignored")
m(M,"afterNew","| none => ⟨.ok d, m.inits ++ [(d, a)]⟩","| none => ⟨.ok d, m.inits⟩","C72","not initialised")
m(M,"afterNew","match k.init d a with","match k.init c a with","C72","__init__ of the called class decides")
m(M,"construct","| some impl => afterImpl c (construct k r depth impl a)","| some impl => afterImpl c (afterNew k impl a ⟨.ok impl, []⟩)","C72","registrations not chained")
m(M,"construct","| some impl => afterImpl c (construct k r depth impl a)","| some impl => afterImpl c (construct k r depth impl 0)","C72","arguments not passed on")
m(M,"construct","| none => ⟨.ok c, []⟩","| none => ⟨.ok (c + 1), []⟩","C72","wrong class")
