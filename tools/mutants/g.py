M="Model/Create"
m(M,"check","a.labels.length ≠ a.n + 1 then","a.labels.length ≠ a.n then","C59","labels checked against the number of sub pools")
m(M,"check","a.envs.length ≠ a.n then","a.envs.length ≠ a.n + 1 then","C59","envs checked against all pools")
m(M,"check","if a.schemes ≠ [] ∧ a.schemes.length ≠ a.n + 1 then .error .valueError\n  else ","","C59","schemes not checked")
m(M,"check","List.replicate (a.n + 1) true","List.replicate a.n true","C59","default flags one too few")
m(M,"check","| .true_ => .ok (flags, .actor)","| .true_ => .ok (flags, .process)","C59","True means process")
m(M,"check","    | .other => .error .valueError\n","","C59","unknown auto_recover accepted")
m(M,"labelOf","(a.labels[i]?).join","(a.labels[i - 1]?).join","C59","labels shifted")
m(M,"envOf","| i + 1 => a.envs[i]?","| i + 1 => a.envs[i + 1]?","C59","envs shifted")
m(M,"addOne","some (internalAddress (idx i)) else none","some (internalAddress i) else none","C59","internal address from the number, not the process index")
m(M,"addOne","if (flags[i]?).getD true then","if (flags[i + 1]?).getD true then","C59","flag of the next pool")
m(M,"addAll","addAll a flags idx (addOne a flags idx c i e) (i + 1) es","addAll a flags idx (addOne a flags idx c i e) i es","C59","index not advanced")
m(M,"update","if p.external = [bound] then some c else resetExternal c idx [bound]","some c","C59","stored addresses not updated")
m(M,"resetAll","resetExternal c (idx i) [bound i]","resetExternal c (idx i) [bound 1]","C59","every sub pool reset to the first's address")
m(M,"resetAll","| some c => resetAll idx bound c is","| some c => some c","C59","only the first sub pool reset")
m(M,"attachAll","attachAll (Dict.set d x.1 x.2) xs","attachAll d xs","C59","processes not attached")
m(M,"sameSet","old.all (· ∈ now) && now.all (· ∈ old)","old.all (· ∈ now) || now.all (· ∈ old)","C59","sets compared by inclusion",note="may be equivalent for the model when sizes agree")
m(M,"sync","if same then started","if !same then started","C59","sync when nothing changed")
m(M,"create","(externalAddresses conf none).drop 1","(externalAddresses conf none)","C59","processes paired with the main pool's address")
m(M,"create","fun c => update c (idx 0) (bound 0)","fun c => update c (idx 0) (bound 1)","C59","main pool listed under a sub pool's address")
m(M,"start","(some .osError, running)\n  else (some .osError, running)","(some .osError, [])\n  else (some .osError, [])","C60","a start that cleans up (the fix): refutation must fail")
m(M,"start","else (some .osError, running)\n\n","else (none, running)\n\n","C60","failed start reported as success")
m(M,"step.append","conf := addPool s.conf idx ⟨label, some (internalAddress idx), [ext]⟩\n","conf := s.conf\n","C60","append makes no entry")
m(M,"step.started","processes := s.processes.set bound idx","processes := s.processes","C60","process of the new sub pool not recorded")
m(M,"step.started","resetExternal s.conf idx [bound] with","resetExternal s.conf idx [] with","C60","entry without address")
m(M,"step.failed","then some { s with pending := s.pending.erase idx } else none\n  | .remove","then some { s with pending := s.pending.erase idx, conf := (removePool s.conf idx).getD s.conf } else none\n  | .remove","C60","failed append cleans up (the fix): refutation must fail")
m(M,"step.remove","processes := s.processes.erase a, running := s.running.erase i }","processes := s.processes.erase a, running := s.running.erase 2 }","C60","always the same process stopped")
m(M,"step.remove","some { s with conf := c, processes","some { s with processes","C60","configuration entry kept on removal")
m(M,"hasActor","s.actors.any (fun x => uid ∈ x.2)","s.actors.any (fun x => uid ∈ x.2 && x.1 ∈ s.running.vals)","C60","has_actor looks at running pools (the fix): refutation must fail")
