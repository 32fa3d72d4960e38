M="Model/Plan"
m(M,"splitOne","    | none => { s with toResolve := s.toResolve ++ [r] }\n    | some v","    | none => s\n    | some v","C65","missing packages forgotten")
m(M,"splitOne","        | some false => { s with toResolve := s.toResolve ++ [r] }","        | some false => { s with pinned := s.pinned.set (lower r.name) v }","C65","version not checked")
m(M,"splitOne","        | none => { s with toResolve := s.toResolve ++ [r] }","        | none => s","C65","requirement whose version cannot be read is skipped")
m(M,"splitOne","{ s with keep := s.keep ++ [.raw t] }","s","C65","URLs forgotten")
m(M,"splitOne","      if r.specifier = [] then { s with pinned := s.pinned.set (lower r.name) v }","      if r.specifier = [] then s","C65","unconstrained packages not pinned: the plan may replace them")
m(M,"splitOne","        | some true => { s with pinned := s.pinned.set (lower r.name) v }","        | some true => { s with pinned := s.pinned.set (lower r.name) r.specifier }","C65","specifier written as the pinned version")
m(M,"splitOne","match installed.get? (lower r.name) with","match installed.get? r.name with","C65","names looked up without lowering")
m(M,"installedOf","d.set (lower x.1) x.2","d.set x.1 x.2","C65","names stored without lowering")
m(M,"installedOf","dists.foldl (fun d x => d.set (lower x.1) x.2) []","dists.foldr (fun x d => d.set (lower x.1) x.2) []","C65","the fix: first on the path wins; the refutation must fail")
m(M,"readPlan","if l.from then none else some (l.name, l.version)","some (l.name, l.version)","C65","the fix: lines with a source are read; the refutation must fail")
m(M,"notInstalled","≠ some x.2","= some x.2","C65","installs what is there and skips what is not")
m(M,"notInstalled","installed.get? (lower x.1) ≠ some x.2","installed.get? (lower x.1) = none","C65","packages installed in another version not upgraded")
m(M,"notInstalled","if s.keep = [] ∧ s.toResolve = [] then some []","if s.keep = [] ∨ s.toResolve = [] then some []","C65","or for and: no URLs means nothing to do")
m(M,"notInstalled","    | none => none\n    | some lines => some (finish","    | none => some []\n    | some lines => some (finish","C65","failure of uv ignored")
m(M,"notInstalled","lib.dryRun s.toResolve s.pinned","lib.dryRun s.toResolve []","C65","constraints not passed")
m(M,"notInstalled","s.keep.map .given ++ (resolved","(resolved","C65","URLs dropped when there is a plan")
m(M,"Opt.args","l.flatMap (fun v => [option, v])","option :: l","C65","option not repeated for each value")
m(M,"Opt.args","if s = [] then [] else [option, s]","s.flatMap (fun c => [option, [c]])","C65","a text treated as a list of characters")
m(M,"options",'["-i".toList, u]','["--extra-index-url".toList, u]',"C65","index_url passed as an extra index")
m(M,"options",'k.findLinks.args "-f".toList','k.trustedHost.args "-f".toList',"C65","swapped options")
m(M,"options","if k.noBuildIsolation then","if ! k.noBuildIsolation then","C65","flag inverted")
m(M,"install","⟨true, p :: ps, options k⟩","⟨false, p :: ps, options k⟩","C65","--no-deps missing on the plan")
m(M,"install","    | some [] => .nothing\n    | some (p :: ps)","    | some [] => .run ⟨true, [], options k⟩\n    | some (p :: ps)","C65","uv run without packages")
m(M,"install","⟨false, packages.map .given, options k⟩","⟨false, (packages.take 1).map .given, options k⟩","C65","only the first package handed over")
m(M,"createEnv","then .made true","then .made false","C65","clear does not remove the old environment")
m(M,"createEnv",'if exists_ = "error".toList then .error false\n    else if exists_ = "ignore".toList then .kept','if exists_ = "error".toList then .kept\n    else if exists_ = "ignore".toList then .kept',"C65","error ignored")
