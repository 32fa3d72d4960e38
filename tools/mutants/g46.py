M="Model/Venv"
m(M,"isAvailable","  | some _ => true\n  | none => h.onPath","  | some _ => h.onPath\n  | none => h.onPath","C99","the variable is not looked at",tightened="available_set")
m(M,"isAvailable","  | none => h.onPath","  | none => true","C99","always available")
m(M,"uvCommand","    | some p => .at p\n    | none => .name","    | some _ => .name\n    | none => .name","C99","the package is not looked at")
m(M,"uvCommand","  match h.uvPath with\n  | some p => .at p\n  | none =>\n    match h.package with","  match h.package with\n  | some p => .at p\n  | none =>\n    match h.uvPath with","C99","the package before the variable")
m(M,"existsEnv","| .dir cfg _ _ => cfg |","| .dir _ _ _ => true |","C99","any directory is an environment")
m(M,"removeEnv","fun q => if q = p then .absent else fs q\n    | _ => fs","fun _ => .absent\n    | _ => fs","C99","everything is removed")
m(M,"removeEnv","    | .dir _ _ true => fun q","    | .dir true _ true => fun q","C99","only environments are removed")
m(M,"want","  | some py => .interpreter py","  | some _ => .any","C99","python_path ignored")
m(M,"want","if h.bundled then .version h.running else .any","if h.bundled then .any else .version h.running","C99","the version asked for in the wrong builds")
m(M,"make","if q = p then n else fs q","n","C99","environments everywhere")
m(M,"createEnv","    | .error => (fs, some .fileExists)\n    | .ignore => (fs, none)","    | .error => (fs, none)\n    | .ignore => (fs, some .fileExists)","C99","words exchanged")
m(M,"createEnv","    | .other _ => (fs, some .valueError)","    | .other _ => (fs, none)","C99","unknown words taken for ignore")
m(M,"createEnv","      match make uv h p py (removeEnv fs p) with\n      | .ok fs' => (fs', none)\n      | .error e => (removeEnv fs p, some e)","      match make uv h p py fs with\n      | .ok fs' => (fs', none)\n      | .error e => (fs, some e)","C99","clear does not remove",note="clear_refuted")
m(M,"createEnv","      | .ok fs' => (fs', none)\n      | .error e => (removeEnv fs p, some e)","      | .ok fs' => (fs', none)\n      | .error e => (removeEnv fs p, none)","C99","failing uv not reported with clear")
m(M,"createEnv","    match make uv h p py fs with\n    | .ok fs' => (fs', none)\n    | .error e => (fs, some e)","    match make uv h p py fs with\n    | .ok fs' => (fs', none)\n    | .error _ => (fs, none)","C99","failing uv not reported")
m(M,"pythonPath","if (fs p).there then some p else none","if existsEnv fs p then some p else none","C99","interpreter path only for environments",note="python_path_refuted: the code would be better")
m(M,"libPath","(p, h.running.short)","(p, h.running.micro)","C99","library path with the wrong part of the version")
m(M,"manager","if name = 0 then","if name ≠ 0 then","C99","unknown managers accepted")
m(M,"run","run uv h (createEnv uv h p py w fs).1 r","run uv h fs r","C99","creation has no effect")
