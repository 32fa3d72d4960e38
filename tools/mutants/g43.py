M="Model/Spawn"
m(M,"step","      if sys.size c < 10240 - 8 then","      if sys.size c < 10240 then","C97","parameters that overwrite the header fit")
m(M,"step","outcome := some .tooLong, linked := false }\n","outcome := some .tooLong, linked := true }\n","C97","segment left when parameters are too long")
m(M,"step","child := .started, blocked := true, armed := sys.linux && s.thread }","child := .started, blocked := true, armed := false }","C97","no fate sharing")
m(M,"step","child := .started, blocked := true, armed := sys.linux && s.thread }","child := .started, blocked := false, armed := sys.linux && s.thread }","C97","SIGINT not blocked",note="sigint_refuted")
m(M,"step","  | .execed => if s.parent = .forking ∧ s.child ≠ .forked then","  | .execed => if s.parent = .forking then","C97","the start goes on before exec")
m(M,"step","        | .params c => some { s with child := .attached c }\n        | _ => some { s with child := .ended }","        | .params c => some { s with child := .attached (c + 1) }\n        | _ => some { s with child := .ended }","C97","the child works with other parameters")
m(M,"step","        | _ => some { s with child := .ended }\n","        | _ => some { s with child := .attached 0 }\n","C97","the child works with default parameters when it reads none")
m(M,"step","some { s with child := .reported c a, content := .result a }","some { s with child := .reported c a, content := .result c }","C97","other addresses reported")
m(M,"step","  | .listen a => match s.child with\n    | .attached c => some { s with child := .up c a }","  | .listen a => match s.child with\n    | .attached c => some { s with child := .up c a, content := .result a }","C97","addresses reported before the servers run")
m(M,"step","if s.parent = .dead then some { s with child := .ended } else none\n","none\n","C97","no check of the main process")
m(M,"step","      | .result a => some { s with read := some a }\n      | _ => some s","      | .result a => some { s with read := some a }\n      | _ => some { s with read := some 0 }","C97","polling takes anything for the result")
m(M,"step","  | .wake => if s.parent = .waiting ∧ (s.child = .ended ∨ s.read ≠ none) then","  | .wake => if s.parent = .waiting then","C97","a time limit after which OSError is raised although the child runs")
m(M,"step","      some { s with parent := .closing, linked := false } else none","      some { s with parent := .closing } else none","C97","segment not unlinked")
m(M,"step","outcome := some .cancelled, linked := false } else none","outcome := some .cancelled } else none","C97","segment not unlinked on cancellation")
m(M,"step","outcome := some .cancelled, linked := false } else none","outcome := some .cancelled, linked := false, child := .ended } else none","C97","cancellation kills the child",note="cancel_refuted: the code would be better")
m(M,"verdict","  | none => .osError","  | none => .ok 0","C97","success without a report")
m(M,"step","      some { s with child := .ended, parent := .done, outcome := some .preexecFailed, linked := false } else none","      some { s with parent := .done, outcome := some .preexecFailed, linked := false } else none","C97","failed preexec leaves the child")
m(M,"step","    if s.linked then\n        match" if False else "      if s.linked then\n","      if true then\n","C97","the child opens an unlinked segment",note="model of the operating system")
m(M,"step","      let s := { s with parent := .dead, thread := false }\n      some (if s.armed then s.kill else s)","      let s := { s with parent := .dead, thread := false }\n      some s","C97","the child survives its main process")
