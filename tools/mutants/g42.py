M="Model/Netstat"
m(M,"wordsFrom","else w.reverse :: wordsFrom [] cs)","else w :: wordsFrom [] cs)","C96","columns reversed")
m(M,"wordsFrom","  | w, [] => if w = [] then [] else [w.reverse]","  | w, [] => []","C96","last column lost")
m(M,"wordsFrom","if blank c then (if w = [] then","if c = ' ' then (if w = [] then","C96","only spaces divide columns")
m(M,"dots","if c = ':' then '.' else c","c","C96","no colons: Windows endpoints unread")
m(M,"afterDot","(w.reverse.takeWhile (· ≠ '.')).reverse","(w.takeWhile (· ≠ '.'))","C96","host instead of port")
m(M,"afterDot","(w.reverse.takeWhile (· ≠ '.')).reverse","(w.dropWhile (· ≠ '.')).drop 1","C96","split at the first dot")
m(M,"portOf","      if s = ['*'] then portOf ws\n","      if s = ['*'] then .ok none\n","C96","stops at *.*",note="foreign ports not taken: only foreign_refuted and Reports with a wildcard first")
m(M,"portOf","        | none => .error ()\n","        | none => portOf ws\n","C96","paths are skipped instead of raising",note="path_refuted: the code would be better")
m(M,"lineOf","if '.' ∈ t then","if ':' ∈ t then","C96","BSD lines skipped")
m(M,"netstat","(Ports.LOW : Int) ≤ p ∧ p ≤ (Ports.HIGH : Int)","(Ports.LOW : Int) < p ∧ p ≤ (Ports.HIGH : Int)","C96","port 10000 in use not seen")
m(M,"netstat","(Ports.LOW : Int) ≤ p ∧ p ≤ (Ports.HIGH : Int)","(Ports.LOW : Int) ≤ p ∧ p < (Ports.HIGH : Int)","C96","port 65535 in use not seen")
m(M,"netstat","p.toNat :: ps else ps)","[p.toNat] else ps)","C96","only the first port counts")
m(M,"netstat","    | .ok none => netstat ts\n","    | .ok none => .ok []\n","C96","stops at a line without a port")
m(M,"typeOr","  | none => STREAM\n","  | none => 2\n","C96","UDP by default")
m(M,"typeOr","  | some t => t","  | some _ => STREAM","C96","socket type ignored")
m(M,"nextPort","conns.filter (fun c => c.typ = typeOr typ)","conns.filter (fun c => c.typ ≠ typeOr typ)","C96","ports of the other types")
m(M,"nextPort","    | .error () => (.valueError, loc)","    | .error () => (.res .systemError, loc)","C96","other error",note="path_refuted names the error")
m(M,"nextPort","    | .ok sys => let r := Ports.getNextPort sys randn","    | .ok sys => let r := Ports.getNextPort (sys.drop 1) randn","C96","first used port ignored")
