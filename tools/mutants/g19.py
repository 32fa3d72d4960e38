M="Model/Subproc"
m(M,"start","else if b < 0xC2 then .inl 0xFFFD","else if b < 0xC0 then .inl 0xFFFD","C79","overlong newline accepted")
m(M,"start","else if b = 0xED then .inr ⟨0xD, 2, 0x80, 0x9F⟩","else if b = 0xED then .inr ⟨0xD, 2, 0x80, 0xBF⟩","C79","surrogates accepted",tightened="Subproc.decode_scalars")
m(M,"start","else if b = 0xF4 then .inr ⟨4, 3, 0x80, 0x8F⟩","else if b = 0xF4 then .inr ⟨4, 3, 0x80, 0xBF⟩","C79","code points past the end",tightened="Subproc.decode_scalars")
m(M,"start","else if b = 0xF0 then .inr ⟨0, 3, 0x90, 0xBF⟩","else if b = 0xF0 then .inr ⟨0, 3, 0xA0, 0xBF⟩","C79","some characters lost")
m(M,"dec","| some _, [] => [0xFFFD]","| some _, [] => []","C79","errors=ignore at the end")
m(M,"dec","| .inl c => 0xFFFD :: c :: dec none bs","| .inl _ => 0xFFFD :: dec none bs","C79","byte after a broken sequence swallowed")
m(M,"isParam","0x30 ≤ c && c ≤ 0x3F","0x30 ≤ c && c ≤ 0x39","C79","only digits as parameters")
m(M,"isInter","0x20 ≤ c && c ≤ 0x2F","0x21 ≤ c && c ≤ 0x2F","C79","space not an intermediate byte")
m(M,"isFinal","0x40 ≤ c && c ≤ 0x7E","0x41 ≤ c && c ≤ 0x7A","C79","only letters as final bytes")
m(M,"escLen","some (ps.length + is.length + 3)","some (ps.length + is.length + 2)","C79","final byte stays")
m(M,"escLen","some (ps.length + is.length + 3)","some (ps.length + 3)","C79","intermediate bytes not counted")
m(M,"subGo","| none => c :: subGo 0 cs","| none => if c = 27 then subGo 0 cs else c :: subGo 0 cs","C79","all ESC removed")
m(M,"subGo","| some n => subGo (n - 1) cs","| some n => subGo n cs","C79","one character too many removed")
m(M,"rstripNl","(s.reverse.dropWhile (· == 10)).reverse","s","C79","newline kept in the log")
m(M,"rstripNl","(s.reverse.dropWhile (· == 10)).reverse","(s.reverse.dropWhile (fun c => c == 10 || c == 32)).reverse","C79","rstrip() of spaces")
m(M,"readline","if b = 10 then ([b], bs)","if b = 10 then ([], bs)","C79","newline lost")
m(M,"readline","if b = 10 then ([b], bs)","if b = 13 then ([b], bs)","C79","split at carriage returns")
m(M,"Stream.emit","log := x.log ++ [cleanAnsi (rstripNl (decode (readline x.buf).1))]","log := x.log ++ [rstripNl (decode (readline x.buf).1)]","C79","log not cleaned")
m(M,"Stream.emit","term := x.term ++ [decode (readline x.buf).1]","term := x.term ++ [cleanAnsi (decode (readline x.buf).1)]","C79","colours lost on the terminal")
m(M,"Stream.emit","    buf := (readline x.buf).2\n","    buf := x.buf\n","C79","line repeated")
m(M,"Stream.emit","if e.bad (decode (readline x.buf).1) then { x with status := .failed }","if e.bad (decode (readline x.buf).1) then { x with buf := (readline x.buf).2 }","C79","refused lines skipped (a fix)")
m(M,"step",".line s =>\n    if (st.get s).status = .running ∧ (10 ∈ (st.get s).buf ∨ ((st.get s).buf ≠ [] ∧ (st.get s).pipe = [] ∧ st.eof = true)) then",".line s =>\n    if (st.get s).status = .running ∧ 10 ∈ (st.get s).buf then","C79","unfinished last line lost")
m(M,"step",".line s =>\n    if (st.get s).status = .running ∧ (10 ∈ (st.get s).buf ∨ ((st.get s).buf ≠ [] ∧ (st.get s).pipe = [] ∧ st.eof = true)) then",".line s =>\n    if (st.get s).status = .running ∧ (st.get s).buf ≠ [] then","C79","read() instead of readline()")
m(M,"step","| .waiting r => if st.exited then some","| .waiting r => if true then some","C79","command not waited for")
m(M,"step","| .joinErr r => if st.err.status ≠ .running then some { st with pc := .done r } else none","| .joinErr r => some { st with pc := .done r }","C79","stderr reader not joined")
m(M,"step","| .joinOut r => if st.out.status ≠ .running then some { st with pc := .joinErr r } else none","| .joinOut r => if st.err.status ≠ .running then some { st with pc := .joinErr r } else none","C79","wrong reader joined")
m(M,"step","some { st with pc := .joinOut r } else none","some { st with pc := .joinOut false } else none","C79","exception of the body swallowed")
m(M,"St.eof","st.exited && st.heir.isNone","st.exited","C79","processes left behind do not count (a fix)")
m(M,"Stream.accept","pipe := x.pipe ++ [b]","pipe := b :: x.pipe","C79","pipe reverses")
