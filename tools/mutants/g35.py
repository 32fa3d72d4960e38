M="Model/Ids"
m(M,"resetSeed","seed := g.py p.pySeed p.pyPos % 2 ^ 64, pos := 0, pyPos := p.pyPos + 1, isSet := true","seed := g.py p.pySeed p.pyPos % 2 ^ 64, pos := 0, pyPos := p.pyPos + 1","C90","the generator is seeded again before every id")
m(M,"resetSeed","g.py p.pySeed p.pyPos % 2 ^ 64, pos := 0","g.py p.pySeed p.pyPos % 2 ^ 32, pos := 0","C90","a 32 bit seed")
m(M,"resetSeed","pyPos := p.pyPos + 1, isSet","pyPos := p.pyPos, isSet","C90","seeding does not advance random")
m(M,"resetSeed","% 2 ^ 64, pos := 0,","% 2 ^ 64,","C90","seeding keeps the place in the stream")
m(M,"words","let q := n >>> 3","let q := n >>> 4","C90","too few words for long ids")
m(M,"words","if q <<< 3 < n then q + 1 else q","q","C90","no extra word for a rest")
m(M,"words","if q <<< 3 < n then q + 1 else q","if q <<< 3 ≤ n then q + 1 else q","C90","one word too many is drawn")
m(M,"wordBytes","w % 256 :: wordBytes k (w / 256)","w % 128 :: wordBytes k (w / 256)","C90","seven bits per byte")
m(M,"wordBytes","w % 256 :: wordBytes k (w / 256)","w % 256 :: wordBytes k w","C90","the low byte everywhere")
m(M,"fill","wordBytes 8 (g.mt seed pos) ++ fill g seed (pos + 1) k","wordBytes 8 (g.mt seed pos) ++ fill g seed pos k","C90","the same word repeated")
m(M,"fill","wordBytes 8 (g.mt seed pos) ++ fill g seed (pos + 1) k","fill g seed (pos + 1) k ++ wordBytes 8 (g.mt seed pos)","C90","words in reverse order")
m(M,"draw","{ p with pos := p.pos + words n }","p","C90","the generator does not advance")
m(M,"draw","pos := p.pos + words n","pos := p.pos + 1","C90","the generator advances by one word only")
m(M,"draw",".take n)",")","C90","ids rounded up to whole words")
m(M,"ensure","if c.isSet then (st, c)","if !c.isSet then (st, c)","C90","never seeded the first time")
m(M,"step subPool","some (reset g st p { c with pySeed := u, pyPos := 0 })","some { st with procs := st.procs.set p { c with pySeed := u, pyPos := 0 } }","C90","a sub pool seeds random only")
m(M,"step subPool","some (reset g st p { c with pySeed := u, pyPos := 0 })","some (reset g st p c)","C90","a sub pool does not seed random with the uuid")
m(M,"step seed","some { st with procs := st.procs.set p { c with pySeed := s, pyPos := 0 } }","some { st with procs := st.procs.set p { c with pySeed := s, pyPos := 0, isSet := false } }","C90","seeding random makes the ids start again")
m(M,"step port","{ c with pySeed := u, pyPos := k }","{ c with pySeed := u, pyPos := k, pos := 0 }","C90","looking for a port rewinds the ids")
m(M,"step fork","some { st with procs := st.procs.set q { c with pySeed := e, pyPos := 0 } }","some { st with procs := st.procs.set q { c with pySeed := e, pyPos := 0, isSet := false } }","C90","a fork reseeds the child (the repair; fork_refuted must fail)")
m(M,"step newId","made := r.1.made ++ [⟨p, r.2.seed, r.2.pos, d.2⟩]","made := r.1.made ++ [⟨p, r.2.seed, d.1.pos, d.2⟩]","C90","the id is taken from after the draw")
m(M,"step newId","procs := r.1.procs.set p d.1,","procs := r.1.procs.set p r.2,","C90","the draw is forgotten")
