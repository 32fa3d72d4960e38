M="Model/Wrap"
m(M,"start","⟨true, [(0, ⟨true, .at home⟩)], 1⟩","⟨true, [(0, ⟨false, .at home⟩)], 1⟩","C73","first wrapper not responsible")
m(M,"start","⟨true, [(0, ⟨true, .at home⟩)], 1⟩","⟨false, [(0, ⟨true, .at home⟩)], 1⟩","C73","generator not kept")
m(M,"del","w.gcDestroy && ok","ok","C73","every collected wrapper destroys")
m(M,"del","w.gcDestroy && ok","!w.gcDestroy && ok","C73","flag inverted")
m(M,"del","if w.gcDestroy && ok then false else s.gen","s.gen","C73","collection does not destroy")
m(M,"step","(s.wraps.set i { w with gcDestroy := false }).set s.next ⟨true, .transit⟩","s.wraps.set s.next ⟨true, .transit⟩","C73","sender keeps responsibility")
m(M,"step","(s.wraps.set i { w with gcDestroy := false }).set s.next ⟨true, .transit⟩","(s.wraps.set i { w with gcDestroy := false }).set s.next ⟨false, .transit⟩","C73","nobody responsible after hand-over")
m(M,"step","(s.wraps.set i { w with gcDestroy := false }).set s.next ⟨true, .transit⟩","s.wraps.set s.next ⟨false, .transit⟩","C73","responsibility stays with the sender")
m(M,"step","(s.wraps.set i { w with gcDestroy := false }).set s.next ⟨true, .transit⟩","(s.wraps.set i { w with gcDestroy := false }).set s.next ⟨w.gcDestroy, .transit⟩","C73","responsibility copied: the fix for two owners",note="a wrapper sent twice then gives one responsible copy, but if that one is lost the other cannot destroy")
m(M,"step","else some { s with wraps := s.wraps.set i { w with place := .at p } }","else some { s with wraps := s.wraps.set i ⟨false, .at p⟩ }","C73","decoding drops the flag")
m(M,"step","else some { s with wraps := s.wraps.erase i }","else some { s with gen := false, wraps := s.wraps.erase i }","C73","a lost message destroys the generator")
m(M,"step","some { s with gen := del s w ok, wraps := s.wraps.erase i }","some { s with gen := del s w ok }","C73","collected wrapper stays")
m(M,"step","| some w => if isAt w then some { s with gen := false } else none","| some w => if isAt w then some s else none","C73","destroy() does nothing")
m(M,"step","some { s with wraps := s.wraps.filter (fun x => x.2.place ≠ .at p) }","some { s with gen := false, wraps := s.wraps.filter (fun x => x.2.place ≠ .at p) }","C73","crash releases")
m(M,"step","| .over => some { s with gen := false }","| .over => some s","C73","generator kept after its end")
m(M,"destroyStep","| some _, none => { w with blocked := none, gen := false }","| some _, _ => { w with blocked := none, gen := false }","C73","lock not taken")
m(M,"destroyStep","| some _, none => { w with blocked := none, gen := false }","| some _, none => { w with gen := false }","C73","collecting process never goes on")
m(M,"destroyStep","| some _, none => { w with blocked := none, gen := false }","| some _, none => { w with blocked := none }","C73","generator kept")
m(M,"holderStep","if w.blocked = some q then w else { w with holder := some rest }","{ w with holder := some rest }","C73","holder goes on in a blocked process (the fix)")
m(M,"holderStep","| some [] => { w with holder := none }","| some [] => w","C73","lock never released")
m(M,"collect","⟨some (calls ++ [home]), some p, true⟩","⟨some calls, some p, true⟩","C73","holder does not need its own process")
