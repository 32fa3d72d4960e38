M="Model/Closer"
m(M,"adv","(if s.initialized then .submit else .mkLoop)",".mkLoop","C77","flag not checked")
m(M,"adv","(if s.initialized then .submit else .mkLoop)","(if s.initialized then .mkLoop else .submit)","C77","test inverted")
m(M,"adv","{ setPc s c .submit with initialized := true }","{ setPc s c .submit with initialized := false }","C77","flag never set")
m(M,"adv","{ x with jobs := x.jobs ++ [c] }","{ x with jobs := [c] }","C77","earlier jobs dropped")
m(M,"adv","{ x with jobs := x.jobs ++ [c] }","{ x with jobs := c :: c :: x.jobs }","C77","submitted twice")
m(M,"adv","some { setPc s c .setInit with threads := s.threads.set t { x with phase := .started } }","some (setPc s c .setInit)","C77","thread not started")
m(M,"adv","else some (setPc s c .failed)","else some (setPc s c .setInit)","C77","second start allowed (no exception)")
m(M,"adv",".mkThread with loops := s.loops.set s.nextLoop ⟨false, false, []⟩, closeLoop := some s.nextLoop,",".mkThread with loops := s.loops.set s.nextLoop ⟨false, false, []⟩, closeLoop := s.closeLoop,","C77","loop not stored")
m(M,"adv","⟨l, .created⟩, closeThread := some s.nextThr,","⟨l, .created⟩, closeThread := s.closeThread,","C77","thread not stored")
m(M,"step","loops := s.loops.set x.loop { l with stopping := true } }","loops := s.loops }","C77","failed run does not stop the loop (a fix)")
m(M,"step","{ l with running := true } }","{ l with running := true, jobs := [] } }","C77","jobs submitted before the start lost")
m(M,"step","{ s with loops := s.loops.set l { x with jobs := rest }, closed := s.closed ++ [c] }","{ s with loops := s.loops.set l { x with jobs := rest } }","C77","connections not closed")
m(M,"step","{ s with loops := s.loops.set l { x with jobs := rest }, closed := s.closed ++ [c] }","{ s with closed := s.closed ++ [c] }","C77","closed again and again")
m(M,"step","if x.phase = .running ∧ l.stopping = true then","if x.phase = .running then","C77","loop ends by itself")
m(M,"step","{ s with threads := s.threads.set t { x with phase := .ended }, loops := s.loops.set x.loop { l with running := false } }","{ s with loops := s.loops.set x.loop { l with stopping := false } }","C77","stop ignored (a fix)")
m(M,"step","      if x.running then match x.jobs with","      if true then match x.jobs with","C77","jobs run without a thread")
m(M,"step","| none => some (setPc s c .check)\n    | some _ => none","| none => some (setPc s c .check)\n    | some _ => some (setPc s c .check)","C77","finalizer runs again")
