M="Model/Dummy"
T="waiting_iff recv_waits links_distinct begins finishes collected_stays_open_refuted"
m(M,"step","| [] => some (c.setOut s.other { c.out s.other with waiting := (c.out s.other).waiting ++ [r] }, [])","| [] => some (c.setOut s.other { c.out s.other with waiting := (c.out s.other).waiting }, [])","C51","a recv that finds nothing is forgotten",tightened=T)
m(M,"wstep","nextC := w.nextC + 1 }, .link w.nextC)","nextC := w.nextC }, .link w.nextC)","C51","two connections share one channel",tightened=T)
m(M,"wstep","if sv.stopped then some ({ w with links := w.links.set c ⟨s, .ended, r, cl⟩ }, .none)","if ¬ sv.stopped then some ({ w with links := w.links.set c ⟨s, .ended, r, cl⟩ }, .none)","C51","handlers are started only on stopped servers",tightened=T)
m(M,"wstep","else some ({ w with links := w.links.set c ⟨s, .running, true, cl⟩ }, .none)","else some (w, .none)","C51","the handler is never started",tightened=T)
m(M,"wstep","| some ⟨s, .running, r, cl⟩ => some ({ w with links := w.links.set c ⟨s, .ended, r, cl⟩ }, .none)","| some ⟨s, .running, r, cl⟩ => some (w, .none)","C51","a returned handler goes on",tightened=T)
m(M,"wstep","| some ⟨s, .ended, _, cl⟩ => some ({ w with links := w.links.set c ⟨s, .ended, false, cl⟩ }, .none)","| some ⟨s, .ended, r, cl⟩ => some ({ w with links := w.links.set c ⟨s, .ended, r, cl⟩ }, .none)","C51","_channels holds strong references",tightened=T,note="deviation theorem must fail")
M="Model/CopyTo"
m(M,"deliverFiles","| .down => (r, .raised)\n    | .up => deliverFiles","| .down => (r, .returned)\n    | .up => deliverFiles","C12","a broken connection ends copy_to of files silently",tightened="copy_files_connection_failure_partial")
m(M,"deliver","| .down => (r, .raised)\n    | .up => deliver net (i + 1) bs","| .down => deliver net (i + 1) bs r\n    | .up => deliver net (i + 1) bs","C12","a message that cannot be sent is skipped",tightened="copy_connection_failure_partial")
M="Model/Recovery"
T="records_exact recovery_history_partial monitor_goes_on loss_forgets answered_records forget_aborts"
m(M,"used","(s.filter (·.isSome)).length","s.length","C45","removed records are not noticed by the loop",tightened=T,note="deviation theorem must fail")
m(M,"put","if k' = k then some (k, m) else some (k', m') | none => none)\n  else","if ¬ (k' = k) then some (k, m) else some (k', m') | none => none)\n  else","C45","recording an actor overwrites the others",tightened=T)
m(M,"del","if k' = k then none else some (k', m') | none => none)","if ¬ (k' = k) then none else some (k', m') | none => none)","C45","forgetting an actor forgets the others",tightened=T)
m(M,"step",".forget k => some { s with slots := s.slots.map (del k), dirty := true }",".forget k => some { s with dirty := true }","C45","destroyed actors are created again",tightened=T)
m(M,"step",".process => some { s with slots := some [], mon","  .process => some { s with mon","C45","records of lost actors stay when actors are not recovered",tightened=T)
m(M,"step","failed := [], dirty := false }","dirty := false }","C45","failures of earlier recoveries excuse actors that are missing now",tightened=T,note="weakens a specification ghost")
m(M,"step",".calling _ _ _ _ => if s.up then none else some (abort s)",".calling _ _ _ _ => if ¬ s.up then none else some (abort s)","C45","the monitor hangs when the process dies again",tightened=T)
m(M,"step","(put (some m.uid) ⟨m.uid, true⟩)","(put (some m.uid) ⟨m.uid, false⟩)","C45","a creation reported by the sub pool is recorded as not from main",tightened=T)
