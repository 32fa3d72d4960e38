M="Model/AioFile"
m(M,"line","if b = newline then [b] else b :: line bs","if b = newline then [] else b :: line bs","C78","newline dropped")
m(M,"line","if b = newline then [b] else b :: line bs","b :: line bs","C78","whole file as one line")
m(M,"newline","def newline : Byte := 10","def newline : Byte := 13","C78","wrong newline")
m(M,"onClosed","| _ => .closedFile","| _ => .none","C78","closed file silently ignored")
m(M,"apply","if f.closed then (f, onClosed op)","if f.closed && false then (f, onClosed op)","C78","closed files writable")
m(M,"apply","{ f with pos := f.pos + (line (f.data.drop f.pos)).length }","f","C78","readline does not advance")
m(M,"apply","{ f with pos := f.pos + (line (f.data.drop f.pos)).length }","{ f with pos := f.pos + (line (f.data.drop f.pos)).length + 1 }","C78","byte skipped after each line")
m(M,"apply",".bytes (line (f.data.drop f.pos)))",".bytes (line f.data))","C78","reads from the start")
m(M,"apply","({ f with closed := true }, .none)","(f, .none)","C78","close does nothing",tightened="AioFile.closes")
m(M,"apply","f.data.drop (f.pos + bs.length)","[]","C78","write truncates",tightened="AioFile.written")
m(M,"apply","List.replicate (f.pos - f.data.length) 0 ++ bs","bs","C78","gap not filled",tightened="AioFile.written")
m(M,"step","else some { s with results := s.results ++ [(t, op, .noFile)] }","else some { s with results := s.results ++ [(t, op, .closedFile)] }","C78","after exit: closed file error (the fix)")
m(M,"step","jobs := s.jobs.set t ⟨op, .done (apply s.file op).2⟩","jobs := s.jobs.set t ⟨op, .done .none⟩","C78","result dropped")
m(M,"step","file := (apply s.file op).1, jobs","file := s.file, jobs","C78","effect dropped")
m(M,"step","results := s.results ++ [(t, op, r)] }","results := s.results ++ [(t + 1, op, r)] }","C78","result to another task")
m(M,"step","| some ⟨_, .queued⟩ => some { s with jobs := s.jobs.erase t }            -- the executor never does it","| some ⟨op, .queued⟩ => some { s with jobs := s.jobs.erase t, lost := s.lost ++ [op] }","C78","queued calls cannot be taken back")
m(M,"step","| some ⟨op, .running⟩ => some { s with jobs := s.jobs.erase t, lost := s.lost ++ [op] }","| some ⟨_, .running⟩ => some { s with jobs := s.jobs.erase t }","C78","running calls can be taken back (a fix)")
m(M,"step","file := (apply s.file op).1, lost := rest","file := s.file, lost := rest","C78","abandoned operations without effect (a fix)")
m(M,"step","some { s with hasFile := false }","some s","C78","file kept after exit (the fix)",tightened="AioFile.after_exit_refuted")
m(M,"anext","| .bytes [] => Option.none","| .bytes [] => some []","C78","iteration never ends")
