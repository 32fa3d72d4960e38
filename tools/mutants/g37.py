M="Model/Gpu"
m(M,"initNvml","if st.initPid = some st.pid then st else { st with nvml := w.nvml }","if st.initPid ≠ none then st else { st with nvml := w.nvml }","C92","a child does not load NVML again (fork_refuted must fail)")
m(M,"initNvml","{ st with nvml := w.nvml }","st","C92","NVML is never loaded")
m(M,"initAll","st.nvml ≠ .absent ∧ st.cuda ≠ .absent","st.nvml ≠ .absent ∨ st.cuda ≠ .absent","C92","one library is enough")
m(M,"initAll","st.nvml ≠ .absent ∧ st.cuda ≠ .absent","st.nvml = .good ∧ st.cuda = .good","C92","a broken library is tried again (the repair: broken_refuted must fail)")
m(M,"commas","if c = ',' then [] :: h :: r else (c :: h) :: r","if c = ';' then [] :: h :: r else (c :: h) :: r","C92","entries are separated by semicolons")
m(M,"commas","if c = ',' then [] :: h :: r else (c :: h) :: r","if c = ',' then h :: r else (c :: h) :: r","C92","entries run together")
m(M,"countVisible","(commas d).length","(commas d).length - 1","C92","commas are counted")
m(M,"countVisible","d = [] ∨ d = ['-', '1']","d = []","C92","-1 counts as one device")
m(M,"countVisible","let d := strip v","let d := v","C92","a blank variable counts as one device")
m(M,"getCount","({ st with count := some w.devices.length }, .ok (some w.devices.length))","(st, .ok (some w.devices.length))","C92","the count is not remembered (the repair of count_stays)")
m(M,"getCount","({ st with count := some (countVisible v) }, .ok (some (countVisible v)))","({ st with count := some (countVisible v) }, .ok (some w.devices.length))","C92","the variable is ignored")
m(M,"realIndex","let j := if i < 0 then i + l.length else i","let j := if i < 0 then i + l.length else i + 1","C92","the next entry is taken")
m(M,"realIndex","| none => .error .valueError","| none => .ok i","C92","entries that are no numbers are ignored (the repair: info_uuid_refuted must fail)")
m(M,"getInfo","| some v => realIndex v i | none => .ok i","| some v => .ok i | none => .ok i","C92","CUDA's index is reported as the machine's")
m(M,"getInfo","| some v => realIndex v i | none => .ok i","| some v => realIndex v i | none => .ok 0","C92","always device 0")
m(M,"getInfo","({ st with infos := st.infos.set i ⟨r, u⟩ }, .ok (some ⟨r, u⟩))","({ st with infos := st.infos.set r ⟨r, u⟩ }, .ok (some ⟨r, u⟩))","C92","remembered under the machine's index")
m(M,"getInfo","if st.initPid = none then (st, .ok none)\n    else match st.cuda with","if false then (st, .ok none)\n    else match st.cuda with","C92","without a driver an error is raised")
m(M,"processes","if first = 0 then .ok [] else","if first ≤ 1 then .ok [] else","C92","a single process is overlooked")
m(M,"processes","procs.length ≤ first * 2 + 5","procs.length ≤ first * 2","C92","a smaller array")
m(M,"processes","procs.length ≤ first * 2 + 5","procs.length < first","C92","no room for the processes")
m(M,"isIn","l.any (· == pid)","l.all (· == pid)","C92","only if alone on the device")
m(M,"scanMig","| k, .empty :: t => scanMig pid (k + 1) t","| _, .empty :: _ => .ok none","C92","the search stops at an empty slot")
m(M,"scanMig","| k, .empty :: t => scanMig pid (k + 1) t","| k, .empty :: t => scanMig pid k t","C92","empty slots are not counted")
m(M,"scanMig","| .ok true => .ok (some k)","| .ok true => .ok (some (k + 1))","C92","the wrong MIG index")
m(M,"scanMig","| .ok false => scanMig pid (k + 1) t","| .ok false => .ok none","C92","only the first MIG device is looked at")
m(M,"scan","| .ok none => scan pid (i + 1) t","| .ok none => .ok none","C92","devices after a divided one are not looked at")
m(M,"scan","| .ok true => .ok (some ⟨i, none, d.uuid⟩)\n      | .ok false => scan pid (i + 1) t","| .ok true => .ok (some ⟨i, none, d.uuid⟩)\n      | .ok false => scan pid i t","C92","devices are not counted")
m(M,"scan",".ok (some ⟨i, some k, d.uuid⟩)",".ok (some ⟨i, none, d.uuid⟩)","C92","the MIG index is lost")
m(M,"getContext",".good => (st, scan st.pid 0 w.devices)",".good => (st, scan st.pid 1 w.devices)","C92","indices from 1")
m(M,"getContext","if st.initPid = none then (st, .ok none)\n  else match st.nvml with","if false then (st, .ok none)\n  else match st.nvml with","C92","without a driver an error is raised")
m(M,"byUuid","byUuid u (i + 1) t","byUuid u i t","C92","the wrong index for an uuid")
m(M,"indexAndUuid","if 0 ≤ i then match w.devices[i.toNat]? with","if true then match w.devices[i.toNat]? with","C92","a negative index names device 0")
m(M,"versionText","str (v % 1000)","str (v % 1000 / 10)","C92","the right version (the repair: version_iff must fail)")
