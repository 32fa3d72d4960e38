M="Model/Sizes"
m(M,"power","if c = 'm' then some 2","if c = 'm' then some 3","C101","a megabyte is a gigabyte")
m(M,"power","then some 4 else none","then some 4 else some 0","C101","unknown units are accepted")
m(M,"power","  | none => some 0","  | none => some 1","C101","a plain number is in KiB")
m(M,"parse","1024 ^ k","1000 ^ k","C101","powers of 1000")
m(M,"parse","(x / 100, true)","(x, true)","C101","a share is not divided")
m(M,"parse","(x / 100, true)","(x / 100, false)","C101","a share is not marked")
m(M,"parse","let v := (strip v).map Char.toLower","let v := strip v","C101","capital units are refused")
m(M,"parse","let v := (strip v).map Char.toLower","let v := v.map Char.toLower","C101","white space in front is refused")
m(M,"parse","let suffix := strip (v.dropWhile inNumber)","let suffix := v.dropWhile inNumber","C101","no space is allowed before the unit")
m(M,"inNumber","c.isDigit || c = '.' || c = '-'","c.isDigit || c = '-'","C101","the point ends a number")
m(M,"inNumber","c.isDigit || c = '.' || c = '-'","c.isDigit || c = '.'","C101","negative numbers are refused")
m(M,"toFloat","fun x => -x","fun x => x","C101","the sign is ignored")
m(M,"unsignedFloat","10 ^ fs.length","10 ^ ds.length","C101","fraction scaled by the wrong length")
m(M,"unsignedFloat","&& !(ds = [] && fs = [])","","C101","a lone point is zero")
m(M,"unsignedFloat","if ds = [] then none else ","","C101","the empty text is zero")
m(M,"statusNvml","⟨n.gpuUtil, n.memUtil, n.temperature, n.total, n.free, n.used⟩","⟨n.memUtil, n.gpuUtil, n.temperature, n.total, n.free, n.used⟩","C101","utilizations are swapped")
m(M,"statusNvml","⟨n.gpuUtil, n.memUtil, n.temperature, n.total, n.free, n.used⟩","⟨n.gpuUtil, n.memUtil, n.temperature, n.total, n.used, n.free⟩","C101","free and used memory are swapped")
m(M,"statusWsl","let free ← sizeOf s.free","let free ← sizeOf s.used","C101","free memory is read from used")
m(M,"statusWsl","intOf s.temperature.dropLast","intOf s.temperature","C101","the C is not cut off: every temperature is a ValueError")
