M="Model/Reach"
m(M,"digitsFrom","10 * acc + (c.toNat - '0'.toNat)","acc + (c.toNat - '0'.toNat)","C88","digits are added instead of shifted")
m(M,"digitsFrom","if c = '_' && d then","if c = '_' then","C88","int() accepts leading and doubled underscores")
m(M,"digitsFrom","| d, acc, [] => if d then some acc else none","| _, acc, [] => some acc","C88","int() accepts the empty text and a trailing underscore")
m(M,"pyInt","| '+' :: r => (digitsFrom false 0 r).map fun (n : Nat) => (n : Int)","| '+' :: _ => none","C88","a plus sign is refused")
m(M,"strip","((s.dropWhile blank).reverse.dropWhile blank).reverse","(s.dropWhile blank)","C88","only leading blanks are stripped")
m(M,"registry","(none, .socket), (some unixName, .unix)","(none, .unix), (some unixName, .socket)","C88","the classes of two schemes are swapped")
m(M,"getScheme","if hasSep a then some (urlScheme a) else none","some (urlScheme a)","C88","the scheme is looked for also without ://: `localhost:80` has scheme localhost")
m(M,"checkScheme","let s := if s = some [] then none else s","let s := s","C88","the empty scheme is not taken as no scheme")
m(M,"checkScheme","else if types.has none then .error .typeError\n  else .error .valueError","else .error .valueError","C88","(repair) unknown schemes raise ValueError")
m(M,"rsplit","(a.reverse.takeWhile (· ≠ ':')).reverse","((a.dropWhile (· ≠ ':')).drop 1)","C88","split at the first colon: IPv6 hosts break")
m(M,"rsplit","a.length - port.length - 1","a.length - port.length","C88","the host keeps the colon")
m(M,"socketAddress","host ++ ':' :: str port","str port ++ ':' :: host","C88","host and port swapped")
m(M,"ucxEndpoint","a.drop (ucxName ++ colonSlashes).length","a.drop ucxName.length","C88","only the scheme, not :// is cut")
m(M,"bindHost","if isV6 host then any6 else any4","if isV6 host then any4 else any6","C88","the wildcards are swapped")
m(M,"tcpCreate",".ok ⟨h, bindHost elastic h, given, .made⟩",".ok ⟨bindHost elastic h, bindHost elastic h, given, .made⟩","C88","an elastic server announces the wildcard")
m(M,"tcpCreate",".ok ⟨h, bindHost elastic h, p.toNat, .made⟩",".ok ⟨h, bindHost elastic h, p.toNat, .up⟩","C88","a server listens before start")
m(M,"tcpCreate","if p = 0 then\n      if given","if p = 1 then\n      if given","C88","port 0 is not replaced")
m(M,"tcpStart","if listened st t.bound t.port then .error .inUse else","if false then .error .inUse else","C88","two servers may listen on one address")
m(M,"tcpStep","| some t => st.set s { t with phase := .gone }","| some t => st.set s { t with phase := .made }","C88","a stopped server can be started again")
m(M,"tcpConnect","x.2.phase = .up && x.2.port = p.toNat && covers x.2.bound h with","x.2.port = p.toNat && covers x.2.bound h with","C88","connections reach servers that are not listening")
m(M,"covers","b = h || b =","b = (if isV6 b then any6 else any4) || b =","C88","specific addresses are not covered")
m(M,"urlPath","(fun c => c ≠ '/' && c ≠ '?' && c ≠ '#') else rest","(fun c => c ≠ '?' && c ≠ '#') else rest","C88","the host part swallows the path")
m(M,"urlPath","  rest.takeWhile (fun c => c ≠ '?' && c ≠ '#')","  rest.takeWhile (fun c => c ≠ '?')","C88","a fragment is part of the path")
m(M,"unixIndex","pyInt ((urlPath a).dropWhile (· = '/'))","pyInt ((urlPath a).drop 1)","C88","only one slash is stripped")
m(M,"unixAddress","unixName ++ colonSlashes ++ ['/'] ++ str n","unixName ++ colonSlashes ++ str n","C88","the index is in the host part")
m(M,"defaultPath","digest (strInt i)","digest []","C88","all indices share one name")
m(M,"clearPath","| some (.sock _) => files.erase p","| some (.sock _) => files","C88","the name of a crashed server is not removed")
m(M,"clearPath","  | _ => files\n","  | _ => files.erase p\n","C88","other files are removed too")
m(M,"ustep","else { setPhase st s u .made with files := st.files.set u.path (.sock s) }","else setPhase st s u .made","C88","bind makes no name")
m(M,"ustep","if st.files.has u.path then setPhase st s u .gone","if st.files.has u.path then setPhase st s u .made","C88","a failed bind is ignored",tightened="bind_exact")
m(M,"ustep","if u.phase = .made then setPhase st s u .up else st","setPhase st s u .up","C88","a stopped server can be started again")
m(M,"ustep","{ setPhase st s u .stopped with files := st.files.erase u.path } else st","setPhase st s u .stopped else st","C88","stop leaves the name")
m(M,"ustep","if u.phase = .made ∨ u.phase = .up ∨ u.phase = .stopped then setPhase st s u .closed else st","st","C88","stop does not close the listener")
m(M,"ustep","| some u => setPhase st s u .gone\n","| some u => { setPhase st s u .gone with files := st.files.erase u.path }\n","C88","a crash removes the name",note="Equivalent to the API: a missing and a dead name are both refused")
m(M,"dial","if u.phase = .up then .ok s else .error .refused","if u.phase = .up ∨ u.phase = .made then .ok s else .error .refused","C88","connections reach servers that are only bound")
m(M,"dial","| none => .error .refused\n  | some .other","| none => .ok s\n  | some .other","C88","a name without a server answers",note="unreachable")
m(M,"dial","  | some .other => .error .refused\n  | none => .error .refused\n","  | some .other => .error .refused\n  | none => .error .valueError\n","C88","a missing file is reported as another error")
m(M,"unixConnect","| some i => dial st (defaultPath dir digest i)","| some i => dial st (defaultPath dir digest (i + 1))","C88","the client dials another index")
