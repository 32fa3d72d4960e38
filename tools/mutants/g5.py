M="Model/Reqs"
m(M,"vcsPrefixes",'"hg+".toList, ','',"C64","hg+ URLs parsed as requirements")
m(M,"replaceFrom","replaceFrom pat rep (pat.length - 1) s","replaceFrom pat rep pat.length s","C64","one character after a placeholder is lost")
m(M,"replaceFrom","rep ++ replaceFrom pat rep (pat.length - 1) s","rep ++ s.drop (pat.length - 1)","C64","only the first occurrence replaced")
m(M,"Value.format",'| .bool true => "True".toList','| .bool true => "true".toList',"C64","JSON instead of Python literal for booleans")
m(M,"Value.format",'| .none => "None".toList','| .none => "null".toList',"C64","JSON null for None")
m(M,"placeholder","'#' :: (name ++ ['#'])","'#' :: name","C64","closing # left in the marker")
m(M,"substitute","vars.foldl","(vars.take 1).foldl","C64","only the first variable substituted")
m(M,"splitSemi","(s.takeWhile (· ≠ ';'), (s.dropWhile (· ≠ ';')).drop 1)","(s.takeWhile (· ≠ ';'), s.dropWhile (· ≠ ';'))","C64","the marker keeps its semicolon")
m(M,"strip","((s.dropWhile isSpace).reverse.dropWhile isSpace).reverse","s.dropWhile isSpace","C64","only lstrip")
m(M,"filterOne","if m = none ∨ m = some true then","if m = some true then","C64","requirement without a marker dropped")
m(M,"filterOne","if m = none ∨ m = some true then","if m = none ∨ m = some true ∨ m = some false then","C64","marker not evaluated")
m(M,"filterOne","        | some false => .ok none\n","        | some false => .error .marker\n","C64","false custom marker is an error")
m(M,"filterOne","      else .error .invalid\n  else","      else .ok none\n  else","C64","unreadable requirement silently dropped")
m(M,"filterOne","          match lib.parse (strip (splitSemi s).1) with","          match lib.parse (strip s) with","C64","the requirement parsed with its custom marker")
m(M,"filterOne","⟨r.name, [], r.specifier, none⟩","r","C64","the fix: extras and URL kept; the refutation must fail")
m(M,"filterOne","let marker := substitute vars (strip (splitSemi s).2)","let marker := strip (splitSemi s).2","C64","variables not substituted")
m(M,"filter",".ok (o.toList ++ os)",".ok (os ++ o.toList)","C64","order reversed")
m(M,"filter","      | .ok os => .ok (o.toList ++ os)","      | .ok os => .ok (if o = none then [] else o.toList ++ os)","C64","a dropped item drops the ones after it")
m(M,"sysName",".dropLast","","C64","closing # kept in the package name")
m(M,"isSystem",' && s.getLast? == some \'#\'','',"C64","#system_ items without the closing # resolved")
m(M,"resolveOne",' ++ v.takeWhile (· ≠ \'+\')',' ++ v',"C64","build metadata kept")
m(M,"resolveOne","    | none => .error .notFound","    | none => .ok (sysName s)","C64","missing system package installed without a version")
m(M,"resolve",".ok (t :: ts)",".ok (if t = s then ts else t :: ts)","C64","items that are no placeholders dropped")
m(M,"isSpace","(9 ≤ c.toNat && c.toNat ≤ 13)","(9 ≤ c.toNat && c.toNat ≤ 10)","C64","carriage return not stripped")
m(M,"process","  | .ok l => filter lib vars l","  | .ok _ => filter lib vars l","C64","the resolved list is ignored")
