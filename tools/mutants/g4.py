M="Model/Marker"
m(M,"normalize","if pyLower s = ['t', 'r', 'u', 'e'] then .ok (.bool true)","if s = ['t', 'r', 'u', 'e'] then .ok (.bool true)","C63","\"TRUE\" not read as a truth value")
m(M,"normalize","if pyLower s = ['f', 'a', 'l', 's', 'e'] then .ok (.bool false)","if pyLower s = ['f', 'a', 'l', 's', 'e'] then .ok (.bool true)","C63","\"false\" read as True")
m(M,"normalize","if '.' ∈ s ∧ (splitDot s).all","if (splitDot s).all","C63","texts without a dot taken as versions")
m(M,"normalize","(splitDot s).all (fun p","(splitDot s).any (fun p","C63","a text with one numeric component taken as a version")
m(M,"pyInt","10 * n + (c.toNat","16 * n + (c.toNat","C63","components read in base 16",tightened="marker_right marker_answers_iff_partial")
m(M,"parseArch","then .int (pyInt r) else .str s","then .str r else .str s","C63","sm_NN compared as text")
m(M,"dropZeros","(l.reverse.dropWhile (· = 0)).reverse","l.dropWhile (· = 0)","C63","leading instead of trailing zeros dropped")
m(M,"lexLt","  | [], _ :: _ => true\n  | _ :: _, [] => false","  | [], _ :: _ => false\n  | _ :: _, [] => true","C63","a prefix taken as greater")
m(M,"apply.le","  | .le => match valLt b a with\n    | .error e => .error e\n    | .ok r => .ok (! r)","  | .le => match valLt a b with\n    | .error e => .error e\n    | .ok r => .ok r","C63","<= mapped to operator.lt")
m(M,"apply.gt","  | .gt => valLt b a","  | .gt => valLt a b","C63","> with swapped operands")
m(M,"apply.ne","  | .ne => .ok (! valEq a b)","  | .ne => .ok (valEq a b)","C63","!= mapped to operator.eq")
m(M,"apply.other","  | .other => .error .keyError","  | .other => .ok true","C63","`in` always true")
m(M,"both","if pyBool a = isAnd then b else a","if pyBool a = isAnd then a else b","C63","and/or swapped")
m(M,"eval.not","    | .ok x => .ok (.bool (! pyBool x))","    | .ok x => .ok (.bool (pyBool x))","C63","not ignored")
m(M,"evalChain.more","        | .ok true => evalChain env y rest","        | .ok true => evalChain env x rest","C63","chained comparison keeps comparing the first operand")
m(M,"evalChain.more","        | .ok false => .ok false\n","        | .ok false => evalChain env y rest\n","C63","a failed link does not end the chain")
m(M,"eval.name","normalize ((env id).getD .none)","(.ok ((env id).getD .none))","C63","names not normalised (has_cuda = \"false\" taken as true)")
m(M,"eval.and","    | .ok x => match eval env b with\n      | .error e => .error e\n      | .ok y => .ok (both true x y)","    | .ok x => if pyBool x then eval env b else .ok x","C63","the fix: and stops at a false operand; the refutation must fail")
m(M,"valLt","    | .str x, .str y => .ok (lexLt charLt x y)","    | .str x, .str y => .ok (lexLt charLt x y)\n    | .none, .ver _ => .ok true","C63","None ordered below versions (no TypeError)")
m(M,"pyBool","  | .str s => ! s.isEmpty","  | .str _ => true","C63","the empty text is true",tightened="marker_right marker_answers_iff_partial")
m(M,"isDigits","s.all Char.isDigit","s.all Char.isAlphanum","C63","hexadecimal components taken as versions",tightened="marker_right")
m(M,"pyLower","s.map Char.toLower","s.map Char.toUpper","C63","upper instead of lower",tightened="marker_right")
