M="Model/Store"
m(M,"inRange","i < 9223372036854775808","i ≤ 9223372036854775808","C52","2^63 is accepted as a 64 bit number",tightened="stoll_exact")
m(M,"inRange","-9223372036854775808 ≤ i","-9223372036854775807 ≤ i","C52","-2^63 is refused",tightened="stoll_exact")
m(M,"stoll","| '+' :: t => if digits t = [] then none else some (value (digits t))","| '+' :: t => if digits t = [] then none else some (-(value (digits t) : Int))","C52","a plus sign is read as minus",tightened="stoll_exact")
m(M,"stoll","| '+' :: t => if digits t = [] then none else some (value (digits t))\n","","C52","a plus sign is refused",tightened="stoll_exact")
m(M,"stoll","v.dropWhile (· == ' ')","v","C52","leading blanks are refused",tightened="stoll_exact")
m(M,"digits","if c.isDigit then c :: digits t else []","if c.isDigit then c :: digits t else digits t","C52","characters between digits are skipped",tightened="stoll_exact")
m(M,"value","Nat.ofDigitChars 10 l 0","Nat.ofDigitChars 16 l 0","C52","numbers are read as hexadecimal",tightened="stoll_exact")
m(M,"doSets","| (st, true) => doSets n rest st\n    | (st, false) => (st, false)","| (st, true) => doSets n rest st\n    | (st, false) => (st, true)","C52","a failed write of a multi-set is swallowed",tightened="closes_exact")
m(M,"exec delete","      | (st, true) => (answer { st with store := st.store.erase k } s n (.delete k) (.int 1), true)\n      | (st, false) => (st, false)","      | (st, true) => (answer { st with store := st.store.erase k } s n (.delete k) (.int 1), true)\n      | (st, false) => (st, true)","C52","a failed delete is swallowed",tightened="closes_exact")
m(M,"exec get","| some v => (answer st s n (.get k) (.vec v), true)\n    | none => (st, false)","| some v => (answer st s n (.get k) (.vec v), true)\n    | none => (answer st s n (.get k) (.vec []), true)","C52","a missing key is read as empty",tightened="closes_exact")
m(M,"exec wait","awaited := st.awaited.set s (missing st ks).length","awaited := st.awaited.set s ks.length","C52","all keys are counted, not the missing ones")
m(M,"wrap","% 18446744073709551616 - 9223372036854775808","% 18446744073709551616","C52","sums are unsigned",tightened="wrap_exact")
