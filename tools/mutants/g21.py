M="Model/Delay"
m(M,"startTask","st.setPh i t (.sleeping (st.now + d.toNat))","st.setPh i t (.sleeping d.toNat)","C81","sleeps till an absolute time")
m(M,"startTask","| none => { st.setPh i t (.ended .typeError) with","| none => { st.setPh i t (.sleeping st.now) with","C81","no delay taken for 0 (a fix)")
m(M,"startTask","if t.loc then st.logged else st.logged ++ [i]","st.logged ++ [i]","C81","local errors logged too")
m(M,"wakeTask","if st.live then {","if true then {","C81","local tell to an actor that is gone")
m(M,"wakeTask","{ st.setPh i t (.ended .ok) with sent := st.sent ++ [(i, st.now, st.mem t.cell)] }","st.setPh i t (.ended .ok)","C81","local tell not made")
m(M,"wakeTask","{ st.setPh i t (.ended .ok) with sent := st.sent ++ [(i, st.now, st.mem t.cell)] }","{ st.setPh i t .created with sent := st.sent ++ [(i, st.now, st.mem t.cell)] }","C81","local tell repeated")
m(M,"wakeTask","else st.setPh i t (.ended (.err .notExist))","else st.setPh i t (.ended .ok)","C81","missing actor ignored")
m(M,"failTask","if t.ignore && e == .refused then","if t.ignore then","C81","all errors ignored")
m(M,"failTask","if t.ignore && e == .refused then","if !t.ignore && e == .refused then","C81","flag reversed")
m(M,"failTask","if t.ignore && e == .refused then","if e == .refused then","C81","refused connections always ignored")
m(M,"failTask","if t.ignore && e == .refused then","if false then","C81","nothing ignored")
m(M,"failTask","with logged := st.logged ++ [i] }","with logged := st.logged }","C81","error not logged")
m(M,"step","| .sleeping till => if till ≤ st.now then some (wakeTask st i t) else none","| .sleeping _ => some (wakeTask st i t)","C81","does not sleep")
m(M,"step","| .sleeping till => if till ≤ st.now then some (wakeTask st i t) else none","| .sleeping till => if till ≤ st.now + 1 then some (wakeTask st i t) else none","C81","wakes one second early")
m(M,"step","if t.ph = .sending then some { st.setPh i t .written with","if t.ph = .sending then some { st with","C81","written again and again")
m(M,"step","| none => if t.ph = .written then some (st.setPh i t (.ended .ok)) else none","| none => if t.ph = .sending then some (st.setPh i t (.ended .ok)) else none","C81","success without writing")
m(M,"step","| _ => some (st.setPh i t (.ended .cancelled))","| _ => some st","C81","cancel without effect")
m(M,"step","| _ => some (st.setPh i t (.ended .cancelled))","| _ => some (st.setPh i t (.ended .ok))","C81","cancel looks like success")
m(M,"step","made := st.now, delay, ignore, cell }","made := st.now, delay, ignore := true, cell }","C81","ignore_conn_fail not passed on")
m(M,"step","made := st.now, delay, ignore, cell }","made := st.now, delay := delay.map (· - 1), ignore, cell }","C81","delay one too short")
m(M,"step","if t.ph = .created then some (startTask st i t) else none","some (startTask st i t)","C81","task started again")
