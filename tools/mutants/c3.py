m("Model/Pool","startUse","  | some i => k (s.addLog (.found t uid i)) i\n  | none => (s.addLog (.missing t uid)).reply t mid (.error .notExist)","  | some i => k (s.addLog (.found t uid i)) i\n  | none => k (s.addLog (.found t uid 0)) 0","C22","messages to missing actors are accepted")
m("Model/Pool","finishTask","  | .recv _ _, .ok n => some (s.reply t mid (.value n)) ","  | .recv _ _, .ok n => some (s.reply t mid (.value (n+1))) ","C48","the value of a call is changed",tightened="Pool.reply_is_outcome")
m("Model/Pool","finishTask","  | .recv _ _, o => some (s.reply t mid (.error o.err))","  | .recv _ _, o => some (s.reply t mid (.error (.user 0)))","C48","the exception of a call is replaced",tightened="Pool.reply_is_outcome")
m("Model/Pool","startTask","  | .reply => s.setPhase t .done ","  | .reply => s.reply t mid (.error .keyError) ","C48","messages without a handler are answered")
m("Model/Pool","sendTask","if resend then s.setPhase t (.sending (.error .sendFailed) false)","if resend then s.setPhase t (.sending (.error .sendFailed) true)","C48","resends forever")
