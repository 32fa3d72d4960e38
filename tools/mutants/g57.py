M="Model/Spawn"
m(M,"Child.runs","  | _ => true","  | _ => false","C97","a process is never held to be there: what is said of processes left behind is empty",tightened="runs_iff failed_nothing_left")
