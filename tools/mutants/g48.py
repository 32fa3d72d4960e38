M="Model/Calls"
m(M,"handleTuple","      | .ok vs => if cancelled then .cancelled else .ok vs","      | .ok vs => .ok vs","C17","a cancelled call returns its tuple",tightened="tuple_cancelled")
m(M,"Exc.cls","  | .plain c _ => some c","  | .plain _ _ => none","C41","errors lose their class within a process",tightened="error_at_home")
m(M,"tag",'"[address=" ++ address ++ ", pid="','"[pid=" ++ address ++ ", address="',"C41","address and pid exchanged in the text",tightened="error_identity cancel_identity")
