M="Model/Caller"
m(M,"St.step","else { s with closed := true }.failPending .serverClosed","else { s with closed := true }.failPending .keyError","C21","calls pending when the connection dies get KeyError",tightened="death_exact")
m(M,"St.step","let s' := s.failPending .serverClosed","let s' := s.failPending .keyError","C21","calls pending when the client was closed get KeyError",tightened="death_exact")
m(M,"St.register","s.table.filter (· ≠ id) ++ [id]","id :: s.table.filter (· ≠ id)","C21","calls fail in the reverse order: a later cancelled call makes earlier ones hang",tightened="death_exact before_order")
