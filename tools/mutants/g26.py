M="Model/StoreWire"
m(M,"le","UInt8.ofNat (x % 256) :: le n (x / 256)","le n (x / 256) ++ [UInt8.ofNat (x % 256)]","C84","lengths written in big endian order, read in little endian order")
m(M,"ofInt","le 8 (i % 18446744073709551616).toNat","le 8 i.toNat","C84","a negative increment is sent as 0")
m(M,"toInt","if n < 9223372036854775808 then n else n - 18446744073709551616","n","C84","the server reads increments as unsigned")
m(M,"Req.code","  | .watch .. => 7\n  | .delete .. => 8","  | .watch .. => 8\n  | .delete .. => 7","C84","client and server disagree on two codes")
m(M,"Req.parts","  | .cset k e v => str k ++ str e ++ str v","  | .cset k e v => str k ++ str v ++ str e","C84","compareSet sends the new value before the expected one")
m(M,"Req.parts","  | .wait ks => le 8 ks.length :: ks.flatMap str ","  | .wait ks => ks.flatMap str ","C84","wait does not send the number of keys")
m(M,"sendBuffer","if (buf ++ p).length ≥ 1440 then (buf ++ p) :: sendBuffer [] rest","if (buf ++ p).length ≥ 1440 then (buf ++ p) :: sendBuffer (buf ++ p) rest","C84","maybeFlush does not clear the buffer")
m(M,"sendBuffer","if (buf ++ p).length ≥ 1440 then (buf ++ p) :: sendBuffer [] rest","if (buf ++ p).length ≥ 1440 then buf :: sendBuffer [] rest","C84","the part that fills the buffer is lost")
m(M,"sendBuffer","  | [] => if buf.length > 0 then [buf] else []","  | [] => []","C84","no flush at the end of an operation")
m(M,"recvN","if n ≤ b.length then","if n < b.length then","C84","recvBytes waits for one byte more")
m(M,"recvN",".ok (b.take n) (b.drop n) else .more",".ok (b.take n) (b.drop n) else if b = [] then .more else .ok b []","C84","recvBytes returns after a short read")
m(M,"recvStr","recvN n rest else .bad","recvN n rest else .more","C84","an impossible length is waited for for ever instead of being refused",tightened="waits_iff refused_iff")
m(M,"recvStr","if n < 9223372036854775808 then recvN n rest","if n < 1440 then recvN n rest","C84","long strings are refused")
m(M,"recvArgs","else if code = 9 then (recvStr b).bind fun k b => (recvStr b).bind fun v b => .ok (.append k v) b","else if code = 9 then (recvStr b).bind fun k b => (recvStr b).bind fun v b => .ok (.append v k) b","C84","append with key and value swapped")
m(M,"recvArgs","  else .bad  ","  else .ok .numKeys b  ","C84","an unknown query type is not refused",tightened="request_exact unknown_refused")
m(M,"readResp","(recvN 1 b).bind","(recvN 8 b).bind","C84","one-byte answers are read as eight bytes")
m(M,"serve","{ c with net := rest, handled","{ c with net := [], handled","C84","bytes behind the request are dropped")
m(M,"serve","if c.closed ∧ c.toSend = [] then","if c.closed then","C84","a closed connection is dropped although bytes are under way")
m(M,"serve","else { st with blocked := some s }","else { conns := st.conns.erase s, blocked := none }","C84","a half-received request drops the connection")
m(M,"serve","handled := c.handled ++ [r] }, blocked := none }","handled := c.handled ++ [r] }, blocked := some s }","C84","the server goes on reading from the same socket")
m(M,"turn","  | (.running, n), .message => (.running, n + 1)","  | (.running, n), .message => (.running, n)","C84","an update is not handled")
m(M,"turn","  | (.running, n), .stop => (.ended, n)","  | (.running, n), .stop => (.running, n)","C84","the stop signal is ignored")
m(M,"turn","  | (.running, n), .eof => (.running, n) ","  | (.running, n), .eof => (.ended, n) ","C84","(repair) the thread ends when the server is gone")
