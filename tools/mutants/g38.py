M="Model/Serial"
T="header_short alone_is_buffer"
m(M,"inlinable","if b.size < maxStrPrimitiveLen then","if b.size ≤ maxStrPrimitiveLen then","C01","a byte string of 1024 bytes goes in the header",tightened=T)
m(M,"inlinable","if s.length < maxStrPrimitiveLen then","if s.length ≤ maxStrPrimitiveLen then","C01","a text of 1024 characters goes in the header",tightened=T)
m(M,"inlinable","if b.size < maxStrPrimitiveLen then","if ¬ (b.size < maxStrPrimitiveLen) then","C01","long byte strings go in the header, short ones travel as buffers",tightened=T)
m(M,"inlinable","if s.length < maxStrPrimitiveLen then","if ¬ (s.length < maxStrPrimitiveLen) then","C01","long texts go in the header, short ones travel as buffers",tightened=T)
m(M,"maxStrPrimitiveLen","Nat := 1024","Nat := 1025","C01","the limit is off by one",tightened=T)
m(M,"serial","| .str _ s => buffered c x 3 [] (.bufs [s.toUTF8])","| .str _ s => buffered c x 3 [.atom (.str s)] (.bufs [s.toUTF8])","C01","a text alone is also written in the header",tightened=T)
