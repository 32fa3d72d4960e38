M="Model/Gloo"
m(M,"prepare.reduce","[⟨s.ptr, s.size * d.sizeof⟩], if rank = root then some ⟨a.recv.ptr, s.size * d.sizeof⟩ else none⟩\n  -- process_group.py:200","[⟨s.ptr, s.size * d.sizeof⟩], some ⟨a.recv.ptr, s.size * d.sizeof⟩⟩\n  -- process_group.py:200","C62","reduce uses the caller's buffer as scratch on every rank")
m(M,"prepare.allreduce","    .ok ⟨d, some f, [⟨s.ptr, s.size * d.sizeof⟩], some ⟨a.recv.ptr, s.size * d.sizeof⟩⟩\n  -- process_group.py:226","    .ok ⟨d, some f, [⟨a.recv.ptr, s.size * d.sizeof⟩], some ⟨a.recv.ptr, s.size * d.sizeof⟩⟩\n  -- process_group.py:226","C62","allreduce reads recv_data instead of send_data")
m(M,"prepare.gather","some ⟨a.recv.ptr, w * s.size * d.sizeof⟩ else none","some ⟨a.recv.ptr, s.size * d.sizeof⟩ else none","C62","gather output of one part only (gloo refuses)")
m(M,"prepare.allgather","some ⟨a.recv.ptr, s.size * w * d.sizeof⟩","some ⟨s.ptr, s.size * w * d.sizeof⟩","C62","allgather writes over send_data")
m(M,"prepare.scatter","let size := (a.send.map Arr.size).sum","let size := a.recv.size","C62","the fix of scatter: the overflow refutation must fail")
m(M,"prepare.scatter","    .ok ⟨d, none, a.send.map (fun s => ⟨s.ptr, size * d.sizeof⟩)","    .ok ⟨d, none, a.send.reverse.map (fun s => ⟨s.ptr, size * d.sizeof⟩)","C62","parts handed out in reverse order")
m(M,"prepare.reduceScatter","some ⟨a.recv.ptr, (elems[rank]?).getD 0 * d.sizeof⟩","some ⟨a.recv.ptr, (elems[0]?).getD 0 * d.sizeof⟩","C62","recvElems[0] instead of recvElems[rank] in the memcpy",note="out window length")
m(M,"prepare.alltoall","    .ok ⟨d, none, [⟨s.ptr, s.size * d.sizeof⟩], some ⟨a.recv.ptr, s.size * d.sizeof⟩⟩\n  -- process_group.py:304","    .ok ⟨d, none, [⟨s.ptr, s.size * d.sizeof⟩], some ⟨a.recv.ptr, w * s.size * d.sizeof⟩⟩\n  -- process_group.py:304","C62","alltoall size times the group size")
m(M,"prepare.broadcast","if rank = root then [⟨p, a.recv.size * d.sizeof⟩] else []","if rank = root then [⟨a.recv.ptr, a.recv.size * d.sizeof⟩] else []","C62","broadcast ignores send_data")
m(M,"prepare.broadcast","if rank = root then [⟨p, a.recv.size * d.sizeof⟩] else []","if rank = 0 then [⟨p, a.recv.size * d.sizeof⟩] else []","C62","broadcast from rank 0 whatever the root")
m(M,"prepare.broadcast","      | [] => a.recv.ptr\n","      | [] => 0\n","C62","send_data None not replaced by recv_data")
m(M,"ROp.code","| .sum => 0 | .product => 1 | .min => 2 | .max => 3","| .sum => 0 | .product => 1 | .min => 3 | .max => 2","C62","MIN and MAX swapped")
m(M,"toFunction","  | 1 => .ok .product\n","  | 1 => .ok .sum\n","C62","PRODUCT computed as sum")
m(M,"toFunction","  | 3 => .ok .max\n","  | 3 => .ok .max\n  | 4 => .ok .min\n","C62","BAND falls through to another reduction")
m(M,"prepare.gather","if rank = root then some ⟨a.recv.ptr, w * s.size * d.sizeof⟩","if rank = 0 then some ⟨a.recv.ptr, w * s.size * d.sizeof⟩","C62","gather to rank 0 whatever the root")
m(M,"prepare.reduce","    .ok ⟨d, some f, [⟨s.ptr, s.size * d.sizeof⟩], if rank = root then some ⟨a.recv.ptr, s.size * d.sizeof⟩","    .ok ⟨d, some f, [⟨s.ptr, s.size⟩], if rank = root then some ⟨a.recv.ptr, s.size⟩","C62","elements counted as bytes")
m(M,"CT.sizeof","  | .int32_t | .uint32_t | .float_t => 4\n  | .int64_t | .uint64_t | .double_t => 8","  | .int32_t | .uint32_t => 4\n  | .int64_t | .uint64_t | .double_t | .float_t => 8","C62","glooFloat32 handled as eight bytes",tightened="allgather_correct")
m(M,"DT.gloo","  | .uint32 => some .glooUint32","  | .uint32 => some .glooInt32","C62","uint32 mapped to the signed type (wrong MIN/MAX)")
m(M,"GT.ctype","  | .glooFloat64 => .double_t","  | .glooFloat64 => .float_t","C62","float64 dispatched to float")
m(M,"DT.gloo","  | .other _ => none","  | .other _ => some .glooInt8","C62","unknown types taken as bytes")
