M="Model/Nccl"
m(M,"ROp.nccl","  | .max => .ok .max\n  | .min => .ok .min","  | .max => .ok .min\n  | .min => .ok .max","C85","MAX and MIN swapped in the mapping")
m(M,"ROp.nccl","  | _ => .error .badArgument","  | _ => .ok .sum","C85","unknown reductions become sums")
m(M,"gatherActs","if send.size * w ≠ recv.size then .error .assertion","if send.size ≠ recv.size then .error .assertion","C85","gather checks for equal sizes")
m(M,"gatherActs","if peer = rank then .ok (.copy off","if peer = 0 then .ok (.copy off","C85","the own part goes to place 0")
m(M,"gatherActs",".ok (.recv peer off n)",".ok (.recv root off n)","C85","gather receives from itself")
m(M,"gatherActs","else .ok [.send root send.data]","else .ok []","C85","the other ranks do not send")
m(M,"row","min p d * rest.prod, n * rest.prod","min p d, n * rest.prod","C85","rows start at the wrong element")
m(M,"scatterActs","if peer = root then do .ok (.copy 0","if peer = 0 then do .ok (.copy 0","C85","the root keeps the first array instead of its own")
m(M,"scatterActs",".ok (.send peer x.data)",".ok (.send root x.data)","C85","scatter sends to the root")
m(M,"scatterActs","else .ok [.recv root 0 recv.size]","else .ok [.recv 0 0 recv.size]","C85","scatter receives from rank 0")
m(M,"alltoallPeer","let (ssh, d) ← rowData send peer","let (ssh, d) ← rowData send rank","C85","every peer gets the same part")
m(M,"alltoallPeer","let (_, off, n) ← row recv.shape peer","let (_, off, n) ← row recv.shape rank","C85","parts of the peers go to the own place")
m(M,"alltoallPeer","else if rank > peer then .ok [.recv peer off n, .send peer d]","else if rank > peer then .ok [.recv peer off n]","C85","higher ranks do not send to lower ones")
m(M,"alltoallActs","if w ≠ d then .error .assertion","if w < d then .error .assertion","C85","send data with too few parts is accepted")
m(M,"reduce","if r = root then some","if r = 0 then some","C85","the result of reduce goes to rank 0")
m(M,"allgather","some xs.flatten","some xs.reverse.flatten","C85","(contract) allgather in reverse rank order")
m(M,"reduceScatter","match (elems r)[r]? with","match (elems r)[0]? with","C85","every rank uses recv_elems[0]")
m(M,"reduceScatter","fun n => w * n","id","C85","(contract) only the first part is reduced")
m(M,"broadcast","fun _ xs => xs[root]?","fun _ xs => xs[0]?","C85","broadcast of rank 0's data")
m(M,"broadcast","    | none => .error .badArgument\n  collective","    | none => .ok ⟨[], []⟩\n  collective","C85","a missing send_data becomes an empty array")
m(M,"shiftId","if 0 ≤ b + 128 ∧ b + 128 < 256 then","if 0 ≤ b + 128 ∧ b + 128 ≤ 256 then","C85","a byte too large is not refused")
m(M,"unshiftId","(b.toNat : Int) - 128","(b.toNat : Int)","C85","the id is not shifted back")
m(M,"served","0 < n ∧ size ≤ n","0 < n","C85","(wrong) half requests are executed")
m(M,"bcast","if v = t then","if v ≤ t then","C85","(contract) assignment of a shorter value")
m(M,"exec","if d.length = n then","if d.length ≤ n then","C85","(contract) transfers of different sizes")
