M="Model/Link"
m(M,"pack","⟨r.1, r.2.map (fun b","⟨r.1, r.2.reverse.map (fun b","C82","the buffers of a message are sent in the wrong order")
m(M,"pack","⟨r.1, r.2.map (fun b","⟨r.1, (r.2.drop 1).map (fun b","C82","the first buffer is not sent")
m(M,"unpack","w.bufs.map (fun b","w.bufs.reverse.map (fun b","C82","the buffers arrive reversed")
m(M,"unpack","(w.rest, w.bufs","(.tup [], w.bufs","C82","the header is lost on receipt")
m(M,"step","sent := st.sent + ((st.out.wire.drop st.sent).take n).length,","sent := st.sent,","C82","the transport delivers the same bytes again")
m(M,"step","sent := st.sent + ((st.out.wire.drop st.sent).take n).length,","sent := st.sent + n,","C82","bytes not yet written are counted as delivered, and lost")
m(M,"step","inn := Wire.rstep pk st.inn (.data ((st.out.wire.drop st.sent).take n)) }","inn := Wire.rstep pk st.inn (.data (st.out.wire.drop st.sent)) }","C82","bytes are delivered more often than sent")
m(M,"step",".call => { st with inn := Wire.rstep pk st.inn .call }",".call => { st with inn := Wire.rstep pk st.inn .resume }","C82","recv never starts: messages are never received")
m(M,"init","⟨l.map pack, .serializing⟩","⟨(l.drop 1).map pack, .serializing⟩","C82","the first message of a task is not sent")
m(M,"init","⟨l.map pack, .serializing⟩","⟨l.reverse.map pack, .serializing⟩","C82","messages of a task are sent in reverse order")
m(M,"received","st.inn.out.map unpack","st.inn.out.reverse.map unpack","C82","messages are received in the wrong order")
m(M,"received","st.inn.out.map unpack","(st.inn.out ++ st.inn.out).map unpack","C82","every message is received twice")
M="Model/Directory"
m(M,"stepTask","      else s.reply t (if w = .notified then .ok else .keyError)            -- the","      else s.reply t (if ¬ (w = .notified) then .ok else .keyError)            -- the","C25","a destruction overtaken by another is answered with success",tightened="destroy_ok")
m(M,"step","some (.destroy a _ .mainReq false) => if a = c.main","some (.destroy a _ .mainReq true) => if a = c.main","C25","the message to the sub pool is only lost after it was handled",tightened="forgotten_by_lost_destroy_refuted")
m(M,"step","some (.destroy a _ .mainReq false) => if a = c.main","some (.destroy a _ .mainReq false) => if a ≠ c.main","C25","destroying an actor of the main pool fails for a lost message",tightened="callFailed_remote")
M="Model/Tensor"
m(M,"channelsLast","  | _, _ => false","  | _, _ => true","C55","GPU tensors that are not contiguous are sent as they lie in storage, and arrive as other elements",tightened="cuda_roundtrip_partial")
m(M,"channelsLast","=> contigFrom a.item [(c, sc), (w, sw), (h, sh), (n, sn)]","=> false","C55","channels-last tensors are copied (the reported layout changes)",tightened="cuda_receives")
m(M,"viewable","a.item == 1 || a.strides","a.item == 1 && a.strides","C55","tensors of a dtype NumPy does not know cannot be sent",tightened="cpu_sent_iff")
m(M,"viewable","a.item == 1 ||","a.item == 2 ||","C55","a scalar of two bytes per element is sent, one of one byte is not",tightened="cpu_sent_iff")
M="Model/Addr"
m(M,"v6Loop","      | none => none\n      | some v =>","      | none => some true\n      | some v =>","C35","a bracketed IPv6 address counts as a wildcard",tightened="fix_brackets_refuted")
m(M,"fixAllZeroIp","    | none => none\n    | some false => some remote","    | none => some remote\n    | some false => some remote","C35","the repair never raises for the remote address (what happens is not what the theorem says)",tightened="fix_brackets_refuted")
m(M,"fixAllZeroIp","      | none => none\n      | some true => some remote","      | none => some remote\n      | some true => some remote","C35","the repair never raises for the address connected to",tightened="fix_brackets_refuted")
M="Model/Forward"
m(M,"ctlBase",".waitRecovered => .done .nothing (.error .typeError)",".waitRecovered => .done .told (.addr p.mainAddr)","C58","a sub pool asked to wait for a recovery answers at once with success",tightened="wait_recovered_wrong_pool")
m(M,"remote",'isPrefixOf a.toList || "unix','isPrefixOf a.toList && "unix',"C58","local addresses count as remote",tightened="remote_iff")
m(M,"World.kill","    | some (_, .error e) => some (.raised e)\n    | _ => some (.out o)","    | _ => some (.out o)","C58","kill_actor of an unreachable pool returns normally",tightened="kill_unreachable")
M="Model/Gen"
m(M,"step",".destroy g => if free stateless s then",".destroy g => if ¬ free stateless s then","C40","a generator can only be dropped while the actor is busy",tightened="can_destroy")
M="Model/Stats"
m(M,"Pct.new","window.toNat, [], 0⟩","window.toNat, [], 1⟩","C42","the first window is one short",tightened="new_callbacks")
