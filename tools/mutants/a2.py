m("Model/Addr","v6Loop","if v ≠ 0 then some false else v6Loop hex ps","if v ≠ 0 then v6Loop hex ps else v6Loop hex ps","C35","every v6 address counts as wildcard",note="again, after tightening",tightened="Xoscar.Addr.isZero_v6_other")
m("Model/Addr","schemePrefix","s ++ \"://\".toList","s ++ \":/\".toList","C33","wrong separator",note="again, after tightening",tightened="Xoscar.Addr.ext_schemes")
m("Model/Dispatch","Disp.reload","    lazyH := [] }","    lazyH := d.lazyH }","C37","a dotted-name registration comes back after un-registering the class",note="again, after tightening",tightened="Xoscar.Dispatch.dispatch_lazy_once")
m("Model/Dispatch","Disp.reload","d.lazyH.foldl (fun hs nh => hs.set (.cls (imp nh.1)) nh.2) d.handlers","d.handlers","C37","lazy handlers never loaded",note="again, after tightening",tightened="Xoscar.Dispatch.dispatch_lazy")
m("Model/Config","pyIndex","if 0 ≤ i then l[i.toNat]? else","if 0 ≤ i then l[i.toNat + 1]? else","C27","index off by one",note="again, after tightening",tightened="Xoscar.Config.alloc_process_index")
