M="Model/Dispatch"
m(M,"Registry.register","({ r with disp := disp }, decide (c' = c))","({ r with disp := disp, deser := r.deser.set (sid c) c }, true)","C38","the last serializer with an id takes it over, no error",tightened="roundtrip_iff register_ok_iff")
m(M,"Registry.register","({ r with disp := disp }, decide (c' = c))","({ r with disp := disp }, true)","C38","an id clash goes unnoticed",tightened="register_ok_iff")
m(M,"Registry.register","({ r with disp := disp }, decide (c' = c))","if c' = c then ({ r with disp := disp }, true) else (r, false)","C38","failed_register_refuted is about this code: the assertion comes first",tightened="failed_register_refuted")
m(M,"Registry.register","{ disp := disp, deser := r.deser.set (sid c) c }","{ disp := disp, deser := r.deser.set c c }","C38","decoders are stored under the class, not its id",tightened="roundtrip_iff")
m(M,"Registry.unregister","deser := r.deser.erase (sid c)","deser := r.deser","C38","un-registering leaves the decoder (roundtrip_iff is exact)",tightened="roundtrip_iff")
m(M,"Registry.unregister","disp := r.disp.unregister k,","disp := r.disp,","C38","un-registering leaves the serializer in use",tightened="roundtrip_iff")
m(M,"Registry.unregister","deser := r.deser.erase (sid c)","deser := r.deser.erase c","C38","decoders are removed by class, not by id",tightened="roundtrip_iff")
