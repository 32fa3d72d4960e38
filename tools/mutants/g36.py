M="Model/InitPg"
m(M,"envOk",".ok (0 ≤ i)",".ok (0 < i)","C91","device 0 of the environment is refused")
m(M,"envOk","| none => .ok false","| none => .ok true","C91","nccl without a device is accepted")
m(M,"envOk","| some none => .error .valueError","| some none => .ok true","C91","garbage in the environment is accepted as a device")
m(M,"deviceOk","if 0 ≤ d then .ok true else envOk env","if 0 < d then .ok true else envOk env","C91","device 0 is refused")
m(M,"deviceOk","if 0 ≤ d then .ok true else envOk env","if 0 ≤ d then .ok true else .ok false","C91","a negative device is refused (the repair: device_refuted must fail)")
m(M,"deviceOk","| .other => .ok false","| .other => .ok true","C91","unknown backends pass the first check (the second refuses, with another reason)",tightened="reasons_args")
m(M,"cupyOk","| .nccl => cupy","| .nccl => true","C91","nccl without cupy is accepted")
m(M,"addressOf","if x = \"\" then env else some x","some x","C91","the empty address is taken literally")
m(M,"addressOf","else some x\n  | none => env","else some x\n  | none => none","C91","the environment's address is ignored")
m(M,"addressOf","if x = \"\" then env else some x","match env with | some e => some e | none => some x","C91","the environment wins over the address given")
m(M,"deviceOf","| .nccl, none, some (some i) => some i\n","","C91","the environment's device is not used")
m(M,"deviceOf","| .nccl, none, some (some i) => some i","| _, none, some (some i) => some i","C91","gloo ranks get a device")
m(M,"deviceOf","| .nccl, none, some (some i) => some i","| .nccl, _, some (some i) => some i","C91","the environment's device wins")
m(M,"create","procs := st.procs.set q { pr with rankAddr := some x }","procs := st.procs","C91","the environment is not set")
m(M,"create","({ st with actors := st.actors.set x r }, .ok) else (st, .failed)","({ st with actors := st.actors.set x r }, .ok) else ({ st with actors := st.actors.set x r }, .failed)","C91","a failed actor stays")
m(M,"create","rankAddr := some x","rankAddr := some pr.addr","C91","the pool's own address is recorded",note="the pool's address is the address asked for: no difference")
m(M,"createAt","if (st.actors.get? x).isSome then (st, .already)\n      else ","","C91","joining twice replaces the rank")
m(M,"createAt","else if cupyOk r.backend pr.cupy then create st x q pr r connected\n      else (st, .cupy)","else create st x q pr r connected","C91","the pool's process need not have cupy")
m(M,"initPg","⟨a.rank, a.world, a.backend, deviceOf a pr.device⟩","⟨a.world, a.rank, a.backend, deviceOf a pr.device⟩","C91","rank and world are swapped")
m(M,"initPg","⟨a.rank, a.world, a.backend, deviceOf a pr.device⟩","⟨a.rank, a.world, a.backend, a.device⟩","C91","the device given is used, even if none")
m(M,"initPg","    if cupyOk a.backend pr.cupy then","    if true then","C91","the caller need not have cupy")
m(M,"call",".acts r (q = p)",".acts r true","C91","data are always the caller's")
m(M,"call","| some q, some r => .acts r (q = p)","| some q, some r => .acts { r with world := 0 } (q = p)","C91","the world is lost")
m(M,"step child","{ pr with addr := x }, pools","{ pr with addr := x, rankAddr := none }, pools","C91","the variable is not inherited (the repair: child_refuted must fail)")
m(M,"step destroy","st.actors.erase x","st.actors","C91","destroy does nothing")
