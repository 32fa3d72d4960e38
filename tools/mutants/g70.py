M="Model/Gpu"
m(M, "gpuName", "'G' :: 'P' :: 'U' :: '-' :: u", "u", "C92", "NVML asked without the prefix", tightened="thm status_exact")
m(M, "readStatus", "    | .good => match byUuid (gpuName u) 0 w.devices with\n      | none => .error .nvml\n      | some k => match r.card k with", "    | .good => match some i.toNat with\n      | none => .error .nvml\n      | some k => match r.card k with", "C92", "the card of the number is read, as on WSL", tightened="thm status_sound")
m(M, "readStatus", "        | some n => .ok (some (Sizes.statusNvml n))\n        | none => .error .nvml", "        | some n => .ok (some (Sizes.statusNvml { n with free := n.used, used := n.free }))\n        | none => .error .nvml", "C92", "free and used memory swapped", tightened="thm status_exact")
m(M, "readStatus", "      | some k => match r.card k with", "      | some k => match r.card 0 with", "C92", "always the first card", tightened="thm status_sound")
m(M, "readStatus", "  | true => match r.xml with\n    | false => .error .attributeError", "  | true => match r.xml with\n    | false => .ok none", "C92", "None without the XML parser", tightened="thm status_busy_refuted")
m(M, "readStatus", "    | true => match r.smi i with", "    | true => match r.smi (i + 1) with", "C92", "nvidia-smi asked for the next card", tightened="thm status_wsl_partial")
m(M, "getStatus", "  let st := initAll st w\n  if st.initPid = none then (st, .ok none)\n  else\n    let a", "  let st := initAll st w\n  if st.initPid = none then (st, .error .attributeError)\n  else\n    let a", "C92", "no driver: an error", tightened="thm no_driver")
m(M, "getStatus", "(a.1, readStatus wsl a.1.nvml w r i x.uuid)", "(a.1, readStatus wsl .good w r i x.uuid)", "C92", "NVML used although it is not there", tightened="thm status_fork_refuted")
m(M, "ofSizes", "  | .error .typeError => .error .typeError", "  | .error .typeError => .ok (some ⟨0, 0, 0, 0, 0, 0⟩)", "C92", "zeros for a busy card", tightened="thm status_busy_refuted")
m(M, "readStatus", "    | .good => match byUuid (gpuName u) 0 w.devices with\n      | none => .error .nvml", "    | .good => match byUuid (gpuName u) 0 w.devices with\n      | none => .ok none", "C92", "no status for an unknown card, no error", tightened="thm status_unknown")
