m("Model/Forward","wrap","conn ≠ dest ∧ ¬ m.isControl","conn ≠ dest ∧ m.isControl","C58","messages are sent to the proxy unwrapped, the proxy processes them itself")
m("Model/Forward","wrap",".forward m.id dest m else m",".forward m.id conn m else m","C58","the forward message names the proxy itself as destination")
m("Model/Forward","wrap",".forward m.id dest m else m",".forward (m.id + 1) dest m else m","C58","the forward message gets a fresh id (reply id differs from the forward's id)",note="the reply id is that of the raw message, so this is visible only through error replies")
m("Model/Forward","handle","| .forward _ a raw => .pass a raw","| .forward i a raw => .pass a (.forward i a raw)","C58","the proxy passes on the wrapper instead of the raw message")
m("Model/Forward","handle","if p.main ∧ a ≠ p.ext then .pass a (.plain id (.cancel a t)) else","if p.main then .pass a (.plain id (.cancel a t)) else","C58","a main pool passes on requests to cancel its own calls")
m("Model/Forward","ctlMain","if a ∈ p.subs then .done (.stopsSub a) .true_ else","if a ∉ p.subs then .done (.stopsSub a) .true_ else","C58","stop of unknown sub pools accepted, of known ones refused")
m("Model/Forward","ctlMain","if a = p.ext then ctlBase p c\n","if a ≠ p.ext then ctlBase p c\n","C58","main pool handles others' control messages itself")
m("Model/Forward","World.kill","if real = mainA then some (.raised .valueError)","if real = addr then some (.raised .valueError)","C58","killing an actor on a sub pool is refused")
m("Model/Forward","World.kill","w.send fuel p mainA proxies (.plain (i + 1) (.ctl real .stop))","w.send fuel p addr proxies (.plain (i + 1) (.ctl real .stop))","C58","stop is sent to the sub pool itself, not to its main pool")
m("Model/Forward","World.kill",".ctl real .stop",".ctl mainA .stop","C58","the main pool is stopped")
m("Model/Forward","World.send","match w.send fuel q d [] raw with","match w.send fuel p d [] raw with","C58","the forwarding pool's router is not used")
m("Model/Forward","World.send","| .done e v => some ⟨[q], some (q, e), some (m.id, v)⟩","| .done e v => some ⟨[q], some (p, e), some (m.id, v)⟩","C58","reported as done by the sender")
m("Model/Router","Router.dest","| some p => p\n      | none => last","| some _ => last\n      | none => last","C58","the proxy of the given proxy is not used")
m("Model/Router","Router.dest","match proxies.getLast? with","match proxies.head? with","C58","the first instead of the last given proxy is used")
m("Model/Forward","World.cancel","(.cancel addr target)","(.cancel addr i)","C58","cancels itself instead of the call")
