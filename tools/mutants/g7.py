M="Model/Metric"
m(M,"labels","| some t => t.update h.tags","| some t => h.tags.update t","C66","the caller's host tag wins",tightened="labels_spec")
m(M,"labelsOk","(∀ k ∈ t.keys, k ∈ i.tagKeys) ∧ ∀ k ∈ i.tagKeys, k ∈ t.keys","True","C66","label names not checked",tightened="wrong_tags")
m(M,"emit","| .console => some ({ i with shown := r }, s)","| .console => some (i, s)","C66","console value never updated")
m(M,"emit","then some (i, s.set (i.name, labels h tags) r)","then some (i, s.set (i.name, []) r)","C66","labels ignored")
m(M,"record.counter","afterwards (.value (i.count + c.value)) c.tags h { i with count := i.count + c.value } s id","afterwards (.value (i.count + 1)) c.tags h { i with count := i.count + 1 } s id","C66","counter ignores the value")
m(M,"record.counter","h { i with count := i.count + c.value } s id","h i s id","C66","counter not accumulated")
m(M,"record.gauge","afterwards (.value c.value) c.tags h i s id","afterwards (.value (i.count + c.value)) c.tags h { i with count := i.count + c.value } s id","C66","gauge accumulates")
m(M,"record.meter","{ i with last := c.now, count := 0 }","{ i with last := c.now }","C66","meter count not reset")
m(M,"record.meter","{ i with last := c.now, count := 0 }","{ i with count := 0 }","C66","meter time not reset")
m(M,"record.meter","{ i with count := i.count + c.value }\n    let past","i\n    let past","C66","meter drops events")
m(M,"record.meter","if i.count ≥ (threshold : Int) ∨ past ≥ interval","if i.count ≥ (threshold : Int) ∧ past ≥ interval","C66","meter waits for both conditions")
m(M,"record.meter","max (c.now - i.last) 1","max c.now 1","C66","rate since the epoch")
m(M,"record.histogram","{ i with data := [], last := c.now }","{ i with last := c.now }","C66","histogram data not cleared")
m(M,"record.histogram","{ i with data := [], last := c.now }","{ i with data := [] }","C66","histogram time not reset")
m(M,"record.histogram",".mean i.data.sum i.data.length",".mean i.data.sum (i.data.length - 1)","C66","mean over one too few")
m(M,"record.histogram","i.data.length ≥ threshold","i.data.length > threshold","C66","window of 2001")
m(M,"threshold","threshold : Nat := 2000","threshold : Nat := 1000","C66","threshold halved")
m(M,"interval","1000000000","60000000000","C66","one report a minute")
m(M,"tagsAfter","if i.exported ∧ o.report ≠ none then t.update h.tags else t","t","C66","the fix: tags copied; the refutation must fail")
m(M,"make.prometheus","    if promName name ∈ st.registered then","    if false then","C66","duplicate names accepted: the refutation must fail")
m(M,"make.console","last := now, exported := false }, st.registered)\n  | .prometheus","last := 0, exported := false }, st.registered)\n  | .prometheus","C66","meters start at the epoch",tightened="fresh_metric")
m(M,"promName","if c = '.' then ':' else c","c","C66","names not rewritten",tightened="prom_metric")
m(M,"initHandle","if h.wrapper then","if ! h.wrapper then","C66","initialisation skips the wrappers")
m(M,"initHandle","if h.wrapper then","if h.wrapper && h.inner.isNone then","C66","the fix: a wrapper is initialised once; the refutation must fail")
m(M,"initAll","(h' :: hs', reg')","([h'], reg')","C66","only the first metric initialised")
m(M,"step.init","    if st.init then (st, false)\n","    if false then (st, false)\n","C66","second initialisation resets the metrics")
m(M,"step.init","      | none => (st, true)","      | none => ({ st with init := true }, true)","C66","refused backend leaves metrics initialised")
m(M,"step.create","[⟨kind, name, tagKeys, false, some i⟩]","[⟨kind, name, tagKeys, false, none⟩]","C66","metrics made after the initialisation are dead")
m(M,"step.create","[⟨kind, name, tagKeys, true, none⟩]","[⟨kind, name, tagKeys, false, none⟩]","C66","metrics made before the initialisation are not registered",tightened="counter_life_partial")
m(M,"step.record","st.handles.set n { h with","st.handles.set 0 { h with","C66","record stored in another handle")
m(M,"step.shutdown","({ st with init := false, backend := .console }, false)","({ st with init := false, backend := .console, handles := [] }, false)","C66","shutdown forgets the handles")
