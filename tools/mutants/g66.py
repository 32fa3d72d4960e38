M="Model/Impl"
m(M,"afterImpl","| .error .keyError => ⟨.ok c, m.inits⟩","| .error .keyError => ⟨.ok c, []⟩","C72","the objects given up after a KeyError were never initialised",tightened="chain_exact all_key_errors")
m(M,"afterImpl","| .error .keyError => ⟨.ok c, m.inits⟩","| .error .keyError => ⟨.error .keyError, m.inits⟩","C72","key_error_swallowed_refuted is about this code: the KeyError is reported",tightened="chain_exact")
m(M,"afterNew","      | some e => ⟨.error e, m.inits ++ [(d, a)]⟩","      | some .keyError => ⟨.ok d, m.inits ++ [(d, a)]⟩\n      | some e => ⟨.error e, m.inits ++ [(d, a)]⟩","C72","a KeyError of the last class's __init__ is swallowed too",tightened="all_key_errors chain_exact")
