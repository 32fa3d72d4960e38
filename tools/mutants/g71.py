M="Model/Mlx"
m(M, "serial", '⟨a.ravelC, "B"⟩)', '⟨a.ravelF, "B"⟩)', "C106", "elements sent column by column", tightened="thm arrives")
m(M, "serial", '⟨a.ravelC, "B"⟩)', '⟨a.mem, "B"⟩)', "C106", "the memory sent instead of the elements", tightened="thm arrives")
m(M, "serial", '(⟨a.shape, "B", N.name a.dtype⟩', '(⟨a.shape.reverse, "B", N.name a.dtype⟩', "C106", "shape reversed", tightened="thm arrives")
m(M, "serial", '(⟨a.shape, "B", N.name a.dtype⟩', '(⟨a.shape, "b", N.name a.dtype⟩', "C106", "format of signed bytes in the header", tightened="thm arrives")
m(M, "deserial", "if b.format ≠ h.format then none", "if False then none", "C106", "the format of the buffer is not looked at", tightened="thm format_refuted")
m(M, "deserial", "    | none => none\n    | some t", "    | none => viewed (.scalar \"uint8\" 1) h.shape b.bytes\n    | some t", "C106", "an unknown type read as bytes", tightened="thm name_refuted")
m(M, "viewed", "∧ bytes.length = prod shape * t.size then", "∧ bytes.length ≤ prod shape * t.size then", "C106", "short buffers accepted", tightened="thm length_checked")
m(M, "viewed", "∧ bytes.length = prod shape * t.size then", "∧ bytes.length = prod shape then", "C106", "length in elements", tightened="thm arrives")
m(M, "arrayOf", "⟨bytes, 0, t, shape, cStrides t.size shape⟩", "⟨bytes, 0, t, shape, cStrides 1 shape⟩", "C106", "strides of bytes", tightened="thm arrives")
m(M, "arrayOf", "⟨bytes, 0, t, shape, cStrides t.size shape⟩", "⟨bytes, 1, t, shape, cStrides t.size shape⟩", "C106", "read one byte late", tightened="thm arrives")
