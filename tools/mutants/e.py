m("Model/Nd","Arr.order","if a.fContig then .F else .C","if a.fContig then .C else .F","C53","orders swapped in ravel")
m("Model/Nd","Arr.prepared","if a.fContig then a else a.ascontiguous","a","C53","no contiguous copy of strided views")
m("Model/Nd","contigFrom","if n = 1 then contigFrom sd r else s == (sd : Int)","if n = 1 then contigFrom sd r else true","C53","contiguity test ignores strides")
m("Model/Nd","contigFrom","contigFrom (sd * n) r","contigFrom sd r","C53","expected stride not multiplied by the axis length")
m("Model/Nd","Arr.cContig","(a.shape.zip a.strides).reverse","(a.shape.zip a.strides)","C53","c_contiguous computed from the first axis")
m("Model/Nd","Arr.ascontiguous","strides := cStrides a.item a.shape }","strides := a.strides }","C53","strides of the original kept after the copy")
m("Model/Nd","cStrides","((item * sh.foldr (· * ·) 1 : Nat) : Int)","((sh.foldr (· * ·) 1 : Nat) : Int)","C53","strides of the copy in elements, not bytes")
m("Model/Nd","serial","shape := o.shape, strides := o.strides, order := a.order }","shape := o.shape, strides := a.strides, order := a.order }","C53","header strides of the original array")
m("Model/Nd","serial","shape := o.shape,","shape := o.shape.reverse,","C53","shape reversed in the header")
m("Model/Nd","serial","some (descr, newOrder) =>","some (descr, _) =>\n      let newOrder : List String := []","C53","field order not sent")
m("Model/Nd","describe","select ((sortFields d.rows).map (·.1)) d","select (d.rows.map (·.1)) d","C53","fields not sorted by offset")
m("Model/Nd","describe","fun x => (x, d.rows.map (·.1))","fun x => (x, (sortFields d.rows).map (·.1))","C53","field order sent is the sorted one")
m("Model/Nd","insertField","if x.2.1 ≤ y.2.1 then x :: y :: r","if y.2.1 ≤ x.2.1 then x :: y :: r","C53","fields sorted descending")
m("Model/Nd","Fields.toItems","some (if offset < o then padItem (o - offset) (.cons name d items) else .cons name d items)","some (.cons name d items)","C53","padding between fields dropped")
m("Model/Nd","Fields.toItems","if offset < size then some (padItem (size - offset) .nil) else some .nil","some .nil","C53","padding at the end dropped")
m("Model/Nd","Fields.toItems","if o < offset then none","if false then none","C53","overlapping fields accepted")
m("Model/Nd","DescrItems.toFields","if isPad name d.toDType then r.toFields (offset + d.toDType.size)","if isPad name d.toDType then r.toFields offset","C53","padding does not move the offset")
m("Model/Nd","undescribe","if order.isEmpty then some x.toDType else select order x.toDType","some x.toDType","C53","fields not put back in order")
m("Model/Nd","deserial","some { mem := buf, off := 0, dtype, shape := h.shape, strides := h.strides }","some { mem := buf, off := 0, dtype, shape := h.shape, strides := cStrides dtype.size h.shape }","C53","strides ignored by the receiver")
m("Model/Nd","bounds","if 0 < s * ((n : Int) - 1) then (lo, hi + s * ((n : Int) - 1))","if 0 < s * (n : Int) then (lo, hi + s * (n : Int))","C53","bounds check off by one")
m("Model/Nd","csrSerial","d.2 ++ i.2 ++ p.2)","d.2 ++ p.2 ++ i.2)","C54","index buffers in the wrong order")
m("Model/Nd","csrSerial","idxN := i.2.length","idxN := p.2.length","C54","wrong buffer count")
m("Model/Nd","csrDeserial","de h.ptrH (subs.drop (h.dataN + h.idxN))","de h.ptrH (subs.drop h.dataN)","C54","indptr read from the wrong place")
m("Model/Nd","csrDeserial","some { data, indices, indptr, shape := h.shape }","some { data, indices := indptr, indptr := indices, shape := h.shape }","C54","indices and indptr swapped")
m("Model/Nd","csrDeserial","some { data, indices, indptr, shape := h.shape }","some { data, indices, indptr, shape := h.shape.reverse }","C54","shape transposed")
m("Model/Tensor","serial","let o := if t.arr.cContig then t.arr else copyC t.arr","let o := t.arr","C55","strided CPU tensors sent without a copy")
m("Model/Tensor","serial","if np o.dtype && !t.grad then","if np o.dtype then","C55","numpy() used on tensors that require a gradient")
m("Model/Tensor","serial","let o := if t.arr.cContig || channelsLast t.arr then t.arr else copyC t.arr","let o := if t.arr.cContig then t.arr else copyC t.arr","C55","channels-last tensors copied (harmless)")
m("Model/Tensor","serial","strides := o.strides, grad := t.grad, fmt := .bytes },\n      o.mem)","strides := t.arr.strides, grad := t.grad, fmt := .bytes },\n      o.mem)","C55","strides of the original sent for a copied GPU tensor")
m("Model/Tensor","deserial","strides := cStrides h.dtype.size h.shape },\n             dev := .cpu, grad := h.grad }","strides := cStrides h.dtype.size h.shape },\n             dev := .cpu, grad := false }","C55","requires_grad lost")
m("Model/Tensor","deserial","dev := h.dev, grad := h.grad }","dev := h.dev, grad := false }","C55","requires_grad lost on the bytes path")
m("Model/Tensor","fromFirst","at' a.mem (a.off + (i : Nat))","at' a.mem (i : Nat)","C55","CuPy buffer from the start of the memory")
m("Model/Tensor","fromFirst","a.shape.foldr (· * ·) 1 * a.item","a.shape.foldr (· * ·) 1","C55","CuPy buffer counts elements")
m("Model/Tensor","cupySerial","let o := if a.cContig || a.fContig then a else copyC a","let o := a","C55","CuPy views sent without a copy")
m("Model/Tensor","cupySerial","(o.dtype, o.shape, o.strides, fromFirst o)","(o.dtype, o.shape, a.strides, fromFirst o)","C55","CuPy strides of the original")
m("Model/Transport","View.slice","v.bytes.drop (n * v.rowBytes)","v.bytes.drop (n * v.rowBytes + 1)","C56","one byte lost at each split")
m("Model/Transport","write","| _ => { s with pending := s.pending ++ [v] }","| _ => { s with pending := v :: s.pending }","C56","new buffers queued first")
m("Model/Transport","write","if v'.rows = 0 then { s with wire := s.wire ++ v.bytes.take n }\n      else { wire := s.wire ++ v.bytes.take n, pending := [v'] }","{ s with wire := s.wire ++ v.bytes.take n }","C56","rest of a partial write dropped")
m("Model/Transport","write","| none => { s with pending := [v] }","| none => s","C56","blocked write dropped")
m("Model/Transport","adjust","else if b.rows ≤ n then adjust r (n - b.rows)","else if b.rows ≤ n then adjust r n","C56","taken bytes counted twice")
m("Model/Transport","adjust","else b.slice n :: r","else b :: r","C56","partly sent buffer sent again")
m("Model/ErrSer","serialError","| .other x => .error x\n  | .cannot x =>","| .other x => .ok x\n  | .cannot x =>","C57","pickling error sent in place of the error")
m("Model/ErrSer","serialError","let u := w.unpickleable (unpickleableText (w.typeName e) s)","let u := w.unpickleable s","C57","class of the error not named")
m("Model/ErrSer","serialError","if w.isException e then","if false then","C57","unpicklable errors not replaced")
m("Model/ErrSer","send","| .ok s => w.sendFailed s","| .ok _ => x","C57","the pickling error is sent, not SendMessageFailed")
m("Model/ErrSer","send","match serialReply w (.error second) with\n    | .ok p => some p\n    | .error _ => none","none","C57","no second attempt")
m("Model/ErrSer","receive","| .error x => .error (w.deserializeFailed x)","| .error x => .error x","C57","raw decoding error")
m("Model/ErrSer","failureText","| .result _ => .ok (\"Error when sending message. Caused by \" ++ sx ++ \". See server logs for more details\")","| .result _ => .error x","C57","text for results raises")
