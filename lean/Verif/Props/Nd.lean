import Verif.Proof.Nd
import Verif.Proof.NdType

/-! # C53, C54: arrays and sparse matrices survive a round trip -/
namespace Xoscar.Nd
open Xoscar

/-- The array received is the array sent: same shape, same dtype, same bytes in every element, all
of them inside the received buffer. -/
def SameArray (a b : Arr) : Prop :=
  b.shape = a.shape ∧ b.dtype = a.dtype ∧
  ∀ idx k, InRange idx a.shape → k < a.item →
    b.byte idx k = a.byte idx k ∧
    0 ≤ b.off + dot idx b.strides + k ∧ b.off + dot idx b.strides + k < b.mem.length

theorem prepared_layout (a : Arr) (hv : a.Valid) :
    a.prepared.shape = a.shape ∧ a.prepared.strides.length = a.shape.length ∧ a.prepared.dtype = a.dtype := by
  simp only [Arr.prepared, Arr.ascontiguous]
  split
  · exact ⟨rfl, hv.1, rfl⟩
  · split
    · exact ⟨rfl, hv.1, rfl⟩
    · exact ⟨rfl, cStrides_length _ _, rfl⟩

theorem cStrides_contig (item : Nat) (sh : List Nat) : contigFrom item (sh.zip (cStrides item sh)).reverse = true := by
  induction sh with
  | nil => rfl
  | cons n sh ih =>
    rw [cStrides, List.zip_cons_cons, List.reverse_cons, contigFrom_append, ih, prodL_reverse,
      prodL_zip _ _ (cStrides_length _ _)]
    simp [count]

theorem sent_length (a : Arr) (hv : a.Valid) : a.sent.length = count a.shape * a.item := by
  obtain ⟨h1, h2, h3⟩ := prepared_layout a hv
  have h3 : a.prepared.item = a.item := by simp [Arr.item, h3]
  unfold Arr.sent
  split
  · rw [Arr.ravelC, flatten_length _ _ _ _ _ (by rw [h1, h2]), h1, h3]
  · rw [Arr.ravelF, flatten_length _ _ _ _ _ (by simp [h1, h2]), h1, h3, count_reverse]

/-- Where the element is in the buffer, and that it is the right one. -/
theorem sent_get (a : Arr) (hv : a.Valid) (h0 : a.shape.contains 0 = false) {idx : List Nat} {k : Nat}
    (hi : InRange idx a.shape) (hk : k < a.item) :
    ∃ q : Nat, dot idx a.prepared.strides = q ∧ q + a.item ≤ count a.shape * a.item ∧
      a.sent[q + k]? = some (a.byte idx k) := by
  obtain ⟨h1, h2, h3⟩ := prepared_layout a hv
  have hlen := hi.length
  by_cases hf : a.fContig = true
  · have hp : a.prepared = a := by simp [Arr.prepared, hf]
    have hs : a.sent = a.ravelF := by simp [Arr.sent, Arr.order, hf, hp]
    rw [hs, hp]
    have hc : contigFrom a.item (a.shape.zip a.strides) = true := by
      simpa only [Arr.fContig, h0, Bool.false_or] using hf
    have hl : a.strides.reverse.length = a.shape.reverse.length := by simp [hv.1]
    have hc' : contigFrom a.item (a.shape.reverse.zip a.strides.reverse).reverse = true := by
      rw [zip_reverse' _ _ hv.1, List.reverse_reverse]; exact hc
    have hd := contig_dot a.item _ _ _ hl hc' hi.reverse
    have hr : dot idx.reverse a.strides.reverse = dot idx a.strides := dot_reverse _ _ (by rw [hv.1, hlen])
    refine ⟨lin a.item idx.reverse a.shape.reverse, by rw [← hr, hd], ?_, ?_⟩
    · have := lin_lt a.item _ _ hi.reverse
      rwa [count_reverse] at this
    · rw [Arr.ravelF, flatten_get _ _ _ _ _ _ _ hl hi.reverse hk, hr]
      rfl
  · simp only [Bool.not_eq_true] at hf
    by_cases hc : a.cContig = true
    · have hp : a.prepared = a := by simp [Arr.prepared, Arr.ascontiguous, hf, hc]
      have hs : a.sent = a.ravelC := by simp [Arr.sent, Arr.order, hf, hp]
      rw [hs, hp]
      have hc : contigFrom a.item (a.shape.zip a.strides).reverse = true := by
        simpa only [Arr.cContig, h0, Bool.false_or] using hc
      have hd := contig_dot a.item _ _ _ hv.1 hc hi
      exact ⟨_, hd, lin_lt _ _ _ hi, by rw [Arr.ravelC, flatten_get _ _ _ _ _ _ _ hv.1 hi hk]; rfl⟩
    · simp only [Bool.not_eq_true] at hc
      have hp : a.prepared = { mem := a.ravelC, off := 0, dtype := a.dtype, shape := a.shape,
                               strides := cStrides a.item a.shape } := by
        simp [Arr.prepared, Arr.ascontiguous, hf, hc]
      have hs : a.sent = a.prepared.ravelC := by simp [Arr.sent, Arr.order, hf]
      rw [hs, hp]
      refine ⟨lin a.item idx a.shape, dot_cStrides _ _ _ hi, lin_lt _ _ _ hi, ?_⟩
      have hl := cStrides_length a.item a.shape
      rw [Arr.ravelC]
      simp only [Arr.item]
      simp only [Arr.item] at hl hk
      rw [flatten_get _ _ _ _ _ _ _ hl hi hk, dot_cStrides _ _ _ hi]
      have hg := flatten_get a.mem a.item idx a.shape a.strides a.off k hv.1 hi hk
      congr 1
      simp only [Arr.ravelC, at', Int.zero_add]
      have : ((lin a.dtype.size idx a.shape : Int) + (k : Int)).toNat = lin a.item idx a.shape + k := by
        rw [show a.item = a.dtype.size from rfl]; omega
      rw [this, List.getD_eq_getElem?_getD, hg]
      rfl

theorem prepared_bounds (a : Arr) (hv : a.Valid) (h0 : a.shape.contains 0 = false) :
    0 ≤ (bounds a.shape a.prepared.strides).1 ∧
      (bounds a.shape a.prepared.strides).2 + a.item ≤ ((count a.shape * a.item : Nat) : Int) := by
  obtain ⟨h1, h2, h3⟩ := prepared_layout a hv
  have key : ∀ st : List Int, st.length = a.shape.length →
      contigFrom a.item (a.shape.zip st).reverse = true →
      0 ≤ (bounds a.shape st).1 ∧ (bounds a.shape st).2 + a.item ≤ ((count a.shape * a.item : Nat) : Int) := by
    intro st hl hc
    rw [← zip_reverse' _ _ hl] at hc
    have := bounds_of_contig a.shape.reverse st.reverse a.item (by simpa using h0) hc
    rwa [bounds_reverse _ _ hl, count_reverse, Nat.mul_comm] at this
  by_cases hf : a.fContig = true
  · have hp : a.prepared = a := by simp [Arr.prepared, hf]
    rw [hp]
    have hc : contigFrom a.item (a.shape.zip a.strides) = true := by
      simpa only [Arr.fContig, h0, Bool.false_or] using hf
    have := bounds_of_contig a.shape a.strides a.item h0 hc
    rwa [Nat.mul_comm] at this
  · simp only [Bool.not_eq_true] at hf
    by_cases hc : a.cContig = true
    · have hp : a.prepared = a := by simp [Arr.prepared, Arr.ascontiguous, hf, hc]
      rw [hp]
      exact key _ hv.1 (by simpa only [Arr.cContig, h0, Bool.false_or] using hc)
    · simp only [Bool.not_eq_true] at hc
      have hp : a.prepared.strides = cStrides a.item a.shape := by
        simp [Arr.prepared, Arr.ascontiguous, hf, hc]
      rw [hp]
      exact key _ (cStrides_length _ _) (cStrides_contig _ _)

/-- C53, main claim: every array without Python objects whose dtype can be described arrives
unchanged: any number of axes, any strides (negative, zero, overlapping), any dtype whose fields do
not overlap, in any order. -/
theorem array_roundtrip (a : Arr) (hv : a.Valid) (hw : a.dtype.WF) (hs : a.dtype.Sendable) :
    ∃ w b, serial a = some w ∧ deserial w = some b ∧ SameArray a b := by
  obtain ⟨h1, h2, h3⟩ := prepared_layout a hv
  rcases hd : describe a.dtype with _ | ⟨x, order⟩
  · have := (describe_isSome hw).2 hs
    rw [hd] at this; cases this
  have hu := undescribe_describe hw hd
  refine ⟨.raw { descr := x, newOrder := order, shape := a.prepared.shape, strides := a.prepared.strides,
                 order := a.order } a.sent,
    { mem := a.sent, off := 0, dtype := a.dtype, shape := a.shape, strides := a.prepared.strides }, ?_, ?_, ?_⟩
  · simp only [serial, hw.noObject, Bool.false_eq_true, if_false, hd]
  · have hcs : checkStrides a.dtype.size a.prepared.shape a.prepared.strides a.sent.length = true := by
      simp only [checkStrides, h1, h2, beq_self_eq_true, Bool.true_and, Bool.or_eq_true, Bool.and_eq_true,
        decide_eq_true_eq]
      by_cases h0 : a.shape.contains 0 = true
      · exact .inl h0
      · simp only [Bool.not_eq_true] at h0
        have := prepared_bounds a hv h0
        rw [sent_length a hv]
        exact .inr this
    simp only [deserial, hu]
    rw [if_pos hcs]
    simp only [h1]
  · refine ⟨rfl, rfl, fun idx k hi hk => ?_⟩
    have h0 : a.shape.contains 0 = false := by
      rcases h : a.shape.contains 0
      · rfl
      · exact absurd hi (not_inRange_of_zero h)
    obtain ⟨q, hq, hle, hg⟩ := sent_get a hv h0 hi hk
    have hl := sent_length a hv
    simp only [Arr.byte, hq, Int.zero_add]
    refine ⟨?_, by omega, by omega⟩
    have : ((q : Int) + (k : Int)).toNat = q + k := by omega
    rw [at', this, List.getD_eq_getElem?_getD, hg]
    rfl

/-- C53: other dtypes are refused when the array is sent; nothing wrong is ever delivered. -/
theorem array_refused (a : Arr) (hw : a.dtype.WF) : serial a = none ↔ ¬ a.dtype.Sendable := by
  rw [← describe_isSome hw, serial, hw.noObject]
  simp only [Bool.false_eq_true, if_false]
  rcases describe a.dtype with _ | ⟨x, o⟩ <;> simp

/-- C53: exactly the bytes of the elements are sent, however large the memory behind the view. -/
theorem array_bytes_sent (a : Arr) (hv : a.Valid) {h : Header} {buf : List Nat}
    (hs : serial a = some (.raw h buf)) : buf.length = count a.shape * a.item := by
  rw [← sent_length a hv]
  simp only [serial] at hs
  split at hs
  · cases hs
  · split at hs
    · cases hs
    · simp only [Option.some.injEq, Wire.raw.injEq] at hs
      rw [← hs.2]

/-- C53: an array that is contiguous in memory keeps its memory layout. -/
theorem array_layout_kept (a : Arr) (hc : a.fContig = true ∨ a.cContig = true) {w : Wire} {b : Arr}
    (hs : serial a = some w) (hd : deserial w = some b) (ho : a.dtype.hasObject = false) :
    b.strides = a.strides := by
  have hp : a.prepared = a := by
    rcases hc with hc | hc
    · simp [Arr.prepared, hc]
    · simp [Arr.prepared, Arr.ascontiguous, hc]
  simp only [serial, ho, Bool.false_eq_true, if_false] at hs
  split at hs
  · cases hs
  · simp only [Option.some.injEq] at hs
    subst hs
    simp only [deserial] at hd
    split at hd
    · cases hd
    · split at hd
      · simp only [Option.some.injEq] at hd
        subst hd
        simp [hp]
      · cases hd

/-! ### Examples: the hypotheses are met by views of every kind -/

/-- `np.arange(24, dtype='u1').reshape(2,3,4)[:, ::-1, 1::2]` — negative stride, not contiguous. -/
def exView : Arr :=
  { mem := List.range 24, off := 9, dtype := .scalar "|u1" 1, shape := [2, 3, 2], strides := [12, -4, 2] }

example : exView.Valid ∧ exView.dtype.WF ∧ exView.dtype.Sendable := by
  refine ⟨⟨rfl, by decide⟩, ?_, trivial⟩
  show 0 < 1
  omega

example : exView.sent = [9, 11, 5, 7, 1, 3, 21, 23, 17, 19, 13, 15] := by decide
example : exView.fContig = false ∧ exView.cContig = false := by decide

/-- A Fortran-ordered array, an array with a broadcast axis, and a 0-d array. -/
example :
    ({ mem := List.range 8, off := 0, dtype := .scalar "<u2" 2, shape := [2, 2], strides := [2, 4] } : Arr).sent
      = List.range 8 := by decide
example :
    ({ mem := [5, 6], off := 0, dtype := .scalar "|u1" 1, shape := [2, 2], strides := [0, 1] } : Arr).sent
      = [5, 6, 5, 6] := by decide
example : ({ mem := [5, 6], off := 1, dtype := .scalar "|u1" 1, shape := [], strides := [] } : Arr).sent = [6] := by
  decide

/-- `x[['b','a']]` of a record array with padding: fields out of order, as in the comment of
`numpy.py:41`. -/
def exRec : DType :=
  .struct (.cons "b" 5 (.scalar "<u2" 2) (.cons "a" 1 (.scalar "<u4" 4) .nil)) 8

example : exRec.WF ∧ exRec.Sendable ∧ ¬ exRec.Ordered := by
  refine ⟨⟨by omega, by decide, ?_⟩, ⟨?_, trivial, trivial, trivial⟩, fun h => ?_⟩
  · simp only [Fields.WF, DType.WF, DType.size]; decide
  · simp [Fields.toList, Before, DType.size]
  · have := h.1
    simp [Fields.toList, Before, DType.size] at this

/-- Overlapping fields (a union) are refused. -/
example : ¬ (DType.struct (.cons "a" 0 (.scalar "<u4" 4) (.cons "b" 2 (.scalar "<u4" 4) .nil)) 8).Sendable := by
  intro h
  have := h.1
  simp [Fields.toList, Before, DType.size] at this

/-! ## Sparse matrices -/

/-- C54: a CSR matrix arrives unchanged, as far as its three arrays do, whatever number of buffers
each of them takes. -/
theorem csr_roundtrip {A H B : Type} (ser : A → H × List B) (de : H → List B → Option A)
    (R : A → A → Prop) (m : Csr A)
    (hr : ∀ x ∈ [m.data, m.indices, m.indptr], ∃ y, de (ser x).1 (ser x).2 = some y ∧ R x y) :
    ∃ m', csrDeserial de (csrSerial ser m).1 (csrSerial ser m).2 = some m' ∧
      R m.data m'.data ∧ R m.indices m'.indices ∧ R m.indptr m'.indptr ∧ m'.shape = m.shape := by
  obtain ⟨d, d1, d2⟩ := hr m.data (by simp)
  obtain ⟨i, i1, i2⟩ := hr m.indices (by simp)
  obtain ⟨p, p1, p2⟩ := hr m.indptr (by simp)
  exact ⟨⟨d, i, p, m.shape⟩, by
    have e1 : ((ser m.data).2 ++ (ser m.indices).2 ++ (ser m.indptr).2).take (ser m.data).2.length = (ser m.data).2 := by
      rw [List.append_assoc]; simp
    have e2 : (((ser m.data).2 ++ (ser m.indices).2 ++ (ser m.indptr).2).take
        ((ser m.data).2.length + (ser m.indices).2.length)).drop (ser m.data).2.length = (ser m.indices).2 := by
      rw [← List.length_append, List.take_left]; simp
    have e3 : ((ser m.data).2 ++ (ser m.indices).2 ++ (ser m.indptr).2).drop
        ((ser m.data).2.length + (ser m.indices).2.length) = (ser m.indptr).2 := by
      rw [← List.length_append, List.drop_left]
    simp only [csrDeserial, csrSerial, e1, e2, e3, d1, i1, p1], d2, i2, p2, rfl⟩

/-- `serialize(array)`: header and buffers of an array without objects. -/
def arrSer (a : Arr) : Option Header × List (List Nat) :=
  match serial a with
  | some (.raw h b) => (some h, [b])
  | _ => (none, [])
def arrDe (h : Option Header) (bs : List (List Nat)) : Option Arr :=
  match h, bs with
  | some h, [b] => deserial (.raw h b)
  | _, _ => none

/-- C54: together with the array serializer. -/
theorem csr_arrays (m : Csr Arr)
    (hd : ∀ a ∈ [m.data, m.indices, m.indptr], a.Valid ∧ a.dtype.WF ∧ a.dtype.Sendable) :
    ∃ m', csrDeserial arrDe (csrSerial arrSer m).1 (csrSerial arrSer m).2 = some m' ∧
      SameArray m.data m'.data ∧ SameArray m.indices m'.indices ∧ SameArray m.indptr m'.indptr ∧
      m'.shape = m.shape := by
  refine csr_roundtrip _ _ _ m fun a ha => ?_
  obtain ⟨v, wf, s⟩ := hd a ha
  obtain ⟨w, b, e1, e2, e3⟩ := array_roundtrip a v wf s
  cases w with
  | raw h buf => exact ⟨b, by simp [arrSer, arrDe, e1, e2], e3⟩
  | pickled a' =>
    exfalso
    simp only [serial, wf.noObject, Bool.false_eq_true, if_false] at e1
    split at e1 <;> simp at e1

/-- `csr_matrix([[5,0],[0,7]])` -/
def exCsr : Csr Arr :=
  { data := { mem := [5, 7], off := 0, dtype := .scalar "|u1" 1, shape := [2], strides := [1] },
    indices := { mem := [0, 0, 0, 0, 1, 0, 0, 0], off := 0, dtype := .scalar "<i4" 4, shape := [2], strides := [4] },
    indptr := { mem := [0, 1, 2], off := 0, dtype := .scalar "|u1" 1, shape := [3], strides := [1] },
    shape := [2, 2] }

example : ∀ a ∈ [exCsr.data, exCsr.indices, exCsr.indptr], a.Valid ∧ a.dtype.WF ∧ a.dtype.Sendable := by
  intro a ha
  simp only [exCsr, List.mem_cons, List.not_mem_nil, or_false] at ha
  rcases ha with rfl | rfl | rfl <;> refine ⟨⟨rfl, by decide⟩, ?_, trivial⟩ <;> simp [DType.WF]

theorem fields_hasObject (fs : Fields) (row : FieldRow) (h : row ∈ fs.toList) (ho : row.2.2.hasObject = true) : fs.hasObject = true := by
  match fs with
  | .nil => cases h
  | .cons n o t r =>
    simp only [Fields.toList, List.mem_cons] at h
    rcases h with rfl | h
    · simp only at ho; simp [Fields.hasObject, ho]
    · have := fields_hasObject r row h ho
      simp [Fields.hasObject, this]

theorem holds_hasObject {d : DType} (h : d.Holds) : d.hasObject = true := by
  induction h with
  | object => rfl
  | field hm _ ih => exact fields_hasObject _ _ hm ih

/-- C53: arrays with Python objects anywhere in their dtype are pickled whole, and come back as they were; their memory (addresses of objects)
is never sent. -/
theorem object_pickled (a : Arr) (h : a.dtype.Holds) :
    serial a = some (.pickled a) ∧ ∃ b, deserial (.pickled a) = some b ∧ b = a := by
  refine ⟨?_, a, rfl, rfl⟩
  simp only [serial, holds_hasObject h, if_true]

/-- an array of records with a number and a record holding an object -/
example : (Arr.mk [] 0 (.struct (.cons "a" 0 (.scalar "<i8" 8) (.cons "b" 8 (.struct (.cons "c" 0 .object .nil) 8) .nil)) 16) [0] [16]).dtype.Holds :=
  .field (row := ("b", 8, .struct (.cons "c" 0 .object .nil) 8)) (by simp [Fields.toList])
    (.field (row := ("c", 0, .object)) (by simp [Fields.toList]) .object)

end Xoscar.Nd
