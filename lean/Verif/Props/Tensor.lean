import Verif.Spec.Tensor
import Verif.Props.Nd

/-! # C55: tensors survive a round trip -/
namespace Xoscar.Tensor
open Xoscar Xoscar.Nd

/-- Facts PyTorch guarantees: as many strides as axes, elements of at least one byte, strides and
offset not negative, every element inside the storage. -/
structure Valid (t : Ten) : Prop where
  arr : t.arr.Valid
  nonneg : ∀ s ∈ t.arr.strides, 0 ≤ s
  off : 0 ≤ t.arr.off
  inside : t.arr.shape.contains 0 = true ∨
    t.arr.off + (bounds t.arr.shape t.arr.strides).2 + t.arr.item ≤ t.arr.mem.length

/-- The tensor received is the tensor sent. -/
def SameTensor (t u : Ten) : Prop := SameArray t.arr u.arr ∧ u.dev = t.dev ∧ u.grad = t.grad

theorem nonzero_of_inRange {idx sh : List Nat} (h : InRange idx sh) : sh.contains 0 = false := by
  rcases h' : sh.contains 0
  · rfl
  · exact absurd h (not_inRange_of_zero h')

/-- A C-ordered buffer of the elements, seen through C-contiguous strides, is the same array. -/
theorem same_of_ravelC (a : Arr) (hv : a.Valid) {st : List Int} (hl : st.length = a.shape.length)
    (hc : a.shape.contains 0 = false → contigFrom a.item (a.shape.zip st).reverse = true) :
    SameArray a { mem := a.ravelC, off := 0, dtype := a.dtype, shape := a.shape, strides := st } := by
  refine ⟨rfl, rfl, fun idx k hi hk => ?_⟩
  have hd := contig_dot a.item idx a.shape st hl (hc (nonzero_of_inRange hi)) hi
  have hg := flatten_get a.mem a.item idx a.shape a.strides a.off k hv.1 hi hk
  have hlt := lin_lt a.item idx a.shape hi
  have hlen : a.ravelC.length = count a.shape * a.item := flatten_length _ _ _ _ _ hv.1
  simp only [Arr.byte, hd, Int.zero_add]
  refine ⟨?_, by omega, by omega⟩
  have : ((lin a.item idx a.shape : Int) + (k : Int)).toNat = lin a.item idx a.shape + k := by omega
  rw [at', this, List.getD_eq_getElem?_getD, Arr.ravelC, hg]
  rfl

theorem copyC_contig (a : Arr) : contigFrom a.item (a.shape.zip (cStrides a.item a.shape)).reverse = true :=
  cStrides_contig _ _

/-- The copy has the same elements, already in C order. -/
theorem copyC_ravelC (a : Arr) (hv : a.Valid) : (copyC a).ravelC.length = a.ravelC.length ∧
    (copyC a).Valid ∧ SameArray a (copyC a) := by
  refine ⟨?_, ⟨cStrides_length _ _, hv.2⟩, same_of_ravelC a hv (cStrides_length _ _) fun _ => cStrides_contig _ _⟩
  have h : (copyC a).ravelC.length = count a.shape * a.item :=
    flatten_length _ _ a.shape (cStrides a.item a.shape) _ (cStrides_length _ _)
  rw [h, Arr.ravelC, flatten_length _ _ _ _ _ hv.1]

theorem _root_.Xoscar.Nd.SameArray.trans {a b c : Arr} (h1 : SameArray a b) (h2 : SameArray b c) : SameArray a c := by
  obtain ⟨s1, d1, e1⟩ := h1
  obtain ⟨s2, d2, e2⟩ := h2
  refine ⟨s2.trans s1, d2.trans d1, fun idx k hi hk => ?_⟩
  have h1 := e1 idx k hi hk
  have h2 := e2 idx k (by rwa [s1]) (by rwa [Arr.item, d1])
  exact ⟨h2.1.trans h1.1, h2.2⟩

/-- The contiguous version of a tensor used by the CPU path. -/
theorem contigFrom_append (sd : Nat) (l : List (Nat × Int)) (n : Nat) (s : Int) :
    contigFrom sd (l ++ [(n, s)]) = true ↔ contigFrom sd l = true ∧ (n ≠ 1 → s = ((sd * (l.map Prod.fst).foldr (· * ·) 1 : Nat) : Int)) := by
  induction l generalizing sd with
  | nil => by_cases h : n = 1 <;> simp [contigFrom, h]
  | cons a l ih =>
    obtain ⟨m, r⟩ := a
    by_cases h : m = 1
    · simp only [List.cons_append, contigFrom, h, if_true, ih, List.map_cons, List.foldr_cons, Nat.one_mul]
    · simp only [List.cons_append, contigFrom, h, if_false, Bool.and_eq_true, ih, List.map_cons, List.foldr_cons, Nat.mul_assoc, and_assoc]

theorem foldr_eq_elems (sh : List Nat) : sh.foldr (· * ·) 1 = elems sh := by
  induction sh with
  | nil => rfl
  | cons n sh ih => simp [elems, ih]

theorem foldr_append (l : List Nat) (n : Nat) : (l ++ [n]).foldr (· * ·) 1 = n * l.foldr (· * ·) 1 := by
  induction l with
  | nil => simp
  | cons a l ih => simp only [List.cons_append, List.foldr_cons, ih, Nat.mul_left_comm]

theorem contig_iff (item : Nat) : ∀ (sh : List Nat) (st : List Int), st.length = sh.length →
    (contigFrom item (sh.zip st).reverse = true ↔ RowMajor item sh st)
  | [], _, _ => by simp [contigFrom, RowMajor]
  | _ :: _, [], h => by simp at h
  | n :: sh, s :: st, h => by
    have ih := contig_iff item sh st (by simpa using h)
    have e : ((sh.zip st).reverse.map Prod.fst).foldr (· * ·) 1 = elems sh := by
      rw [List.map_reverse, List.map_fst_zip (by simp at h; omega)]
      clear ih h
      induction sh with
      | nil => rfl
      | cons a sh ih => rw [List.reverse_cons, foldr_append, ih, elems]
    simp only [List.zip_cons_cons, List.reverse_cons, contigFrom_append, e, ih, RowMajor]
    exact and_comm

theorem cContig_iff {a : Arr} (hv : a.Valid) : a.cContig = true ↔ 0 ∈ a.shape ∨ RowMajor a.item a.shape a.strides := by
  simp only [Arr.cContig, Bool.or_eq_true, List.contains_iff_mem, contig_iff _ _ _ hv.1]

theorem channelsLast_iff (a : Arr) : channelsLast a = true ↔ Pixels a.item a.shape a.strides := by
  unfold channelsLast Pixels
  split
  · next n c h w sn sc sh sw e1 e2 =>
    rw [e1, e2]
    constructor
    · intro hc
      refine ⟨n, c, h, w, sn, sc, sh, sw, rfl, rfl, ?_⟩
      simp only [contigFrom] at hc
      by_cases h1 : c = 1 <;> by_cases h2 : w = 1 <;> by_cases h3 : h = 1 <;> by_cases h4 : n = 1 <;>
        simp only [h1, h2, h3, h4, if_true, if_false, Bool.and_eq_true, beq_iff_eq, Nat.mul_one] at hc ⊢ <;> simp_all
    · rintro ⟨_, _, _, _, _, _, _, _, e3, e4, hx⟩
      simp only [List.cons.injEq, and_true] at e3 e4
      obtain ⟨rfl, rfl, rfl, rfl⟩ := e3
      obtain ⟨rfl, rfl, rfl, rfl⟩ := e4
      simp only [contigFrom]
      by_cases h1 : c = 1 <;> by_cases h2 : w = 1 <;> by_cases h3 : h = 1 <;> by_cases h4 : n = 1 <;> simp_all
  · next hn =>
    simp only [Bool.false_eq_true, false_iff]
    rintro ⟨n, c, h, w, sn, sc, sh, sw, e1, e2, _⟩
    exact hn _ _ _ _ _ _ _ _ e1 e2

theorem dense_iff {a : Arr} (hv : a.Valid) : (a.cContig || channelsLast a) = true ↔ Dense a := by
  rw [Bool.or_eq_true, cContig_iff hv, channelsLast_iff, Dense, or_assoc]

def prep (a : Arr) : Arr := if a.cContig then a else copyC a

theorem prep_facts (a : Arr) (hv : a.Valid) : (prep a).Valid ∧
    (prep a).shape = a.shape ∧ (prep a).dtype = a.dtype ∧
    (a.shape.contains 0 = false → contigFrom a.item (a.shape.zip (prep a).strides).reverse = true) ∧
    ∀ st : List Int, st.length = a.shape.length →
      (a.shape.contains 0 = false → contigFrom a.item (a.shape.zip st).reverse = true) →
      SameArray a { mem := (prep a).ravelC, off := 0, dtype := a.dtype, shape := a.shape, strides := st } := by
  unfold prep
  split
  · rename_i hc
    refine ⟨hv, rfl, rfl, fun h0 => ?_, fun st hl h => same_of_ravelC a hv hl h⟩
    simpa only [Arr.cContig, h0, Bool.false_or] using hc
  · obtain ⟨h1, h2, h3⟩ := copyC_ravelC a hv
    refine ⟨h2, rfl, rfl, fun _ => copyC_contig a, fun st hl h => ?_⟩
    exact SameArray.trans h3 (same_of_ravelC (copyC a) h2 hl h)

theorem checkStrides_of_contig {item : Nat} {sh : List Nat} {st : List Int} (hl : st.length = sh.length)
    (hc : sh.contains 0 = false → contigFrom item (sh.zip st).reverse = true) :
    checkStrides item sh st (count sh * item) = true := by
  simp only [checkStrides, hl, beq_self_eq_true, Bool.true_and, Bool.or_eq_true, Bool.and_eq_true, decide_eq_true_eq]
  by_cases h0 : sh.contains 0 = true
  · exact .inl h0
  · simp only [Bool.not_eq_true] at h0
    have hc := hc h0
    rw [← zip_reverse' _ _ hl] at hc
    have := bounds_of_contig sh.reverse st.reverse item (by simpa using h0) hc
    rw [bounds_reverse _ _ hl, count_reverse, Nat.mul_comm] at this
    exact .inr this

/-- C55, tensors in main memory: whatever is sent arrives unchanged, for every layout and whichever
of the two formats is used. -/
theorem cpu_roundtrip (np : DType → Bool) (t : Ten) (hv : t.arr.Valid) (hd : t.dev = .cpu) {h : Header}
    {buf : List Nat} (hs : serial np t = some (h, buf)) : ∃ u, deserial h buf = some u ∧ SameTensor t u := by
  obtain ⟨v, s, d, c, same⟩ := prep_facts t.arr hv
  have hlen : (prep t.arr).ravelC.length = count t.arr.shape * t.arr.item := by
    rw [Arr.ravelC, flatten_length _ _ _ _ _ v.1, s, Arr.item, d]; rfl
  have hst : (prep t.arr).strides.length = t.arr.shape.length := by rw [v.1, s]
  simp only [serial, hd] at hs
  rw [show (if t.arr.cContig = true then t.arr else copyC t.arr) = prep t.arr from rfl] at hs
  split at hs
  · simp only [Option.some.injEq, Prod.mk.injEq] at hs
    obtain ⟨rfl, rfl⟩ := hs
    simp only [deserial, s, d]
    rw [if_pos (by rw [hlen]; rfl)]
    exact ⟨_, rfl, same _ (cStrides_length _ _) fun _ => cStrides_contig _ _, hd.symm, rfl⟩
  · split at hs
    · simp only [Option.some.injEq, Prod.mk.injEq] at hs
      obtain ⟨rfl, rfl⟩ := hs
      simp only [deserial, s, d]
      have hck : checkStrides t.arr.dtype.size t.arr.shape (prep t.arr).strides (prep t.arr).ravelC.length = true := by
        rw [hlen]; exact checkStrides_of_contig hst c
      rw [if_pos hck]
      exact ⟨_, rfl, same _ hst c, hd.symm, rfl⟩
    · cases hs

theorem prep_last {a : Arr} (hv : a.Valid) (hs : a.shape ≠ []) (hd : ¬ (0 ∈ a.shape ∨ RowMajor a.item a.shape a.strides)) :
    (prep a).strides.getLast? = some (a.item : Int) := by
  have : a.cContig = false := by
    rw [← cContig_iff hv] at hd; simpa using hd
  simp only [prep, this, Bool.false_eq_true, if_false, copyC]
  have gen : ∀ sh : List Nat, sh ≠ [] → (cStrides a.item sh).getLast? = some (a.item : Int) := by
    intro sh
    induction sh with
    | nil => intro h; exact absurd rfl h
    | cons n sh ih =>
      intro _
      cases sh with
      | nil => simp [cStrides]
      | cons m sh =>
        have := ih (by simp)
        rw [cStrides, List.getLast?_cons, this]; rfl
  exact gen _ hs

/-- C55: a tensor in main memory whose dtype NumPy knows and that needs no gradient is always
sent; any other is sent if its elements are single bytes, or it has at least one axis and, if it is in row-major order (it is not
copied then), a last axis that steps by one element (as one of length 1 may not). -/
theorem cpu_sent_iff (np : DType → Bool) (t : Ten) (hv : t.arr.Valid) (hd : t.dev = .cpu) :
    (serial np t).isSome = true ↔
      (np t.arr.dtype = true ∧ t.grad = false) ∨ t.arr.dtype.size = 1 ∨ (t.arr.shape ≠ [] ∧
        ((0 ∈ t.arr.shape ∨ RowMajor t.arr.dtype.size t.arr.shape t.arr.strides) → t.arr.strides.getLast? = some (t.arr.dtype.size : Int))) := by
  have hdt : (prep t.arr).dtype = t.arr.dtype := by unfold prep; split <;> rfl
  have hview : viewable (prep t.arr) = true ↔ t.arr.dtype.size = 1 ∨ (t.arr.shape ≠ [] ∧
        ((0 ∈ t.arr.shape ∨ RowMajor t.arr.dtype.size t.arr.shape t.arr.strides) → t.arr.strides.getLast? = some (t.arr.dtype.size : Int))) := by
    simp only [viewable, Bool.or_eq_true, beq_iff_eq, Arr.item, hdt]
    by_cases h1 : t.arr.dtype.size = 1
    · simp [h1]
    · simp only [h1, false_or]
      by_cases hs : t.arr.shape = []
      · have hst : t.arr.strides = [] := List.length_eq_zero_iff.mp (by rw [hv.1, hs]; rfl)
        have : prep t.arr = t.arr := by
          have : t.arr.cContig = true := by simp [Arr.cContig, hs, contigFrom]
          simp [prep, this]
        simp [this, hs, hst]
      · simp only [ne_eq, hs, not_false_eq_true, true_and]
        by_cases hr : 0 ∈ t.arr.shape ∨ RowMajor t.arr.dtype.size t.arr.shape t.arr.strides
        · have : prep t.arr = t.arr := by
            have : t.arr.cContig = true := (cContig_iff hv).mpr hr
            simp [prep, this]
          rw [this]
          exact ⟨fun h _ => h, fun h => h hr⟩
        · exact ⟨fun _ h => absurd h hr, fun _ => prep_last hv hs hr⟩
  simp only [serial, hd]
  rw [show (if t.arr.cContig = true then t.arr else copyC t.arr) = prep t.arr from rfl, hdt, ← hview]
  by_cases h1 : (np t.arr.dtype && !t.grad) = true
  · have := h1
    simp only [Bool.and_eq_true, Bool.not_eq_true'] at this
    simp [this]
  · have h1' : ¬ (np t.arr.dtype = true ∧ t.grad = false) := by simpa using h1
    by_cases h2 : viewable (prep t.arr) = true
    · simp [h1, h2]
    · simp [h1, h1', h2]

/-- C55 is false as it stands: a scalar tensor that requires a gradient (a loss) cannot be sent. -/
theorem scalar_grad_refuted : ∃ t : Ten, Valid t ∧ t.dev = .cpu ∧ t.grad = true ∧ ∀ np, serial np t = none := by
  refine ⟨{ arr := { mem := [1, 2, 3, 4], off := 0, dtype := .scalar "float32" 4, shape := [], strides := [] },
            dev := .cpu, grad := true }, ⟨⟨rfl, by decide⟩, by simp, by decide, .inr (by decide)⟩, rfl, rfl, fun np => ?_⟩
  simp [serial, viewable, Arr.cContig, contigFrom, Arr.item, DType.size]

theorem bounds_nonneg : ∀ (sh : List Nat) (st : List Int), (∀ s ∈ st, 0 ≤ s) → sh.contains 0 = false →
    0 ≤ (bounds sh st).1
  | [], _, _, _ => by simp [bounds]
  | _ :: _, [], _, _ => by simp [bounds]
  | n :: sh, s :: st, h, h0 => by
    simp only [List.contains_cons, Bool.or_eq_false_iff, beq_eq_false_iff_ne, ne_eq] at h0
    have := bounds_nonneg sh st (fun x hx => h x (by simp [hx])) h0.2
    have hs := h s (by simp)
    have : 0 ≤ s * ((n : Int) - 1) := Int.mul_nonneg hs (by omega)
    simp only [bounds]
    split <;> simp only <;> omega

theorem dot_le_bounds : ∀ (idx sh : List Nat) (st : List Int), (∀ s ∈ st, 0 ≤ s) → InRange idx sh →
    st.length = sh.length → 0 ≤ dot idx st ∧ dot idx st ≤ (bounds sh st).2
  | [], [], _, _, _, _ => by simp [dot, bounds]
  | [], _ :: _, _, _, h, _ => by simp [InRange] at h
  | _ :: _, [], _, _, h, _ => by simp [InRange] at h
  | _ :: _, _ :: _, [], _, _, h => by simp at h
  | i :: is, n :: sh, s :: st, h, hi, hl => by
    simp only [InRange] at hi
    obtain ⟨h1, h2⟩ := dot_le_bounds is sh st (fun x hx => h x (by simp [hx])) hi.2 (by simpa using hl)
    have hs := h s (by simp)
    have e1 : 0 ≤ (i : Int) * s := Int.mul_nonneg (by omega) hs
    have e2 : (i : Int) * s ≤ s * ((n : Int) - 1) := by
      rw [Int.mul_comm]; exact Int.mul_le_mul_of_nonneg_left (by omega) hs
    simp only [dot, bounds]
    split
    · simp only; omega
    · simp only; omega

/-- What a CUDA tensor that is contiguous (or channels-last) arrives as: the elements are looked up
from the *beginning* of the storage. -/
theorem cuda_receives (np : DType → Bool) (t : Ten) (hv : Valid t) (hd : t.dev = .cuda)
    (hdense : Dense t.arr) :
    ∃ h buf, serial np t = some (h, buf) ∧
      ∃ u, deserial h buf = some u ∧ u.arr = { t.arr with off := 0 } ∧ u.dev = .cuda ∧ u.grad = t.grad := by
  have hc := (dense_iff hv.arr).mpr hdense
  refine ⟨_, _, by simp only [serial, hd, hc, if_true]; rfl, ?_⟩
  have hck : checkStrides t.arr.dtype.size t.arr.shape t.arr.strides t.arr.mem.length = true := by
    simp only [checkStrides, hv.arr.1, beq_self_eq_true, Bool.true_and, Bool.or_eq_true, Bool.and_eq_true,
      decide_eq_true_eq]
    by_cases h0 : t.arr.shape.contains 0 = true
    · exact .inl h0
    · have h0' : t.arr.shape.contains 0 = false := by simpa using h0
      right
      refine ⟨bounds_nonneg _ _ hv.nonneg h0', ?_⟩
      have := hv.inside.resolve_left h0
      have := hv.off
      simp only [Arr.item] at *
      omega
  simp only [deserial]
  rw [if_pos hck]
  exact ⟨_, rfl, rfl, rfl, rfl⟩

/-- C55, tensors on a GPU: unchanged if the tensor starts at the beginning of its storage, or is not
contiguous (then it is copied first). -/
theorem cuda_roundtrip_partial (np : DType → Bool) (t : Ten) (hv : Valid t) (hd : t.dev = .cuda)
    (h0 : t.arr.off = 0 ∨ ¬ Dense t.arr) :
    ∃ h buf u, serial np t = some (h, buf) ∧ deserial h buf = some u ∧ SameTensor t u := by
  by_cases hc : (t.arr.cContig || channelsLast t.arr) = true
  · obtain ⟨h, buf, hs, u, hu, ha, hdev, hg⟩ := cuda_receives np t hv hd ((dense_iff hv.arr).mp hc)
    refine ⟨h, buf, u, hs, hu, ⟨by rw [ha], by rw [ha], fun idx k hi hk => ?_⟩, hdev.trans hd.symm, hg⟩
    have hoff := h0.resolve_right (not_not_intro ((dense_iff hv.arr).mp hc))
    have hin := hv.inside.resolve_left (by rw [nonzero_of_inRange hi]; simp)
    have hb := dot_le_bounds _ _ _ hv.nonneg hi hv.arr.1
    rw [ha]
    simp only [Arr.byte, hoff]
    refine ⟨trivial, by omega, by omega⟩
  · have hc' : (t.arr.cContig || channelsLast t.arr) = false := by simpa using hc
    obtain ⟨h1, h2, h3⟩ := copyC_ravelC t.arr hv.arr
    refine ⟨_, _, { arr := copyC t.arr, dev := .cuda, grad := t.grad },
      by simp only [serial, hd, hc', Bool.false_eq_true, if_false]; rfl, ?_, h3, hd.symm, rfl⟩
    have hlen : t.arr.ravelC.length = count t.arr.shape * t.arr.item := flatten_length _ _ _ _ _ hv.arr.1
    have hck : checkStrides t.arr.dtype.size t.arr.shape (cStrides t.arr.item t.arr.shape) t.arr.ravelC.length = true := by
      rw [hlen]; exact checkStrides_of_contig (cStrides_length _ _) fun _ => cStrides_contig _ _
    exact if_pos hck

/-- `torch.tensor([10,20,30,40], dtype=uint8, device='cuda')[2:]` -/
def exSlice : Ten :=
  { arr := { mem := [10, 20, 30, 40], off := 2, dtype := .scalar "uint8" 1, shape := [2], strides := [1] },
    dev := .cuda, grad := false }

/-- C55 is false as it stands: a slice of a GPU tensor silently arrives as other elements, here
`[10, 20]` instead of `[30, 40]`. -/
theorem cuda_slice_refuted : ∃ t : Ten, Valid t ∧ t.dev = .cuda ∧ ∀ np, ∃ h buf u,
    serial np t = some (h, buf) ∧ deserial h buf = some u ∧ ¬ SameTensor t u ∧
    u.arr.ravelC = [10, 20] ∧ t.arr.ravelC = [30, 40] := by
  have hv : Valid exSlice := ⟨⟨rfl, by decide⟩, by decide, by decide, .inr (by decide)⟩
  refine ⟨exSlice, hv, rfl, fun np => ?_⟩
  obtain ⟨h, buf, hs, u, hu, ha, -, -⟩ := cuda_receives np exSlice hv rfl ((dense_iff hv.arr).mp (by decide))
  refine ⟨h, buf, u, hs, hu, fun hsame => ?_, by rw [ha]; decide, by decide⟩
  have := (hsame.1.2.2 [0] 0 (by simp [exSlice, InRange]) (by decide)).1
  rw [ha] at this
  revert this
  decide

/-- C55: CuPy arrays arrive unchanged, in C order, Fortran order or any other layout. -/
theorem cupy_roundtrip (a : Arr) (hv : a.Valid) : SameArray a (cupyDeserial (cupySerial a)) := by
  have main : ∀ b : Arr, b.Valid → (b.shape.contains 0 = true ∨ b.fContig = true ∨ b.cContig = true) →
      SameArray b (cupyDeserial (b.dtype, b.shape, b.strides, fromFirst b)) := by
    intro b hv hc
    refine ⟨rfl, rfl, fun idx k hi hk => ?_⟩
    have h0 := nonzero_of_inRange hi
    have hc := hc.resolve_left (by rw [h0]; simp)
    have hq : ∃ q : Nat, dot idx b.strides = q ∧ q + b.item ≤ count b.shape * b.item := by
      rcases hc with hf | hc
      · have hc : contigFrom b.item (b.shape.zip b.strides) = true := by
          simpa only [Arr.fContig, h0, Bool.false_or] using hf
        have hl : b.strides.reverse.length = b.shape.reverse.length := by simp [hv.1]
        have hc' : contigFrom b.item (b.shape.reverse.zip b.strides.reverse).reverse = true := by
          rw [zip_reverse' _ _ hv.1, List.reverse_reverse]; exact hc
        have hd := contig_dot b.item _ _ _ hl hc' hi.reverse
        rw [dot_reverse _ _ (by rw [hv.1, hi.length])] at hd
        have := lin_lt b.item _ _ hi.reverse
        rw [count_reverse] at this
        exact ⟨_, hd, this⟩
      · have hc : contigFrom b.item (b.shape.zip b.strides).reverse = true := by
          simpa only [Arr.cContig, h0, Bool.false_or] using hc
        exact ⟨_, contig_dot b.item _ _ _ hv.1 hc hi, lin_lt _ _ _ hi⟩
    obtain ⟨q, hq, hle⟩ := hq
    have hlen : (fromFirst b).length = count b.shape * b.item := by simp [fromFirst, count]
    simp only [Arr.byte, cupyDeserial, hq, Int.zero_add]
    refine ⟨?_, by omega, by omega⟩
    have e : ((q : Int) + (k : Int)).toNat = q + k := by omega
    have hlt : q + k < b.shape.foldr (· * ·) 1 * b.item := by
      have : b.shape.foldr (· * ·) 1 = count b.shape := rfl
      rw [this]; omega
    rw [at', e, List.getD_eq_getElem?_getD]
    simp only [fromFirst, List.getElem?_map, List.getElem?_range hlt, Option.map_some, Option.getD_some]
    congr 1
    push_cast
    omega
  unfold cupySerial
  by_cases hc : (a.cContig || a.fContig) = true
  · simp only [hc, if_true]
    refine main a hv ?_
    simp only [Bool.or_eq_true] at hc
    exact .inr hc.symm
  · simp only [hc]
    obtain ⟨h1, h2, h3⟩ := copyC_ravelC a hv
    refine SameArray.trans h3 (main (copyC a) h2 (.inr (.inr ?_)))
    simp only [Arr.cContig, Bool.or_eq_true]
    right
    exact copyC_contig a

/-! ### Examples -/

/-- A transposed (not contiguous) CPU tensor and a channels-last GPU tensor satisfy the
hypotheses. -/
example : Valid { arr := { mem := List.range 12, off := 0, dtype := .scalar "int16" 2, shape := [3, 2], strides := [2, 6] },
                  dev := .cpu, grad := false } :=
  ⟨⟨rfl, by decide⟩, by decide, by decide, .inr (by decide)⟩
example : Valid { arr := { mem := List.range 12, off := 0, dtype := .scalar "uint8" 1, shape := [1, 3, 2, 2], strides := [12, 1, 6, 3] },
                  dev := .cuda, grad := true } ∧
    channelsLast { mem := List.range 12, off := 0, dtype := .scalar "uint8" 1, shape := [1, 3, 2, 2], strides := [12, 1, 6, 3] } = true :=
  ⟨⟨⟨rfl, by decide⟩, by decide, by decide, .inr (by decide)⟩, by decide⟩

end Xoscar.Tensor
