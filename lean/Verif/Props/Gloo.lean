import Verif.Proof.Gloo
/-!
# C62: collective operations on arrays (gloo)
-/
namespace Xoscar.Gloo

/-- the arguments of an operation where every rank sends one array: contiguous arrays of the same supported type, `k` elements
sent, `k'` received where `on r` -/
structure Ready (w : Nat) (d : DT) (t : CT) (k k' : Nat) (on : Nat → Prop) (S R : Nat → Arr) (args : Nat → Args) : Prop where
  nonempty : 0 < w
  type : Same d t
  args : ∀ r, r < w → args r = ⟨[S r], R r⟩
  send : ∀ r, r < w → Good d k (S r)
  recv : ∀ r, r < w → on r → Good d k' (R r)

/-- the library's reductions give an element of the type -/
def Proper (red : Fn → CT → List Bytes → Bytes) : Prop := ∀ f t xs, (red f t xs).length = t.sizeof

/-- **C62** allgather: on every rank recv_data is the concatenation, in rank order, and nothing else in memory is touched -/
theorem allgather_correct {red w d t k S R args mem} (h : Ready w d t k (w * k) (fun _ => True) S R args) :
    ∃ mem', run red w .allgather args mem = .ok mem' ∧
      ∀ r, r < w → Got (mem r) (mem' r) (R r) (concatenated w (fun q => (S q).value (mem q))) := by
  have hp : ∀ r, r < w → prepare w r .allgather (args r) =
      .ok ⟨t, none, [⟨(S r).ptr, k * d.item⟩], some ⟨(R r).ptr, k * w * d.item⟩⟩ := by
    intro r hr
    have hs := h.send r hr
    simp only [prepare, h.args r hr, Args.one, List.head?_cons, Option.getD_some, hs.dtype, h.type.typed, hs.size, ← h.type.sizeof]
    rfl
  obtain ⟨mem', hrun, hm⟩ := run_of (red := red) (mem := mem) (g := fun _ => (concatenated w (fun q => (S q).value (mem q))).flatten)
    hp (by
      rw [← replicate_eq, ← concatenated_flatten]
      rw [gloo_range h.nonempty]
      simp only [glooOn]
      rw [if_neg, if_pos]
      · congr 3
        rw [List.map_map]
        apply map_congr_range
        intro q hq
        simp [Call.data, (h.send q hq).read]
      · apply all_range_map
        intro r _
        simp [Call.inLen, Call.outLen, ← Nat.mul_assoc, Nat.mul_comm k w]
      · rw [all_range_map] <;> simp)
  refine ⟨mem', hrun, fun r hr => ?_⟩
  rw [hm r hr]
  exact (h.recv r hr trivial).got (concatenated_length (fun q hq => (h.send q hq).len))
    (fun y hy => by obtain ⟨q, hq, hy⟩ := mem_concatenated hy; exact (h.send q hq).item y hy)

/-- **C62** gather: recv_data of the root is the concatenation in rank order; the memory of the other ranks is not touched -/
theorem gather_correct {red w d t k root S R args mem} (hroot : root < w) (h : Ready w d t k (w * k) (· = root) S R args) :
    ∃ mem', run red w (.gather root) args mem = .ok mem' ∧
      Got (mem root) (mem' root) (R root) (concatenated w (fun q => (S q).value (mem q))) ∧
      ∀ r, r < w → r ≠ root → mem' r = mem r := by
  have hp : ∀ r, r < w → prepare w r (.gather root) (args r) =
      .ok ⟨t, none, [⟨(S r).ptr, k * d.item⟩], if r = root then some ⟨(R r).ptr, w * k * d.item⟩ else none⟩ := by
    intro r hr
    have hs := h.send r hr
    simp only [prepare, h.args r hr, Args.one, List.head?_cons, Option.getD_some, hs.dtype, h.type.typed, hs.size, ← h.type.sizeof]
    rfl
  obtain ⟨mem', hrun, hm⟩ := run_of (red := red) (mem := mem) (g := fun _ => (concatenated w (fun q => (S q).value (mem q))).flatten)
    hp (by
      rw [← replicate_eq, ← concatenated_flatten]
      rw [gloo_range h.nonempty]
      simp only [glooOn]
      rw [if_neg, if_pos]
      · congr 3
        rw [List.map_map]
        apply map_congr_range
        intro q hq
        simp [Call.data, (h.send q hq).read]
      · refine ⟨hroot, all_range_map _ _ ?_, ?_⟩
        · intro r _
          simp [Call.inLen]
        · rw [get_range_map hroot]
          simp [Call.inLen, Call.outLen, Nat.mul_assoc]
      · rw [all_range_map] <;> simp)
  refine ⟨mem', hrun, ?_, fun r hr hne => ?_⟩
  · rw [hm root hroot]
    simp only [store, if_true]
    exact (h.recv root hroot rfl).got (concatenated_length (fun q hq => (h.send q hq).len))
      (fun y hy => by obtain ⟨q, hq, hy⟩ := mem_concatenated hy; exact (h.send q hq).item y hy)
  · rw [hm r hr]; simp [store, hne]

theorem data_reduce {red : List Bytes → Bytes} {w d t k on k'} {S R args} {mem : Nat → Mem} (h : Ready w d t k k' on S R args)
    {f : Nat → Call} (hf : ∀ r, r < w → (f r).ins = [⟨(S r).ptr, k * d.item⟩]) :
    combine red d.item (k * d.item)
      (((List.range w).map (fun r => (f r).data (mem r))).map (fun x => x.head?.getD [])) =
      (reduced red w k (fun q => (S q).value (mem q))).flatten := by
  rw [← combine_eq (h.type.item_pos) (fun q hq => (h.send q hq).item)]
  congr 1
  rw [List.map_map]
  apply map_congr_range
  intro q hq
  simp [Call.data, hf q hq, (h.send q hq).read]

/-- **C62** reduce with SUM, PRODUCT, MIN or MAX: recv_data of the root holds the elementwise reduction over all ranks, and
the memory of the other ranks is not touched -/
theorem reduce_correct {red w d t k root S R args mem op f} (hred : Proper red) (hop : Meaning op f) (hroot : root < w)
    (h : Ready w d t k k (· = root) S R args) :
    ∃ mem', run red w (.reduce op root) args mem = .ok mem' ∧
      Got (mem root) (mem' root) (R root) (reduced (red f t) w k (fun q => (S q).value (mem q))) ∧
      ∀ r, r < w → r ≠ root → mem' r = mem r := by
  have hp : ∀ r, r < w → prepare w r (.reduce op root) (args r) =
      .ok ⟨t, some f, [⟨(S r).ptr, k * d.item⟩], if r = root then some ⟨(R r).ptr, k * d.item⟩ else none⟩ := by
    intro r hr
    have hs := h.send r hr
    cases hop <;>
    · simp only [prepare, h.args r hr, Args.one, List.head?_cons, Option.getD_some, hs.dtype, h.type.typed, hs.size, ← h.type.sizeof]
      rfl
  obtain ⟨mem', hrun, hm⟩ := run_of (red := red) (mem := mem)
    (g := fun _ => (reduced (red f t) w k (fun q => (S q).value (mem q))).flatten) hp (by
      rw [← replicate_eq]
      rw [gloo_range h.nonempty]
      simp only [glooOn]
      rw [if_neg, if_pos]
      · rw [show (Call.inLen _) = k * d.item from by simp [Call.inLen]]
        simp only [h.type.sizeof]
        rw [data_reduce h (fun r _ => rfl)]
      · refine ⟨hroot, all_range_map _ _ ?_, ?_⟩
        · intro r _
          simp [Call.inLen]
        · rw [get_range_map hroot]
          simp [Call.inLen, Call.outLen]
      · rw [all_range_map] <;> simp)
  refine ⟨mem', hrun, ?_, fun r hr hne => ?_⟩
  · rw [hm root hroot]
    simp only [store, if_true]
    exact (h.recv root hroot rfl).got reduced_length (reduced_item (by rw [← h.type.sizeof]; exact hred f t))
  · rw [hm r hr]; simp [store, hne]

/-- **C62** allreduce with SUM, PRODUCT, MIN or MAX: every rank gets the elementwise reduction, the same on all -/
theorem allreduce_correct {red w d t k S R args mem op f} (hred : Proper red) (hop : Meaning op f)
    (h : Ready w d t k k (fun _ => True) S R args) :
    ∃ mem', run red w (.allreduce op) args mem = .ok mem' ∧
      ∀ r, r < w → Got (mem r) (mem' r) (R r) (reduced (red f t) w k (fun q => (S q).value (mem q))) := by
  have hp : ∀ r, r < w → prepare w r (.allreduce op) (args r) =
      .ok ⟨t, some f, [⟨(S r).ptr, k * d.item⟩], some ⟨(R r).ptr, k * d.item⟩⟩ := by
    intro r hr
    have hs := h.send r hr
    cases hop <;>
    · simp only [prepare, h.args r hr, Args.one, List.head?_cons, Option.getD_some, hs.dtype, h.type.typed, hs.size, ← h.type.sizeof]
      rfl
  obtain ⟨mem', hrun, hm⟩ := run_of (red := red) (mem := mem)
    (g := fun _ => (reduced (red f t) w k (fun q => (S q).value (mem q))).flatten) hp (by
      rw [← replicate_eq]
      rw [gloo_range h.nonempty]
      simp only [glooOn]
      rw [if_neg, if_pos]
      · rw [show (Call.inLen _) = k * d.item from by simp [Call.inLen]]
        simp only [h.type.sizeof]
        rw [data_reduce h (fun r _ => rfl)]
      · apply all_range_map
        intro r _
        simp [Call.inLen, Call.outLen]
      · rw [all_range_map] <;> simp)
  refine ⟨mem', hrun, fun r hr => ?_⟩
  rw [hm r hr]
  exact (h.recv r hr trivial).got reduced_length (reduced_item (by rw [← h.type.sizeof]; exact hred f t))

/-- **C62** reduce_scatter: rank `r` gets its `recv_elems[r]` elements of the elementwise reduction, those after the elements
of the ranks before -/
theorem reduce_scatter_correct {red w d t elems S R args mem op f} (hred : Proper red) (hop : Meaning op f)
    (hlen : elems.length = w) (h : Ready w d t elems.sum 0 (fun _ => False) S R args)
    (hrecv : ∀ r, r < w → Good d ((elems[r]?).getD 0) (R r)) :
    ∃ mem', run red w (.reduceScatter elems op) args mem = .ok mem' ∧
      ∀ r, r < w → Got (mem r) (mem' r) (R r)
        (((reduced (red f t) w elems.sum (fun q => (S q).value (mem q))).drop (elems.take r).sum).take ((elems[r]?).getD 0)) := by
  have hp : ∀ r, r < w → prepare w r (.reduceScatter elems op) (args r) =
      .ok ⟨t, some f, [⟨(S r).ptr, elems.sum * d.item⟩], some ⟨(R r).ptr, (elems[r]?).getD 0 * d.item⟩⟩ := by
    intro r hr
    have hs := h.send r hr
    cases hop <;>
    · simp only [prepare, h.args r hr, Args.one, List.head?_cons, Option.getD_some, hs.dtype, h.type.typed, hs.size, ← h.type.sizeof]
      rfl
  have hitem := reduced_item (w := w) (k := elems.sum) (vals := fun q => (S q).value (mem q))
    (n := d.item) (by rw [← h.type.sizeof]; exact hred f t)
  obtain ⟨mem', hrun, hm⟩ := run_of (red := red) (mem := mem)
    (g := fun r => ((((reduced (red f t) w elems.sum (fun q => (S q).value (mem q))).drop (elems.take r).sum).take
      ((elems[r]?).getD 0))).flatten) hp (by
      rw [gloo_range h.nonempty]
      simp only [glooOn]
      rw [if_neg, if_pos]
      · congr 1
        apply map_congr_range
        intro r _
        rw [show (Call.inLen _) = elems.sum * d.item from by simp [Call.inLen]]
        simp only [h.type.sizeof]
        rw [data_reduce h (fun r _ => rfl)]
        exact flatten_part_uniform hitem _ _
      · refine ⟨all_range_map _ _ ?_, hlen, ?_⟩
        · intro r _
          simp [Call.inLen]
        · simp [Call.inLen, h.type.sizeof]
      · rw [all_range_map] <;> simp)
  refine ⟨mem', hrun, fun r hr => ?_⟩
  rw [hm r hr]
  refine (hrecv r hr).got ?_ (fun y hy => hitem y (List.mem_of_mem_drop (List.mem_of_mem_take hy)))
  rw [List.length_take, List.length_drop, reduced_length]
  have : (elems.take r).sum + (elems[r]?).getD 0 ≤ elems.sum := by
    have h1 : (elems.take (r + 1)).sum + (elems.drop (r + 1)).sum = elems.sum := by
      rw [← List.sum_append_nat, List.take_append_drop]
    have h2 : (elems.take (r + 1)).sum = (elems.take r).sum + (elems[r]?).getD 0 := by
      rw [List.take_add_one, List.sum_append_nat]
      rw [List.getElem?_eq_getElem (by omega)]; simp
    omega
  omega

/-- **C62** alltoall: rank `r` gets part `r` of what every rank sends, in rank order -/
theorem alltoall_correct {red w d t k S R args mem} (h : Ready w d t (w * k) (w * k) (fun _ => True) S R args) :
    ∃ mem', run red w .alltoall args mem = .ok mem' ∧
      ∀ r, r < w → Got (mem r) (mem' r) (R r) (transposed w k (fun q => (S q).value (mem q)) r) := by
  have hp : ∀ r, r < w → prepare w r .alltoall (args r) =
      .ok ⟨t, none, [⟨(S r).ptr, w * k * d.item⟩], some ⟨(R r).ptr, w * k * d.item⟩⟩ := by
    intro r hr
    have hs := h.send r hr
    simp only [prepare, h.args r hr, Args.one, List.head?_cons, Option.getD_some, hs.dtype, h.type.typed, hs.size, ← h.type.sizeof]
    rfl
  have hpart : ∀ q, q < w → ∀ r, (((S q).value (mem q)).flatten.drop (r * (k * d.item))).take (k * d.item) =
      ((((S q).value (mem q)).drop (r * k)).take k).flatten := by
    intro q hq r
    rw [← Nat.mul_assoc]
    exact flatten_part_uniform (h.send q hq).item _ _
  obtain ⟨mem', hrun, hm⟩ := run_of (red := red) (mem := mem)
    (g := fun r => (transposed w k (fun q => (S q).value (mem q)) r).flatten) hp (by
      rw [gloo_range h.nonempty]
      simp only [glooOn]
      rw [if_neg, if_pos]
      · congr 1
        apply map_congr_range
        intro r _
        rw [show transposed w k (fun q => (S q).value (mem q)) r = concatenated w (fun q =>
          (((S q).value (mem q)).drop (r * k)).take k) from rfl, ← concatenated_flatten, List.map_map, List.map_map]
        congr 1
        apply map_congr_range
        intro q hq
        rw [← hpart q hq r]
        have : w * k * d.item / w = k * d.item := by
          rw [Nat.mul_assoc, Nat.mul_div_cancel_left _ h.nonempty]
        simp [Call.data, Call.inLen, (h.send q hq).read, this]
      · refine ⟨all_range_map _ _ ?_, ?_⟩
        · intro r _
          simp [Call.inLen, Call.outLen]
        · simp [Call.inLen, Nat.mul_assoc]
      · rw [all_range_map] <;> simp)
  refine ⟨mem', hrun, fun r hr => ?_⟩
  rw [hm r hr]
  refine (h.recv r hr trivial).got (concatenated_length (fun q hq => ?_)) (fun y hy => ?_)
  · rw [List.length_take, List.length_drop, (h.send q hq).len]
    have : r * k + k ≤ w * k := by rw [← Nat.succ_mul]; exact Nat.mul_le_mul_right _ hr
    omega
  · obtain ⟨q, hq, hy⟩ := mem_concatenated hy
    exact (h.send q hq).item y (List.mem_of_mem_drop (List.mem_of_mem_take hy))

/-- **C62** broadcast: every rank, the root too, gets the root's array: its send_data, or what its recv_data holds if send_data
is None; send_data of the other ranks does not matter -/
theorem broadcast_correct {red w d t k root args mem} (src : Arr) (hroot : root < w) (ht : Same d t)
    (hrecv : ∀ r, r < w → Good d k (args r).recv)
    (hsrc : (args root).send = [src] ∧ Good d k src ∨ (args root).send = [] ∧ src = (args root).recv) :
    ∃ mem', run red w (.broadcast root) args mem = .ok mem' ∧
      ∀ r, r < w → Got (mem r) (mem' r) (args r).recv (src.value (mem root)) := by
  have hw : 0 < w := by omega
  have hgood : Good d k src := by
    rcases hsrc with ⟨_, h⟩ | ⟨_, h⟩
    · exact h
    · rw [h]; exact hrecv root hroot
  let f : Nat → Call := fun r => ⟨t, none,
    if r = root then [⟨match (args r).send with | [] => (args r).recv.ptr | s :: _ => s.ptr, k * d.item⟩] else [],
    some ⟨(args r).recv.ptr, k * d.item⟩⟩
  have hp : ∀ r, r < w → prepare w r (.broadcast root) (args r) = .ok (f r) := by
    intro r hr
    have hs := hrecv r hr
    simp only [prepare, hs.dtype, ht.typed, hs.size]
    simp only [f, ← ht.sizeof]
    rfl
  have hdata : ((f root).data (mem root)) = [(src.value (mem root)).flatten] := by
    rcases hsrc with ⟨h1, _⟩ | ⟨h1, h2⟩
    · simp [f, Call.data, h1, hgood.read]
    · simp [f, Call.data, h1, ← h2, hgood.read]
  obtain ⟨mem', hrun, hm⟩ := run_of (red := red) (mem := mem) (g := fun _ => (src.value (mem root)).flatten) hp (by
      rw [← replicate_eq]
      rw [gloo_range hw]
      simp only [glooOn]
      rw [if_neg, if_pos]
      · congr 2
        rw [List.map_map, get_range_map hroot]
        simp [hdata]
      · refine ⟨hroot, all_range_map _ _ ?_, ?_⟩
        · intro r _
          simp [f, Call.outLen]
        · rw [get_range_map hroot]
          simp [f, Call.inLen, Call.outLen]
      · rw [all_range_map] <;> simp [f])
  refine ⟨mem', hrun, fun r hr => ?_⟩
  rw [hm r hr]
  exact (hrecv r hr).got hgood.len hgood.item

/-! ## scatter -/

theorem sum_sizes {l : List Arr} {k : Nat} (h : ∀ a ∈ l, a.size = k) : (l.map Arr.size).sum = l.length * k := by
  induction l with
  | nil => simp
  | cons a l ih =>
    simp only [List.map_cons, List.sum_cons, ih (fun x hx => h x (by simp [hx])), h a (by simp), List.length_cons, Nat.succ_mul]
    omega

/-- what scatter does when every rank gives a list of `w` arrays of `k` elements: it copies `w * k` elements from the address
of the root's array `r` to the address of recv_data of rank `r` -/
theorem scatter_copies {red w d t k root args mem} (S : Nat → List Arr) (hroot : root < w) (ht : Same d t)
    (hrecv : ∀ r, r < w → (args r).recv.dtype = d)
    (hsend : ∀ r, r < w → (args r).send = S r ∧ (S r).length = w ∧ ∀ a ∈ S r, a.size = k) :
    ∃ mem', run red w (.scatter root) args mem = .ok mem' ∧
      ∀ r, r < w → ∀ a, (S root)[r]? = some a →
        mem' r = write (mem r) (args r).recv.ptr (read (mem root) a.ptr (w * k * d.item)) := by
  have hw : 0 < w := by omega
  have hsum : ∀ r, r < w → ((S r).map Arr.size).sum = w * k := by
    intro r hr
    obtain ⟨_, hl, hk⟩ := hsend r hr
    rw [← hl]
    exact sum_sizes hk
  let f : Nat → Call := fun r => ⟨t, none, (S r).map (fun s => ⟨s.ptr, w * k * d.item⟩), some ⟨(args r).recv.ptr, w * k * d.item⟩⟩
  have hp : ∀ r, r < w → prepare w r (.scatter root) (args r) = .ok (f r) := by
    intro r hr
    simp only [prepare, hrecv r hr, ht.typed, (hsend r hr).1, hsum r hr]
    simp only [f, ← ht.sizeof]
    rfl
  obtain ⟨mem', hrun, hm⟩ := run_of (red := red) (mem := mem)
    (g := fun r => ((S root)[r]?.map (fun a => read (mem root) a.ptr (w * k * d.item))).getD []) hp (by
      rw [gloo_range hw]
      simp only [glooOn]
      rw [if_neg, if_pos]
      · congr 1
        apply map_congr_range
        intro r hr
        rw [get_range_map hroot]
        simp [f, Call.data]
        cases (S root)[r]? <;> rfl
      · refine ⟨hroot, all_range_map _ _ ?_, ?_⟩
        · intro r _
          simp [f, Call.outLen]
        · rw [get_range_map hroot]
          simp [f, Call.outLen, (hsend root hroot).2.1]
      · rw [all_range_map] <;> simp [f])
  refine ⟨mem', hrun, fun r hr a ha => ?_⟩
  rw [hm r hr]
  simp [f, store, ha]

/-- **C62** (the part of scatter that holds) recv_data of rank `r` gets the root's array `r`.  Missing: nothing else in memory
is touched -- see `scatter_overflow` -/
theorem scatter_value_partial {red w d t k root args mem} (S : Nat → List Arr) (hroot : root < w) (ht : Same d t)
    (hrecv : ∀ r, r < w → Good d k (args r).recv)
    (hsend : ∀ r, r < w → (args r).send = S r ∧ (S r).length = w ∧ ∀ a ∈ S r, Good d k a) :
    ∃ mem', run red w (.scatter root) args mem = .ok mem' ∧
      ∀ r, r < w → ∀ a, (S root)[r]? = some a → (args r).recv.value (mem' r) = a.value (mem root) := by
  obtain ⟨mem', hrun, hm⟩ := scatter_copies (red := red) (mem := mem) S hroot ht (fun r hr => (hrecv r hr).dtype)
    (fun r hr => ⟨(hsend r hr).1, (hsend r hr).2.1, fun a ha => ((hsend r hr).2.2 a ha).size⟩)
  refine ⟨mem', hrun, fun r hr a ha => ?_⟩
  have hg := (hsend root hroot).2.2 a (List.mem_of_getElem? ha)
  rw [hm r hr a ha]
  rw [contig_value (hrecv r hr).contig, contig_value hg.contig]
  rw [(hrecv r hr).size, (hrecv r hr).dtype, hg.size, hg.dtype]
  apply map_congr_range
  intro i hi
  have hle : i * d.item + d.item ≤ k * d.item := by rw [← Nat.succ_mul]; exact Nat.mul_le_mul_right _ hi
  have hle' : k * d.item ≤ w * k * d.item := by
    apply Nat.mul_le_mul_right
    exact Nat.le_mul_of_pos_left k (by omega)
  rw [read_write (by rw [read_length]; omega), read_part _ _ _ _ _ (by omega)]

/-- **C62** (violation) in a group of two or more, scatter of at least one element per rank writes past the end of recv_data,
on every rank: the byte after the buffer becomes the byte after the root's array -/
theorem scatter_overflow {red w d t k root args mem} (S : Nat → List Arr) (hroot : root < w) (h2 : 2 ≤ w) (hk : 1 ≤ k)
    (ht : Same d t) (hrecv : ∀ r, r < w → Good d k (args r).recv)
    (hsend : ∀ r, r < w → (args r).send = S r ∧ (S r).length = w ∧ ∀ a ∈ S r, Good d k a) :
    ∃ mem', run red w (.scatter root) args mem = .ok mem' ∧ 0 < (w - 1) * k * d.item ∧
      ∀ r, r < w → ∀ a, (S root)[r]? = some a → ∀ j, j < (w - 1) * k * d.item →
        Outside (args r).recv ((args r).recv.ptr + k * d.item + j) ∧
        mem' r ((args r).recv.ptr + k * d.item + j) = mem root (a.ptr + k * d.item + j) := by
  obtain ⟨mem', hrun, hm⟩ := scatter_copies (red := red) (mem := mem) S hroot ht (fun r hr => (hrecv r hr).dtype)
    (fun r hr => ⟨(hsend r hr).1, (hsend r hr).2.1, fun a ha => ((hsend r hr).2.2 a ha).size⟩)
  refine ⟨mem', hrun, Nat.mul_pos (Nat.mul_pos (by omega) hk) ht.item_pos, fun r hr a ha j hj => ⟨?_, ?_⟩⟩
  · right
    rw [(hrecv r hr).size, (hrecv r hr).dtype]
    omega
  · rw [hm r hr a ha, Nat.add_assoc, write_inside, read_get]
    have : k * d.item + j < w * k * d.item := by
      obtain ⟨w', rfl⟩ : ∃ w', w = w' + 1 := ⟨w - 1, by omega⟩
      rw [Nat.succ_mul, Nat.add_mul]
      simp only [Nat.add_sub_cancel] at hj
      omega
    simp [this, Nat.add_assoc]

/-- **C62** (exactly when) the memory outside recv_data is respected by scatter: groups of one, empty arrays -/
theorem scatter_safe_partial {red w d t k root args mem} (S : Nat → List Arr) (hroot : root < w) (hsmall : w = 1 ∨ k = 0)
    (ht : Same d t) (hrecv : ∀ r, r < w → Good d k (args r).recv)
    (hsend : ∀ r, r < w → (args r).send = S r ∧ (S r).length = w ∧ ∀ a ∈ S r, Good d k a) :
    ∃ mem', run red w (.scatter root) args mem = .ok mem' ∧
      ∀ r, r < w → ∀ a, (S root)[r]? = some a → Got (mem r) (mem' r) (args r).recv (a.value (mem root)) := by
  obtain ⟨mem', hrun, hm⟩ := scatter_copies (red := red) (mem := mem) S hroot ht (fun r hr => (hrecv r hr).dtype)
    (fun r hr => ⟨(hsend r hr).1, (hsend r hr).2.1, fun a ha => ((hsend r hr).2.2 a ha).size⟩)
  refine ⟨mem', hrun, fun r hr a ha => ?_⟩
  have hg := (hsend root hroot).2.2 a (List.mem_of_getElem? ha)
  rw [hm r hr a ha]
  have : w * k * d.item = k * d.item := by rcases hsmall with rfl | rfl <;> simp
  rw [this, hg.read]
  exact (hrecv r hr).got hg.len hg.item

/-! ## Refused -/

/-- **C62** the bitwise reductions are refused for every type, integers too: RuntimeError on every rank, nothing is changed -/
theorem bitwise_refused {red w op args mem} (hw : 0 < w) (hop : op = .band ∨ op = .bor ∨ op = .bxor)
    (ht : ∀ r, r < w → ∃ t, Same (args r).one.dtype t) (c : Coll)
    (hc : c = .allreduce op ∨ (∃ root, c = .reduce op root) ∨ ∃ e, c = .reduceScatter e op) :
    run red w c args mem = .error .runtimeError := by
  unfold run
  rw [prepAll_err (e := .runtimeError) (by simp; omega)]
  intro r hr
  obtain ⟨t, ht⟩ := ht r (by simpa using hr)
  have h1 := ht.typed
  rcases hc with rfl | ⟨_, rfl⟩ | ⟨_, rfl⟩ <;> rcases hop with rfl | rfl | rfl <;>
    simp only [prepare, h1] <;> rfl

/-- **C62** a type outside the table (bool, complex, int16, …) is a KeyError on every rank for every operation that
takes it from send_data -/
theorem other_type_refused {red w args mem} (hw : 0 < w) (ht : ∀ r, r < w → ∃ n, (args r).one.dtype = .other n) (c : Coll)
    (hc : (∀ root, c ≠ .scatter root) ∧ ∀ root, c ≠ .broadcast root) :
    run red w c args mem = .error .keyError := by
  unfold run
  rw [prepAll_err (e := .keyError) (by simp; omega)]
  intro r hr
  have h1 : typed (args r).one.dtype = .error .keyError := by
    obtain ⟨n, hn⟩ := ht r (by simpa using hr)
    rw [hn]; rfl
  cases c <;> simp only [prepare, h1] <;> first | rfl | (exact absurd rfl (hc.1 _)) | (exact absurd rfl (hc.2 _))

/-! ## What is not checked -/

/-- **C62** (exactly what is written, whatever the arrays) the window starts at recv_data's address, and its length comes from
send_data (for broadcast from recv_data); recv_data's own size is not looked at -/
theorem written_window {w r c a call} (h : prepare w r c a = .ok call) {o : Win} (ho : call.out = some o) :
    o.ptr = a.recv.ptr ∧ o.len = (match c with
      | .reduce _ _ | .allreduce _ | .alltoall => a.one.size * a.one.dtype.item
      | .gather _ | .allgather => w * a.one.size * a.one.dtype.item
      | .scatter _ => (a.send.map Arr.size).sum * a.recv.dtype.item
      | .reduceScatter elems _ => (elems[r]?).getD 0 * a.one.dtype.item
      | .broadcast _ => a.recv.size * a.recv.dtype.item) := by
  cases c <;> simp only [prepare] at h <;> have ⟨t, ht, h⟩ := typed_bind h
  case reduce op root =>
    obtain ⟨g, h⟩ := fn_bind h
    cases h
    simp only at ho
    split at ho <;> cases ho
    exact ⟨rfl, by simp [ht]⟩
  case allreduce op => obtain ⟨g, h⟩ := fn_bind h; cases h; cases ho; exact ⟨rfl, by simp [ht]⟩
  case reduceScatter el op => obtain ⟨g, h⟩ := fn_bind h; cases h; cases ho; exact ⟨rfl, by simp [ht]⟩
  case gather root =>
    cases h
    simp only at ho
    split at ho <;> cases ho
    exact ⟨rfl, by simp [ht]⟩
  case allgather => cases h; cases ho; exact ⟨rfl, by simp [ht, Nat.mul_comm]⟩
  case scatter => cases h; cases ho; exact ⟨rfl, by simp [ht]⟩
  case alltoall => cases h; cases ho; exact ⟨rfl, by simp [ht]⟩
  case broadcast => cases h; cases ho; exact ⟨rfl, by simp [ht]⟩

/-! ## Examples and counterexamples -/

/-- a contiguous array of bytes -/
def bytes8 (p n : Nat) : Arr := ⟨.int8, (List.range n).map (p + ·)⟩

theorem good_bytes8 (p n : Nat) : Good .int8 n (bytes8 p n) := by
  refine ⟨?_, rfl, by simp [bytes8, Arr.size]⟩
  intro i hi
  cases n with
  | zero => simp [bytes8, Arr.size] at hi
  | succ n =>
    have : i < n + 1 := by simpa [bytes8, Arr.size] using hi
    rw [show (bytes8 p (n + 1)).ptr = p from by simp [bytes8, Arr.ptr, List.range_succ_eq_map]]
    simp [bytes8, this, DT.item]

/-- memory of rank `r`: byte `10 * r + address` -/
def exMem (r : Nat) : Mem := fun p => 10 * r + p

/-- elements of one byte, added modulo 256; the other bytes are zero -/
def exRed (_ : Fn) (t : CT) (xs : List Bytes) : Bytes := ((xs.map (fun x => x.headD 0)).sum % 256) :: List.replicate (t.sizeof - 1) 0

example : Proper exRed := by
  intro f t xs
  cases t <;> simp [exRed, CT.sizeof]

example : Ready 3 .int8 .int8_t 2 2 (fun _ => True) (fun _ => bytes8 100 2) (fun _ => bytes8 200 2) (fun _ => ⟨[bytes8 100 2], bytes8 200 2⟩) :=
  ⟨by decide, .int8, fun _ _ => rfl, fun _ _ => good_bytes8 _ _, fun _ _ _ => good_bytes8 _ _⟩

/-- what the caller sees in recv_data of rank `r`, and in the two bytes after its buffer -/
def seen (w : Nat) (c : Coll) (args : Nat → Args) (r n : Nat) : Except Err Bytes :=
  (run exRed w c args exMem).map (fun mem => read (mem r) ((args r).recv.ptr) n)

example : seen 3 (.allreduce .sum) (fun _ => ⟨[bytes8 1 2], bytes8 200 2⟩) 2 4 = .ok [33, 36, 222, 223] := by rfl
example : seen 2 .allgather (fun _ => ⟨[bytes8 1 2], bytes8 200 4⟩) 1 5 = .ok [1, 2, 11, 12, 214] := by rfl
example : seen 2 .alltoall (fun _ => ⟨[bytes8 1 4], bytes8 200 4⟩) 1 5 = .ok [3, 4, 13, 14, 214] := by rfl
example : seen 2 (.broadcast 1) (fun r => ⟨if r = 1 then [] else [bytes8 50 2], bytes8 20 2⟩) 0 3 = .ok [30, 31, 22] := by rfl
example : seen 3 (.reduceScatter [1, 0, 2] .sum) (fun _ => ⟨[bytes8 1 3], bytes8 200 2⟩) 2 3 = .ok [36, 39, 222] := by rfl

/-- scatter of two arrays of one byte each, at 1 and 5: rank 1 gets 5, and its memory after recv_data is overwritten with 6 -/
example : seen 2 (.scatter 0) (fun _ => ⟨[bytes8 1 1, bytes8 5 1], bytes8 200 1⟩) 1 3 = .ok [5, 6, 212] := by rfl

/-- **C62** (violation) a list on the root alone is not enough for scatter: the sizes of the ranks do not agree -/
theorem scatter_needs_lists_everywhere {red mem} :
    run red 2 (.scatter 0) (fun r => ⟨if r = 0 then [bytes8 1 1, bytes8 5 1] else [], bytes8 200 1⟩) mem = .error .gloo := by rfl

/-- **C62** (violation) recv_data that is too small: what follows it in memory is overwritten -/
theorem short_recv_overwritten :
    ∃ args : Nat → Args, (∀ r, (args r).recv = bytes8 200 1) ∧ (∀ r, (args r).send = [bytes8 1 1]) ∧
      ∃ mem', run exRed 2 .allgather args exMem = .ok mem' ∧ mem' 0 201 ≠ exMem 0 201 :=
  ⟨fun _ => ⟨[bytes8 1 1], bytes8 200 1⟩, fun _ => rfl, fun _ => rfl, _, rfl, by decide⟩

/-- **C62** (violation) an array that is not contiguous (`x[::2]`): other bytes than its elements are sent, and elements that
are not its own are overwritten -/
theorem strided_wrong :
    ∃ S R : Arr, S.size = 2 ∧ R.size = 2 ∧ S.cells = [10, 12] ∧ R.cells = [200, 202] ∧
      ∃ mem', run exRed 1 (.allreduce .sum) (fun _ => ⟨[S], R⟩) exMem = .ok mem' ∧
        R.value (mem' 0) ≠ S.value (exMem 0) ∧ mem' 0 201 ≠ exMem 0 201 :=
  ⟨⟨.int8, [10, 12]⟩, ⟨.int8, [200, 202]⟩, rfl, rfl, rfl, rfl, _, rfl, by decide, by decide⟩

end Xoscar.Gloo
