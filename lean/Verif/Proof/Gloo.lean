import Verif.Spec.Gloo
namespace Xoscar.Gloo

theorem Same.item_pos {d : DT} {t : CT} (h : Same d t) : 0 < d.item := by
  cases h <;> decide

theorem Same.sizeof {d : DT} {t : CT} (h : Same d t) : t.sizeof = d.item := by cases h <;> rfl

theorem Same.typed {d : DT} {t : CT} (h : Same d t) : typed d = .ok t := by cases h <;> rfl

@[simp] theorem read_length (m : Mem) (p n : Nat) : (read m p n).length = n := by simp [read]

theorem read_get (m : Mem) (p n i : Nat) : (read m p n)[i]? = if i < n then some (m (p + i)) else none := by
  simp only [read, List.getElem?_map]
  by_cases h : i < n
  · simp [h]
  · simp [h, List.getElem?_eq_none (l := List.range n) (i := i) (by simp; omega)]

theorem read_add (m : Mem) (p a b : Nat) : read m p (a + b) = read m p a ++ read m (p + a) b := by
  apply List.ext_getElem?
  intro i
  rw [List.getElem?_append]
  simp only [read_length, read_get]
  by_cases h : i < a
  · simp [h]; omega
  · simp only [h, if_false]
    by_cases h2 : i < a + b
    · simp only [h2, if_true, show i - a < b by omega]; congr 2; omega
    · simp [h2, show ¬ i - a < b by omega]

theorem read_part (m : Mem) (p N j n : Nat) (h : j + n ≤ N) : ((read m p N).drop j).take n = read m (p + j) n := by
  apply List.ext_getElem?
  intro i
  rw [List.getElem?_take, List.getElem?_drop]
  simp only [read_get]
  by_cases hi : i < n
  · simp [hi, show j + i < N by omega, Nat.add_assoc]
  · simp [hi]

theorem typed_bind {α : Type} {d : DT} {f : CT → Except Err α} {c : α} (h : (typed d >>= f) = .ok c) :
    ∃ t, t.sizeof = d.item ∧ f t = .ok c := by
  cases d <;> first | exact ⟨_, rfl, h⟩ | cases h

theorem fn_bind {α : Type} {n : Nat} {f : Fn → Except Err α} {c : α} (h : (toFunction n >>= f) = .ok c) : ∃ g, f g = .ok c := by
  rcases hf : toFunction n with e | g
  · rw [hf] at h; cases h
  · rw [hf] at h; exact ⟨g, h⟩

theorem read_mul (m : Mem) (p n k : Nat) :
    read m p (n * k) = ((List.range n).map (fun i => read m (p + i * k) k)).flatten := by
  induction n with
  | zero => simp [read]
  | succ n ih => rw [Nat.succ_mul, read_add, ih, List.range_succ]; simp

theorem contig_value {a : Arr} (h : Contig a) (m : Mem) :
    a.value m = (List.range a.size).map (fun i => read m (a.ptr + i * a.dtype.item) a.dtype.item) := by
  apply List.ext_getElem?
  intro i
  simp only [Arr.value, List.getElem?_map]
  by_cases hi : i < a.size
  · rw [h i hi]; simp [hi]
  · rw [List.getElem?_eq_none (l := a.cells) (by simpa [Arr.size] using hi),
      List.getElem?_eq_none (l := List.range a.size) (by simpa using hi)]
    rfl

theorem contig_read {a : Arr} (h : Contig a) (m : Mem) : read m a.ptr (a.size * a.dtype.item) = (a.value m).flatten := by
  rw [contig_value h, read_mul]

@[simp] theorem value_length (a : Arr) (m : Mem) : (a.value m).length = a.size := by simp [Arr.value, Arr.size]

theorem value_item {a : Arr} {m : Mem} {x : Bytes} (h : x ∈ a.value m) : x.length = a.dtype.item := by
  simp only [Arr.value, List.mem_map] at h
  obtain ⟨c, _, rfl⟩ := h
  simp

/-! ## Lists of byte strings of the same length -/

theorem flatten_length_uniform {l : List Bytes} {k : Nat} (h : ∀ x ∈ l, x.length = k) : l.flatten.length = l.length * k := by
  induction l with
  | nil => simp
  | cons a l ih =>
    simp only [List.flatten_cons, List.length_append, List.length_cons]
    rw [ih (fun x hx => h x (by simp [hx])), h a (by simp), Nat.succ_mul]; omega

theorem flatten_drop_uniform {l : List Bytes} {k : Nat} (h : ∀ x ∈ l, x.length = k) (i : Nat) :
    l.flatten.drop (i * k) = (l.drop i).flatten := by
  induction l generalizing i with
  | nil => simp
  | cons a l ih =>
    cases i with
    | zero => simp
    | succ i =>
      have ha := h a (by simp)
      simp only [List.flatten_cons, List.drop_succ_cons, Nat.succ_mul]
      rw [← ih (fun x hx => h x (by simp [hx])) i, List.drop_append, List.drop_eq_nil_of_le (by omega)]
      simp only [List.nil_append]
      congr 1
      omega

theorem flatten_take_uniform {l : List Bytes} {k : Nat} (h : ∀ x ∈ l, x.length = k) (i : Nat) :
    l.flatten.take (i * k) = (l.take i).flatten := by
  induction l generalizing i with
  | nil => simp
  | cons a l ih =>
    cases i with
    | zero => simp
    | succ i =>
      have ha := h a (by simp)
      simp only [List.flatten_cons, List.take_succ_cons, Nat.succ_mul]
      rw [← ih (fun x hx => h x (by simp [hx])) i, List.take_append, List.take_of_length_le (by omega)]
      congr 2
      omega

theorem flatten_part_uniform {l : List Bytes} {k : Nat} (h : ∀ x ∈ l, x.length = k) (i n : Nat) :
    (l.flatten.drop (i * k)).take (n * k) = ((l.drop i).take n).flatten := by
  rw [flatten_drop_uniform h, flatten_take_uniform (fun x hx => h x (List.mem_of_mem_drop hx))]

theorem flatten_item_uniform {l : List Bytes} {k : Nat} (h : ∀ x ∈ l, x.length = k) (i : Nat) :
    (l.flatten.drop (i * k)).take k = (l[i]?).getD [] := by
  have := flatten_part_uniform h i 1
  rw [Nat.one_mul] at this
  rw [this]
  by_cases hi : i < l.length
  · rw [List.drop_eq_getElem_cons hi, List.take_succ_cons]; simp [hi]
  · rw [List.drop_eq_nil_of_le (by omega)]; simp [List.getElem?_eq_none (l := l) (i := i) (by omega)]

/-! ## Writing -/

theorem write_outside {m : Mem} {p : Nat} {bs : Bytes} {a : Nat} (h : a < p ∨ p + bs.length ≤ a) : write m p bs a = m a := by
  unfold write
  by_cases hp : p ≤ a
  · simp only [hp, if_true]
    rw [List.getElem?_eq_none (by omega)]; rfl
  · simp [hp]

theorem write_inside {m : Mem} {p : Nat} {bs : Bytes} {i : Nat} : write m p bs (p + i) = (bs[i]?).getD (m (p + i)) := by
  simp [write]

theorem read_write {m : Mem} {p : Nat} {bs : Bytes} {j n : Nat} (h : j + n ≤ bs.length) :
    read (write m p bs) (p + j) n = (bs.drop j).take n := by
  apply List.ext_getElem?
  intro i
  rw [read_get, List.getElem?_take]
  by_cases hi : i < n
  · simp only [hi, if_true, Nat.add_assoc, write_inside, List.getElem?_drop]
    rw [List.getElem?_eq_getElem (by omega)]; rfl
  · simp [hi]

/-- storing the right number of elements of the right size in a contiguous array -/
theorem got_write {a : Arr} (hc : Contig a) {m : Mem} {l : List Bytes} (hn : l.length = a.size)
    (hk : ∀ x ∈ l, x.length = a.dtype.item) : Got m (write m a.ptr l.flatten) a l := by
  have hlen := flatten_length_uniform hk
  refine ⟨?_, fun p hp => write_outside (by rw [hlen, hn]; exact hp)⟩
  rw [contig_value hc]
  apply List.ext_getElem?
  intro i
  simp only [List.getElem?_map]
  by_cases hi : i < a.size
  · simp only [List.getElem?_range hi, Option.map_some]
    rw [read_write, flatten_item_uniform hk, List.getElem?_eq_getElem (by omega)]; rfl
    rw [hlen, hn, ← Nat.succ_mul]
    exact Nat.mul_le_mul_right _ hi
  · rw [List.getElem?_eq_none (l := List.range a.size) (by simpa using hi), List.getElem?_eq_none (l := l) (by omega)]; rfl

/-! ## All ranks -/

theorem prepAll_ok {w : Nat} {op : Coll} {args : Nat → Args} {f : Nat → Call} {rs : List Nat}
    (h : ∀ r ∈ rs, prepare w r op (args r) = .ok (f r)) : prepAll w op args rs = .ok (rs.map f) := by
  induction rs with
  | nil => rfl
  | cons r rs ih =>
    rw [prepAll, h r (by simp), ih (fun r hr => h r (by simp [hr]))]; rfl

theorem prepAll_err {w : Nat} {op : Coll} {args : Nat → Args} {e : Err} {rs : List Nat} (hne : rs ≠ [])
    (h : ∀ r ∈ rs, prepare w r op (args r) = .error e) : prepAll w op args rs = .error e := by
  cases rs with
  | nil => exact absurd rfl hne
  | cons r rs => rw [prepAll, h r (by simp)]

theorem zip_range_map (w : Nat) (f : Nat → Call) (mem : Nat → Mem) :
    ((List.range w).zip ((List.range w).map f)).map (fun x => x.2.data (mem x.1)) =
      (List.range w).map (fun r => (f r).data (mem r)) := by
  rw [List.zip_map_right, List.map_map]
  have : ∀ l : List Nat, List.map ((fun x : Nat × Call => x.2.data (mem x.1)) ∘ Prod.map id f) (l.zip l) =
      l.map (fun r => (f r).data (mem r)) := by
    intro l
    induction l with
    | nil => rfl
    | cons a l ih => simp only [List.zip_cons_cons, List.map_cons, ih]; rfl
  exact this _

theorem run_of {red w op args mem} {f : Nat → Call} {g : Nat → Bytes}
    (hp : ∀ r, r < w → prepare w r op (args r) = .ok (f r))
    (hg : gloo red w op ((List.range w).map f) ((List.range w).map (fun r => (f r).data (mem r))) = some ((List.range w).map g)) :
    ∃ mem', run red w op args mem = .ok mem' ∧ ∀ r, r < w → mem' r = store (mem r) (f r) (g r) := by
  unfold run
  rw [prepAll_ok (fun r hr => hp r (by simpa using hr))]
  simp only [zip_range_map, hg]
  refine ⟨_, rfl, ?_⟩
  intro r hr
  simp [hr]

theorem replicate_eq (w : Nat) (b : Bytes) : List.replicate w b = (List.range w).map (fun _ => b) := by
  apply List.ext_getElem?
  intro i
  by_cases h : i < w <;> simp [h]

theorem head_range_map {w : Nat} (hw : 0 < w) {α : Type} (f : Nat → α) : ((List.range w).map f) = f 0 :: ((List.range w).map f).tail := by
  cases w with
  | zero => omega
  | succ w => rw [List.range_succ_eq_map]; simp

theorem gloo_range {red w op} (hw : 0 < w) {f : Nat → Call} {data} :
    gloo red w op ((List.range w).map f) data = glooOn red w op (f 0) ((List.range w).map f) data := by
  unfold gloo
  split
  · rename_i h
    have := congrArg List.length h
    simp at this
    omega
  · rename_i c l h
    rw [head_range_map hw] at h
    rw [(List.cons.inj h).1]

theorem get_range_map {w r : Nat} (hr : r < w) {α : Type} (f : Nat → α) : ((List.range w).map f)[r]? = some (f r) := by
  simp [hr]

theorem all_range_map {w : Nat} {α : Type} (f : Nat → α) (p : α → Bool) (h : ∀ r, r < w → p (f r) = true) :
    ((List.range w).map f).all p = true := by
  simp only [List.all_map, List.all_eq_true, List.mem_range]
  exact h

theorem combine_eq {red : List Bytes → Bytes} {item w k : Nat} {vals : Nat → List Bytes} (hi : 0 < item)
    (hv : ∀ q, q < w → ∀ x ∈ vals q, x.length = item) :
    combine red item (k * item) ((List.range w).map (fun q => (vals q).flatten)) = (reduced red w k vals).flatten := by
  unfold combine reduced
  rw [Nat.mul_div_cancel _ hi]
  congr 1
  apply List.map_congr_left
  intro i _
  congr 1
  rw [List.map_map]
  apply List.map_congr_left
  intro q hq
  exact flatten_item_uniform (hv q (by simpa using hq)) i

theorem reduced_length {red w k vals} : (reduced red w k vals).length = k := by simp [reduced]
theorem reduced_item {red : List Bytes → Bytes} {w k vals n} (h : ∀ xs, (red xs).length = n) :
    ∀ x ∈ reduced red w k vals, x.length = n := by
  simp only [reduced, List.mem_map]
  rintro x ⟨i, _, rfl⟩
  exact h _

theorem concatenated_flatten (w : Nat) (vals : Nat → List Bytes) :
    ((List.range w).map (fun q => (vals q).flatten)).flatten = (concatenated w vals).flatten := by
  unfold concatenated
  generalize List.range w = l
  induction l with
  | nil => rfl
  | cons a l ih => simp only [List.map_cons, List.flatten_cons, List.flatMap_cons, List.flatten_append, ih]

theorem concatenated_length {w k : Nat} {vals : Nat → List Bytes} (h : ∀ q, q < w → (vals q).length = k) :
    (concatenated w vals).length = w * k := by
  unfold concatenated
  induction w with
  | zero => simp
  | succ w ih =>
    rw [List.range_succ, List.flatMap_append, List.length_append, ih (fun q hq => h q (by omega)), Nat.succ_mul]
    simp [h w (by omega)]

theorem mem_concatenated {w : Nat} {vals : Nat → List Bytes} {x : Bytes} (h : x ∈ concatenated w vals) :
    ∃ q, q < w ∧ x ∈ vals q := by
  simpa [concatenated] using h

theorem Args.one_eq {a : Args} {x : Arr} (hs : a.send = [x]) : a.one = x := by simp [Args.one, hs]

theorem Good.read {d k x} (h : Good d k x) (m : Mem) : read m x.ptr (k * d.item) = (x.value m).flatten := by
  have := contig_read h.contig m
  rwa [h.dtype, h.size] at this

theorem Good.item {d k x} (h : Good d k x) {m : Mem} : ∀ y ∈ x.value m, y.length = d.item := by
  intro y hy
  rw [value_item hy, h.dtype]

theorem Good.len {d k x} (h : Good d k x) {m : Mem} : (x.value m).length = k := by rw [value_length, h.size]

theorem Good.got {d k x} (h : Good d k x) {m : Mem} {l : List Bytes} (hn : l.length = k) (hk : ∀ y ∈ l, y.length = d.item) :
    Got m (write m x.ptr l.flatten) x l :=
  got_write h.contig (by rw [hn, h.size]) (by rw [h.dtype]; exact hk)

theorem map_congr_range {α : Type} {w : Nat} {f g : Nat → α} (h : ∀ r, r < w → f r = g r) :
    (List.range w).map f = (List.range w).map g :=
  List.map_congr_left (fun r hr => h r (by simpa using hr))

end Xoscar.Gloo
