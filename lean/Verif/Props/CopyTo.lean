import Verif.Proof.CopyTo
/-!
# C10 - C13 copy_to
-/
namespace Xoscar.CopyTo

/-- **C10**: with a working peer whose buffers exist and are large enough, `copy_to` returns and
every remote buffer starts with exactly the bytes of its local buffer (the rest of a longer remote
buffer is untouched), for every block size; no other buffer is touched. -/
theorem copy_delivers (block : Option Nat) (bufs : List (Nat × Bytes)) (r : Remote)
    (hn : (bufs.map Prod.fst).Nodup)
    (hfit : ∀ b ∈ bufs, ∃ old, r.get? b.1 = some old ∧ b.2.length ≤ old.length) :
    (copyToBuffers (fun _ => .up) block bufs r).2 = .returned ∧
    (∀ b ∈ bufs, ∃ old, r.get? b.1 = some old ∧
      (copyToBuffers (fun _ => .up) block bufs r).1.get? b.1 = some (b.2 ++ old.drop b.2.length)) ∧
    (∀ u, u ∉ bufs.map Prod.fst → (copyToBuffers (fun _ => .up) block bufs r).1.get? u = r.get? u) := by
  have hp := blocks_flatten (effBlock block) (effBlock_pos block) bufs
  obtain ⟨h1, h2, h3⟩ := write_pieces bufs _ hp r hn hfit
  unfold copyToBuffers
  rw [deliver_up _ _ _ h1]
  exact ⟨rfl, h2, h3⟩

/-- **C10** for buffers of equal size: the remote buffers are copies of the local ones. -/
theorem copy_equal (block : Option Nat) (bufs : List (Nat × Bytes)) (r : Remote)
    (hn : (bufs.map Prod.fst).Nodup)
    (hfit : ∀ b ∈ bufs, ∃ old, r.get? b.1 = some old ∧ b.2.length = old.length) :
    ∀ b ∈ bufs, (copyToBuffers (fun _ => .up) block bufs r).1.get? b.1 = some b.2 := by
  intro b hb
  obtain ⟨o1, ho1, hl⟩ := hfit b hb
  obtain ⟨_, h2, _⟩ := copy_delivers block bufs r hn (fun b hb => by
    obtain ⟨o, h, h'⟩ := hfit b hb; exact ⟨o, h, by omega⟩)
  obtain ⟨o, h, h'⟩ := h2 b hb
  rw [ho1] at h; cases h
  rw [h', List.drop_of_length_le (by omega), List.append_nil]

example : copyToBuffers (fun _ => .up) (some 2) [(1, [1, 2, 3]), (2, []), (3, [7, 8, 9, 10])]
    [(1, [0, 0, 0]), (2, []), (3, [0, 0, 0, 0])] =
    ([(1, [1, 2, 3]), (2, []), (3, [7, 8, 9, 10])], .returned) := by decide

/-- the checks made by `copy_to` before anything is sent -/
theorem copy_check (n : Nat) (addrs : List String) (b : Option Int) :
    check n addrs b = .ok ↔ n = addrs.length ∧ 0 < n ∧ (∃ a, ∀ x ∈ addrs, x = a) ∧
      (∀ v, b = some v → 0 < v) := by
  have hset : addrs ≠ [] → ((pySet addrs).length = 1 ↔ ∃ a, ∀ x ∈ addrs, x = a) := by
    intro hne
    constructor
    · intro h
      obtain ⟨a, ha⟩ := List.length_eq_one_iff.mp h
      exact ⟨a, fun x hx => by have := mem_pySet.mpr hx; rw [ha] at this; simpa using this⟩
    · rintro ⟨a, ha⟩
      have hnd := nodup_pySet addrs
      have hm : ∀ x ∈ pySet addrs, x = a := fun x hx => ha x (mem_pySet.mp hx)
      cases hp : pySet addrs with
      | nil =>
        cases addrs with
        | nil => exact absurd rfl hne
        | cons x xs => have : x ∈ pySet (x :: xs) := mem_pySet.mpr (by simp); rw [hp] at this; simp at this
      | cons x xs =>
        cases xs with
        | nil => rfl
        | cons y ys =>
          rw [hp] at hnd hm
          have h1 := hm x (by simp); have h2 := hm y (by simp)
          simp [h1, h2] at hnd
  unfold check
  split
  · next h => simp; omega
  · next h =>
    have hne : addrs ≠ [] := by intro e; subst e; simp at h
    split
    · next h1 => simp only [reduceCtorEq, false_iff]; rintro ⟨_, _, h3, _⟩; exact h1 ((hset hne).mpr h3)
    · next h1 =>
      split
      · simp; omega
      · next h2 =>
        have : ∃ a, ∀ x ∈ addrs, x = a := (hset hne).mp (by omega)
        cases b with
        | none => simp [this]; omega
        | some v =>
          simp only
          split
          · simp [this]; omega
          · simp; omega

/-! ## C11 -/

theorem blockBytes_append (a b : List Entry) : blockBytes (a ++ b) = blockBytes a + blockBytes b := by
  simp [blockBytes]

theorem splitLoop_bytes (bs uid : Nat) (fuel : Nat) (s : St) (start : Nat) (buf : Bytes)
    (hc : s.cur ≤ bs) (hblk : blockBytes s.block = s.cur) (hsent : ∀ b ∈ s.sent, blockBytes b ≤ bs) :
    (∀ b ∈ (splitLoop bs uid fuel s start buf).1.sent, blockBytes b ≤ bs) ∧
    blockBytes (splitLoop bs uid fuel s start buf).1.block = (splitLoop bs uid fuel s start buf).1.cur ∧
    ((splitLoop bs uid fuel s start buf).1.cur + (splitLoop bs uid fuel s start buf).2.2.length) % bs =
      (s.cur + buf.length) % bs ∧
    ((splitLoop bs uid fuel s start buf).1.cur = 0 ∨
      splitLoop bs uid fuel s start buf = (s, start, buf)) := by
  induction fuel generalizing s start buf with
  | zero => exact ⟨hsent, hblk, rfl, .inr rfl⟩
  | succ f ih =>
    simp only [splitLoop]
    split
    · next hgt =>
      have hl : (buf.take (bs - s.cur)).length = bs - s.cur := by simp; omega
      obtain ⟨h1, h2, h3, h4⟩ := ih
        ⟨0, [], s.sent ++ [s.block ++ [⟨uid, start, bs - s.cur, buf.take (bs - s.cur)⟩]]⟩
        (start + (bs - s.cur)) (buf.drop (bs - s.cur)) (Nat.zero_le _) rfl (by
          intro b hbm
          rcases List.mem_append.mp hbm with h | h
          · exact hsent b h
          · simp only [List.mem_singleton] at h; subst h
            rw [blockBytes_append, hblk]; simp [blockBytes]; omega)
      refine ⟨h1, h2, ?_, ?_⟩
      · rw [h3]; simp only [Nat.zero_add, List.length_drop]
        have : s.cur + buf.length = (buf.length - (bs - s.cur)) + bs := by omega
        rw [this, Nat.add_mod_right]
      · rcases h4 with h | h
        · exact .inl h
        · rw [h]; exact .inl rfl
    · exact ⟨hsent, hblk, rfl, .inr rfl⟩

/-- total size of the first `k` buffers -/
def prefixSize (bufs : List (Nat × Bytes)) (k : Nat) : Nat := ((bufs.take k).map (·.2.length)).sum

structure BInv (bs : Nat) (s : St) (total : Nat) : Prop where
  cur : s.cur ≤ bs
  sent : ∀ b ∈ s.sent, blockBytes b ≤ bs
  block : blockBytes s.block ≤ bs
  exact_ : (total = 0 ∨ ¬ bs ∣ total) → blockBytes s.block = s.cur ∧ s.cur = total % bs

theorem addBuf_bytes (bs : Nat) (hb : 0 < bs) (s : St) (b : Nat × Bytes) (total : Nat)
    (h : BInv bs s total) (ht : total = 0 ∨ ¬ bs ∣ total) : BInv bs (addBuf bs s b) (total + b.2.length) := by
  obtain ⟨hblk, hcur⟩ := h.exact_ ht
  have hlt : s.cur < bs := by rw [hcur]; exact Nat.mod_lt _ hb
  unfold addBuf
  split
  · next hsm =>
    refine ⟨by simp only; omega, h.sent, ?_, ?_⟩
    · simp only [blockBytes_append, hblk]; simp [blockBytes]; omega
    · intro _
      simp only [blockBytes_append, hblk]
      refine ⟨by simp [blockBytes], ?_⟩
      rw [Nat.add_mod, ← hcur]
      have : b.2.length < bs := by omega
      rw [Nat.mod_eq_of_lt this, Nat.mod_eq_of_lt hsm]
  · next hsm =>
    have hx := splitLoop_exit bs b.1 hb s 0 b.2
    obtain ⟨h1, h2, h3, h4⟩ := splitLoop_bytes bs b.1 (b.2.length + 2) s 0 b.2 (by omega) hblk h.sent
    generalize splitLoop bs b.1 (b.2.length + 2) s 0 b.2 = r at *
    have hmod : (total + b.2.length) % bs = (r.1.cur + r.2.2.length) % bs := by
      rw [h3, hcur, Nat.mod_add_mod]
    have key : ¬ bs ∣ total + b.2.length → r.1.cur = 0 := by
      intro hnd
      rcases h4 with h | h
      · exact h
      · exfalso
        rw [h] at hx hmod; simp only at hx hmod
        have : s.cur + b.2.length = bs := by omega
        rw [this, Nat.mod_self] at hmod
        exact hnd (Nat.dvd_of_mod_eq_zero hmod)
    have hzero : total + b.2.length = 0 → False := by
      intro e
      have : total % bs = 0 := by rw [show total = 0 by omega]; exact Nat.zero_mod _
      omega
    simp only
    split
    · next hl =>
      refine ⟨by simp only; omega, h1, ?_, ?_⟩
      · simp only [blockBytes_append, h2]; simp [blockBytes]; omega
      · intro hnd
        have hnd' : ¬ bs ∣ total + b.2.length := hnd.resolve_left hzero
        have h0 := key hnd'
        simp only [blockBytes_append, h2, h0]
        refine ⟨by simp [blockBytes], ?_⟩
        rw [hmod, h0, Nat.zero_add]
        rw [h0, Nat.zero_add] at hx hmod
        rcases Nat.lt_or_ge r.2.2.length bs with hlt2 | hge
        · rw [Nat.mod_eq_of_lt hlt2]
        · exfalso
          have : r.2.2.length = bs := by omega
          rw [this, Nat.mod_self] at hmod
          exact hnd' (Nat.dvd_of_mod_eq_zero hmod)
    · next hl =>
      refine ⟨by omega, h1, by omega, ?_⟩
      intro hnd
      exfalso
      have hnd' : ¬ bs ∣ total + b.2.length := hnd.resolve_left hzero
      have h0 := key hnd'
      have : r.2.2.length = 0 := by omega
      rw [h0, this, Nat.zero_mod] at hmod
      exact hnd' (Nat.dvd_of_mod_eq_zero hmod)

theorem foldl_bytes (bs : Nat) (hb : 0 < bs) (bufs : List (Nat × Bytes)) (s : St) (total : Nat)
    (h : BInv bs s total)
    (hk : ∀ k, k < bufs.length → (total + prefixSize bufs k = 0 ∨ ¬ bs ∣ total + prefixSize bufs k)) :
    ∃ t, BInv bs (bufs.foldl (addBuf bs) s) t := by
  induction bufs generalizing s total with
  | nil => exact ⟨total, h⟩
  | cons b bufs ih =>
    refine ih _ (total + b.2.length) (addBuf_bytes bs hb s b total h ?_) ?_
    · simpa [prefixSize] using hk 0 (by simp)
    · intro k hlt
      have := hk (k + 1) (by simpa using hlt)
      simpa [prefixSize, Nat.add_assoc] using this

/-- **C11** (partial): no message exceeds `block_size` as long as no proper prefix of the list of
buffers adds up to a non-zero multiple of `block_size`.  Missing: lists where such an exact fit
happens, for which the statement is false (`blocks_unbounded_refuted`). -/
theorem blocks_bounded_partial (bs : Nat) (hb : 0 < bs) (bufs : List (Nat × Bytes))
    (hk : ∀ k, k < bufs.length → (prefixSize bufs k = 0 ∨ ¬ bs ∣ prefixSize bufs k)) :
    ∀ b ∈ blocks bs bufs, blockBytes b ≤ bs := by
  obtain ⟨t, h⟩ := foldl_bytes bs hb bufs ⟨0, [], []⟩ 0
    ⟨Nat.zero_le _, by simp, by simp [blockBytes], fun _ => ⟨rfl, (Nat.zero_mod _).symm⟩⟩ (by simpa using hk)
  intro b hbm
  unfold blocks at hbm
  simp only at hbm
  split at hbm
  · exact h.sent b hbm
  · rcases List.mem_append.mp hbm with hm | hm
    · exact h.sent b hm
    · simp only [List.mem_singleton] at hm; subst hm; exact h.block

/-- the block size in use: the one asked for, 4 MiB when none (or 0) is given -/
theorem block_size_used (block : Option Nat) :
    effBlock block = match block with | some (b + 1) => b + 1 | _ => 4194304 := by
  rcases block with _ | _ | b <;> rfl

/-- in particular a single buffer of any size -/
theorem blocks_bounded_single (bs : Nat) (hb : 0 < bs) (b : Nat × Bytes) :
    ∀ m ∈ blocks bs [b], blockBytes m ≤ bs :=
  blocks_bounded_partial bs hb [b] (by intro k hk; left; simp at hk; subst hk; rfl)

/-- the pattern of sizes 2, 3, 2, 3, ... -/
def badBufs : Nat → List (Nat × Bytes)
  | 0 => []
  | k + 1 => (2 * k, [0, 0]) :: (2 * k + 1, [0, 0, 0]) :: badBufs k

theorem badBufs_state (k : Nat) (s : St) (hs : s.sent = []) (hc : s.cur = 3) :
    ((badBufs k).foldl (addBuf 5) s).sent = [] ∧
    blockBytes ((badBufs k).foldl (addBuf 5) s).block = blockBytes s.block + 5 * k := by
  induction k generalizing s with
  | zero => exact ⟨hs, by simp [badBufs]⟩
  | succ k ih =>
    obtain ⟨c, blk, sent⟩ := s
    simp only at hs hc; subst hs; subst hc
    have step : addBuf 5 (addBuf 5 ⟨3, blk, []⟩ (2 * k, [0, 0])) (2 * k + 1, [0, 0, 0]) =
        ⟨3, blk ++ [⟨2 * k, 0, 2, [0, 0]⟩] ++ [⟨2 * k + 1, 0, 3, [0, 0, 0]⟩], []⟩ := by
      simp [addBuf, splitLoop]
    simp only [badBufs, List.foldl_cons]
    rw [step]
    obtain ⟨h1, h2⟩ := ih ⟨3, blk ++ [⟨2 * k, 0, 2, [0, 0]⟩] ++ [⟨2 * k + 1, 0, 3, [0, 0, 0]⟩], []⟩ rfl rfl
    refine ⟨h1, ?_⟩
    rw [h2]; simp only [blockBytes_append]; simp [blockBytes]; omega

/-- **C11** in full is false of the code: with `block_size = 5` and buffers of sizes 2, 3, 2, 3, ...
a single message carries more than any given number of bytes (`current_buf_size` forgets what is
already in the block after an exact fit, context.py:400). -/
theorem blocks_unbounded_refuted (n : Nat) :
    ∃ bufs : List (Nat × Bytes), (∀ b ∈ bufs, b.2.length ≤ 3) ∧
      ∃ m ∈ blocks 5 bufs, n < blockBytes m := by
  refine ⟨(0, [0, 0]) :: (1, [0, 0, 0]) :: badBufs n, ?_, ?_⟩
  · have : ∀ k, ∀ b ∈ badBufs k, b.2.length ≤ 3 := by
      intro k
      induction k with
      | zero => simp [badBufs]
      | succ k ih => intro b hb; simp only [badBufs, List.mem_cons] at hb; rcases hb with rfl | rfl | hb
                     · simp
                     · simp
                     · exact ih b hb
    intro b hb; simp only [List.mem_cons] at hb
    rcases hb with rfl | rfl | hb
    · simp
    · simp
    · exact this n b hb
  · have step : addBuf 5 (addBuf 5 ⟨0, [], []⟩ (0, [0, 0])) (1, [0, 0, 0]) =
        ⟨3, [⟨0, 0, 2, [0, 0]⟩, ⟨1, 0, 3, [0, 0, 0]⟩], []⟩ := by decide
    obtain ⟨h1, h2⟩ := badBufs_state n ⟨3, [⟨0, 0, 2, [0, 0]⟩, ⟨1, 0, 3, [0, 0, 0]⟩], []⟩ rfl rfl
    unfold blocks
    simp only [List.foldl_cons, step]
    generalize List.foldl (addBuf 5) ⟨3, [⟨0, 0, 2, [0, 0]⟩, ⟨1, 0, 3, [0, 0, 0]⟩], []⟩ (badBufs n) = s at *
    have h3 : blockBytes s.block = 5 + 5 * n := by rw [h2]; rfl
    refine ⟨s.block, ?_, by omega⟩
    split
    · next he =>
      rw [List.isEmpty_iff] at he; rw [he] at h3; simp [blockBytes] at h3; omega
    · simp

/-- the partial theorem's hypothesis is met by a list that is split and packed -/
example : blocks 4 [(1, [1, 2, 3]), (2, [4, 5, 6]), (3, [7])] =
    [[⟨1, 0, 3, [1, 2, 3]⟩, ⟨2, 0, 1, [4]⟩], [⟨2, 1, 2, [5, 6]⟩, ⟨3, 0, 1, [7]⟩]] ∧
    (∀ k, k < 3 → (prefixSize [(1, [1, 2, 3]), (2, [4, 5, 6]), (3, [7])] k = 0 ∨
      ¬ 4 ∣ prefixSize [(1, [1, 2, 3]), (2, [4, 5, 6]), (3, [7])] k)) := by decide

/-! ## C12 -/

/-- **C12** is false of the code: the peer answers every block with an error (here the remote
buffer was dropped, KeyError), nothing is written, and `copy_to` returns normally. -/
theorem copy_error_ignored_refuted (block : Option Nat) (bufs : List (Nat × Bytes)) :
    copyToBuffers (fun _ => .up) block bufs [] = ([], .returned) := by
  have h : ∀ b, (handleBlock [] b).1 = [] := by
    intro b; cases b with
    | nil => rfl
    | cons e es => simp [handleBlock, writeEntry]
  have : ∀ (bs : List (List Entry)) i, deliver (fun _ => .up) i bs [] = ([], .returned) := by
    intro bs
    induction bs with
    | nil => intro i; rfl
    | cons b bs ih => intro i; simp only [deliver, h, ih]
  exact this _ 0

/-- the same for file objects -/
theorem copy_files_error_ignored_refuted (block : Option Nat) (files : List (Nat × List Bytes)) :
    copyToFiles (fun _ => .up) block files [] = ([], .returned) := by
  have h : ∀ b, (handleFileBlock [] b).1 = [] := by
    intro b; cases b with
    | nil => rfl
    | cons e es => simp [handleFileBlock]
  have : ∀ (bs : List (List (Nat × Bytes))) i, deliverFiles (fun _ => .up) i bs [] = ([], .returned) := by
    intro bs
    induction bs with
    | nil => intro i; rfl
    | cons b bs ih => intro i; simp only [deliverFiles, h, ih]
  exact this _ 0

/-- **C12** (partial): `copy_to` raises exactly when the connection fails for one of the messages to be sent (a failed write at the
receiver is not reported, see above) -/
theorem copy_connection_failure_partial (net : Nat → Net) (block : Option Nat)
    (bufs : List (Nat × Bytes)) (r : Remote) :
    (copyToBuffers net block bufs r).2 = .raised ↔ ∃ i, i < (blocks (effBlock block) bufs).length ∧ net i = .down := by
  have : ∀ (bs : List (List Entry)) j r, (deliver net j bs r).2 = .raised ↔ ∃ i, j ≤ i ∧ i < j + bs.length ∧ net i = .down := by
    intro bs
    induction bs with
    | nil => intro j r; simp [deliver]; intro x h1 h2; exact absurd h1 (Nat.not_le.mpr h2)
    | cons b bs ih =>
      intro j r
      simp only [deliver]
      cases hn : net j with
      | down => simp only [true_iff]; exact ⟨j, Nat.le_refl _, by simp, hn⟩
      | up =>
        simp only [ih]
        constructor
        · rintro ⟨i, h1, h2, h3⟩; exact ⟨i, by omega, by simp at h2 ⊢; omega, h3⟩
        · rintro ⟨i, h1, h2, h3⟩
          refine ⟨i, ?_, by simp at h2; omega, h3⟩
          rcases Nat.lt_or_eq_of_le h1 with h | h
          · omega
          · subst h; rw [hn] at h3; cases h3
  refine (this _ 0 r).trans ?_
  simp

/-- **C12** (partial), files: the same -/
theorem copy_files_connection_failure_partial (net : Nat → Net) (block : Option Nat)
    (files : List (Nat × List Bytes)) (r : Remote) :
    (copyToFiles net block files r).2 = .raised ↔ ∃ i, i < (fileBlocks (effBlock block) files).length ∧ net i = .down := by
  have : ∀ (bs : List (List (Nat × Bytes))) j r, (deliverFiles net j bs r).2 = .raised ↔ ∃ i, j ≤ i ∧ i < j + bs.length ∧ net i = .down := by
    intro bs
    induction bs with
    | nil => intro j r; simp [deliverFiles]; intro x h1 h2; exact absurd h1 (Nat.not_le.mpr h2)
    | cons b bs ih =>
      intro j r
      simp only [deliverFiles]
      cases hn : net j with
      | down => simp only [true_iff]; exact ⟨j, Nat.le_refl _, by simp, hn⟩
      | up =>
        simp only [ih]
        constructor
        · rintro ⟨i, h1, h2, h3⟩; exact ⟨i, by omega, by simp at h2 ⊢; omega, h3⟩
        · rintro ⟨i, h1, h2, h3⟩
          refine ⟨i, ?_, by simp at h2; omega, h3⟩
          rcases Nat.lt_or_eq_of_le h1 with h | h
          · omega
          · subst h; rw [hn] at h3; cases h3
  refine (this _ 0 r).trans ?_
  simp

/-- two messages, the second one fails -/
example : (copyToBuffers (fun i => if i = 1 then .down else .up) (some 2) [(1, [1, 2, 3])] [(1, [0, 0, 0])]) = ([(1, [1, 2, 0])], .raised) := by
  decide

/-! ## C13 -/

def FSt.items (s : FSt) : List (Nat × Bytes) := s.sent.flatten ++ s.block

theorem addFile_items (bs : Nat) (s : FSt) (f : Nat × List Bytes) :
    (addFile bs s f).items = s.items ++ f.2.map (fun d => (f.1, d)) := by
  obtain ⟨uid, reads⟩ := f
  unfold addFile
  simp only
  induction reads generalizing s with
  | nil => simp
  | cons d ds ih =>
    rw [List.foldl_cons, ih]
    have : (addRead bs uid s d).items = s.items ++ [(uid, d)] := by
      unfold addRead; simp only; split <;> simp [FSt.items]
    rw [this]; simp

theorem addFile_size (bs : Nat) (hb : 0 < bs) (s : FSt) (f : Nat × List Bytes)
    (hr : ∀ d ∈ f.2, d ≠ []) (h : 0 < s.size ↔ s.block ≠ []) :
    0 < (addFile bs s f).size ↔ (addFile bs s f).block ≠ [] := by
  obtain ⟨uid, reads⟩ := f
  unfold addFile
  simp only at *
  induction reads generalizing s with
  | nil => exact h
  | cons d ds ih =>
    rw [List.foldl_cons]
    refine ih _ ?_ (fun d hd => hr d (List.mem_cons_of_mem _ hd))
    have : 0 < d.length := List.length_pos_iff.mpr (hr d (by simp))
    unfold addRead; simp only; split
    · simp
    · simp; omega

theorem fileBlocks_flatten (bs : Nat) (hb : 0 < bs) (files : List (Nat × List Bytes))
    (hr : ∀ f ∈ files, ∀ d ∈ f.2, d ≠ []) :
    (fileBlocks bs files).flatten = (files.map (fun f => f.2.map (fun d => (f.1, d)))).flatten := by
  have gen : ∀ (files : List (Nat × List Bytes)) (s : FSt), (∀ f ∈ files, ∀ d ∈ f.2, d ≠ []) →
      (0 < s.size ↔ s.block ≠ []) →
      (files.foldl (addFile bs) s).items = s.items ++ (files.map (fun f => f.2.map (fun d => (f.1, d)))).flatten ∧
      (0 < (files.foldl (addFile bs) s).size ↔ (files.foldl (addFile bs) s).block ≠ []) := by
    intro files
    induction files with
    | nil => intro s _ h; exact ⟨by simp, h⟩
    | cons f files ih =>
      intro s hr h
      obtain ⟨h1, h2⟩ := ih (addFile bs s f) (fun g hg => hr g (List.mem_cons_of_mem _ hg))
        (addFile_size bs hb s f (hr f (by simp)) h)
      refine ⟨?_, h2⟩
      rw [List.foldl_cons, h1, addFile_items]; simp
  obtain ⟨h1, h2⟩ := gen files ⟨[], 0, []⟩ hr (by simp)
  unfold fileBlocks
  simp only
  simp only [FSt.items, List.flatten_nil, List.nil_append] at h1
  split
  · rw [← h1]; simp
  · next h =>
    have : (files.foldl (addFile bs) ⟨[], 0, []⟩).block = [] :=
      Classical.byContradiction fun e => h (h2.mpr e)
    rw [this] at h1; simpa using h1

theorem handleFileBlock_append (r : Remote) (a b : List (Nat × Bytes)) :
    handleFileBlock r (a ++ b) =
      if (handleFileBlock r a).2 then handleFileBlock (handleFileBlock r a).1 b
      else ((handleFileBlock r a).1, false) := by
  induction a generalizing r with
  | nil => simp [handleFileBlock]
  | cons e es ih =>
    obtain ⟨uid, d⟩ := e
    rcases h : r.get? uid with _ | old
    · simp [handleFileBlock, h]
    · simp only [List.cons_append, handleFileBlock, h]; exact ih _

theorem deliverFiles_up (bs : List (List (Nat × Bytes))) (i : Nat) (r : Remote)
    (h : (handleFileBlock r bs.flatten).2 = true) :
    deliverFiles (fun _ => .up) i bs r = ((handleFileBlock r bs.flatten).1, .returned) := by
  induction bs generalizing i r with
  | nil => rfl
  | cons b bs ih =>
    simp only [List.flatten_cons, handleFileBlock_append] at h
    split at h
    · next hb =>
      simp only [deliverFiles, List.flatten_cons, handleFileBlock_append, hb, if_true]
      exact ih _ _ h
    · simp at h

theorem write_file (uid : Nat) (reads : List Bytes) (r : Remote) (old : Bytes) (hr : r.get? uid = some old) :
    (handleFileBlock r (reads.map (fun d => (uid, d)))).2 = true ∧
    ∀ u, (handleFileBlock r (reads.map (fun d => (uid, d)))).1.get? u =
      if uid = u then some (old ++ reads.flatten) else r.get? u := by
  induction reads generalizing r old with
  | nil => refine ⟨rfl, fun u => ?_⟩; simp only [List.map_nil, handleFileBlock]; split
           · next e => subst e; simp [hr]
           · rfl
  | cons d ds ih =>
    simp only [List.map_cons, handleFileBlock, hr]
    obtain ⟨h1, h2⟩ := ih (r.set uid (old ++ d)) (old ++ d) (by simp)
    refine ⟨h1, fun u => ?_⟩
    rw [h2]; split
    · simp
    · next hne => simp [hne]

/-- **C13**: with a working peer holding the remote files, `copy_to` returns and every remote file
has been extended by exactly the whole content of its local file, in order, for every block size
and every way in which the local reads split the content; other files are untouched. -/
theorem copy_files_delivers (block : Option Nat) (files : List (Nat × List Bytes)) (r : Remote)
    (hn : (files.map Prod.fst).Nodup) (hr : ∀ f ∈ files, ∀ d ∈ f.2, d ≠ [])
    (hex : ∀ f ∈ files, ∃ old, r.get? f.1 = some old) :
    (copyToFiles (fun _ => .up) block files r).2 = .returned ∧
    (∀ f ∈ files, ∃ old, r.get? f.1 = some old ∧
      (copyToFiles (fun _ => .up) block files r).1.get? f.1 = some (old ++ f.2.flatten)) ∧
    (∀ u, u ∉ files.map Prod.fst → (copyToFiles (fun _ => .up) block files r).1.get? u = r.get? u) := by
  have key : ∀ (files : List (Nat × List Bytes)) (r : Remote), (files.map Prod.fst).Nodup →
      (∀ f ∈ files, ∃ old, r.get? f.1 = some old) →
      let es := (files.map (fun f => f.2.map (fun d => (f.1, d)))).flatten
      (handleFileBlock r es).2 = true ∧
      (∀ f ∈ files, ∃ old, r.get? f.1 = some old ∧
        (handleFileBlock r es).1.get? f.1 = some (old ++ f.2.flatten)) ∧
      (∀ u, u ∉ files.map Prod.fst → (handleFileBlock r es).1.get? u = r.get? u) := by
    intro files
    induction files with
    | nil => intro r _ _; exact ⟨rfl, by simp, fun u _ => rfl⟩
    | cons f files ih =>
      intro r hn hex
      simp only [List.map_cons, List.nodup_cons] at hn
      obtain ⟨old, ho⟩ := hex f (by simp)
      obtain ⟨w1, w2⟩ := write_file f.1 f.2 r old ho
      have hne : ∀ g ∈ files, f.1 ≠ g.1 := fun g hg e =>
        hn.1 (List.mem_map.mpr ⟨g, hg, e.symm⟩)
      obtain ⟨i1, i2, i3⟩ := ih (handleFileBlock r (f.2.map (fun d => (f.1, d)))).1 hn.2 (by
        intro g hg
        obtain ⟨o, h⟩ := hex g (List.mem_cons_of_mem _ hg)
        exact ⟨o, by rw [w2, if_neg (hne g hg)]; exact h⟩)
      simp only [List.map_cons, List.flatten_cons, handleFileBlock_append, w1, if_true]
      refine ⟨i1, ?_, ?_⟩
      · intro g hg
        rcases List.mem_cons.mp hg with rfl | hg
        · exact ⟨old, ho, by rw [i3 _ hn.1, w2]; simp⟩
        · obtain ⟨o, h1, h2⟩ := i2 g hg
          rw [w2, if_neg (hne g hg)] at h1
          exact ⟨o, h1, h2⟩
      · intro u hu
        simp only [List.mem_cons, not_or] at hu
        rw [i3 _ hu.2, w2, if_neg (fun e => hu.1 e.symm)]
  obtain ⟨h1, h2, h3⟩ := key files r hn hex
  have hfl := fileBlocks_flatten (effBlock block) (effBlock_pos block) files hr
  unfold copyToFiles
  rw [deliverFiles_up _ _ _ (by rw [hfl]; exact h1), hfl]
  exact ⟨rfl, h2, h3⟩

/-- a file message carries less than two blocks of data, if every read returned at most one block -/
theorem file_blocks_bounded (bs : Nat) (hb : 0 < bs) (files : List (Nat × List Bytes))
    (hr : ∀ f ∈ files, ∀ d ∈ f.2, d.length ≤ bs) :
    ∀ m ∈ fileBlocks bs files, (m.map (·.2.length)).sum < 2 * bs := by
  let Inv : FSt → Prop := fun s => (∀ m ∈ s.sent, (m.map (·.2.length)).sum < 2 * bs) ∧
    (s.block.map (·.2.length)).sum = s.size ∧ s.size < bs
  have hread : ∀ uid s d, Inv s → d.length ≤ bs → Inv (addRead bs uid s d) := by
    rintro uid s d ⟨h1, h2, h3⟩ hd
    unfold addRead; simp only
    have e : ((s.block ++ [(uid, d)]).map (·.2.length)).sum = s.size + d.length := by simp [h2]
    split
    · refine ⟨?_, rfl, hb⟩
      intro m hm
      rcases List.mem_append.mp hm with h | h
      · exact h1 m h
      · simp only [List.mem_singleton] at h; subst h; omega
    · exact ⟨h1, e, by simp only; omega⟩
  have hfile : ∀ s (f : Nat × List Bytes), Inv s → (∀ d ∈ f.2, d.length ≤ bs) → Inv (addFile bs s f) := by
    rintro s ⟨uid, reads⟩ h hd
    unfold addFile; simp only at *
    induction reads generalizing s with
    | nil => exact h
    | cons d ds ih => exact ih _ (hread uid s d h (hd d (by simp))) (fun d h => hd d (List.mem_cons_of_mem _ h))
  have hall : ∀ (files : List (Nat × List Bytes)) s, Inv s → (∀ f ∈ files, ∀ d ∈ f.2, d.length ≤ bs) →
      Inv (files.foldl (addFile bs) s) := by
    intro files
    induction files with
    | nil => intro s h _; exact h
    | cons f fs ih =>
      intro s h hr
      exact ih _ (hfile s f h (hr f (by simp))) (fun g hg => hr g (List.mem_cons_of_mem _ hg))
  obtain ⟨h1, h2, h3⟩ := hall files ⟨[], 0, []⟩ ⟨by simp, rfl, hb⟩ hr
  intro m hm
  unfold fileBlocks at hm
  simp only at hm
  split at hm
  · rcases List.mem_append.mp hm with h | h
    · exact h1 m h
    · simp only [List.mem_singleton] at h; subst h; omega
  · exact h1 m hm

example : copyToFiles (fun _ => .up) (some 2) [(1, [[1, 2], [3]]), (2, []), (3, [[7, 8]])]
    [(1, []), (2, [5]), (3, [])] = ([(1, [1, 2, 3]), (2, [5]), (3, [7, 8])], .returned) := by decide

end Xoscar.CopyTo
