import Verif.Model.Wire
import Verif.Proof.Base
namespace Xoscar.Wire

theorem le_length (k n : Nat) : (le k n).length = k := by
  induction k generalizing n with
  | zero => rfl
  | succ k ih => simp [le, ih]

theorem unle_le (k n : Nat) (h : n < 256 ^ k) : unle (le k n) = n := by
  induction k generalizing n with
  | zero => simp at h; simp [le, unle, h]
  | succ k ih =>
    have h2 : n / 256 < 256 ^ k := by
      rw [Nat.div_lt_iff_lt_mul (by decide)]; rwa [Nat.pow_succ] at h
    simp only [le, unle, ih _ h2]
    have : (UInt8.ofNat (n % 256)).toNat = n % 256 := by
      rw [UInt8.toNat_ofNat']; omega
    rw [this]; omega

theorem pack_some {k n : Nat} {b : Bytes} (h : pack k n = some b) : b = le k n ∧ n < 256 ^ k := by
  unfold pack at h; split at h
  · cases h; exact ⟨rfl, ‹_›⟩
  · cases h

theorem prelude_some {n c : Nat} {b : Bytes} (h : prelude n c = some b) :
    b = le 1 version ++ le 8 n ++ le 2 c ∧ n < 256 ^ 8 ∧ c < 256 ^ 2 := by
  unfold prelude at h
  split at h
  · next v q hh h1 h2 h3 =>
    cases h
    have e1 := pack_some h1; have e2 := pack_some h2; have e3 := pack_some h3
    exact ⟨by rw [e1.1, e2.1, e3.1], e2.2, e3.2⟩
  · cases h

theorem prelude_length {n c : Nat} {b : Bytes} (h : prelude n c = some b) : b.length = 11 := by
  rw [(prelude_some h).1]; simp [le_length]

theorem headerLength_prelude {n c : Nat} {b : Bytes} (h : prelude n c = some b) :
    headerLength b = some n := by
  obtain ⟨rfl, hn, _⟩ := prelude_some h
  unfold headerLength
  have h1 : List.take 1 (le 1 version ++ le 8 n ++ le 2 c) = le 1 version := by
    rw [List.append_assoc, List.take_append_of_le_length (by simp [le_length]),
      List.take_of_length_le (by simp [le_length])]
  have h2 : List.take 8 (List.drop 1 (le 1 version ++ le 8 n ++ le 2 c)) = le 8 n := by
    rw [List.append_assoc, List.drop_append_of_le_length (by simp [le_length]),
      List.drop_of_length_le (by simp [le_length]), List.nil_append,
      List.take_append_of_le_length (by simp [le_length]), List.take_of_length_le (by simp [le_length])]
  rw [h1, h2, unle_le _ _ (by decide), unle_le _ _ hn]; simp

theorem readExactly_append (a s : Bytes) : readExactly a.length (a ++ s) = .ok a s := by
  unfold readExactly
  rw [if_pos (by simp)]; simp

theorem readExactly_append' {n : Nat} (a s : Bytes) (h : n = a.length) :
    readExactly n (a ++ s) = .ok a s := by subst h; exact readExactly_append a s

theorem cudaWrites_flatten (chunk : Nat) (hc : 0 < chunk) (data : Bytes) (fuel offset : Nat)
    (hf : data.length ≤ offset + fuel) :
    (cudaWrites chunk data fuel offset).flatten = data.drop offset := by
  induction fuel generalizing offset with
  | zero => simp [cudaWrites]; omega
  | succ f ih =>
    simp only [cudaWrites]
    split
    · next h =>
      rw [List.flatten_cons, ih _ (by split <;> omega), ← List.drop_drop, List.take_append_drop]
    · next h => rw [List.drop_of_length_le (by omega)]; rfl

theorem bufWrites_flatten (b : Buf) : (bufWrites b).flatten = b.data := by
  unfold bufWrites; split
  · rw [cudaWrites_flatten _ (by decide) _ _ _ (by omega)]; rfl
  · simp

theorem flatten_bufWrites (bs : List Buf) :
    ((bs.map bufWrites).flatten).flatten = (bs.map Buf.data).flatten := by
  induction bs with
  | nil => rfl
  | cons b bs ih => simp [List.flatten_append, bufWrites_flatten, ih]

theorem readCuda_ok (chunk : Nat) (hc : 0 < chunk) (d s : Bytes) (size fuel : Nat) (acc : Bytes)
    (hs : acc.length + d.length = size) (hf : d.length ≤ fuel) :
    readCuda chunk size fuel acc (d ++ s) = .ok (acc ++ d) s := by
  induction fuel generalizing acc d with
  | zero =>
    have : d = [] := List.length_eq_zero_iff.mp (by omega)
    subst this; simp [readCuda]
  | succ f ih =>
    simp only [readCuda]
    split
    · next h =>
      obtain ⟨n, hdef⟩ : ∃ n, n = if acc.length + chunk < size then chunk else size - acc.length := ⟨_, rfl⟩
      have hn : n ≤ d.length := by rw [hdef]; split <;> omega
      have hn0 : 0 < n := by rw [hdef]; split <;> omega
      have e : readExactly n (d ++ s) = .ok (d.take n) (d.drop n ++ s) := by
        have := readExactly_append' (n := n) (d.take n) (d.drop n ++ s) (by simp; omega)
        rwa [← List.append_assoc, List.take_append_drop] at this
      simp only [← hdef, e]
      rw [ih (d.drop n) (acc ++ d.take n) (by simp; omega) (by simp; omega)]
      simp
    · next h =>
      have : d = [] := List.length_eq_zero_iff.mp (by omega)
      subst this; simp

theorem readBuf_ok (b : Buf) (s : Bytes) : readBuf b.cuda b.data.length (b.data ++ s) = .ok b s := by
  unfold readBuf
  cases h : b.cuda
  · simp only [Bool.false_eq_true, if_false, readExactly_append]; cases b; simp_all
  · simp only [if_true]
    rw [readCuda_ok _ (by decide) _ _ _ _ _ (by simp) (by omega)]
    cases b; simp_all

theorem zip_header {H} (m : Msg H) :
    m.header.isCuda.zip m.header.sizes = m.bufs.map (fun b => (b.cuda, b.data.length)) := by
  simp only [Msg.header]
  induction m.bufs with
  | nil => rfl
  | cons b bs ih => simp [ih]

theorem readBufs_ok (bs : List Buf) (s : Bytes) :
    readBufs (bs.map (fun b => (b.cuda, b.data.length))) ((bs.map Buf.data).flatten ++ s) = .ok bs s := by
  induction bs with
  | nil => rfl
  | cons b bs ih =>
    simp only [List.map_cons, List.flatten_cons, List.append_assoc, readBufs, readBuf_ok, ih]

/-- the three parts of a frame -/
theorem frame_some {H} {p : Pickle H} {c : Nat} {m : Msg H} {f : Bytes} (h : frame p c m = some f) :
    ∃ pre, prelude (p.dumps m.header).length c = some pre ∧
      f = pre ++ (p.dumps m.header ++ (m.bufs.map Buf.data).flatten) := by
  unfold frame writes at h
  split at h
  · simp at h
  · next pre hp =>
    simp only [Option.map_some, Option.some.injEq, List.flatten_cons] at h
    exact ⟨pre, hp, by rw [← h, flatten_bufWrites]⟩

theorem writes_of_frame {H} {p : Pickle H} {c : Nat} {m : Msg H} {ws} (h : writes p c m = some ws) :
    frame p c m = some ws.flatten := by simp [frame, h]

theorem foldl_append (w : Bytes) (ws : List Bytes) : ws.foldl (· ++ ·) w = w ++ ws.flatten := by
  induction ws generalizing w with
  | nil => simp
  | cons x xs ih => simp [ih]

theorem getHeader_frame {H} {p : Pickle H} {c : Nat} {m : Msg H} {f : Bytes}
    (h : frame p c m = some f) (s : Bytes) :
    getHeader p (f ++ s) = .ok m.header ((m.bufs.map Buf.data).flatten ++ s) := by
  obtain ⟨pre, hp, rfl⟩ := frame_some h
  unfold getHeader
  rw [List.append_assoc, readExactly_append' pre _ (prelude_length hp).symm]
  simp only [headerLength_prelude hp, List.append_assoc, readExactly_append, p.round]

theorem recv_frame {H} {p : Pickle H} {c : Nat} {m : Msg H} {f : Bytes}
    (h : frame p c m = some f) (s : Bytes) : recv p (f ++ s) = .ok m s := by
  unfold recv
  rw [getHeader_frame h]; simp only [zip_header, readBufs_ok]; rfl

end Xoscar.Wire
