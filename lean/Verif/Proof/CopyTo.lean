import Verif.Model.CopyTo
import Verif.Proof.Base
namespace Xoscar.CopyTo

/-- the pieces `es` are exactly the bytes `d`, contiguous from `start`, for buffer `uid` -/
def Contig (uid : Nat) : Nat → List Entry → Bytes → Prop
  | _, [], d => d = []
  | start, e :: es, d => e.uid = uid ∧ e.start = start ∧ e.len = e.data.length ∧
      ∃ d', d = e.data ++ d' ∧ Contig uid (start + e.data.length) es d'

theorem Contig.append {uid start : Nat} {a b : List Entry} {x y : Bytes}
    (ha : Contig uid start a x) (hb : Contig uid (start + x.length) b y) :
    Contig uid start (a ++ b) (x ++ y) := by
  induction a generalizing start x with
  | nil => simp only [Contig] at ha; subst ha; simpa using hb
  | cons e es ih =>
    obtain ⟨h1, h2, h3, d', rfl, h4⟩ := ha
    refine ⟨h1, h2, h3, d' ++ y, by simp, ih h4 ?_⟩
    have : start + (e.data ++ d').length = start + e.data.length + d'.length := by simp; omega
    rwa [this] at hb

/-- all entries a state has produced so far, in order -/
def St.entries (s : St) : List Entry := s.sent.flatten ++ s.block

theorem splitLoop_spec (bs uid fuel : Nat) (s : St) (start : Nat) (buf : Bytes) (hc : s.cur ≤ bs) :
    ∃ ps d1, (splitLoop bs uid fuel s start buf).1.entries = s.entries ++ ps ∧
      Contig uid start ps d1 ∧ buf = d1 ++ (splitLoop bs uid fuel s start buf).2.2 ∧
      (splitLoop bs uid fuel s start buf).2.1 = start + d1.length ∧
      (splitLoop bs uid fuel s start buf).1.cur ≤ bs := by
  induction fuel generalizing s start buf with
  | zero => exact ⟨[], [], by simp [splitLoop], rfl, rfl, rfl, hc⟩
  | succ f ih =>
    simp only [splitLoop]
    split
    · next hgt =>
      obtain ⟨ps, d1, h1, h2, h3, h4, h5⟩ := ih
        ⟨0, [], s.sent ++ [s.block ++ [⟨uid, start, bs - s.cur, buf.take (bs - s.cur)⟩]]⟩
        (start + (bs - s.cur)) (buf.drop (bs - s.cur)) (Nat.zero_le _)
      have hl : (buf.take (bs - s.cur)).length = bs - s.cur := by simp; omega
      refine ⟨⟨uid, start, bs - s.cur, buf.take (bs - s.cur)⟩ :: ps, buf.take (bs - s.cur) ++ d1, ?_, ?_, ?_, ?_, h5⟩
      · rw [h1]; simp [St.entries]
      · exact ⟨rfl, rfl, hl.symm, d1, rfl, by simpa only [hl] using h2⟩
      · rw [List.append_assoc, ← h3, List.take_append_drop]
      · rw [h4]; simp; omega
    · exact ⟨[], [], by simp, rfl, rfl, rfl, hc⟩

theorem splitLoop_exit0 (bs uid fuel : Nat) (hb : 0 < bs) (s : St) (start : Nat) (buf : Bytes)
    (hc : s.cur = 0) (hf : buf.length ≤ fuel) :
    (splitLoop bs uid fuel s start buf).1.cur + (splitLoop bs uid fuel s start buf).2.2.length ≤ bs := by
  induction fuel generalizing s start buf with
  | zero => simp [splitLoop]; omega
  | succ f ih =>
    simp only [splitLoop]
    split
    · next hgt =>
      exact ih _ _ _ rfl (by simp; omega)
    · simp only; omega

/-- the fuel used by the model suffices: the loop has reached its exit condition -/
theorem splitLoop_exit (bs uid : Nat) (hb : 0 < bs) (s : St) (start : Nat) (buf : Bytes) :
    (splitLoop bs uid (buf.length + 2) s start buf).1.cur +
      (splitLoop bs uid (buf.length + 2) s start buf).2.2.length ≤ bs := by
  rw [show buf.length + 2 = (buf.length + 1) + 1 from rfl, splitLoop]
  split
  · exact splitLoop_exit0 _ _ _ hb _ _ _ rfl (by simp; omega)
  · simp only; omega

theorem addBuf_spec (bs : Nat) (hb : 0 < bs) (s : St) (b : Nat × Bytes) (hc : s.cur ≤ bs) :
    ∃ ps, (addBuf bs s b).entries = s.entries ++ ps ∧ Contig b.1 0 ps b.2 ∧ (addBuf bs s b).cur ≤ bs := by
  unfold addBuf
  split
  · next h =>
    refine ⟨[⟨b.1, 0, b.2.length, b.2⟩], by simp [St.entries], ⟨rfl, rfl, rfl, [], by simp, rfl⟩, ?_⟩
    simp only; omega
  · obtain ⟨ps, d1, h1, h2, h3, h4, h5⟩ := splitLoop_spec bs b.1 (b.2.length + 2) s 0 b.2 hc
    have hx := splitLoop_exit bs b.1 hb s 0 b.2
    generalize splitLoop bs b.1 (b.2.length + 2) s 0 b.2 = r at *
    simp only
    split
    · next hl =>
      refine ⟨ps ++ [⟨b.1, r.2.1, r.2.2.length, r.2.2⟩], ?_, ?_, ?_⟩
      · simp only [St.entries] at *; rw [← List.append_assoc, h1]; simp
      · have hcg : Contig b.1 0 (ps ++ [⟨b.1, r.2.1, r.2.2.length, r.2.2⟩]) (d1 ++ r.2.2) :=
          h2.append ⟨rfl, h4, rfl, [], by simp, rfl⟩
        rwa [← h3] at hcg
      · simp only; omega
    · next hl =>
      have : r.2.2 = [] := List.length_eq_zero_iff.mp (by omega)
      rw [this, List.append_nil] at h3
      exact ⟨ps, h1, by rw [h3]; exact h2, h5⟩

/-- the entries for a list of buffers -/
inductive Pieces : List (Nat × Bytes) → List Entry → Prop
  | nil : Pieces [] []
  | cons {uid d bufs ps es} : Contig uid 0 ps d → Pieces bufs es → Pieces ((uid, d) :: bufs) (ps ++ es)

theorem foldl_addBuf (bs : Nat) (hb : 0 < bs) (bufs : List (Nat × Bytes)) (s : St) (hc : s.cur ≤ bs) :
    ∃ es, (bufs.foldl (addBuf bs) s).entries = s.entries ++ es ∧ Pieces bufs es := by
  induction bufs generalizing s with
  | nil => exact ⟨[], by simp, .nil⟩
  | cons b bufs ih =>
    obtain ⟨ps, h1, h2, h3⟩ := addBuf_spec bs hb s b hc
    obtain ⟨es, h4, h5⟩ := ih (addBuf bs s b) h3
    exact ⟨ps ++ es, by rw [List.foldl_cons, h4, h1, List.append_assoc], .cons h2 h5⟩

theorem blocks_flatten (bs : Nat) (hb : 0 < bs) (bufs : List (Nat × Bytes)) :
    Pieces bufs (blocks bs bufs).flatten := by
  obtain ⟨es, h1, h2⟩ := foldl_addBuf bs hb bufs ⟨0, [], []⟩ (Nat.zero_le _)
  have : (blocks bs bufs).flatten = es := by
    simp only [St.entries, List.flatten_nil, List.nil_append] at h1
    simp only [blocks]
    split
    · next h => rw [List.isEmpty_iff] at h; rw [← h1, h]; simp
    · rw [← h1]; simp
  rw [this]; exact h2

theorem handleBlock_append (r : Remote) (a b : List Entry) :
    handleBlock r (a ++ b) =
      if (handleBlock r a).2 then handleBlock (handleBlock r a).1 b else ((handleBlock r a).1, false) := by
  induction a generalizing r with
  | nil => simp [handleBlock]
  | cons e es ih =>
    rcases h : writeEntry r e with _ | r'
    · simp [handleBlock, h]
    · simp only [List.cons_append, handleBlock, h]; exact ih _

theorem deliver_up (bs : List (List Entry)) (i : Nat) (r : Remote)
    (h : (handleBlock r bs.flatten).2 = true) :
    deliver (fun _ => .up) i bs r = ((handleBlock r bs.flatten).1, .returned) := by
  induction bs generalizing i r with
  | nil => rfl
  | cons b bs ih =>
    simp only [List.flatten_cons, handleBlock_append] at h
    split at h
    · next hb =>
      simp only [deliver, List.flatten_cons, handleBlock_append, hb, if_true]
      exact ih _ _ h
    · simp at h

/-- writing contiguous pieces -/
theorem write_contig (uid start : Nat) (ps : List Entry) (d old : Bytes) (r : Remote)
    (hc : Contig uid start ps d) (hr : r.get? uid = some old) (hl : start + d.length ≤ old.length) :
    (handleBlock r ps).2 = true ∧ ∀ u, (handleBlock r ps).1.get? u =
      if uid = u then some (old.take start ++ d ++ old.drop (start + d.length)) else r.get? u := by
  induction ps generalizing start d old r with
  | nil =>
    simp only [Contig] at hc; subst hc
    refine ⟨rfl, ?_⟩
    intro u; simp only [handleBlock]; split
    · next e => subst e; rw [hr]; simp
    · rfl
  | cons e es ih =>
    obtain ⟨h1, h2, h3, d', rfl, h4⟩ := hc
    simp only [List.length_append] at hl
    have hw : writeEntry r e = some (r.set uid (old.take start ++ e.data ++ old.drop (start + e.data.length))) := by
      unfold writeEntry
      rw [h1, hr]; simp only [h2, h3]
      rw [if_pos (by omega)]
    have hlen1 : (old.take start).length = start := by simp; omega
    simp only [handleBlock, hw]
    obtain ⟨i1, i2⟩ := ih (start + e.data.length) d'
      (old.take start ++ e.data ++ old.drop (start + e.data.length))
      (r.set uid (old.take start ++ e.data ++ old.drop (start + e.data.length))) h4 (by simp)
      (by simp; omega)
    refine ⟨i1, ?_⟩
    intro u
    rw [i2]
    split
    · congr 1
      have e1 : List.take (start + e.data.length) (old.take start ++ e.data ++ old.drop (start + e.data.length))
          = old.take start ++ e.data := by
        rw [List.take_append_of_le_length (by simp; omega), List.take_of_length_le (by simp; omega)]
      have e2 : List.drop (start + e.data.length + d'.length)
          (old.take start ++ e.data ++ old.drop (start + e.data.length)) =
          old.drop (start + e.data.length + d'.length) := by
        rw [List.drop_append, List.drop_of_length_le (by simp; omega), List.nil_append, List.drop_drop]
        congr 1; simp; omega
      rw [e1, e2]; simp [Nat.add_assoc]
    · next hne => simp [hne]

theorem write_pieces (bufs : List (Nat × Bytes)) (es : List Entry) (hp : Pieces bufs es) (r : Remote)
    (hn : (bufs.map Prod.fst).Nodup)
    (hfit : ∀ b ∈ bufs, ∃ old, r.get? b.1 = some old ∧ b.2.length ≤ old.length) :
    (handleBlock r es).2 = true ∧
    (∀ b ∈ bufs, ∃ old, r.get? b.1 = some old ∧
      (handleBlock r es).1.get? b.1 = some (b.2 ++ old.drop b.2.length)) ∧
    (∀ u, u ∉ bufs.map Prod.fst → (handleBlock r es).1.get? u = r.get? u) := by
  induction hp generalizing r with
  | nil => exact ⟨rfl, by simp, fun u _ => rfl⟩
  | @cons uid d bufs ps es hc hp ih =>
    simp only [List.map_cons, List.nodup_cons] at hn
    obtain ⟨old, ho, hl⟩ := hfit (uid, d) (by simp)
    obtain ⟨w1, w2⟩ := write_contig uid 0 ps d old r hc ho (by simpa using hl)
    have hne : ∀ b ∈ bufs, uid ≠ b.1 := fun b hb e =>
      hn.1 (List.mem_map.mpr ⟨b, hb, e.symm⟩)
    obtain ⟨i1, i2, i3⟩ := ih (handleBlock r ps).1 hn.2 (by
      intro b hb
      obtain ⟨o, h1, h2⟩ := hfit b (List.mem_cons_of_mem _ hb)
      exact ⟨o, by rw [w2, if_neg (hne b hb)]; exact h1, h2⟩)
    rw [handleBlock_append, w1]
    simp only [if_true]
    refine ⟨i1, ?_, ?_⟩
    · intro b hb
      rcases List.mem_cons.mp hb with rfl | hb
      · refine ⟨old, ho, ?_⟩
        rw [i3 _ hn.1, w2]; simp
      · obtain ⟨o, h1, h2⟩ := i2 b hb
        rw [w2, if_neg (hne b hb)] at h1
        exact ⟨o, h1, h2⟩
    · intro u hu
      simp only [List.map_cons, List.mem_cons, not_or] at hu
      rw [i3 _ hu.2, w2, if_neg (fun e => hu.1 e.symm)]

theorem effBlock_pos (b : Option Nat) : 0 < effBlock b := by
  unfold effBlock; split
  · decide
  · decide
  · next h => rename_i b; cases b with
    | zero => exact absurd rfl h
    | succ n => omega

end Xoscar.CopyTo
