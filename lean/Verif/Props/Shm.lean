import Verif.Model.Shm
import Verif.Proof.Wire
/-!
# C09 Start-up handshake is never torn

The writer's stores reach memory one byte at a time, in program order of the three slice
assignments but in any order of bytes within one slice assignment (memcpy).  The reader reads
every byte at its own moment while the writer is running (or dead): `time a` is the number of
stores done when the reader reads address `a`.  The reader reads the tag before the rest.
-/
namespace Xoscar.Shm
open Xoscar.Wire (Bytes le unle le_length unle_le)

/-- any order in which the stores of one `put` can reach memory -/
def Order (p : List Store × List Store × List Store) (l : List Store) : Prop :=
  ∃ a b c, a.Perm p.1 ∧ b.Perm p.2.1 ∧ c.Perm p.2.2 ∧ l = a ++ b ++ c

/-- what a reader sees which reads address `a` after `time a` stores -/
def observed (m : Mem) (l : List Store) (time : Nat → Nat) : Mem :=
  fun a => stores m (l.take (time a)) a

theorem stores_append (m : Mem) (a b : List Store) : stores m (a ++ b) = stores (stores m a) b := by
  simp [stores]

theorem stores_not_mem (m : Mem) (l : List Store) (x : Nat) (h : x ∉ l.map Prod.fst) :
    stores m l x = m x := by
  induction l generalizing m with
  | nil => rfl
  | cons s l ih =>
    simp only [List.map_cons, List.mem_cons, not_or] at h
    show stores (store m s) l x = _
    rw [ih _ h.2]; simp [store, h.1]

theorem stores_mem (m : Mem) (l : List Store) (x : Nat) (b : UInt8) (h : (x, b) ∈ l)
    (hn : (l.map Prod.fst).Nodup) : stores m l x = b := by
  induction l generalizing m with
  | nil => simp at h
  | cons s l ih =>
    simp only [List.map_cons, List.nodup_cons] at hn
    show stores (store m s) l x = _
    rcases List.mem_cons.mp h with h | h
    · subst h; rw [stores_not_mem _ _ _ hn.1]; simp [store]
    · exact ih _ h hn.2

theorem mem_slice (off : Nat) (bs : Bytes) (x : Nat) (b : UInt8) :
    (x, b) ∈ slice off bs ↔ ∃ i, bs[i]? = some b ∧ x = off + i := by
  induction bs generalizing off with
  | nil => simp [slice]
  | cons c bs ih =>
    simp only [slice, List.mem_cons, Prod.mk.injEq, ih]
    constructor
    · rintro (⟨rfl, rfl⟩ | ⟨i, h, rfl⟩)
      · exact ⟨0, rfl, rfl⟩
      · exact ⟨i + 1, h, by omega⟩
    · rintro ⟨i, h, rfl⟩
      cases i with
      | zero => left; simp at h; exact ⟨rfl, h.symm⟩
      | succ i => right; exact ⟨i, by simpa using h, by omega⟩

theorem slice_addr {off : Nat} {bs : Bytes} {x : Nat} :
    x ∈ (slice off bs).map Prod.fst ↔ off ≤ x ∧ x < off + bs.length := by
  induction bs generalizing off with
  | nil => simp [slice]
  | cons b bs ih => simp only [slice, List.map_cons, List.mem_cons, ih, List.length_cons]; omega

theorem slice_nodup (off : Nat) (bs : Bytes) : ((slice off bs).map Prod.fst).Nodup := by
  induction bs generalizing off with
  | nil => simp [slice]
  | cons b bs ih =>
    simp only [slice, List.map_cons, List.nodup_cons, ih, and_true]
    rw [slice_addr]; omega

theorem unle_inj (a b : Bytes) (hl : a.length = b.length) (h : unle a = unle b) : a = b := by
  induction a generalizing b with
  | nil => cases b with
    | nil => rfl
    | cons y ys => simp at hl
  | cons x xs ih => cases b with
    | nil => simp at hl
    | cons y ys =>
      simp only [unle] at h
      have hx := x.toNat_lt; have hy := y.toNat_lt
      have h1 : x.toNat = y.toNat := by omega
      have h2 : unle xs = unle ys := by omega
      rw [UInt8.toNat_inj.mp h1, ih _ (by simpa using hl) h2]

theorem readSlice_eq (m : Mem) (off : Nat) (bs : Bytes)
    (h : ∀ (i : Nat) b, bs[i]? = some b → m (off + i) = b) : readSlice m off bs.length = bs := by
  apply List.ext_getElem?
  intro i
  simp only [readSlice, List.getElem?_map]
  by_cases hi : i < bs.length
  · rw [List.getElem?_range hi, List.getElem?_eq_getElem hi]
    simp only [Option.map_some, Option.some.injEq]
    exact h i _ (List.getElem?_eq_getElem hi)
  · rw [List.getElem?_eq_none (by simpa using hi), List.getElem?_eq_none (by omega)]; rfl

/-- **C09**: the observer of a `put` sees nothing or exactly the payload, at every crash point
(`time` bounded by the crash), for every byte-level store order and every moment of reading each
byte, whatever the memory contained before under another tag. -/
theorem handshake_not_torn (m : Mem) (seq : Nat)
    (hold : unle (readSlice m 0 4) ≠ seq) (serialized : Bytes) (p l)
    (hp : put seq serialized = some p) (hl : Order p l) (time : Nat → Nat)
    (htime : ∀ a b, a < 4 → 4 ≤ b → time a ≤ time b) :
    get seq (observed m l time) = none ∨ get seq (observed m l time) = some serialized := by
  unfold put at hp
  split at hp
  case isFalse => cases hp
  next hlen =>
  cases hp
  obtain ⟨a, b, c, ha, hb, hc, rfl⟩ := hl
  simp only at ha hb hc
  have hlen' : serialized.length < 10240 - 8 := by simpa [shmSize] using hlen
  -- addresses of the three groups
  have aa : ∀ x, x ∈ a.map Prod.fst → 4 ≤ x ∧ x < 8 := fun x hx => by
    have := slice_addr.mp ((ha.map _).mem_iff.mp hx); simp [le_length] at this; omega
  have ba : ∀ x, x ∈ b.map Prod.fst → 8 ≤ x := fun x hx =>
    (slice_addr.mp ((hb.map _).mem_iff.mp hx)).1
  have ca : ∀ x, x ∈ c.map Prod.fst → x < 4 := fun x hx => by
    have := slice_addr.mp ((hc.map _).mem_iff.mp hx); simp [le_length] at this; omega
  by_cases htag : unle (readSlice (observed m (a ++ b ++ c) time) 0 4) = seq
  case neg => left; unfold get; rw [if_pos htag]
  right
  -- some tag byte has changed, so all of size and payload are in memory by then
  have hbytes : readSlice (observed m (a ++ b ++ c) time) 0 4 ≠ readSlice m 0 4 := by
    intro e; rw [e] at htag; exact hold htag
  obtain ⟨i, hi4, hine⟩ : ∃ i, i < 4 ∧ observed m (a ++ b ++ c) time i ≠ m i := by
    apply Classical.byContradiction; intro hcon
    apply hbytes
    unfold readSlice
    apply List.map_congr_left
    intro i hi
    rw [List.mem_range] at hi
    rw [Nat.zero_add]
    exact Classical.byContradiction fun h => hcon ⟨i, hi, h⟩
  have hdone : (a ++ b).length < time i := by
    apply Classical.byContradiction; intro hle
    apply hine
    unfold observed
    apply stores_not_mem
    intro hmem
    have : (a ++ b ++ c).take (time i) = (a ++ b).take (time i) := by
      rw [List.take_append]
      have : time i - (a ++ b).length = 0 := by omega
      rw [this]; simp
    rw [this] at hmem
    have := (List.take_sublist (time i) (a ++ b)).map Prod.fst |>.subset hmem
    rw [List.map_append, List.mem_append] at this
    rcases this with h | h
    · have := aa _ h; omega
    · have := ba _ h; omega
  -- hence at every later read
  have hobs : ∀ x, 4 ≤ x → observed m (a ++ b ++ c) time x = stores m (a ++ b) x := by
    intro x hx
    have ht := htime i x hi4 hx
    unfold observed
    rw [List.take_append, List.take_of_length_le (by omega : (a ++ b).length ≤ time x), stores_append]
    apply stores_not_mem
    intro hmem
    have := (List.take_sublist _ c).map Prod.fst |>.subset hmem
    have := ca _ this; omega
  have hnodup : ((a ++ b).map Prod.fst).Nodup := by
    rw [List.map_append, List.nodup_append]
    refine ⟨(ha.map _).nodup_iff.mpr (slice_nodup _ _), (hb.map _).nodup_iff.mpr (slice_nodup _ _), ?_⟩
    intro x hx y hy e
    have := aa _ hx; have := ba _ hy; omega
  have hsize : readSlice (observed m (a ++ b ++ c) time) 4 4 = le 4 serialized.length := by
    have := readSlice_eq (observed m (a ++ b ++ c) time) 4 (le 4 serialized.length) (by
      intro i v hv
      rw [hobs _ (by omega)]
      exact stores_mem _ _ _ _ (List.mem_append_left _ (ha.mem_iff.mpr ((mem_slice _ _ _ _).mpr ⟨i, hv, rfl⟩))) hnodup)
    rwa [le_length] at this
  have hpay : readSlice (observed m (a ++ b ++ c) time) 8 serialized.length = serialized := by
    apply readSlice_eq
    intro i v hv
    rw [hobs _ (by omega)]
    exact stores_mem _ _ _ _ (List.mem_append_right _ (hb.mem_iff.mpr ((mem_slice _ _ _ _).mpr ⟨i, hv, rfl⟩))) hnodup
  unfold get
  rw [if_neg (by simpa using htag), hsize, unle_le _ _ (by omega), Nat.min_eq_left (by omega), hpay]

/-- **C09**, completeness: once all stores are done the payload is seen. -/
theorem handshake_complete (m : Mem) (seq : Nat) (hseq : seq < 2 ^ 32) (serialized : Bytes) (p l)
    (hp : put seq serialized = some p) (hl : Order p l) :
    get seq (stores m l) = some serialized := by
  unfold put at hp
  split at hp
  case isFalse => cases hp
  next hlen =>
  cases hp
  obtain ⟨a, b, c, ha, hb, hc, rfl⟩ := hl
  simp only at ha hb hc
  have hlen' : serialized.length < 10240 - 8 := by simpa [shmSize] using hlen
  have hnodup : ((a ++ b ++ c).map Prod.fst).Nodup := by
    rw [List.map_append, List.map_append, List.nodup_append, List.nodup_append]
    refine ⟨⟨(ha.map _).nodup_iff.mpr (slice_nodup _ _), (hb.map _).nodup_iff.mpr (slice_nodup _ _), ?_⟩,
      (hc.map _).nodup_iff.mpr (slice_nodup _ _), ?_⟩
    · intro x hx y hy e
      have h1 := slice_addr.mp ((ha.map _).mem_iff.mp hx)
      have h2 := slice_addr.mp ((hb.map _).mem_iff.mp hy)
      simp [le_length] at h1; omega
    · intro x hx y hy e
      have h2 := slice_addr.mp ((hc.map _).mem_iff.mp hy)
      simp [le_length] at h2
      rcases List.mem_append.mp hx with hx | hx
      · have h1 := slice_addr.mp ((ha.map _).mem_iff.mp hx); omega
      · have h1 := slice_addr.mp ((hb.map _).mem_iff.mp hx); omega
  have rd : ∀ (off : Nat) (bs : Bytes) (g : List Store), g ⊆ a ++ b ++ c → (∀ s, s ∈ slice off bs → s ∈ g) →
      readSlice (stores m (a ++ b ++ c)) off bs.length = bs := by
    intro off bs g hg hs
    apply readSlice_eq
    intro i v hv
    exact stores_mem _ _ _ _ (hg (hs _ ((mem_slice _ _ _ _).mpr ⟨i, hv, rfl⟩))) hnodup
  have h1 := rd 4 _ a (by intro x; simp; grind) (fun s hs => ha.mem_iff.mpr hs)
  have h2 := rd 8 _ b (by intro x; simp; grind) (fun s hs => hb.mem_iff.mpr hs)
  have h3 := rd 0 _ c (by intro x; simp; grind) (fun s hs => hc.mem_iff.mpr hs)
  rw [le_length] at h1 h3
  unfold get
  rw [h3, unle_le _ _ hseq, if_neg (by simp), h1, unle_le _ _ (by omega), Nat.min_eq_left (by simp [shmSize]; omega), h2]

/-- **C09**: a payload that does not fit is refused before anything is written. -/
theorem handshake_too_long (seq : Nat) (serialized : Bytes) :
    put seq serialized = none ↔ shmSize - 8 ≤ serialized.length := by
  unfold put; split <;> simp <;> omega

/-- the whole handshake of one sub pool: the parent's `INIT_PARAMS` (tag 1) is complete before the
child starts; then the parent polling for `INIT_RESULT` (tag 2) sees nothing or the child's
complete answer, whatever garbage was in the memory at first. -/
theorem handshake_two_phases (m : Mem) (params result : Bytes) (p1 l1 p2 l2)
    (h1 : put 1 params = some p1) (o1 : Order p1 l1) (h2 : put 2 result = some p2) (o2 : Order p2 l2)
    (time : Nat → Nat) (htime : ∀ a b, a < 4 → 4 ≤ b → time a ≤ time b) :
    get 1 (stores m l1) = some params ∧
    (get 2 (observed (stores m l1) l2 time) = none ∨
     get 2 (observed (stores m l1) l2 time) = some result) := by
  have hc := handshake_complete m 1 (by decide) params p1 l1 h1 o1
  refine ⟨hc, handshake_not_torn _ 2 ?_ result p2 l2 h2 o2 time htime⟩
  intro e
  unfold get at hc
  rw [if_pos (by omega)] at hc; cases hc

/-- non-vacuity: a payload, a crash in the middle, and the completed handshake -/
example : ∃ p, put 2 [10, 20, 30] = some p ∧ Order p (p.1 ++ p.2.1 ++ p.2.2) ∧
    get 2 (observed (fun _ => 0) (p.1 ++ p.2.1 ++ p.2.2) (fun _ => 6)) = none ∧
    get 2 (observed (fun _ => 0) (p.1 ++ p.2.1 ++ p.2.2) (fun _ => 8)) = some [10, 20, 30] :=
  ⟨_, rfl, ⟨_, _, _, .refl _, .refl _, .refl _, rfl⟩, by decide, by decide⟩

end Xoscar.Shm
