import Verif.Model.Transport

/-! # C56: the socket gets exactly the bytes of the buffers -/
namespace Xoscar.Transport
open Xoscar

/-- A buffer whose first axis counts bytes. -/
def View.IsBytes (v : View) : Prop := v.rowBytes = 1 ∧ v.rows = v.bytes.length

/-- The bytes a message consists of. -/
def content (vs : List View) : List Nat := vs.flatMap (·.bytes)

/-- the buffers xoscar makes from `bytes`, headers and numpy arrays are of this kind and have these bytes -/
theorem ofBytes_isBytes (b : List Nat) : (View.ofBytes b).IsBytes ∧ (View.ofBytes b).bytes = b := ⟨⟨rfl, rfl⟩, rfl⟩

theorem View.IsBytes.slice {v : View} (h : v.IsBytes) (n : Nat) :
    (v.slice n).IsBytes ∧ (v.slice n).bytes = v.bytes.drop n := by
  obtain ⟨h1, h2⟩ := h
  simp [View.slice, View.IsBytes, h1, h2]

theorem adjust_bytes : ∀ (l : List View) (n : Nat), (∀ v ∈ l, v.IsBytes) →
    queued (adjust l n) = (queued l).drop n ∧ ∀ v ∈ adjust l n, v.IsBytes
  | [], n, _ => by simp [adjust, queued]
  | b :: r, n, h => by
    have hb := h b (by simp)
    have hr : ∀ v ∈ r, v.IsBytes := fun v hv => h v (by simp [hv])
    simp only [adjust]
    split
    · rename_i h0; subst h0; exact ⟨by simp, h⟩
    · split
      · rename_i hle
        obtain ⟨h1, h2⟩ := adjust_bytes r (n - b.rows) hr
        refine ⟨?_, h2⟩
        rw [h1]
        simp only [queued, List.flatMap_cons, List.drop_append, hb.2] at *
        rw [List.drop_eq_nil_of_le hle]
        simp
      · rename_i hlt
        have hs := hb.slice n
        refine ⟨?_, ?_⟩
        · have hlt' : n ≤ b.bytes.length := by have := hb.2; omega
          simp only [queued, List.flatMap_cons, hs.2]
          rw [List.drop_append, Nat.sub_eq_zero_of_le hlt']
          simp
        · intro v hv
          rcases List.mem_cons.1 hv with rfl | hv
          · exact hs.1
          · exact hr v hv

theorem run_bytes {vs : List View} {s : State} (h : Run vs s) (hb : ∀ v ∈ vs, v.IsBytes) :
    s.wire ++ queued s.pending = content vs ∧ ∀ v ∈ s.pending, v.IsBytes := by
  induction h with
  | init => simp [queued, content]
  | @write vs s v taken hr hok ih =>
    obtain ⟨ih1, ih2⟩ := ih fun x hx => hb x (by simp [hx])
    have hv := hb v (by simp)
    simp only [Transport.write]
    split
    · rename_i h0
      have : v.bytes = [] := by have := hv.2; rw [h0] at this; exact List.length_eq_zero_iff.1 this.symm
      exact ⟨by simp only [ih1, content, List.flatMap_append]; simp [this], ih2⟩
    · rename_i h0
      cases hp : s.pending with
      | nil =>
        rw [hp] at ih1
        have ih1 : s.wire = content vs := by simpa [queued] using ih1
        cases taken with
        | none => simp [queued, content, ih1, hv]
        | some n =>
          have hs := hv.slice n
          simp only
          split
          · rename_i hz
            have hz' : (v.slice n).bytes = [] := by
              have := hs.1.2; rw [hz] at this; exact List.length_eq_zero_iff.1 this.symm
            rw [hs.2] at hz'
            have hle : v.bytes.length ≤ n := by simpa using hz'
            simp [queued, content, ih1, hp, List.take_of_length_le hle]
          · simp [queued, content, ih1, hs.1, hs.2]
      | cons x l =>
        rw [hp] at ih1 ih2
        simp only
        refine ⟨?_, ?_⟩
        · simp only [queued, content, List.flatMap_append, List.flatMap_cons] at ih1 ⊢
          simp [← ih1]
        · intro y hy
          rcases List.mem_append.1 hy with hy | hy
          · exact ih2 y hy
          · rw [List.mem_singleton] at hy; exact hy ▸ hv
  | @flush vs s n hr hok ih =>
    obtain ⟨ih1, ih2⟩ := ih hb
    obtain ⟨h1, h2⟩ := adjust_bytes s.pending n ih2
    refine ⟨?_, h2⟩
    simp only [Transport.flush, h1, List.append_assoc, List.take_append_drop, ih1]

/-- C56: buffers of bytes reach the socket complete and in order, however the socket splits them:
what the socket has taken and what is still queued always make up the bytes written. -/
theorem bytes_intact {vs : List View} {s : State} (h : Run vs s) (hb : ∀ v ∈ vs, v.IsBytes) :
    s.wire ++ queued s.pending = content vs := (run_bytes h hb).1

/-- C56: when the queue is empty the socket has got exactly the bytes written. -/
theorem bytes_delivered {vs : List View} {s : State} (h : Run vs s) (hb : ∀ v ∈ vs, v.IsBytes)
    (hd : s.pending = []) : s.wire = content vs := by
  have := bytes_intact h hb
  simpa [hd, queued] using this

/-- C56: queued bytes do leave: a ready socket that takes `n` bytes shortens the queue by `n`. -/
theorem flush_progress {vs : List View} {s : State} (h : Run vs s) (hb : ∀ v ∈ vs, v.IsBytes) (n : Nat) :
    (queued (flush s n).pending).length = (queued s.pending).length - n ∧
    (flush s n).wire = s.wire ++ (queued s.pending).take n := by
  refine ⟨?_, rfl⟩
  simp [flush, (adjust_bytes s.pending n (run_bytes h hb).2).1]

/-- C56: everything can be sent: an idle connection whose socket takes the whole buffer has sent it and is idle again, and a socket that
takes the whole queue leaves nothing behind; both happen in some run, whatever came before. -/
theorem all_can_be_sent {vs : List View} {s : State} (h : Run vs s) (hb : ∀ v ∈ vs, v.IsBytes) :
    (∃ s', Run vs s' ∧ s'.pending.flatMap (·.bytes) = [] ∧ s'.wire = content vs) ∧
    (s.pending = [] → ∀ v : View, v.IsBytes → Run (vs ++ [v]) { wire := s.wire ++ v.bytes, pending := [] }) := by
  constructor
  · refine ⟨flush s (queued s.pending).length, .flush _ h (Nat.le_refl _), ?_, ?_⟩
    · have := (flush_progress h hb (queued s.pending).length).1
      rw [Nat.sub_self] at this
      exact List.length_eq_zero_iff.mp this
    · rw [(flush_progress h hb _).2, List.take_length, bytes_intact h hb]
  · intro hp v hv
    have := Run.write v (some v.bytes.length) h (fun n hn => by cases hn; exact Nat.le_refl _)
    obtain ⟨w, p⟩ := s
    simp only at hp; subst hp
    have e : write ⟨w, []⟩ v (some v.bytes.length) = ⟨w ++ v.bytes, []⟩ := by
      have h2 := hv.2
      simp only [write, View.slice, h2, Nat.sub_self, if_true, List.take_length]
      split
      · next h0 => rw [List.length_eq_zero_iff.mp h0]; simp
      · rfl
    rw [e] at this
    exact this

/-- Exactly when a single write of any buffer survives being split: the rows are bytes, or nothing
or everything was taken. -/
theorem split_write_iff (v : View) (n : Nat) (hw : v.bytes.length = v.rows * v.rowBytes) (h1 : 0 < v.rows)
    (hb : 0 < v.rowBytes) (hn : n ≤ v.bytes.length) :
    ((write {} v (some n)).wire ++ queued (write {} v (some n)).pending = v.bytes) ↔
      v.rowBytes = 1 ∨ n = 0 ∨ n = v.bytes.length := by
  have key : (write {} v (some n)).wire ++ queued (write {} v (some n)).pending
      = v.bytes.take n ++ v.bytes.drop (n * v.rowBytes) := by
    have h0 : v.rows ≠ 0 := by omega
    simp only [write, if_neg h0, View.slice]
    by_cases hz : v.rows - n = 0
    · have : v.bytes.length ≤ n * v.rowBytes := by
        rw [hw]; exact Nat.mul_le_mul_right _ (by omega)
      simp [queued, hz, List.drop_eq_nil_of_le this]
    · simp [queued, hz]
  rw [key]
  constructor
  · intro h
    have hl := congrArg List.length h
    simp only [List.length_append, List.length_take, List.length_drop] at hl
    by_cases h1 : v.rowBytes = 1
    · exact .inl h1
    · right
      have h2 : 2 ≤ v.rowBytes := by omega
      have : n * 2 ≤ n * v.rowBytes := Nat.mul_le_mul_left _ h2
      omega
  · rintro (h | h | h)
    · simp [h]
    · simp [h]
    · have : v.bytes.length ≤ n * v.rowBytes := by
        rw [h]
        exact Nat.le_mul_of_pos_right _ hb
      rw [List.drop_eq_nil_of_le this, h]
      simp

/-- C56 is false for other buffers: a `float32` tensor of 4 elements (`torch.py:52` sends it as a
typed view) of which the socket takes 4 bytes first is never completed; the next message's bytes
are read in its place. -/
theorem typed_view_refuted : ∃ (vs : List View) (s : State), Run vs s ∧ s.pending = [] ∧
    (∀ v ∈ vs, v.bytes.length = v.rows * v.rowBytes) ∧ s.wire.length < (content vs).length := by
  refine ⟨[{ rows := 4, rowBytes := 4, bytes := List.range 16 }], _,
    .write _ (some 4) .init (fun n hn => ?_), by decide, by decide, by decide⟩
  cases hn
  decide

/-- A run that meets the hypotheses: two byte buffers, split in odd places. -/
example : ∃ s, Run [View.ofBytes [1, 2, 3], View.ofBytes [4, 5]] s ∧ s.pending = [] ∧ s.wire = [1, 2, 3, 4, 5] := by
  refine ⟨_, .flush 2 (.flush 2 (.write (vs := [_]) (View.ofBytes [4, 5]) none
    (.write (vs := []) (View.ofBytes [1, 2, 3]) (some 1) .init ?_) ?_) ?_) ?_, by decide, by decide⟩
  · intro n hn; cases hn; decide
  · intro n hn; cases hn
  · show 2 ≤ _; decide
  · show 2 ≤ _; decide

end Xoscar.Transport
