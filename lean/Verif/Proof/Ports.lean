import Verif.Model.Ports
import Verif.Proof.Base
namespace Xoscar.Ports

theorem scan_some {occ : List Nat} {l : List Nat} {idx p : Nat}
    (h : scan occ l idx = some p) : p ∈ l ∧ p ∉ occ := by
  induction l generalizing idx with
  | nil => simp [scan] at h
  | cons i rest ih =>
    unfold scan at h
    split at h
    · exact ⟨List.mem_cons_of_mem _ (ih h).1, (ih h).2⟩
    · split at h
      · cases h; exact ⟨List.mem_cons_self, ‹_›⟩
      · exact ⟨List.mem_cons_of_mem _ (ih h).1, (ih h).2⟩

theorem scan_eq (occ : List Nat) (l : List Nat) (idx : Nat) : scan occ l idx = (l.filter (fun i => i ∉ occ))[idx]? := by
  induction l generalizing idx with
  | nil => simp [scan]
  | cons i rest ih =>
    unfold scan
    split
    · next hi => rw [ih]; simp [hi]
    · next hi =>
      split
      · next h => simp [hi, h]
      · next h =>
        obtain ⟨k, rfl⟩ : ∃ k, idx = k + 1 := ⟨idx - 1, by omega⟩
        rw [ih]; simp [hi]

theorem scan_isSome {occ : List Nat} {l : List Nat} {idx : Nat}
    (h : idx < (l.filter (fun i => i ∉ occ)).length) : ∃ p, scan occ l idx = some p := by
  induction l generalizing idx with
  | nil => simp at h
  | cons i rest ih =>
    unfold scan
    split
    · next hi => apply ih; simpa [hi] using h
    · next hi =>
      split
      · exact ⟨_, rfl⟩
      · apply ih; simp [hi] at h; simp; omega

theorem mem_occupied {sys loc : List Nat} {p : Nat} :
    p ∈ occupied sys loc ↔ (p ∈ sys ∧ LOW ≤ p ∧ p ≤ HIGH) ∨ p ∈ loc := by
  simp [occupied, mem_pySet]

/-- number of free ports of the range -/
theorem free_length (sys loc : List Nat) (hloc : ∀ p ∈ loc, LOW ≤ p ∧ p ≤ HIGH) :
    ((List.range' LOW (HIGH + 1 - LOW)).filter (fun i => i ∉ occupied sys loc)).length
      = 1 + HIGH - LOW - (occupied sys loc).length := by
  have hsub : ∀ p ∈ occupied sys loc, p ∈ List.range' LOW (HIGH + 1 - LOW) := by
    intro p hp
    rw [mem_occupied] at hp
    simp only [List.mem_range'_1]
    rcases hp with ⟨_, h1, h2⟩ | h
    · simp only [LOW, HIGH] at *; omega
    · have := hloc p h; simp only [LOW, HIGH] at *; omega
  have hnd : (occupied sys loc).Nodup := by
    exact nodup_pySet _
  have hperm : ((List.range' LOW (HIGH + 1 - LOW)).filter (fun i => i ∈ occupied sys loc)).Perm
      (occupied sys loc) := by
    rw [List.perm_ext_iff_of_nodup ((List.nodup_range').filter _) hnd]
    intro a
    simp only [List.mem_filter, decide_eq_true_eq]
    exact ⟨fun h => h.2, fun h => ⟨hsub a h, h⟩⟩
  have hlen := hperm.length_eq
  have hsplit := length_filter_split (fun i => decide (i ∈ occupied sys loc)) (List.range' LOW (HIGH + 1 - LOW))
  have h3 : (List.range' LOW (HIGH + 1 - LOW)).length = 1 + HIGH - LOW := by
    rw [List.length_range']; rfl
  rw [h3, hlen] at hsplit
  have h4 : (List.filter (fun i => decide (i ∉ occupied sys loc)) (List.range' LOW (HIGH + 1 - LOW)))
     = (List.filter (fun x => !decide (x ∈ occupied sys loc)) (List.range' LOW (HIGH + 1 - LOW))) := by
    congr 1; funext i; simp
  rw [h4]; omega

theorem processIndex_eq (pid idx : Nat) : processIndex pid idx = pid * 2 ^ (16 + idx) := by
  simp [processIndex, Nat.shiftLeft_eq]

end Xoscar.Ports
