import Verif.Model.Stats
import Verif.Proof.Base
namespace Xoscar.Stats

theorem minOf_spec {l : List Int} {m : Int} (h : minOf l = some m) : m ∈ l ∧ ∀ x ∈ l, m ≤ x := by
  induction l generalizing m with
  | nil => simp [minOf] at h
  | cons x xs ih =>
    simp only [minOf] at h
    split at h
    · next hn =>
      cases h
      cases xs with
      | nil => simp
      | cons y ys => simp only [minOf] at hn; split at hn <;> cases hn
    · next m' hm' =>
      obtain ⟨h1, h2⟩ := ih hm'
      simp only [Option.some.injEq] at h
      split at h
      · subst h; refine ⟨List.mem_cons_self, ?_⟩
        intro y hy; rcases List.mem_cons.mp hy with rfl | hy
        · omega
        · have := h2 y hy; omega
      · subst h; refine ⟨List.mem_cons_of_mem _ h1, ?_⟩
        intro y hy; rcases List.mem_cons.mp hy with rfl | hy
        · omega
        · exact h2 y hy

theorem minOf_isSome {l : List Int} (h : l ≠ []) : ∃ m, minOf l = some m := by
  cases l with
  | nil => contradiction
  | cons x xs => simp only [minOf]; split <;> exact ⟨_, rfl⟩

theorem callLe_refl (a : Call) : callLe a a = true := by simp [callLe]
theorem callLe_total (a b : Call) : callLe a b = true ∨ callLe b a = true := by
  simp [callLe]; omega
theorem callLe_trans {a b c : Call} (h1 : callLe a b = true) (h2 : callLe b c = true) :
    callLe a c = true := by
  simp [callLe] at *; omega

theorem minCall_spec {l : List Call} {m : Call} (h : minCall l = some m) :
    m ∈ l ∧ ∀ x ∈ l, callLe m x = true := by
  induction l generalizing m with
  | nil => simp [minCall] at h
  | cons x xs ih =>
    simp only [minCall] at h
    split at h
    · next hn =>
      cases h
      cases xs with
      | nil => simp [callLe_refl]
      | cons y ys => simp only [minCall] at hn; split at hn <;> cases hn
    · next m' hm' =>
      obtain ⟨h1, h2⟩ := ih hm'
      simp only [Option.some.injEq] at h
      split at h
      · next hle =>
        subst h; refine ⟨List.mem_cons_self, ?_⟩
        intro y hy; rcases List.mem_cons.mp hy with rfl | hy
        · exact callLe_refl _
        · exact callLe_trans hle (h2 y hy)
      · next hle =>
        subst h; refine ⟨List.mem_cons_of_mem _ h1, ?_⟩
        intro y hy; rcases List.mem_cons.mp hy with rfl | hy
        · rcases callLe_total y m' with h | h
          · contradiction
          · exact h
        · exact h2 y hy

theorem minCall_isSome {l : List Call} (h : l ≠ []) : ∃ m, minCall l = some m := by
  cases l with
  | nil => contradiction
  | cons x xs => simp only [minCall]; split <;> exact ⟨_, rfl⟩

/-! Percentile invariant: the stored values are the greatest of the negated observations of
the current window. -/

structure PctInv (s : Pct) (cur : List Int) (drop : List Int) : Prop where
  perm : (cur.map (fun v => -1 * v)).Perm (s.heap ++ drop)
  le : ∀ d ∈ drop, ∀ h ∈ s.heap, d ≤ h
  len : s.heap.length = min s.capacity cur.length

theorem store_inv {s : Pct} {cur drop : List Int} (hc : 0 < s.capacity) (h : PctInv s cur drop)
    (v : Int) : ∃ drop', PctInv { s with heap := s.store v } (v :: cur) drop' := by
  obtain ⟨hp, hle, hlen⟩ := h
  have hcons : ((v :: cur).map (fun v => -1 * v)).Perm ((-1 * v) :: (s.heap ++ drop)) := by
    simp only [List.map_cons]; exact hp.cons _
  unfold Pct.store
  simp only
  split
  · next hlt =>
    have hd : drop = [] := by
      have := hp.length_eq
      simp at this
      have : drop.length = 0 := by omega
      exact List.length_eq_zero_iff.mp this
    subst hd
    refine ⟨[], ⟨by simpa using hcons, by simp, by simp; omega⟩⟩
  · next hlt =>
    have hne : s.heap ≠ [] := by intro e; simp [e] at hlt; omega
    obtain ⟨top, htop⟩ := minOf_isSome hne
    rw [htop]
    obtain ⟨hm, hmin⟩ := minOf_spec htop
    have hpe := List.perm_cons_erase hm
    have hel : (s.heap.erase top).length = s.heap.length - 1 := List.length_erase_of_mem hm
    have hpos : 0 < s.heap.length := List.length_pos_of_mem hm
    simp only
    split
    · next hts =>
      refine ⟨top :: drop, ⟨?_, ?_, ?_⟩⟩
      · refine hcons.trans ?_
        simp only [List.cons_append]
        refine List.Perm.cons _ ?_
        refine (List.Perm.append_right drop hpe).trans ?_
        simpa using List.perm_middle.symm
      · intro d hd x hx
        simp only [List.mem_cons] at hd hx
        rcases hd with rfl | hd
        · rcases hx with rfl | hx
          · omega
          · exact hmin x (List.mem_of_mem_erase hx)
        · rcases hx with rfl | hx
          · have := hle d hd top hm; omega
          · exact hle d hd x (List.mem_of_mem_erase hx)
      · simp [hel]; omega
    · next hts =>
      refine ⟨(-1 * v) :: drop, ⟨?_, ?_, ?_⟩⟩
      · refine hcons.trans ?_
        refine ((List.Perm.append_right drop hpe).cons _).trans ?_
        exact List.perm_middle.symm
      · intro d hd x hx
        simp only [List.mem_cons] at hd hx
        rcases hd with rfl | hd
        · rcases hx with rfl | hx
          · omega
          · have := hmin x (List.mem_of_mem_erase hx); omega
        · rcases hx with rfl | hx
          · exact hle d hd _ hm
          · exact hle d hd x (List.mem_of_mem_erase hx)
      · simp [hel]; omega

/-! Slow-call invariant -/

structure SlowInv (heap hist drop : List Call) : Prop where
  perm : hist.Perm (heap ++ drop)
  len : heap.length = min 10 hist.length
  top : ∀ d ∈ drop, 9 ≤ heap.countP (fun h => callLe d h)

/-- the heap part of `collect` on a call above the threshold -/
def pushSlow (heap : List Call) (c : Call) : List Call :=
  if heap.length < 10 then c :: heap
  else match minCall heap with
    | none => c :: heap
    | some m => c :: heap.erase m

theorem push_inv {heap hist drop : List Call} (h : SlowInv heap hist drop) (c : Call) :
    ∃ drop', SlowInv (pushSlow heap c) (c :: hist) drop' := by
  obtain ⟨hp, hlen, htop⟩ := h
  unfold pushSlow
  split
  · next hlt =>
    have hd : drop = [] := by
      have := hp.length_eq
      simp at this
      exact List.length_eq_zero_iff.mp (by omega)
    subst hd
    exact ⟨[], ⟨by simpa using hp.cons c, by simp; omega, by simp⟩⟩
  · next hlt =>
    have hne : heap ≠ [] := by intro e; simp [e] at hlt
    obtain ⟨m, hm⟩ := minCall_isSome hne
    rw [hm]
    obtain ⟨hmem, hmin⟩ := minCall_spec hm
    have hpe := List.perm_cons_erase hmem
    have hel : (heap.erase m).length = heap.length - 1 := List.length_erase_of_mem hmem
    have h10 : heap.length = 10 := by omega
    refine ⟨m :: drop, ⟨?_, ?_, ?_⟩⟩
    · simp only [List.cons_append]
      refine List.Perm.cons _ (hp.trans ?_)
      refine (List.Perm.append_right drop hpe).trans ?_
      simpa using List.perm_middle.symm
    · simp [hel]; omega
    · intro d hd
      have hall : ∀ d, (∀ x ∈ heap.erase m, callLe d x = true) →
          9 ≤ (c :: heap.erase m).countP (fun h => callLe d h) := by
        intro d hd
        have : (heap.erase m).countP (fun h => callLe d h) = (heap.erase m).length :=
          List.countP_eq_length.mpr hd
        rw [List.countP_cons, this, hel, h10]; omega
      rcases List.mem_cons.mp hd with rfl | hd
      · exact hall _ (fun x hx => hmin x (List.mem_of_mem_erase hx))
      · by_cases hdm : callLe d m = true
        · exact hall _ (fun x hx => callLe_trans hdm (hmin x (List.mem_of_mem_erase hx)))
        · have hc := htop d hd
          rw [hpe.countP_eq, List.countP_cons] at hc
          simp only [hdm] at hc
          rw [List.countP_cons]
          simp at hc
          omega

end Xoscar.Stats
