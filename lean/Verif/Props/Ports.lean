import Verif.Proof.Ports
/-!
# C34 (allocated ports) and C32 (process indices)
-/
namespace Xoscar.Ports

/-! ## Specification -/

/-- The permitted range of ports, in the words of the API. -/
def InRange (p : Nat) : Prop := 10000 ≤ p ∧ p ≤ 65535

/-- A module state is possible iff every port remembered is in the range
(only `get_next_port` writes it). -/
def Possible (loc : List Nat) : Prop := ∀ p ∈ loc, InRange p

/-! ## C34 -/

/-- Whatever the host reports as occupied, whatever the random number and whatever was
allocated before: a port returned is in the permitted range, is not reported occupied and was
not allocated before. -/
theorem getNextPort_free (sys loc : List Nat) (randn : Nat) (occupy : Bool) (p : Nat)
    (h : (getNextPort sys randn occupy loc).1 = .port p) :
    InRange p ∧ p ∉ sys ∧ p ∉ loc := by
  unfold getNextPort at h
  simp only at h
  split at h
  · simp at h
  · split at h
    · next q hq =>
      simp at h; subst h
      obtain ⟨hm, hn⟩ := scan_some hq
      rw [mem_occupied] at hn
      have hr : InRange q := by
        simp only [List.mem_range'_1, LOW, HIGH] at hm
        unfold InRange; omega
      refine ⟨hr, fun hs => hn (Or.inl ⟨hs, hr.1, hr.2⟩), fun hl => hn (Or.inr hl)⟩
    · simp at h

/-- Every free port can be chosen: for each of them there is a random number that selects it. -/
theorem getNextPort_any (sys loc : List Nat) (occupy : Bool) (hloc : Possible loc) (q : Nat) (hq : InRange q)
    (hs : q ∉ sys) (hl : q ∉ loc) : ∃ randn, (getNextPort sys randn occupy loc).1 = .port q := by
  have hfree := free_length sys loc hloc
  have hqm : q ∈ (List.range' LOW (HIGH + 1 - LOW)).filter (fun i => i ∉ occupied sys loc) := by
    simp only [List.mem_filter, List.mem_range'_1, decide_eq_true_eq, mem_occupied]
    unfold InRange at hq; simp only [LOW, HIGH]
    refine ⟨by omega, ?_⟩
    rintro (h | h)
    · exact hs h.1
    · exact hl h
  obtain ⟨i, hi⟩ := List.getElem?_of_mem hqm
  have hlt := (List.getElem?_eq_some_iff.mp hi).1
  rw [hfree] at hlt
  refine ⟨i, ?_⟩
  unfold getNextPort
  simp only
  rw [if_neg (by omega), Nat.mod_eq_of_lt hlt, scan_eq, hi]

/-- A port is returned whenever some port of the range is free (not reported occupied and not
allocated before): the search never gives up early. -/
theorem getNextPort_complete (sys loc : List Nat) (randn : Nat) (occupy : Bool)
    (hloc : Possible loc) (q : Nat) (hq : InRange q) (hs : q ∉ sys) (hl : q ∉ loc) :
    ∃ p, (getNextPort sys randn occupy loc).1 = .port p := by
  have hfree := free_length sys loc hloc
  have hqm : q ∈ (List.range' LOW (HIGH + 1 - LOW)).filter (fun i => i ∉ occupied sys loc) := by
    simp only [List.mem_filter, List.mem_range'_1, decide_eq_true_eq, mem_occupied]
    unfold InRange at hq; simp only [LOW, HIGH]
    refine ⟨by omega, ?_⟩
    rintro (⟨h, _⟩ | h)
    · exact hs h
    · exact hl h
  have hpos := List.length_pos_of_mem hqm
  rw [hfree] at hpos
  unfold getNextPort
  simp only
  rw [if_neg (by omega)]
  have : randn % (1 + HIGH - LOW - (occupied sys loc).length) <
      ((List.range' LOW (HIGH + 1 - LOW)).filter (fun i => i ∉ occupied sys loc)).length := by
    rw [hfree]; exact Nat.mod_lt _ hpos
  obtain ⟨p, hp⟩ := scan_isSome this
  exact ⟨p, by rw [hp]⟩

/-- When no port of the range is free the call fails – but with ZeroDivisionError, not with
the intended `SystemError("No ports available.")`, which is never raised. -/
theorem getNextPort_exhausted (sys loc : List Nat) (randn : Nat) (occupy : Bool)
    (hloc : Possible loc) (hfull : ∀ q, InRange q → q ∈ sys ∨ q ∈ loc) :
    getNextPort sys randn occupy loc = (.zeroDivisionError, loc) := by
  have hfree := free_length sys loc hloc
  have : (List.range' LOW (HIGH + 1 - LOW)).filter (fun i => i ∉ occupied sys loc) = [] := by
    rw [List.filter_eq_nil_iff]
    intro a ha
    simp only [List.mem_range'_1, LOW, HIGH] at ha
    simp only [decide_eq_true_eq, Classical.not_not, mem_occupied]
    have hr : InRange a := by unfold InRange; omega
    rcases hfull a hr with h | h
    · exact Or.inl ⟨h, hr.1, hr.2⟩
    · exact Or.inr h
  rw [this] at hfree
  simp only [List.length_nil] at hfree
  unfold getNextPort
  simp only
  rw [if_pos hfree.symm]

theorem getNextPort_never_systemError (sys loc : List Nat) (randn : Nat) (occupy : Bool)
    (hloc : Possible loc) : (getNextPort sys randn occupy loc).1 ≠ .systemError := by
  by_cases h : ∃ q, InRange q ∧ q ∉ sys ∧ q ∉ loc
  · obtain ⟨q, h1, h2, h3⟩ := h
    obtain ⟨p, hp⟩ := getNextPort_complete sys loc randn occupy hloc q h1 h2 h3
    rw [hp]; simp
  · rw [getNextPort_exhausted sys loc randn occupy hloc]
    · simp
    · intro q hq
      by_cases h1 : q ∈ sys
      · exact Or.inl h1
      · by_cases h2 : q ∈ loc
        · exact Or.inr h2
        · exact absurd ⟨q, hq, h1, h2⟩ h

/-- The state stays possible, grows only by the returned port, and only when `occupy`. -/
theorem getNextPort_state (sys loc : List Nat) (randn : Nat) (occupy : Bool) (hloc : Possible loc) :
    Possible (getNextPort sys randn occupy loc).2 ∧
    (∀ p, p ∈ (getNextPort sys randn occupy loc).2 ↔
      p ∈ loc ∨ (occupy = true ∧ (getNextPort sys randn occupy loc).1 = .port p)) := by
  have hf := getNextPort_free sys loc randn occupy
  revert hf
  generalize hg : getNextPort sys randn occupy loc = g
  unfold getNextPort at hg
  simp only at hg
  intro hf
  split at hg
  · subst hg; exact ⟨hloc, by simp⟩
  · split at hg
    · next q hq =>
      subst hg
      have hr := (hf q rfl).1
      cases occupy
      · exact ⟨hloc, by simp⟩
      · refine ⟨?_, ?_⟩
        · intro p hp; simp at hp; rcases hp with rfl | hp
          · exact hr
          · exact hloc p hp
        · intro p; simp; constructor
          · rintro (h | h)
            · exact Or.inr h.symm
            · exact Or.inl h
          · rintro (h | h)
            · exact Or.inr h
            · exact Or.inl h.symm
    · subst hg; exact ⟨hloc, by simp⟩

theorem calls_avoid (cs : List (List Nat × Nat × Bool)) (loc : List Nat) (hloc : Possible loc)
    (p : Nat) (hp : p ∈ loc) : Res.port p ∉ (calls cs loc).1 := by
  induction cs generalizing loc with
  | nil => simp [calls]
  | cons c cs ih =>
    obtain ⟨sys, randn, occ⟩ := c
    simp only [calls, List.mem_cons, not_or]
    obtain ⟨h1, h2⟩ := getNextPort_state sys loc randn occ hloc
    refine ⟨?_, ih _ h1 ((h2 p).mpr (Or.inl hp))⟩
    intro e
    exact (getNextPort_free sys loc randn occ p e.symm).2.2 hp

/-- In any history of `get_next_port()` calls in one process (default `occupy=True`) no port is
ever handed out twice, even if the host reports it as free again. -/
theorem calls_distinct (cs : List (List Nat × Nat × Bool)) (hall : ∀ c ∈ cs, c.2.2 = true)
    (i j : Nat) (p : Nat) (hi : (calls cs []).1[i]? = some (Res.port p))
    (hj : (calls cs []).1[j]? = some (Res.port p)) : i = j := by
  have hgen : ∀ loc, Possible loc → ∀ i j : Nat, (calls cs loc).1[i]? = some (Res.port p) →
      (calls cs loc).1[j]? = some (Res.port p) → i = j := by
    clear hi hj i j
    induction cs with
    | nil => intro loc _ i j hi; simp [calls] at hi
    | cons c cs ih =>
      obtain ⟨sys, randn, occ⟩ := c
      have hocc : occ = true := hall _ List.mem_cons_self
      subst hocc
      intro loc hloc i j hi hj
      simp only [calls] at hi hj
      obtain ⟨h1, h2⟩ := getNextPort_state sys loc randn true hloc
      have havoid : (getNextPort sys randn true loc).1 = .port p →
          Res.port p ∉ (calls cs (getNextPort sys randn true loc).2).1 := fun e =>
        calls_avoid cs _ h1 p ((h2 p).mpr (Or.inr ⟨rfl, e⟩))
      cases i with
      | zero =>
        cases j with
        | zero => rfl
        | succ j =>
          simp at hi hj
          exact absurd (List.mem_of_getElem? hj) (havoid hi)
      | succ i =>
        cases j with
        | zero =>
          simp at hi hj
          exact absurd (List.mem_of_getElem? hi) (havoid hj)
        | succ j =>
          simp at hi hj
          rw [ih (fun c hc => hall c (List.mem_cons_of_mem _ hc)) _ h1 i j hi hj]
  exact hgen [] (by intro p hp; simp at hp) i j hi hj

/-- Non-vacuity: two consecutive calls with the same random number give different ports. -/
example : (getNextPort [10000, 80] 0 true []) = (.port 10001, [10001]) ∧
    (getNextPort [80] 1 true [10001]).1 = .port 10002 ∧ Possible [10001] := by
  refine ⟨by decide +kernel, by decide +kernel, ?_⟩
  intro p hp; simp at hp; subst hp; unfold InRange; omega

/-! ## C32 -/

/-- Within one process no index is handed out twice. -/
theorem processIndices_nodup_partial (pid start n : Nat) (hpid : 0 < pid) :
    (processIndices pid start n).Nodup := by
  unfold processIndices
  rw [List.Nodup, List.pairwise_map]
  refine List.Pairwise.imp ?_ (List.nodup_range' (s := start) (n := n))
  intro a b hne heq
  rw [processIndex_eq, processIndex_eq] at heq
  have := Nat.eq_of_mul_eq_mul_left hpid heq
  have := (Nat.pow_right_inj (by omega : 1 < 2)).mp this
  omega

/-- C32 in full is false: because `pid << 16 + idx` is `pid << (16 + idx)`, two processes on
one host whose pids differ by a factor of two hand out the same index. -/
theorem processIndex_shared_refuted :
    ¬ ∀ pid₁ pid₂ i j, 0 < pid₁ → 0 < pid₂ → pid₁ ≠ pid₂ →
      processIndex pid₁ i ≠ processIndex pid₂ j := by
  intro h
  exact h 2000 1000 0 1 (by omega) (by omega) (by omega) (by simp [processIndex])

/-- Exactly when two processes collide: the pids differ by a power of two matching the
difference of their counters. -/
theorem processIndex_collision_iff (p₁ p₂ i d : Nat) :
    processIndex p₁ i = processIndex p₂ (i + d) ↔ p₁ = p₂ * 2 ^ d := by
  have e : p₂ * 2 ^ (16 + (i + d)) = (p₂ * 2 ^ d) * 2 ^ (16 + i) := by
    rw [← Nat.add_assoc, Nat.pow_add _ (16 + i) d, Nat.mul_comm (2 ^ (16 + i)), Nat.mul_assoc]
  rw [processIndex_eq, processIndex_eq, e]
  constructor
  · intro h; exact Nat.eq_of_mul_eq_mul_right (Nat.two_pow_pos _) h
  · intro h; rw [h]

example : processIndices 1234 0 3 = [80871424, 161742848, 323485696] ∧ 0 < 1234 := by decide

end Xoscar.Ports
