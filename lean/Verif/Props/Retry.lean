import Verif.Spec.Retry
import Verif.Proof.Base

/-! # C50: the retry wrapper -/
namespace Xoscar.Retry

theorem attempts_succ (k : Nat) : attempts (k + 1) = attempts k ++ [.call k, .sleep] := by
  simp [attempts, List.range_succ]

/-- the exception remembered after `k` failures -/
def lastEx (w : World) : Nat → Option Nat
  | 0 => none
  | k + 1 => match w.f k with
    | .listed e => some e
    | _ => none

theorem Failed.mono {max : Int} {w : World} {k j : Nat} (h : Failed max w k) (hj : j ≤ k) : Failed max w j :=
  ⟨fun i hi => h.1 i (by omega), h.2.imp id (by omega)⟩

theorem after_failed (coro : Bool) (max : Int) (w : World) (k : Nat) (h : Failed max w k) :
    after coro max w k = ⟨k, lastEx w k, attempts k, none⟩ := by
  induction k with
  | zero => rfl
  | succ k ih =>
    obtain ⟨⟨e, he⟩, hi⟩ := h.1 k (by omega)
    have ha : max < 0 ∨ (k : Int) < max := h.2.imp id (by omega)
    simp only [after, ih (h.mono (by omega)), turn, Option.isSome_none, Bool.false_eq_true, if_false, if_pos ha, he, hi, lastEx, attempts_succ]

theorem after_stays (coro : Bool) (max : Int) (w : World) (m : Nat) (h : (after coro max w m).ended.isSome = true) :
    after coro max w (m + 1) = after coro max w m := by
  simp only [after, turn, h, if_true]

/-- the turn after `k` failures ends the call as `Ends` says, or is one more failure -/
theorem next_turn (coro : Bool) (max : Int) (w : World) (k : Nat) (h : Failed max w k) :
    Failed max w (k + 1) ∨ ∃ t o, Ends coro max w k t o ∧ (after coro max w (k + 1)).acts = t ∧ (after coro max w (k + 1)).ended = some o := by
  have e := after_failed coro max w k h
  by_cases ha : max < 0 ∨ (k : Int) < max
  · cases hf : w.f k with
    | ok v => exact .inr ⟨_, _, .returns ha hf, by simp [after, e, turn, ha, hf], by simp [after, e, turn, ha, hf]⟩
    | other x => exact .inr ⟨_, _, .raises ha hf, by simp [after, e, turn, ha, hf], by simp [after, e, turn, ha, hf]⟩
    | listed x =>
      cases hi : w.intr k with
      | true => exact .inr ⟨_, _, .interrupted ha hf hi, by simp [after, e, turn, ha, hf], by simp [after, e, turn, ha, hf, hi]⟩
      | false =>
        left
        refine ⟨fun i hlt => ?_, ha.imp id (by omega)⟩
        by_cases hk : i = k
        · subst hk; exact ⟨⟨x, hf⟩, hi⟩
        · exact h.1 i (by omega)
  · right
    have hm : max = k := by
      have := h.2
      omega
    have e2 : after coro max w (k + 1) = { n := k, ex := lastEx w k, acts := attempts k, ended := some (afterLoop coro (lastEx w k)) } := by
      simp only [after, e, turn, Option.isSome_none, Bool.false_eq_true, if_false, if_neg ha]
    rw [e2]
    cases coro with
    | true => exact ⟨_, _, .exhaustedCoro rfl hm, rfl, rfl⟩
    | false =>
      cases k with
      | zero => exact ⟨_, _, .noneAllowed rfl (by simpa using hm) rfl, rfl, rfl⟩
      | succ j =>
        obtain ⟨⟨x, hx⟩, _⟩ := h.1 j (by omega)
        exact ⟨_, _, .exhausted rfl hm rfl hx, rfl, by simp [lastEx, hx, afterLoop]⟩

theorem Ends.not_failed {coro : Bool} {max : Int} {w : World} {k : Nat} {t : List Act} {o : Ended} (h : Ends coro max w k t o) :
    ¬ Failed max w (k + 1) := by
  rintro ⟨h1, h2⟩
  obtain ⟨⟨e, he⟩, hi⟩ := h1 k (by omega)
  cases h with
  | returns _ hf => rw [he] at hf; cases hf
  | raises _ hf => rw [he] at hf; cases hf
  | interrupted _ _ hi' => rw [hi] at hi'; cases hi'
  | exhausted _ hm _ _ => omega
  | exhaustedCoro _ hm => omega
  | noneAllowed _ hm hk => omega

theorem Ends.unique {coro : Bool} {max : Int} {w : World} {k : Nat} {t t' : List Act} {o o' : Ended} (h : Ends coro max w k t o)
    (h' : Ends coro max w k t' o') : t = t' ∧ o = o' := by
  cases h <;> cases h' <;> simp_all [Allowed] <;> omega

theorem reached (coro : Bool) (max : Int) (w : World) (m : Nat) :
    Failed max w m ∨ ∃ k t o, Failed max w k ∧ Ends coro max w k t o ∧ (after coro max w m).acts = t ∧ (after coro max w m).ended = some o := by
  induction m with
  | zero => exact .inl ⟨by simp, by omega⟩
  | succ m ih =>
    rcases ih with h | ⟨k, t, o, h1, h2, h3, h4⟩
    · rcases next_turn coro max w m h with h' | ⟨t, o, h1, h2, h3⟩
      · exact .inl h'
      · exact .inr ⟨m, t, o, h, h1, h2, h3⟩
    · right
      rw [after_stays coro max w m (by rw [h4]; rfl)]
      exact ⟨k, t, o, h1, h2, h3, h4⟩

/-- (C50) **What a call does and how it ends, exactly**: some number of attempts that failed with a listed exception, each followed by a
sleep, and then an attempt that returns or raises another exception, an interrupted sleep, or the end of the attempts allowed. -/
theorem call_exact (coro : Bool) (max : Int) (w : World) (t : List Act) (o : Ended) :
    (∃ m, (after coro max w m).acts = t ∧ (after coro max w m).ended = some o) ↔ ∃ k, Failed max w k ∧ Ends coro max w k t o := by
  constructor
  · rintro ⟨m, h1, h2⟩
    rcases reached coro max w m with h | ⟨k, t', o', h3, h4, h5, h6⟩
    · rw [after_failed coro max w m h] at h2; cases h2
    · rw [h1] at h5; rw [h2] at h6
      cases h5; cases h6
      exact ⟨k, h3, h4⟩
  · rintro ⟨k, h1, h2⟩
    rcases next_turn coro max w k h1 with h | ⟨t', o', h3, h4, h5⟩
    · exact absurd h h2.not_failed
    · obtain ⟨rfl, rfl⟩ := h2.unique h3
      exact ⟨k + 1, h4, h5⟩

/-- (C50) it goes on for ever exactly if attempts are not limited, all of them fail with listed exceptions, and no sleep is interrupted -/
theorem endless_iff (coro : Bool) (max : Int) (w : World) :
    (∀ m, (after coro max w m).ended = none) ↔ max < 0 ∧ ∀ i, (∃ e, w.f i = .listed e) ∧ w.intr i = false := by
  constructor
  · intro h
    have hf : ∀ m, Failed max w m := by
      intro m
      rcases reached coro max w m with h' | ⟨_, _, _, _, _, _, h6⟩
      · exact h'
      · rw [h m] at h6; cases h6
    refine ⟨?_, fun i => (hf (i + 1)).1 i (by omega)⟩
    have := (hf (max.toNat + 1)).2
    omega
  · rintro ⟨hm, h⟩ m
    rw [after_failed coro max w m ⟨fun i _ => h i, .inl hm⟩]

/-- (C50) so with a limit the call ends, after at most that many attempts -/
theorem limited (coro : Bool) (n : Nat) (w : World) : ∃ k t o, k ≤ n ∧ Failed n w k ∧ Ends coro n w k t o := by
  have : ¬ ∀ m, (after coro n w m).ended = none := fun h => by have := ((endless_iff coro n w).1 h).1; omega
  obtain ⟨m, hm⟩ := Classical.not_forall.1 this
  rcases reached coro n w m with h | ⟨k, t, o, h1, h2, _, _⟩
  · rw [after_failed coro n w m h] at hm; exact absurd rfl hm
  · exact ⟨k, t, o, by have := h1.2; omega, h1, h2⟩

/-- (C50) the plain wrapper: when all of the attempts allowed failed, the last exception is raised -/
theorem plain_exhausted (n : Nat) (w : World) (e : Nat) (h : Failed (n + 1 : Nat) w (n + 1)) (he : w.f n = .listed e) :
    ∃ m, (after false (n + 1 : Nat) w m).ended = some (.raised e) ∧ (after false (n + 1 : Nat) w m).acts = attempts (n + 1) := by
  obtain ⟨m, h1, h2⟩ := (call_exact false (n + 1 : Nat) w _ _).2 ⟨n + 1, h, .exhausted rfl rfl rfl he⟩
  exact ⟨m, h2, h1⟩

/-- (C50) refuted for coroutines: when all of the attempts allowed failed, the call returns None and the exceptions are lost. -/
theorem coroutine_exhausted_refuted (n : Nat) (w : World) (h : Failed n w n) :
    ∃ m, (after true n w m).ended = some .returnedNone ∧ (after true n w m).acts = attempts n := by
  obtain ⟨m, h1, h2⟩ := (call_exact true n w _ _).2 ⟨n, h, .exhaustedCoro rfl rfl⟩
  exact ⟨m, h2, h1⟩

/-- (C50) refuted: it does not only sleep between attempts but also after the last one, before it raises; and with no attempt allowed the
plain wrapper ends with an AssertionError. -/
theorem last_sleep_refuted : (∃ w m, (after false 1 w m).acts = [.call 0, .sleep] ∧ (after false 1 w m).ended = some (.raised 7)) ∧
    ∀ w, ∃ m, (after false 0 w m).ended = some .assertionError :=
  ⟨⟨⟨fun _ => .listed 7, fun _ => false⟩, 2, by decide, by decide⟩, fun _ => ⟨1, rfl⟩⟩

/-- two failures, then a value, with five attempts allowed -/
example : Failed 5 ⟨fun n => if n < 2 then .listed n else .ok 7, fun _ => false⟩ 2 ∧
    Ends true 5 ⟨fun n => if n < 2 then .listed n else .ok 7, fun _ => false⟩ 2 [.call 0, .sleep, .call 1, .sleep, .call 2] (.returned 7) := by
  refine ⟨⟨fun i hi => ⟨⟨i, by simp [hi]⟩, rfl⟩, by omega⟩, ?_⟩
  exact .returns (by simp [Allowed]) (by simp)

/-- `plain_exhausted` and `coroutine_exhausted_refuted` are not about nothing -/
example : Failed (2 : Nat) ⟨fun n => .listed n, fun _ => false⟩ 2 := ⟨fun i _ => ⟨⟨i, rfl⟩, rfl⟩, by omega⟩

end Xoscar.Retry
