import Verif.Spec.Uv
import Verif.Proof.Base
/-! # C98: cancelling an installation -/
namespace Xoscar.Uv

theorem result_or (rc : Int) : (rc = 0 ∧ result rc = .returned) ∨ (rc ≠ 0 ∧ result rc = .raised rc) := by
  by_cases h : rc = 0 <;> simp [result, h]

/-- States and histories tell the same. -/
structure Inv (ls : List Label) (s : St) : Prop where
  code : ∀ p rc, s.code p = some rc → Label.exit p rc ∈ ls
  code' : ∀ p rc, Label.exit p rc ∈ ls → s.code p = some rc
  low : ∀ p rc, s.code p = some rc → p < s.procs
  fresh1 : ∀ i p, Label.spawn i p ∈ ls → p < s.procs
  fresh2 : ∀ i sk, Label.begin i sk ∈ ls → s.inst i ≠ .fresh
  begun : ∀ i, s.inst i ≠ .fresh → Label.begin i true ∈ ls ∨ Label.begin i false ∈ ls
  one : ∀ i p j, Label.spawn i p ∈ ls → Label.spawn j p ∈ ls → i = j
  one' : ∀ i p q, Label.spawn i p ∈ ls → Label.spawn i q ∈ ls → p = q
  early1 : ∀ i p, Label.spawn i p ∈ ls → s.inst i ≠ .fresh
  early2 : ∀ i p, Label.spawn i p ∈ ls → s.inst i ≠ .resolving
  early3 : ∀ i p, Label.spawn i p ∈ ls → s.inst i ≠ .ready
  early4 : ∀ i p, Label.spawn i p ∈ ls → s.inst i ≠ .nothing
  st1 : ∀ i p, s.inst i = .started p → Label.spawn i p ∈ ls
  st2 : ∀ i p, s.inst i = .waiting p → Label.record i p ∈ ls
  st3 : ∀ i p rc, s.inst i = .waited p rc → Label.record i p ∈ ls
  st4 : ∀ i p rc, s.inst i = .waited p rc → s.code p = some rc
  rec1 : ∀ i p, Label.record i p ∈ ls → Label.spawn i p ∈ ls
  rec2 : ∀ i p q, Label.record i p ∈ ls → s.inst i ≠ .started q
  rec3 : ∀ i p, Label.record i p ∈ ls → s.code p = none → s.inst i = .waiting p
  left1 : ∀ i, Label.leave i ∈ ls → s.inst i = .returned ∨ ∃ rc, s.inst i = .raised rc
  left2 : ∀ i, s.inst i = .returned → Label.leave i ∈ ls ∧ ∃ p, Label.record i p ∈ ls ∧ s.code p = some 0
  left3 : ∀ i rc, s.inst i = .raised rc → Label.leave i ∈ ls ∧ rc ≠ 0 ∧ ∃ p, Label.record i p ∈ ls ∧ s.code p = some rc
  no1 : ∀ i, s.inst i = .nothing → Label.spawnFails i ∈ ls ∨ Label.resolve i false ∈ ls
  no2 : ∀ i, Label.spawnFails i ∈ ls → s.inst i = .nothing
  no3 : ∀ i, Label.resolve i false ∈ ls → s.inst i = .nothing
  slot : ∀ p, s.slot = some p → ∃ i, Label.record i p ∈ ls

set_option maxHeartbeats 4000000 in
theorem inv_step {ls : List Label} {s s' : St} {l : Label} (h : Inv ls s) (hs : step s l = some s') : Inv (ls ++ [l]) s' := by
  obtain ⟨h0, h1, h2, h3, h4, h5, h6, h7, h8, h9, h10, h11, h12, h13, h14, h15, h16, h17, h18, h19, h20, h21, h22, h23, h24, h25⟩ := h
  have hv := result_or
  cases l <;> simp only [step] at hs <;> (repeat' split at hs)
  all_goals first
    | (cases hs; done)
    | (injection hs with hs; subst hs; constructor <;> simp only [List.mem_append, List.mem_singleton, upd] <;> grind)

theorem inv {ls : List Label} {s : St} (h : Run ls s) : Inv ls s := by
  induction h with
  | nil => constructor <;> simp
  | snoc _ hs ih => exact inv_step ih hs

/-! ## What an installation reports -/

/-- `install_packages` returns exactly when the process it started ended with status 0, and it is that process alone that decides,
whoever else installs or cancels. -/
theorem install_returns {ls : List Label} {s : St} (h : Run ls s) (i : Call) :
    s.inst i = .returned ↔ Label.leave i ∈ ls ∧ ∃ p, Label.spawn i p ∈ ls ∧ Ended ls p 0 := by
  have hi := inv h
  constructor
  · intro hr
    obtain ⟨hl, p, hp, hc⟩ := hi.left2 i hr
    exact ⟨hl, p, hi.rec1 i p hp, hi.code p 0 hc⟩
  · rintro ⟨hl, p, hp, he⟩
    rcases hi.left1 i hl with h1 | ⟨rc, h1⟩
    · exact h1
    · obtain ⟨_, h0, q, hq, hc⟩ := hi.left3 i rc h1
      have := hi.one' i p q hp (hi.rec1 i q hq)
      subst this
      have := hi.code' p 0 he
      rw [hc] at this
      injection this with this
      exact absurd this h0

/-- It raises CalledProcessError with the status of its own process exactly when that is not 0. -/
theorem install_raises {ls : List Label} {s : St} (h : Run ls s) (i : Call) (rc : Int) :
    s.inst i = .raised rc ↔ Label.leave i ∈ ls ∧ rc ≠ 0 ∧ ∃ p, Label.spawn i p ∈ ls ∧ Ended ls p rc := by
  have hi := inv h
  constructor
  · intro hr
    obtain ⟨hl, h0, p, hp, hc⟩ := hi.left3 i rc hr
    exact ⟨hl, h0, p, hi.rec1 i p hp, hi.code p rc hc⟩
  · rintro ⟨hl, h0, p, hp, he⟩
    have hpc := hi.code' p rc he
    rcases hi.left1 i hl with h1 | ⟨rc', h1⟩
    · obtain ⟨_, q, hq, hc⟩ := hi.left2 i h1
      have := hi.one' i p q hp (hi.rec1 i q hq)
      subst this
      rw [hc] at hpc
      injection hpc with hpc
      exact absurd hpc.symm h0
    · obtain ⟨_, _, q, hq, hc⟩ := hi.left3 i rc' h1
      have := hi.one' i p q hp (hi.rec1 i q hq)
      subst this
      rw [hc] at hpc
      injection hpc with hpc
      rw [h1, hpc]

/-! ## Installations one at a time -/

theorem OneAtATime.before {ls : List Label} {l : Label} (h : OneAtATime (ls ++ [l])) : OneAtATime ls := by
  intro pre i skip post e
  exact h pre i skip (post ++ [l]) (by simp [e])

theorem over_iff {ls : List Label} {s : St} (hi : Inv ls s) (i : Call) :
    Over ls i ↔ s.inst i = .nothing ∨ s.inst i = .returned ∨ ∃ rc, s.inst i = .raised rc := by
  constructor
  · rintro (h | h | h)
    · exact .inr (hi.left1 i h)
    · exact .inl (hi.no2 i h)
    · exact .inl (hi.no3 i h)
  · rintro (h | h | ⟨rc, h⟩)
    · exact .inr (hi.no1 i h)
    · exact .inl (hi.left2 i h).1
    · exact .inl (hi.left3 i rc h).1

/-- begun and not over -/
def Install.active : Install → Bool
  | .fresh | .nothing | .returned | .raised _ => false
  | _ => true

/-- What holds when installations follow each other. -/
structure Seq (s : St) : Prop where
  one : ∀ i j, (s.inst i).active = true → (s.inst j).active = true → i = j
  wait1 : ∀ i p, s.inst i = .waiting p → s.slot = some p
  wait2 : ∀ i p rc, s.inst i = .waited p rc → s.slot = some p
  slot : ∀ p, s.slot = some p → ∃ i, s.inst i = .waiting p ∨ ∃ rc, s.inst i = .waited p rc

set_option maxHeartbeats 4000000 in
theorem seq_step {s s' : St} {l : Label} (h : Seq s) (hb : ∀ i sk, l = .begin i sk → ∀ j, (s.inst j).active = false)
    (hs : step s l = some s') : Seq s' := by
  obtain ⟨h0, h1, h2, h3⟩ := h
  have hv := result_or
  cases l <;> simp only [step] at hs <;> (repeat' split at hs)
  all_goals first
    | (cases hs; done)
    | (injection hs with hs; subst hs; constructor <;> simp only [upd] <;> grind [Install.active])

theorem seq {ls : List Label} {s : St} (h : Run ls s) (ho : OneAtATime ls) : Seq s := by
  induction h with
  | nil => constructor <;> simp [Install.active]
  | @snoc ls s l s' hr hs ih =>
    refine seq_step (ih ho.before) ?_ hs
    rintro i sk rfl j
    have hi := inv hr
    rcases hj : (s.inst j).active with _ | _
    · rfl
    · exfalso
      have hb := hi.begun j (by intro e; rw [e] at hj; cases hj)
      have : Over ls j := by
        rcases hb with hb | hb
        · exact ho ls i sk [] rfl j _ hb
        · exact ho ls i sk [] rfl j _ hb
      rw [over_iff hi] at this
      rcases this with e | e | ⟨rc, e⟩ <;> rw [e] at hj <;> cases hj

theorem recorded {ls : List Label} {s : St} (h : Run ls s) (ho : OneAtATime ls) {i : Call} {p : Pid}
    (hp : Label.record i p ∈ ls) (hc : s.code p = none) : s.slot = some p :=
  (seq h ho).wait1 i p ((inv h).rec3 i p hp hc)

theorem code_mono {s s' : St} {l : Label} (hs : step s l = some s') (p : Pid) (h : s.code p ≠ none) : s'.code p ≠ none := by
  cases l <;> simp only [step] at hs <;> (repeat' split at hs)
  all_goals first
    | (cases hs; done)
    | (injection hs with hs; subst hs; first | exact h | (simp only [upd]; grind))

/-- a call of `cancel_install` changes by its own steps only -/
theorem canc_frame {s s' : St} {l : Label} (hs : step s l = some s') (c : Call) (h1 : l ≠ .check c) (h2 : l ≠ .poll c)
    (h3 : ∀ p, l ≠ .term c p) (h4 : l ≠ .termFails c) (h5 : l ≠ .wait c) (h6 : l ≠ .over c) : s'.canc c = s.canc c := by
  cases l <;> simp only [step] at hs <;> (repeat' split at hs)
  all_goals first
    | (cases hs; done)
    | (injection hs with hs; subst hs; first | rfl | (simp only [upd]; grind))

theorem split_snoc {α : Type} {ls a b : List α} {l x : α} (h : ls ++ [l] = a ++ x :: b) :
    (b = [] ∧ l = x ∧ a = ls) ∨ ∃ b', b = b' ++ [l] ∧ ls = a ++ x :: b' := by
  rcases List.eq_nil_or_concat b with rfl | ⟨b', y, rfl⟩
  · left
    have := List.append_inj' h rfl
    refine ⟨rfl, ?_, this.1.symm⟩
    simpa using this.2
  · right
    have h' : ls ++ [l] = (a ++ x :: b') ++ [y] := by simpa using h
    have := List.append_inj' h' rfl
    refine ⟨b', ?_, this.1⟩
    have e : l = y := by simpa using this.2
    simp [e]

theorem canc_begun {ls : List Label} {s : St} (h : Run ls s) (c : Call) :
    (Label.check c ∈ ls → s.canc c ≠ .fresh) ∧ (s.canc c ≠ .fresh → Label.check c ∈ ls) := by
  induction h with
  | nil => simp
  | @snoc ls s l s' hr hs ih =>
    cases l <;> simp only [step] at hs <;> (repeat' split at hs)
    all_goals first
      | (cases hs; done)
      | (injection hs with hs; subst hs; simp only [upd, List.mem_append, List.mem_singleton]; grind)

theorem cancel_inv {ls : List Label} {s : St} (h : Run ls s) (ho : OneAtATime ls) (c : Call) :
    ∀ a b, ls = a ++ Label.check c :: b → ∀ i p, Label.record i p ∈ a →
      ((s.canc c).isOver = true → s.code p ≠ none) ∧ (∀ q, s.canc c = .waiting q → p = q ∨ s.code p ≠ none) := by
  induction h with
  | nil => intro a b e; simp at e
  | @snoc ls s l s' hr hs ih =>
    intro a b e i p hp
    have ho' := ho.before
    rcases split_snoc e with ⟨rfl, rfl, rfl⟩ | ⟨b', rfl, e'⟩
    · -- the check itself
      have hrec := fun hc => recorded hr ho' hp hc
      simp only [step] at hs
      (repeat' split at hs) <;> first
        | (cases hs; done)
        | (injection hs with hs; subst hs; simp only [upd]; grind [Cancel.isOver])
    · have hin : Label.record i p ∈ ls := by rw [e']; simp [hp]
      have hrec := fun hc => recorded hr ho' hin hc
      obtain ⟨i1, i2⟩ := ih ho' a b' e' i p hp
      have hfr := (canc_begun hr c).1 (by rw [e']; simp)
      have hm := code_mono hs p
      cases l <;> simp only [step] at hs <;> (repeat' split at hs)
      all_goals first
        | (cases hs; done)
        | (injection hs with hs; subst hs; simp only [upd] at hm ⊢; grind [Cancel.isOver])

/-- **When installations follow each other, and `cancel_install` is over, no matter how, the installation that was running when it was
called (or any before) has ended: its process is gone.** -/
theorem cancel_ends {ls : List Label} {s : St} (h : Run ls s) (ho : OneAtATime ls) {c i : Call} {p : Pid} {a b : List Label}
    (e : ls = a ++ Label.check c :: b) (hp : Label.record i p ∈ a) (hc : (s.canc c).isOver = true) : ∃ rc, Ended ls p rc := by
  have := (cancel_inv h ho c a b e i p hp).1 hc
  rcases hq : s.code p with _ | rc
  · exact absurd hq this
  · exact ⟨rc, (inv h).code p rc hq⟩

theorem race_inv {ls : List Label} {s : St} (h : Run ls s) (c : Call) :
    (s.canc c = .checked ∨ s.canc c = .polled ∨ s.canc c = .termed →
      ∃ a b, ls = a ++ Label.check c :: b ∧ (s.slot ≠ none ∨ ∃ i, Label.leave i ∈ b)) ∧
    (s.canc c = .failed → ∃ a b i, ls = a ++ Label.check c :: b ∧ Label.leave i ∈ b) := by
  induction h with
  | nil => simp
  | @snoc ls s l s' hr hs ih =>
    obtain ⟨i1, i2⟩ := ih
    have j1 : s.canc c = .checked ∨ s.canc c = .polled ∨ s.canc c = .termed →
        ∃ a b, ls ++ [l] = a ++ Label.check c :: b ∧ (s.slot ≠ none ∨ ∃ i, Label.leave i ∈ b) := by
      intro hc
      obtain ⟨a, b, e, h⟩ := i1 hc
      refine ⟨a, b ++ [l], by simp [e], ?_⟩
      rcases h with h | ⟨i, h⟩
      · exact .inl h
      · exact .inr ⟨i, by simp [h]⟩
    have j1' : (∃ i, l = .leave i) → s.canc c = .checked ∨ s.canc c = .polled ∨ s.canc c = .termed →
        ∃ a b, ls ++ [l] = a ++ Label.check c :: b ∧ (∃ i, Label.leave i ∈ b) := by
      rintro ⟨i, rfl⟩ hc
      obtain ⟨a, b, e, h⟩ := i1 hc
      exact ⟨a, b ++ [.leave i], by simp [e], i, by simp⟩
    have j2 : s.canc c = .failed → ∃ a b i, ls ++ [l] = a ++ Label.check c :: b ∧ Label.leave i ∈ b := by
      intro hc
      obtain ⟨a, b, i, e, h⟩ := i2 hc
      exact ⟨a, b ++ [l], i, by simp [e], by simp [h]⟩
    have j3 : l = .check c → ∃ a b, ls ++ [l] = a ++ Label.check c :: b := by
      rintro rfl
      exact ⟨ls, [], by simp⟩
    cases l <;> simp only [step] at hs <;> (repeat' split at hs)
    all_goals first
      | (cases hs; done)
      | (injection hs with hs; subst hs; simp only [upd] at *; constructor <;> grind)

/-- `cancel_install` fails with AttributeError only if an installation ended while it ran. -/
theorem fails_only_in_a_race {ls : List Label} {s : St} (h : Run ls s) {c : Call} (hc : s.canc c = .failed) :
    ∃ a b i, ls = a ++ Label.check c :: b ∧ Label.leave i ∈ b :=
  (race_inv h c).2 hc

theorem run_prefix {ls ms : List Label} {s : St} (h : Run (ls ++ ms) s) : ∃ s', Run ls s' := by
  induction ms using List.reverseRecOn' generalizing s with
  | nil => exact ⟨s, by simpa using h⟩
  | append_singleton ms m ih =>
    generalize e : ls ++ (ms ++ [m]) = l at h
    cases h with
    | nil => simp at e
    | snoc hr hs =>
      rw [← List.append_assoc] at e
      have := List.append_inj' e rfl
      rw [← this.1] at hr
      exact ih hr

theorem run_split {ls : List Label} {l : Label} {s' : St} (h : Run (ls ++ [l]) s') : ∃ s, Run ls s ∧ step s l = some s' := by
  generalize e : ls ++ [l] = m at h
  cases h with
  | nil => simp at e
  | snoc hr hs =>
    have := List.append_inj' e rfl
    obtain ⟨rfl, e2⟩ := this
    simp only [List.cons.injEq, and_true] at e2
    subst e2
    exact ⟨_, hr, hs⟩

theorem run_at {a b : List Label} {l : Label} {s : St} (h : Run (a ++ l :: b) s) :
    ∃ s1 s2, Run a s1 ∧ step s1 l = some s2 ∧ Run (a ++ [l]) s2 := by
  obtain ⟨s2, h2⟩ := run_prefix (ls := a ++ [l]) (ms := b) (by simpa using h)
  obtain ⟨s1, h1, hs⟩ := run_split h2
  exact ⟨s1, s2, h1, hs, h2⟩

/-- Only processes of installations are ever signalled, and only once they are recorded. -/
theorem signals {ls a b : List Label} {s : St} (h : Run ls s) {c : Call} {p : Pid} (e : ls = a ++ Label.term c p :: b) :
    ∃ i, Label.spawn i p ∈ a ∧ Label.record i p ∈ a := by
  subst e
  obtain ⟨s1, s2, h1, hs, _⟩ := run_at h
  simp only [step] at hs
  split at hs
  · next hc =>
    obtain ⟨i, hi⟩ := (inv h1).slot p hc.2
    exact ⟨i, (inv h1).rec1 i p hi, hi⟩
  · cases hs

/-- When installations follow each other, the signal goes to the one that is not over. -/
theorem signals_running {ls a b : List Label} {s : St} (h : Run ls s) (ho : OneAtATime ls) {c i : Call} {p : Pid}
    (e : ls = a ++ Label.term c p :: b) (hp : Label.record i p ∈ a) : ¬ Over a i := by
  subst e
  obtain ⟨s1, s2, h1, hs, _⟩ := run_at h
  have hoa : OneAtATime a := by
    intro pre j sk post e
    exact ho pre j sk (post ++ Label.term c p :: b) (by simp [e])
  simp only [step] at hs
  split at hs
  · next hc =>
    obtain ⟨j, hj⟩ := (seq h1 hoa).slot p hc.2
    have hrj : Label.record j p ∈ a := by
      rcases hj with hj | ⟨rc, hj⟩
      · exact (inv h1).st2 j p hj
      · exact (inv h1).st3 j p rc hj
    have : i = j := (inv h1).one i p j ((inv h1).rec1 i p hp) ((inv h1).rec1 j p hrj)
    subst this
    rw [over_iff (inv h1)]
    rintro (h2 | h2 | ⟨rc', h2⟩) <;> rcases hj with hj | ⟨rc, hj⟩ <;> rw [hj] at h2 <;> cases h2
  · cases hs

/-- With no installation under way, `cancel_install` returns at once. -/
theorem cancel_idle {ls : List Label} {s : St} {c : Call} (h : Run (ls ++ [.check c]) s) (ho : OneAtATime ls)
    (ha : ∀ i sk, Label.begin i sk ∈ ls → Over ls i) : s.canc c = .idle := by
  obtain ⟨s1, h1, hs⟩ := run_split h
  have hn : s1.slot = none := by
    rcases hq : s1.slot with _ | p
    · rfl
    · exfalso
      obtain ⟨i, hi⟩ := (seq h1 ho).slot p hq
      have hb := (inv h1).begun i (by rcases hi with hi | ⟨rc, hi⟩ <;> rw [hi] <;> simp)
      have : Over ls i := by
        rcases hb with hb | hb
        · exact ha i _ hb
        · exact ha i _ hb
      rw [over_iff (inv h1)] at this
      rcases this with h2 | h2 | ⟨rc', h2⟩ <;> rcases hi with hi | ⟨rc, hi⟩ <;> rw [hi] at h2 <;> cases h2
  simp only [step, hn] at hs
  split at hs
  · injection hs with hs; subst hs; simp [upd]
  · cases hs

/-- A call of `cancel_install` never gets stuck: it is over, or it can go on, or it waits for a process that has not ended. -/
theorem cancel_goes_on {ls : List Label} {s : St} (h : Run ls s) (c : Call) :
    (s.canc c).isOver = true ∨ (∃ l s', l ∈ [Label.check c, .poll c, .termFails c, .wait c, .over c] ∧ step s l = some s') ∨
    (∃ p s', step s (.term c p) = some s') ∨ ∃ p, s.canc c = .waiting p ∧ ∀ rc, ¬ Ended ls p rc := by
  rcases hc : s.canc c with _ | _ | _ | _ | p | _ | _ | _ | _
  · refine .inr (.inl ⟨.check c, ?_⟩)
    rcases hs : s.slot with _ | q <;> simp [step, hc, hs]
  · refine .inr (.inl ⟨.poll c, ?_⟩)
    rcases hs : s.slot with _ | q
    · simp [step, hc, hs]
    · rcases hq : s.code q with _ | rc <;> simp [step, hc, hs, hq]
  · rcases hs : s.slot with _ | q
    · exact .inr (.inl ⟨.termFails c, by simp [step, hc, hs]⟩)
    · exact .inr (.inr (.inl ⟨q, by simp [step, hc, hs]⟩))
  · refine .inr (.inl ⟨.wait c, ?_⟩)
    rcases hs : s.slot with _ | q <;> simp [step, hc, hs]
  · rcases hq : s.code p with _ | rc
    · refine .inr (.inr (.inr ⟨p, rfl, fun rc he => ?_⟩))
      have := (inv h).code' p rc he
      rw [hq] at this
      cases this
    · exact .inr (.inl ⟨.over c, by simp [step, hc, hq]⟩)
  all_goals exact .inl rfl

theorem runs_from {ls : List Label} {s : St} (h : Run ls s) : ∀ {ms : List Label} {s' : St},
    ms.foldlM step s = some s' → Run (ls ++ ms) s' := by
  intro ms
  induction ms generalizing ls s with
  | nil => intro s' hs; simp at hs; subst hs; simpa using h
  | cons m ms ih =>
    intro s' hs
    rw [List.foldlM_cons] at hs
    rcases hm : step s m with _ | s1
    · rw [hm] at hs; cases hs
    · rw [hm] at hs
      have := ih (.snoc h hm) hs
      simpa using this

/-- **A cancel that nothing disturbs stops the installation**: whatever the history, if the process of the installation runs and the
installations follow each other, `cancel_install` signals exactly it, returns when it has ended, and the installation raises what it
ended with. -/
theorem cancel_stops {ls : List Label} {s : St} (h : Run ls s) (ho : OneAtATime ls) {c i : Call} {p : Pid} (hc : Label.check c ∉ ls)
    (hp : Label.record i p ∈ ls) (hr : ∀ rc, ¬ Ended ls p rc) (rc : Int) (h0 : rc ≠ 0) :
    ∃ s', Run (ls ++ [.check c, .poll c, .term c p, .wait c, .exit p rc, .over c, .waited i, .leave i]) s' ∧
      s'.canc c = .stopped ∧ s'.inst i = .raised rc := by
  have hi := inv h
  have hcode : s.code p = none := by
    rcases hq : s.code p with _ | r
    · rfl
    · exact absurd (hi.code p r hq) (hr r)
  have hw := hi.rec3 i p hp hcode
  have hs := recorded h ho hp hcode
  have hlow := hi.fresh1 i p (hi.rec1 i p hp)
  have hf : s.canc c = .fresh := by
    rcases Classical.em (s.canc c = .fresh) with hf | hf
    · exact hf
    · exact absurd ((canc_begun h c).2 hf) hc
  refine ⟨_, runs_from h (s' := ?_) ?_, ?_, ?_⟩
  rotate_left
  · simp only [List.foldlM_cons, List.foldlM_nil, step, hf, hs, hcode, hw, hlow, upd, if_true, true_and, and_self, Option.bind_eq_bind, Option.bind_some, Option.pure_def]
    rfl
  · simp [upd]
  · simp [upd, result, h0]

/-! ## What does not hold -/

instance (ls : List Label) (i : Call) : Decidable (Over ls i) := by unfold Over; infer_instance

/-- a check of `OneAtATime` for a given history -/
def okFrom (pre : List Label) : List Label → Bool
  | [] => true
  | .begin i sk :: r => pre.all (fun | .begin j _ => decide (Over pre j) | _ => true) && okFrom (pre ++ [.begin i sk]) r
  | l :: r => okFrom (pre ++ [l]) r

theorem okFrom_spec {pre ls : List Label} (h : okFrom pre ls = true) :
    ∀ a i sk post, ls = a ++ Label.begin i sk :: post → ∀ j sk', Label.begin j sk' ∈ pre ++ a → Over (pre ++ a) j := by
  induction ls generalizing pre with
  | nil => intro a i sk post e; simp at e
  | cons l r ih =>
    intro a i sk post e j sk' hj
    have hr : okFrom (pre ++ [l]) r = true := by
      cases l <;> simp only [okFrom, Bool.and_eq_true] at h <;> first | exact h | exact h.2
    rcases a with _ | ⟨x, a⟩
    · simp only [List.nil_append, List.cons.injEq] at e
      obtain ⟨rfl, rfl⟩ := e
      simp only [okFrom, Bool.and_eq_true, List.all_eq_true] at h
      have := h.1 (.begin j sk') (by simpa using hj)
      simpa using this
    · simp only [List.cons_append, List.cons.injEq] at e
      obtain ⟨rfl, e⟩ := e
      have := ih hr a i sk post e j sk' (by simpa using hj)
      simpa using this

theorem one_of {ls : List Label} (h : okFrom [] ls = true) : OneAtATime ls := by
  intro pre i sk post e j sk' hj
  have := okFrom_spec h pre i sk post e j sk' (by simpa using hj)
  simpa using this

/-- the history of one installation with process `p`, up to the wait -/
def installing (i : Call) (p : Pid) : List Label := [.begin i false, .spawn i p, .record i p]

/-- the end of an installation -/
def ending (i : Call) (p : Pid) (rc : Int) : List Label := [.exit p rc, .waited i, .leave i]

/-- `cancel_install` may raise AttributeError, with one installation and one cancel, when the installation ends at that moment. -/
theorem race_refuted : ∃ ls s, Run ls s ∧ OneAtATime ls ∧ s.canc 0 = .failed ∧ s.inst 0 = .returned := by
  refine ⟨_, _, runs_from .nil (ms := installing 0 0 ++ [.check 0] ++ ending 0 0 0 ++ [.poll 0]) (s' := ?_) ?_, ?_, ?_, ?_⟩
  rotate_left
  · simp [installing, ending, step, upd]
    rfl
  · exact one_of (by decide)
  · simp [upd]
  · simp [upd, result]

/-- With two installations on one manager, `cancel_install` may be over, and have signalled nothing, while one that was recorded before
still runs. -/
theorem concurrent_refuted : ∃ ls a b s, Run ls s ∧ ls = a ++ Label.check 0 :: b ∧ Label.record 0 0 ∈ a ∧ s.canc 0 = .idle ∧
    (∀ rc, ¬ Ended ls 0 rc) ∧ ∀ p, Label.term 0 p ∉ ls := by
  refine ⟨_, installing 0 0 ++ installing 1 1 ++ ending 1 1 0, [], _,
    runs_from .nil (ms := installing 0 0 ++ installing 1 1 ++ ending 1 1 0 ++ [.check 0]) (s' := ?_) ?_, ?_, ?_, ?_, ?_, ?_⟩
  rotate_left
  · simp [installing, ending, step, upd]
    rfl
  · simp
  · simp [installing]
  · simp [upd]
  · simp [Ended, installing, ending]
  · simp [installing, ending]

/-- A cancel during the dry run of `skip_installed`, or between `Popen` and the record of the process, does nothing: the installation
goes on and succeeds. -/
theorem early_refuted : ∃ ls a b s, Run ls s ∧ OneAtATime ls ∧ ls = a ++ Label.check 0 :: b ∧ Label.begin 0 true ∈ a ∧ s.canc 0 = .idle ∧
    s.inst 0 = .returned := by
  refine ⟨_, [.begin 0 true], _, _,
    runs_from .nil (ms := [.begin 0 true] ++ .check 0 :: ([.resolve 0 true, .spawn 0 0, .record 0 0] ++ ending 0 0 0)) (s' := ?_) ?_, ?_, rfl, ?_, ?_, ?_⟩
  rotate_left
  · simp [ending, step, upd]
    rfl
  · exact one_of (by decide)
  · simp
  · simp [upd]
  · simp [upd, result]

theorem unrecorded_refuted : ∃ ls a b s, Run ls s ∧ OneAtATime ls ∧ ls = a ++ Label.check 0 :: b ∧ Label.spawn 0 0 ∈ a ∧ s.canc 0 = .idle ∧
    s.inst 0 = .returned := by
  refine ⟨_, [.begin 0 false, .spawn 0 0], _, _,
    runs_from .nil (ms := [.begin 0 false, .spawn 0 0] ++ .check 0 :: ([.record 0 0] ++ ending 0 0 0)) (s' := ?_) ?_, ?_, rfl, ?_, ?_, ?_⟩
  rotate_left
  · simp [ending, step, upd]
    rfl
  · exact one_of (by decide)
  · simp
  · simp [upd]
  · simp [upd, result]

/-- A cancel may hit an installation that began only after it was called. -/
theorem late_refuted : ∃ ls a b s, Run ls s ∧ OneAtATime ls ∧ ls = a ++ Label.check 0 :: b ∧ Label.begin 1 false ∈ b ∧ Label.spawn 1 1 ∈ b ∧
    Label.term 0 1 ∈ b ∧ s.inst 1 = .raised (-15) := by
  refine ⟨_, installing 0 0, _, _,
    runs_from .nil (ms := installing 0 0 ++ .check 0 :: (ending 0 0 0 ++ installing 1 1 ++ [.poll 0, .term 0 1] ++ ending 1 1 (-15))) (s' := ?_) ?_, ?_, rfl, ?_, ?_, ?_, ?_⟩
  rotate_left
  · simp [installing, ending, step, upd]
    rfl
  · exact one_of (by decide)
  · simp [installing]
  · simp [installing]
  · simp
  · simp [upd, result]

/-- It may end up waiting for an installation it has not signalled. -/
theorem unsignalled_refuted : ∃ ls s, Run ls s ∧ OneAtATime ls ∧ s.canc 0 = .waiting 1 ∧ (∀ rc, ¬ Ended ls 1 rc) ∧ Label.term 0 1 ∉ ls := by
  refine ⟨_, _, runs_from .nil (ms := installing 0 0 ++ [.check 0, .poll 0, .term 0 0] ++ ending 0 0 (-15) ++ installing 1 1 ++ [.wait 0]) (s' := ?_) ?_, ?_, ?_, ?_, ?_⟩
  rotate_left
  · simp [installing, ending, step, upd]
    rfl
  · exact one_of (by decide)
  · simp [upd]
  · simp [Ended, installing, ending]
  · simp [installing, ending]

/-! ## Cases -/

/-- two installations in turn, the second cancelled: the first returns, the second raises -15 -/
example : ∃ ls a b s, Run ls s ∧ OneAtATime ls ∧ ls = a ++ Label.check 0 :: b ∧ Label.record 1 1 ∈ a ∧ (s.canc 0).isOver = true ∧
    s.inst 0 = .returned ∧ s.inst 1 = .raised (-15) ∧ Ended ls 0 0 ∧ Ended ls 1 (-15) := by
  refine ⟨_, installing 0 0 ++ ending 0 0 0 ++ installing 1 1, _, _,
    runs_from .nil (ms := installing 0 0 ++ ending 0 0 0 ++ installing 1 1 ++ .check 0 :: ([.poll 0, .term 0 1, .wait 0, .exit 1 (-15), .over 0, .waited 1, .leave 1])) (s' := ?_) ?_, ?_, rfl, ?_, ?_, ?_, ?_, ?_, ?_⟩
  rotate_left
  · simp [installing, ending, step, upd]
    rfl
  · exact one_of (by decide)
  · simp [installing]
  · simp [upd, Cancel.isOver]
  · simp [upd, result]
  · simp [upd, result]
  · simp [Ended, installing, ending]
  · simp [Ended, installing, ending]

/-- a state from which `cancel_stops` goes on -/
example : ∃ s, Run (installing 3 0) s ∧ OneAtATime (installing 3 0) ∧ Label.check 0 ∉ installing 3 0 ∧ Label.record 3 0 ∈ installing 3 0 ∧
    ∀ rc, ¬ Ended (installing 3 0) 0 rc := by
  refine ⟨_, runs_from .nil (s' := ?_) ?_, ?_, ?_, ?_, ?_⟩
  rotate_left
  · simp [installing, step, upd]
    rfl
  · exact one_of (by decide)
  · simp [installing]
  · simp [installing]
  · simp [installing, Ended]

/-- a state in which `cancel_idle` applies -/
example : ∃ s, Run (installing 0 0 ++ ending 0 0 1 ++ [.check 4]) s ∧ OneAtATime (installing 0 0 ++ ending 0 0 1) ∧ s.canc 4 = .idle ∧
    (∀ i sk, Label.begin i sk ∈ installing 0 0 ++ ending 0 0 1 → Over (installing 0 0 ++ ending 0 0 1) i) ∧ s.inst 0 = .raised 1 := by
  refine ⟨_, runs_from .nil (s' := ?_) ?_, ?_, ?_, ?_, ?_⟩
  rotate_left
  · simp [installing, ending, step, upd]
    rfl
  · exact one_of (by decide)
  · simp [upd]
  · intro i sk h
    simp [installing, ending] at h
    simp [Over, installing, ending, h]
  · simp [upd, result]

end Xoscar.Uv
