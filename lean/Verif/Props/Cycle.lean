import Verif.Spec.Cycle
import Verif.Proof.Base
/-!
# C75: the warning about call cycles means a deadlock
-/
namespace Xoscar.Cycle

attribute [local grind =] Dict.get?_set Dict.get?_erase

/-- the parts of a call that never change -/
abbrev Fixed := Option Actor × Option Cid × List Actor

def fixedOf (calls : Dict Cid Call) (i : Cid) : Option Fixed := (calls.get? i).map (fun c => (c.actor, c.parent, c.trace))

/-- what holds of the unchanging parts -/
structure Stat (f : Cid → Option Fixed) (next : Cid) (warned : List Cid) : Prop where
  fresh : ∀ i c, f i = some c → i < next
  older : ∀ i c x, f i = some c → c.2.1 = some x → x < i
  root : ∀ i c a, f i = some c → c.1 = some a → c.2.1 = none → c.2.2 = [a]
  child : ∀ i c a x, f i = some c → c.1 = some a → c.2.1 = some x → ∃ p, f x = some p ∧ c.2.2 = p.2.2 ++ [a]
  bg : ∀ i c, f i = some c → c.1 = none → c.2.1 = none
  warned : ∀ d, d ∈ warned ↔ ∃ c x p a, f d = some c ∧ c.2.1 = some x ∧ f x = some p ∧ c.1 = some a ∧ a ∈ p.2.2

theorem stat_add {f : Cid → Option Fixed} {n : Cid} {w : List Cid} (h : Stat f n w) (c : Fixed) (w' : List Cid)
    (h1 : ∀ x, c.2.1 = some x → ∃ p, f x = some p) (h2 : ∀ a, c.1 = some a → c.2.1 = none → c.2.2 = [a])
    (h3 : ∀ a x p, c.1 = some a → c.2.1 = some x → f x = some p → c.2.2 = p.2.2 ++ [a]) (h4 : c.1 = none → c.2.1 = none)
    (h5 : ∀ d, d ∈ w' ↔ (d ∈ w ∨ (d = n ∧ ∃ x p a, c.2.1 = some x ∧ f x = some p ∧ c.1 = some a ∧ a ∈ p.2.2))) :
    Stat (fun i => if i = n then some c else f i) (n + 1) w' := by
  obtain ⟨fresh, older, root, child, bg, warned⟩ := h
  have hn : f n = none := by
    rcases h : f n with _ | c
    · rfl
    · exact absurd (fresh _ _ h) (Nat.lt_irrefl _)
  have keep : ∀ i p, f i = some p → (if i = n then some c else f i) = some p := by
    intro i p hp; rw [if_neg]; exact hp
    intro e; rw [e, hn] at hp; cases hp
  have back : ∀ i p, (if i = n then some c else f i) = some p → (i = n ∧ p = c) ∨ (i ≠ n ∧ f i = some p) := by
    intro i p hp; split at hp
    · rename_i e; injection hp with hp; exact .inl ⟨e, hp.symm⟩
    · rename_i e; exact .inr ⟨e, hp⟩
  have older' : ∀ x, c.2.1 = some x → x < n := by
    intro x hx; obtain ⟨p, hp⟩ := h1 x hx; exact fresh x p hp
  refine ⟨?_, ?_, ?_, ?_, ?_, ?_⟩
  · intro i p hp; rcases back i p hp with ⟨rfl, _⟩ | ⟨_, hp⟩
    · exact Nat.lt_succ_self _
    · exact Nat.lt_succ_of_lt (fresh _ _ hp)
  · intro i p x hp hx; rcases back i p hp with ⟨rfl, rfl⟩ | ⟨_, hp⟩
    · exact older' x hx
    · exact older _ _ _ hp hx
  · intro i p a hp ha hx; rcases back i p hp with ⟨_, rfl⟩ | ⟨_, hp⟩
    · exact h2 a ha hx
    · exact root _ _ _ hp ha hx
  · intro i p a x hp ha hx; rcases back i p hp with ⟨_, rfl⟩ | ⟨_, hp⟩
    · obtain ⟨q, hq⟩ := h1 x hx; exact ⟨q, keep _ _ hq, h3 a x q ha hx hq⟩
    · obtain ⟨q, hq, hr⟩ := child _ _ _ _ hp ha hx; exact ⟨q, keep _ _ hq, hr⟩
  · intro i p hp ha; rcases back i p hp with ⟨_, rfl⟩ | ⟨_, hp⟩
    · exact h4 ha
    · exact bg _ _ hp ha
  · intro d
    rw [h5 d, warned d]
    constructor
    · rintro (⟨c', x, p, a, g1, g2, g3, g4⟩ | ⟨rfl, x, p, a, g2, g3, g4⟩)
      · exact ⟨c', x, p, a, keep _ _ g1, g2, keep _ _ g3, g4⟩
      · exact ⟨c, x, p, a, if_pos rfl, g2, keep _ _ g3, g4⟩
    · rintro ⟨c', x, p, a, g1, g2, g3, g4⟩
      rcases back _ _ g1 with ⟨rfl, rfl⟩ | ⟨_, g1⟩
      · right
        rcases back _ _ g3 with ⟨e, _⟩ | ⟨_, g3⟩
        · exact absurd (older' x g2) (by rw [e]; exact Nat.lt_irrefl _)
        · exact ⟨rfl, x, p, a, g2, g3, g4⟩
      · left
        rcases back _ _ g3 with ⟨e, _⟩ | ⟨_, g3⟩
        · exact absurd (Nat.lt_trans (older _ _ _ g1 g2) (fresh _ _ g1)) (by rw [e]; exact Nat.lt_irrefl _)
        · exact ⟨c', x, p, a, g1, g2, g3, g4⟩

structure Inv (s : St) : Prop where
  stat : Stat (fixedOf s.calls) s.next s.warned
  waits : ∀ x c d, s.calls.get? x = some c → c.phase = .waits d → ∃ cd, s.calls.get? d = some cd ∧ cd.parent = some x ∧ cd.phase ≠ .done
  awaited : ∀ d cd x, s.calls.get? d = some cd → cd.parent = some x → cd.phase ≠ .done → ∃ c, s.calls.get? x = some c ∧ c.phase = .waits d

theorem inv_init : Inv init := by
  refine ⟨⟨?_, ?_, ?_, ?_, ?_, ?_⟩, ?_, ?_⟩ <;> simp [init, Dict.get?, fixedOf]

theorem fixed_get {calls : Dict Cid Call} {i : Cid} {c : Call} (h : calls.get? i = some c) :
    fixedOf calls i = some (c.actor, c.parent, c.trace) := by simp [fixedOf, h]

theorem fixed_some {calls : Dict Cid Call} {i : Cid} {p : Fixed} (h : fixedOf calls i = some p) :
    ∃ c, calls.get? i = some c ∧ p = (c.actor, c.parent, c.trace) := by
  simp only [fixedOf, Option.map_eq_some_iff] at h
  obtain ⟨c, h1, h2⟩ := h; exact ⟨c, h1, h2.symm⟩

theorem fixed_set_new (calls : Dict Cid Call) (n : Cid) (c : Call) :
    fixedOf (calls.set n c) = fun i => if i = n then some (c.actor, c.parent, c.trace) else fixedOf calls i := by
  funext i
  simp only [fixedOf, Dict.get?_set]
  by_cases h : n = i
  · simp [h]
  · rw [if_neg h, if_neg (fun e => h e.symm)]

theorem fixed_set_phase {calls : Dict Cid Call} {i : Cid} {x : Call} (h : calls.get? i = some x) (p : Phase) :
    fixedOf (calls.set i { x with phase := p }) = fixedOf calls := by
  funext j
  simp only [fixedOf, Dict.get?_set]
  by_cases e : i = j
  · subst e; simp [h]
  · rw [if_neg e]

theorem get_next_none {s : St} (hi : Inv s) : s.calls.get? s.next = none := by
  rcases h : s.calls.get? s.next with _ | c
  · rfl
  · exact absurd (hi.stat.fresh _ _ (fixed_get h)) (Nat.lt_irrefl _)

theorem inv_add {s : St} (hi : Inv s) (c : Call) (hp : c.parent = none) (hr : ∀ a, c.actor = some a → c.trace = [a])
    (hw : ∀ d, c.phase ≠ .waits d) : Inv { s with calls := s.calls.set s.next c, next := s.next + 1 } := by
  have hn := get_next_none hi
  refine ⟨?_, ?_, ?_⟩
  · rw [fixed_set_new]
    refine stat_add hi.stat _ _ ?_ ?_ ?_ ?_ ?_
    · intro x hx; simp only at hx; rw [hp] at hx; cases hx
    · intro a ha _; exact hr a ha
    · intro a x p _ hx; simp only at hx; rw [hp] at hx; cases hx
    · intro _; exact hp
    · intro d; constructor
      · exact .inl
      · rintro (h | ⟨_, x, _, _, hx, _⟩)
        · exact h
        · simp only at hx; rw [hp] at hx; cases hx
  · have := hi.waits; grind
  · have := hi.awaited; grind

theorem resume_none {D : Dict Cid Call} {p : Option Cid} (h : p = none) : resume D p = D := by subst h; rfl

theorem resume_some {D : Dict Cid Call} {p : Option Cid} {c : Cid} {y : Call} (h : p = some c) (he : D.get? c = some y) :
    resume D p = D.set c { y with phase := .running } := by subst h; simp only [resume, he]

theorem inv_step {lk : Actor → Bool} {s s' : St} {l : Label} (hi : Inv s) (h : step lk s l = some s') : Inv s' := by
  cases l with
  | client a =>
    simp only [step] at h; injection h with h; subst h
    exact inv_add hi _ rfl (fun b hb => by simp only [Option.some.injEq] at hb; subst hb; rfl) (fun d hd => by cases hd)
  | tell c a =>
    simp only [step] at h
    split at h
    · cases h
    · split at h
      · injection h with h; subst h
        exact inv_add hi _ rfl (fun b hb => by simp only [Option.some.injEq] at hb; subst hb; rfl) (fun d hd => by cases hd)
      · cases h
  | background c =>
    simp only [step] at h
    split at h
    · cases h
    · split at h
      · injection h with h; subst h
        exact inv_add hi _ rfl (fun b hb => by cases hb) (fun d hd => by cases hd)
      · cases h
  | send c a =>
    simp only [step] at h
    split at h
    · cases h
    · rename_i x hx
      split at h
      · rename_i hrun
        injection h with h; subst h
        have hn := get_next_none hi
        have hfx := fixed_get hx
        refine ⟨?_, ?_, ?_⟩
        · simp only
          rw [fixed_set_new, fixed_set_phase hx]
          refine stat_add hi.stat _ _ ?_ ?_ ?_ ?_ ?_
          · intro y hy; simp only [Option.some.injEq] at hy; subst hy; exact ⟨_, hfx⟩
          · intro b _ hp; cases hp
          · intro b y p hb hy hp
            simp only [Option.some.injEq] at hb hy
            subst hb; subst hy
            rw [hfx] at hp; injection hp with hp; subst hp
            simp [handlerTrace, detect]
          · intro hb; cases hb
          · intro d
            have : (∃ y p b, some c = some y ∧ fixedOf s.calls y = some p ∧ some a = some b ∧ b ∈ p.2.2) ↔ a ∈ x.trace := by
              constructor
              · rintro ⟨y, p, b, h1, h2, h3, h4⟩
                injection h1 with h1; subst h1; injection h3 with h3; subst h3
                rw [hfx] at h2; injection h2 with h2; subst h2; exact h4
              · intro ha; exact ⟨c, _, a, rfl, hfx, rfl, ha⟩
            simp only [this, detect, if_true]
            by_cases ha : a ∈ x.trace
            · simp only [ha, decide_true, if_true, List.mem_cons, and_true]; exact Or.comm
            · simp [ha]
        · have := hi.waits; have := hi.awaited; grind
        · have := hi.waits; have := hi.awaited; grind
      · cases h
  | grant d =>
    simp only [step] at h
    split at h
    · cases h
    · rename_i x hx
      split at h
      · cases h
      · split at h
        · injection h with h; subst h
          refine ⟨?_, ?_, ?_⟩
          · simp only; rw [fixed_set_phase hx]; exact hi.stat
          · have := hi.waits; have := hi.awaited; grind
          · have := hi.waits; have := hi.awaited; grind
        · cases h
  | finish d =>
    simp only [step] at h
    split at h
    · cases h
    · rename_i x hx
      split at h
      · rename_i hrun
        injection h with h; subst h
        rcases (show x.parent = none ∨ ∃ c, x.parent = some c by cases x.parent <;> simp) with hp | ⟨c, hp⟩
        · rw [resume_none hp]
          refine ⟨?_, ?_, ?_⟩
          · simp only; rw [fixed_set_phase hx]; exact hi.stat
          · have := hi.waits; have := hi.awaited; grind
          · have := hi.waits; have := hi.awaited; grind
        · obtain ⟨y, hy, hyw⟩ := hi.awaited d x c hx hp (by rw [hrun]; exact fun hh => by cases hh)
          have hcd : d ≠ c := fun e => absurd (hi.stat.older d _ c (fixed_get hx) hp) (by rw [e]; exact Nat.lt_irrefl _)
          have he : (s.calls.set d { x with phase := Phase.done }).get? c = some y := by
            rw [Dict.get?_set, if_neg hcd]; exact hy
          rw [resume_some hp he]
          refine ⟨?_, ?_, ?_⟩
          · simp only; rw [fixed_set_phase he, fixed_set_phase hx]; exact hi.stat
          · have := hi.waits; have := hi.awaited; grind
          · have := hi.waits; have := hi.awaited; grind
      · cases h

theorem inv_run {lk : Actor → Bool} {ls : List Label} {s : St} (h : Run lk ls s) : Inv s := by
  induction h with
  | init => exact inv_init
  | snoc _ hs ih => exact inv_step ih hs

/-- who waits for a call has its actors in the call's trace -/
theorem trace_mono {s : St} (hi : Inv s) {x d : Cid} (h : WaitsFor s x d) :
    ∃ cx cd, s.calls.get? x = some cx ∧ s.calls.get? d = some cd ∧ cd.phase ≠ .done ∧
      (∃ p cp, cd.parent = some p ∧ s.calls.get? p = some cp ∧ ∀ a ∈ cx.trace, a ∈ cp.trace) := by
  induction h with
  | @direct x d c hc hp =>
    obtain ⟨cd, h1, h2, h3⟩ := hi.waits _ _ _ hc hp
    exact ⟨c, cd, hc, h1, h3, x, c, h2, hc, fun a ha => ha⟩
  | @through x y d c hc hp hw ih =>
    obtain ⟨cy, cd, h1, h2, h3, p, cp, h4, h5, h6⟩ := ih
    obtain ⟨cy', g1, g2, g3⟩ := hi.waits _ _ _ hc hp
    rw [h1] at g1; injection g1 with g1; subst g1
    refine ⟨c, cd, hc, h2, h3, p, cp, h4, h5, fun a ha => h6 a ?_⟩
    have hact : ∃ b, cy.actor = some b := by
      rcases hb : cy.actor with _ | b
      · have := hi.stat.bg _ _ (fixed_get h1) hb
        simp only at this; rw [this] at g2; cases g2
      · exact ⟨b, rfl⟩
    obtain ⟨b, hb⟩ := hact
    obtain ⟨q, hq, htr⟩ := hi.stat.child _ _ b x (fixed_get h1) hb g2
    rw [fixed_get hc] at hq; injection hq with hq; subst hq
    simp only at htr; rw [htr]; exact List.mem_append.mpr (.inl ha)

/-- an actor is in the trace of its own call -/
theorem own_trace {s : St} (hi : Inv s) {x : Cid} {c : Call} {a : Actor} (hx : s.calls.get? x = some c) (ha : c.actor = some a) :
    a ∈ c.trace := by
  rcases (show c.parent = none ∨ ∃ p, c.parent = some p by cases c.parent <;> simp) with hp | ⟨p, hp⟩
  · have := hi.stat.root _ _ a (fixed_get hx) ha hp
    simp only at this; rw [this]; exact List.mem_singleton.mpr rfl
  · obtain ⟨q, _, htr⟩ := hi.stat.child _ _ a p (fixed_get hx) ha hp
    simp only at htr; rw [htr]; simp

theorem waitsFor_snoc {s : St} {x y d : Cid} {c : Call} (h : WaitsFor s x y) (hc : s.calls.get? y = some c) (hp : c.phase = .waits d) :
    WaitsFor s x d := by
  induction h with
  | direct h1 h2 => exact .through h1 h2 (.direct hc hp)
  | through h1 h2 _ ih => exact .through h1 h2 (ih hc)

/-- and, without background tasks, every actor in the trace is one of a call that waits -/
theorem trace_origin {s : St} (hi : Inv s) (c : Cid) (cc : Call) (hc : s.calls.get? c = some cc) (hd : cc.phase ≠ .done)
    (hb : NoBackground s c) (a : Actor) (ha : a ∈ cc.trace) :
    ∃ x cx, (x = c ∨ WaitsFor s x c) ∧ s.calls.get? x = some cx ∧ cx.actor = some a := by
  induction c using Nat.strongRecOn generalizing cc with
  | ind c ih =>
    rcases (show cc.actor = none ∨ ∃ b, cc.actor = some b by cases cc.actor <;> simp) with hn | ⟨b, hact⟩
    · exact absurd hn (hb c cc (.inl rfl) hc)
    · rcases (show cc.parent = none ∨ ∃ p, cc.parent = some p by cases cc.parent <;> simp) with hp | ⟨p, hp⟩
      · have := hi.stat.root _ _ b (fixed_get hc) hact hp
        simp only at this; rw [this, List.mem_singleton] at ha
        exact ⟨c, cc, .inl rfl, hc, ha ▸ hact⟩
      · obtain ⟨q, hq, htr⟩ := hi.stat.child _ _ b p (fixed_get hc) hact hp
        simp only at htr; rw [htr] at ha
        rcases List.mem_append.mp ha with ha | ha
        · obtain ⟨cp, hcp, hcw⟩ := hi.awaited c cc p hc hp hd
          rw [fixed_get hcp] at hq; injection hq with hq; subst hq
          have hlt := hi.stat.older _ _ p (fixed_get hc) hp
          have hbp : NoBackground s p := by
            intro x cx hx hcx
            apply hb x cx _ hcx
            rcases hx with rfl | hx
            · exact .inr (.direct hcp hcw)
            · exact .inr (waitsFor_snoc hx hcp hcw)
          obtain ⟨x, cx, h1, h2, h3⟩ := ih p hlt cp hcp (by rw [hcw]; exact fun h => by cases h) hbp ha
          refine ⟨x, cx, .inr ?_, h2, h3⟩
          rcases h1 with rfl | h1
          · exact .direct hcp hcw
          · exact waitsFor_snoc h1 hcp hcw
        · rw [List.mem_singleton] at ha
          exact ⟨c, cc, .inl rfl, hc, ha ▸ hact⟩

/-- Every call that cannot start because one of its own callers has the actor was warned about. -/
theorem deadlock_warned {lk : Actor → Bool} {ls : List Label} {s : St} (h : Run lk ls s) {d : Cid} (hd : SelfDeadlock lk s d) :
    d ∈ s.warned := by
  obtain ⟨x, cx, cd, a, hw, hx, hcd, hax, had, hq, _⟩ := hd
  have hi := inv_run h
  obtain ⟨cx', cd', h1, h2, h3, p, cp, h4, h5, h6⟩ := trace_mono hi hw
  rw [hx] at h1; injection h1 with h1; subst h1
  rw [hcd] at h2; injection h2 with h2; subst h2
  rw [hi.stat.warned]
  exact ⟨_, p, _, a, fixed_get hcd, h4, fixed_get h5, had, h6 a (own_trace hi hx hax)⟩

/-- And a warning means a deadlock: a queued call to an actor with a lock was warned about exactly if one of its own callers has the actor -
unless background tasks are among the callers. -/
theorem warned_iff_partial {lk : Actor → Bool} {ls : List Label} {s : St} (h : Run lk ls s) {d : Cid} {cd : Call} {a : Actor}
    (hd : s.calls.get? d = some cd) (hq : cd.phase = .queued) (ha : cd.actor = some a) (hl : lk a = true) (hb : NoBackground s d) :
    d ∈ s.warned ↔ SelfDeadlock lk s d := by
  refine ⟨fun hw => ?_, deadlock_warned h⟩
  have hi := inv_run h
  rw [hi.stat.warned] at hw
  obtain ⟨c, p, q, b, h1, h2, h3, h4, h5⟩ := hw
  rw [fixed_get hd] at h1; injection h1 with h1; subst h1
  simp only at h2 h4
  rw [ha] at h4; injection h4 with h4; subst h4
  obtain ⟨cp, hcp, hcw⟩ := hi.awaited d cd p hd h2 (by rw [hq]; exact fun h => by cases h)
  rw [fixed_get hcp] at h3; injection h3 with h3; subst h3
  have hbp : NoBackground s p := by
    intro x cx hx hcx
    apply hb x cx _ hcx
    rcases hx with rfl | hx
    · exact .inr (.direct hcp hcw)
    · exact .inr (waitsFor_snoc hx hcp hcw)
  obtain ⟨x, cx, g1, g2, g3⟩ := trace_origin hi p cp hcp (by rw [hcw]; exact fun h => by cases h) hbp a h5
  refine ⟨x, cx, cd, a, ?_, g2, hd, g3, ha, hq, hl⟩
  rcases g1 with rfl | g1
  · exact .direct hcp hcw
  · exact waitsFor_snoc g1 hcp hcw

/-- a link of the chain stays while the call at its end is queued -/
theorem link_stays {lk : Actor → Bool} {s s' : St} {l : Label} (hi : Inv s) (hs : step lk s l = some s') {x d : Cid} {c cd : Call}
    (hx : s.calls.get? x = some c) (hp : c.phase = .waits d) (hd : s.calls.get? d = some cd) (hnr : cd.phase ≠ .running) :
    s'.calls.get? x = some c := by
  have hn := get_next_none hi
  have hxn : s.next ≠ x := fun e => by rw [e] at hn; rw [hn] at hx; cases hx
  have hnr' : c.phase ≠ .running := by rw [hp]; exact fun h => by cases h
  have hnq : c.phase ≠ .queued := by rw [hp]; exact fun h => by cases h
  cases l with
  | client a => simp only [step] at hs; injection hs with hs; subst hs; simp only [Dict.get?_set, if_neg hxn]; exact hx
  | tell e a =>
    simp only [step] at hs
    split at hs
    · cases hs
    · split at hs
      · injection hs with hs; subst hs; simp only [Dict.get?_set, if_neg hxn]; exact hx
      · cases hs
  | background e =>
    simp only [step] at hs
    split at hs
    · cases hs
    · split at hs
      · injection hs with hs; subst hs; simp only [Dict.get?_set, if_neg hxn]; exact hx
      · cases hs
  | send e a =>
    simp only [step] at hs
    split at hs
    · cases hs
    · split at hs
      · injection hs with hs; subst hs; grind
      · cases hs
  | grant e =>
    simp only [step] at hs
    split at hs
    · cases hs
    · split at hs
      · cases hs
      · split at hs
        · injection hs with hs; subst hs; grind
        · cases hs
  | finish e =>
    simp only [step] at hs
    split at hs
    · cases hs
    · rename_i y hy
      split at hs
      · rename_i hrun
        injection hs with hs; subst hs
        rcases (show y.parent = none ∨ ∃ p, y.parent = some p by cases y.parent <;> simp) with hpar | ⟨p, hpar⟩
        · rw [resume_none hpar]; grind
        · obtain ⟨z, hz, hzw⟩ := hi.awaited e y p hy hpar (by rw [hrun]; exact fun hh => by cases hh)
          have hcd : e ≠ p := fun hh => absurd (hi.stat.older e _ p (fixed_get hy) hpar) (by rw [hh]; exact Nat.lt_irrefl _)
          have he : (s.calls.set e { y with phase := Phase.done }).get? p = some z := by
            rw [Dict.get?_set, if_neg hcd]; exact hz
          rw [resume_some hpar he]
          grind
      · cases hs

theorem waits_not_running {s : St} {x d : Cid} (h : WaitsFor s x d) {c : Call} (hx : s.calls.get? x = some c) : c.phase ≠ .running := by
  cases h with
  | direct h1 h2 => rw [h1] at hx; injection hx with hx; subst hx; rw [h2]; exact fun h => by cases h
  | through h1 h2 _ => rw [h1] at hx; injection hx with hx; subst hx; rw [h2]; exact fun h => by cases h

theorem waits_stays {lk : Actor → Bool} {s s' : St} {l : Label} (hi : Inv s) (hs : step lk s l = some s') {x d : Cid} {cd : Call}
    (hd : s.calls.get? d = some cd) (hq : cd.phase = .queued) (h : WaitsFor s x d) : WaitsFor s' x d := by
  induction h with
  | direct h1 h2 => exact .direct (link_stays hi hs h1 h2 hd (by rw [hq]; exact fun h => by cases h)) h2
  | @through x y d c h1 h2 h3 ih =>
    obtain ⟨cy, hy, _⟩ := hi.waits _ _ _ h1 h2
    exact .through (link_stays hi hs h1 h2 hy (waits_not_running h3 hy)) h2 (ih hd)

/-- a queued call of which a caller has the actor stays queued -/
theorem queued_stays {lk : Actor → Bool} {s s' : St} {l : Label} (hi : Inv s) (hs : step lk s l = some s') {x d : Cid} {cx cd : Call} {a : Actor}
    (hw : WaitsFor s x d) (hx : s.calls.get? x = some cx) (hd : s.calls.get? d = some cd) (hax : cx.actor = some a) (had : cd.actor = some a)
    (hq : cd.phase = .queued) (hl : lk a = true) : s'.calls.get? d = some cd := by
  have hn := get_next_none hi
  have hdn : s.next ≠ d := fun e => by rw [e] at hn; rw [hn] at hd; cases hd
  have hnr : cd.phase ≠ .running := by rw [hq]; exact fun h => by cases h
  have hnw : ∀ e, cd.phase ≠ .waits e := by intro e; rw [hq]; exact fun h => by cases h
  have hfree : free lk s a = false := by
    simp only [free, hl, Bool.not_true, Bool.false_or]
    rw [List.all_eq_false]
    refine ⟨(x, cx), Dict.mem_of_get? hx, ?_⟩
    have : holds cx = true := by
      cases hw with
      | direct h1 h2 => rw [h1] at hx; injection hx with hx; subst hx; simp [holds, h2]
      | through h1 h2 _ => rw [h1] at hx; injection hx with hx; subst hx; simp [holds, h2]
    simp [hax, this]
  cases l with
  | client b => simp only [step] at hs; injection hs with hs; subst hs; simp only [Dict.get?_set, if_neg hdn]; exact hd
  | tell e b =>
    simp only [step] at hs
    split at hs
    · cases hs
    · split at hs
      · injection hs with hs; subst hs; simp only [Dict.get?_set, if_neg hdn]; exact hd
      · cases hs
  | background e =>
    simp only [step] at hs
    split at hs
    · cases hs
    · split at hs
      · injection hs with hs; subst hs; simp only [Dict.get?_set, if_neg hdn]; exact hd
      · cases hs
  | send e b =>
    simp only [step] at hs
    split at hs
    · cases hs
    · split at hs
      · injection hs with hs; subst hs; grind
      · cases hs
  | grant e =>
    simp only [step] at hs
    split at hs
    · cases hs
    · rename_i y hy
      split at hs
      · cases hs
      · rename_i b hb
        split at hs
        · rename_i hqf
          injection hs with hs; subst hs
          by_cases hed : e = d
          · subst hed
            rw [hd] at hy; injection hy with hy; subst hy
            rw [had] at hb; injection hb with hb; subst hb
            rw [hfree] at hqf; cases hqf.2
          · simp only [Dict.get?_set, if_neg hed]; exact hd
        · cases hs
  | finish e =>
    simp only [step] at hs
    split at hs
    · cases hs
    · rename_i y hy
      split at hs
      · rename_i hrun
        injection hs with hs; subst hs
        rcases (show y.parent = none ∨ ∃ p, y.parent = some p by cases y.parent <;> simp) with hpar | ⟨p, hpar⟩
        · rw [resume_none hpar]; grind
        · obtain ⟨z, hz, hzw⟩ := hi.awaited e y p hy hpar (by rw [hrun]; exact fun hh => by cases hh)
          have hcd : e ≠ p := fun hh => absurd (hi.stat.older e _ p (fixed_get hy) hpar) (by rw [hh]; exact Nat.lt_irrefl _)
          have he : (s.calls.set e { y with phase := Phase.done }).get? p = some z := by
            rw [Dict.get?_set, if_neg hcd]; exact hz
          rw [resume_some hpar he]
          grind
      · cases hs

/-- Such a deadlock never ends: whatever happens, the call never starts and its callers wait for ever. -/
theorem deadlock_forever {lk : Actor → Bool} {ls : List Label} {s : St} (h : Run lk ls s) {d : Cid} (hd : SelfDeadlock lk s d)
    (more : List Label) (s' : St) (hm : more.foldlM (step lk) s = some s') : SelfDeadlock lk s' d := by
  induction more generalizing ls s with
  | nil => simp only [List.foldlM_nil] at hm; injection hm with hm; exact hm ▸ hd
  | cons l more ih =>
    simp only [List.foldlM_cons] at hm
    rcases hl : step lk s l with _ | s1
    · rw [hl] at hm; cases hm
    · rw [hl] at hm
      refine ih (Run.snoc h hl) ?_ hm
      obtain ⟨x, cx, cd, a, hw, hx, hcd, hax, had, hq, hlk⟩ := hd
      have hi := inv_run h
      have hx' : s1.calls.get? x = some cx := by
        cases hw with
        | direct h1 h2 =>
          rw [h1] at hx; injection hx with hx; subst hx
          exact link_stays hi hl h1 h2 hcd (by rw [hq]; exact fun h => by cases h)
        | through h1 h2 h3 =>
          rw [h1] at hx; injection hx with hx; subst hx
          obtain ⟨cy, hy, _⟩ := hi.waits _ _ _ h1 h2
          exact link_stays hi hl h1 h2 hy (waits_not_running h3 hy)
      exact ⟨x, cx, cd, a, waits_stays hi hl hcd hq hw, hx', queued_stays hi hl hw hx hcd hax had hq hlk, hax, had, hq, hlk⟩

/-- what has started holds the lock -/
theorem started_holds {c : Call} (h : Started c) : holds c = true := by
  rcases h with h | ⟨d, h⟩ <;> simp [holds, h]

/-- At most one method of an actor with a lock is between start and end at any time. -/
theorem exclusive {lk : Actor → Bool} {ls : List Label} {s : St} (h : Run lk ls s) {c d : Cid} {cc cd : Call} {a : Actor}
    (hc : s.calls.get? c = some cc) (hd : s.calls.get? d = some cd) (ha : cc.actor = some a) (ha' : cd.actor = some a) (hl : lk a = true)
    (hs : Started cc) (hs' : Started cd) : c = d := by
  induction h generalizing c d cc cd a with
  | init => cases hc
  | @snoc ls l s s' hr hst ih =>
    have hi := inv_run hr
    -- a call that has started now and had not before was granted
    have back : ∀ (i : Cid) (ci : Call), s'.calls.get? i = some ci → Started ci → ci.actor = some a →
        (∃ ci', s.calls.get? i = some ci' ∧ ci'.actor = some a ∧ Started ci') ∨ (l = .grant i ∧ free lk s a = true) := by
      intro i ci hci hsi hai
      unfold Started at hsi ⊢
      cases l with
      | client b =>
        simp only [step, Option.some.injEq] at hst
        subst hst
        grind [Dict.get?_set]
      | send e b =>
        simp only [step] at hst
        split at hst
        · cases hst
        · split at hst
          · injection hst with hst; subst hst; grind [Dict.get?_set]
          · cases hst
      | tell e b =>
        simp only [step] at hst
        split at hst
        · cases hst
        · split at hst
          · injection hst with hst; subst hst; grind [Dict.get?_set]
          · cases hst
      | background e =>
        simp only [step] at hst
        split at hst
        · cases hst
        · split at hst
          · injection hst with hst; subst hst; grind [Dict.get?_set]
          · cases hst
      | grant e =>
        simp only [step] at hst
        split at hst
        · cases hst
        · split at hst
          · cases hst
          · split at hst
            · injection hst with hst; subst hst; grind [Dict.get?_set]
            · cases hst
      | finish e =>
        simp only [step] at hst
        split at hst
        · cases hst
        · rename_i x hx
          split at hst
          · injection hst with hst
            subst hst
            rename_i hrun
            rcases hp : x.parent with _ | q
            · rw [resume_none hp] at hci; grind [Dict.get?_set]
            · obtain ⟨y, hy, hyw⟩ := hi.awaited e x q hx hp (by rw [hrun]; exact fun h => by cases h)
              have hqe : e ≠ q := by
                rintro rfl
                rw [hx] at hy
                injection hy with hy
                rw [hy, hyw] at hrun
                cases hrun
              rw [resume_some (y := y) hp (by rw [Dict.get?_set, if_neg hqe]; exact hy)] at hci
              grind [Dict.get?_set]
          · cases hst
    have nofree : ∀ (i : Cid) (ci : Call), s.calls.get? i = some ci → ci.actor = some a → Started ci → free lk s a = false := by
      intro i ci hci hai hsi
      simp only [free, hl, Bool.not_true, Bool.false_or]
      rw [List.all_eq_false]
      exact ⟨(i, ci), Dict.mem_of_get? hci, by simp [hai, started_holds hsi]⟩
    rcases back c cc hc hs ha with ⟨c1, h1, h2, h3⟩ | ⟨h1, h2⟩
    · rcases back d cd hd hs' ha' with ⟨d1, g1, g2, g3⟩ | ⟨g1, g2⟩
      · exact ih h1 g1 h2 g2 hl h3 g3
      · rw [nofree c c1 h1 h2 h3] at g2; cases g2
    · rcases back d cd hd hs' ha' with ⟨d1, g1, g2, g3⟩ | ⟨g1, g2⟩
      · rw [nofree d d1 g1 g2 g3] at h2; cases h2
      · rw [h1] at g1; injection g1

/-- A method calls, tells, starts tasks and ends exactly while it runs: not before it has started, while it waits or after its end. -/
theorem acts_iff (lk : Actor → Bool) (s : St) (c : Cid) (a : Actor) :
    ((∃ s', step lk s (.send c a) = some s') ↔ ∃ x, s.calls.get? c = some x ∧ x.phase = .running) ∧
    ((∃ s', step lk s (.tell c a) = some s') ↔ ∃ x, s.calls.get? c = some x ∧ x.phase = .running) ∧
    ((∃ s', step lk s (.background c) = some s') ↔ ∃ x, s.calls.get? c = some x ∧ x.phase = .running) ∧
    ((∃ s', step lk s (.finish c) = some s') ↔ ∃ x, s.calls.get? c = some x ∧ x.phase = .running) := by
  rcases hx : s.calls.get? c with _ | x
  · simp [step, hx]
  · by_cases hr : x.phase = .running <;> simp [step, hx, hr]

theorem run_of {lk : Actor → Bool} (ls0 ls : List Label) (s0 s : St) (h0 : Run lk ls0 s0) (h : ls.foldlM (step lk) s0 = some s) :
    Run lk (ls0 ++ ls) s := by
  induction ls generalizing ls0 s0 with
  | nil => simp only [List.foldlM_nil] at h; injection h with h; subst h; simpa using h0
  | cons l ls ih =>
    simp only [List.foldlM_cons] at h
    rcases hl : step lk s0 l with _ | s1
    · rw [hl] at h; cases h
    · rw [hl] at h
      have := ih (ls0 ++ [l]) s1 (Run.snoc h0 hl) h
      simpa using this

/-- **Refuted**: "every deadlock is warned about": two clients whose calls meet crosswise (A calls B while B calls A) block each other for ever
without any warning. -/
theorem crosswise_deadlock_refuted (lk : Actor → Bool) (h1 : lk 1 = true) (h2 : lk 2 = true) :
    ∃ s, Run lk [.client 1, .client 2, .grant 0, .grant 1, .send 0 2, .send 1 1] s ∧ s.warned = [] ∧
      (∀ d, step lk s (.grant d) = none) ∧ (∀ d, step lk s (.finish d) = none) ∧ ∃ a b ca cb, a ≠ b ∧ s.calls.get? a = some ca ∧
        s.calls.get? b = some cb ∧ ca.phase = .queued ∧ cb.phase = .queued := by
  refine ⟨⟨[(0, ⟨some 1, none, [1], .waits 2⟩), (1, ⟨some 2, none, [2], .waits 3⟩), (2, ⟨some 2, some 0, [1, 2], .queued⟩),
    (3, ⟨some 1, some 1, [2, 1], .queued⟩)], 4, []⟩, ?_, rfl, ?_, ?_, 2, 3, _, _, by decide, rfl, rfl, rfl, rfl⟩
  · refine run_of [] _ _ _ Run.init ?_
    simp [List.foldlM, step, init, Dict.get?, Dict.set, free, holds, handlerTrace, detect]
  · intro d
    simp only [step, Dict.get?]
    grind [free, holds]
  · intro d
    simp only [step, Dict.get?]
    grind

/-- **Refuted**: "a warning means a deadlock": actors without a lock (`StatelessActor`) can be called back without harm. -/
theorem stateless_warned_refuted (lk : Actor → Bool) (h1 : lk 1 = false) :
    ∃ s, Run lk [.client 1, .grant 0, .send 0 1, .grant 1, .finish 1, .finish 0] s ∧ s.warned = [1] ∧
      ∀ d c, s.calls.get? d = some c → c.phase = .done := by
  refine ⟨⟨[(0, ⟨some 1, none, [1], .done⟩), (1, ⟨some 1, some 0, [1, 1], .done⟩)], 2, [1]⟩, ?_, rfl, ?_⟩
  · refine run_of [] _ _ _ Run.init ?_
    simp [List.foldlM, step, init, Dict.get?, Dict.set, free, holds, handlerTrace, detect, h1, resume]
  · intro d c h; simp only [Dict.get?] at h; grind

/-- **Refuted**, the same: a background task keeps the trace of the method that started it; a call back after that method has ended is warned
about although nothing waits. -/
theorem background_warned_refuted (lk : Actor → Bool) :
    ∃ s, Run lk [.client 1, .grant 0, .background 0, .finish 0, .send 1 1, .grant 2, .finish 2] s ∧ s.warned = [2] ∧
      ∃ c, s.calls.get? 2 = some c ∧ c.phase = .done := by
  refine ⟨⟨[(0, ⟨some 1, none, [1], .done⟩), (1, ⟨none, none, [1], .running⟩), (2, ⟨some 1, some 1, [1, 1], .done⟩)], 3, [2]⟩, ?_, rfl,
    _, rfl, rfl⟩
  refine run_of [] _ _ _ Run.init ?_
  simp [List.foldlM, step, init, Dict.get?, Dict.set, free, holds, handlerTrace, detect, resume]

/-! ## Concrete cases -/

/-- A calls B calls A: warned about at the second call to A, and stuck -/
example : ∃ s, Run (fun _ => true) [.client 1, .grant 0, .send 0 2, .grant 1, .send 1 1] s ∧ s.warned = [2] ∧ SelfDeadlock (fun _ => true) s 2 ∧
    NoBackground s 2 := by
  refine ⟨⟨[(0, ⟨some 1, none, [1], .waits 1⟩), (1, ⟨some 2, some 0, [1, 2], .waits 2⟩), (2, ⟨some 1, some 1, [1, 2, 1], .queued⟩)], 3, [2]⟩,
    ?_, rfl, ?_, ?_⟩
  · refine run_of [] _ _ _ Run.init ?_
    simp [List.foldlM, step, init, Dict.get?, Dict.set, free, holds, handlerTrace, detect]
  · exact ⟨0, _, _, 1, .through (y := 1) rfl rfl (.direct rfl rfl), rfl, rfl, rfl, rfl, rfl, rfl⟩
  · intro x cx _ h; simp only [Dict.get?] at h; grind
/-- a tell in between is no cycle -/
example : ∃ s, Run (fun _ => true) [.client 1, .grant 0, .tell 0 2, .finish 0, .grant 1, .send 1 1, .grant 2, .finish 2, .finish 1] s ∧ s.warned = [] := by
  refine ⟨⟨[(0, ⟨some 1, none, [1], .done⟩), (1, ⟨some 2, none, [2], .done⟩), (2, ⟨some 1, some 1, [2, 1], .done⟩)], 3, []⟩, ?_, rfl⟩
  refine run_of [] _ _ _ Run.init ?_
  simp [List.foldlM, step, init, Dict.get?, Dict.set, free, holds, handlerTrace, detect, resume]

end Xoscar.Cycle
