import Verif.Spec.Meet
import Verif.Proof.Store
import Verif.Proof.Base
namespace Xoscar.Meet
open Store (toStr stoll wrap stoll_toStr)

/-! ## Connecting -/

theorem tryAddrs_connected {D t : Nat} {l : List Try} (h : tryAddrs D l = .inl (.connected t)) :
    ∃ pre a post, l = pre ++ a :: post ∧ a.res = .ok ∧ a.time = t ∧ t < D ∧ ∀ b ∈ pre, b.time < D ∧ (b.res = .refused ∨ b.res = .other) := by
  induction l with
  | nil => simp [tryAddrs] at h
  | cons x xs ih =>
    by_cases hd : D ≤ x.time
    · simp [tryAddrs, hd] at h
    · rcases hr : x.res
      · simp only [tryAddrs, hd, if_false, hr, Sum.inl.injEq, Out.connected.injEq] at h
        exact ⟨[], x, xs, rfl, hr, h, by omega, by simp⟩
      · simp only [tryAddrs, hd, if_false, hr] at h
        have h' : tryAddrs D xs = .inl (.connected t) := by
          rcases ht : tryAddrs D xs with o | b <;> rw [ht] at h <;> simp_all
        obtain ⟨pre, a, post, rfl, h1, h2, h3, h4⟩ := ih h'
        refine ⟨x :: pre, a, post, rfl, h1, h2, h3, ?_⟩
        intro b hb
        rcases List.mem_cons.1 hb with rfl | hb
        · exact ⟨by omega, Or.inl hr⟩
        · exact h4 b hb
      · simp only [tryAddrs, hd, if_false, hr] at h
        obtain ⟨pre, a, post, rfl, h1, h2, h3, h4⟩ := ih h
        refine ⟨x :: pre, a, post, rfl, h1, h2, h3, ?_⟩
        intro b hb
        rcases List.mem_cons.1 hb with rfl | hb
        · exact ⟨by omega, Or.inr hr⟩
        · exact h4 b hb
      · simp [tryAddrs, hd, hr] at h
      · simp [tryAddrs, hd, hr] at h

/-- a round that does not decide: all its attempts were made in time and failed; it is repeated exactly if one was refused -/
theorem tryAddrs_inr {D : Nat} {l : List Try} {b : Bool} :
    tryAddrs D l = .inr b ↔ (∀ a ∈ l, a.time < D ∧ (a.res = .refused ∨ a.res = .other)) ∧ (b = true ↔ ∃ a ∈ l, a.res = .refused) := by
  induction l generalizing b with
  | nil => cases b <;> simp [tryAddrs]
  | cons x xs ih =>
    by_cases hd : D ≤ x.time
    · simp only [tryAddrs, hd, if_true]
      constructor
      · intro h; cases h
      · rintro ⟨h, _⟩; have := (h x (by simp)).1; omega
    · rcases hr : x.res
      · simp [tryAddrs, hd, hr]
      · simp only [tryAddrs, hd, if_false, hr]
        rcases ht : tryAddrs D xs with o | b'
        · constructor
          · intro h; cases h
          · rintro ⟨h, _⟩
            exfalso
            have h2 := (ih (b := decide (∃ a ∈ xs, a.res = .refused))).2 ⟨fun a ha => h a (by simp [ha]), by simp⟩
            rw [ht] at h2; cases h2
        · have h1 := (ih (b := b')).1 ht
          constructor
          · intro h
            have hb : b = true := (Sum.inr.inj h).symm
            refine ⟨?_, by simp [hb, hr]⟩
            intro a ha
            rcases List.mem_cons.1 ha with rfl | ha
            · exact ⟨by omega, Or.inl hr⟩
            · exact h1.1 a ha
          · rintro ⟨_, h⟩
            have : b = true := h.2 ⟨x, by simp, hr⟩
            rw [this]
      · simp only [tryAddrs, hd, if_false, hr]
        rw [ih]
        constructor
        · rintro ⟨h1, h2⟩
          refine ⟨?_, h2.trans ?_⟩
          · intro a ha
            rcases List.mem_cons.1 ha with rfl | ha
            · exact ⟨by omega, Or.inr hr⟩
            · exact h1 a ha
          · constructor
            · rintro ⟨a, ha, h⟩; exact ⟨a, by simp [ha], h⟩
            · rintro ⟨a, ha, h⟩
              rcases List.mem_cons.1 ha with rfl | ha
              · rw [hr] at h; cases h
              · exact ⟨a, ha, h⟩
        · rintro ⟨h1, h2⟩
          refine ⟨fun a ha => h1 a (by simp [ha]), h2.trans ?_⟩
          constructor
          · rintro ⟨a, ha, h⟩
            rcases List.mem_cons.1 ha with rfl | ha
            · rw [hr] at h; cases h
            · exact ⟨a, ha, h⟩
          · rintro ⟨a, ha, h⟩; exact ⟨a, by simp [ha], h⟩
      · simp [tryAddrs, hd, hr]
      · simp [tryAddrs, hd, hr]

/-- A connection is the first attempt that succeeded, made before the deadline; every attempt before it failed. -/
theorem connected_first {D t : Nat} {rs : List Round} (h : tryFamily D rs = .connected t) :
    ∃ pre a post, attempts rs = pre ++ a :: post ∧ a.res = .ok ∧ a.time = t ∧ t < D ∧
      ∀ b ∈ pre, b.time < D ∧ (b.res = .refused ∨ b.res = .other) := by
  induction rs with
  | nil => simp [tryFamily] at h
  | cons r rs ih =>
    rcases htr : tryRound D r with o | b
    · simp only [tryFamily, htr] at h
      subst h
      rcases hl : r.tries with _ | l
      · simp [tryRound, hl] at htr
      · simp only [tryRound, hl] at htr
        obtain ⟨pre, a, post, rfl, h1, h2, h3, h4⟩ := tryAddrs_connected htr
        exact ⟨pre, a, post ++ attempts rs, by simp [attempts, hl], h1, h2, h3, h4⟩
    · cases b with
      | false => simp [tryFamily, htr] at h
      | true =>
        simp only [tryFamily, htr] at h
        by_cases hd : r.done + delay < D
        · rw [if_pos hd] at h
          obtain ⟨pre, a, post, he, h1, h2, h3, h4⟩ := ih h
          refine ⟨r.tries.getD [] ++ pre, a, post, by simp [attempts, he], h1, h2, h3, ?_⟩
          intro b hb
          rcases List.mem_append.1 hb with hb | hb
          · rcases hl : r.tries with _ | l
            · simp [hl] at hb
            · simp only [tryRound, hl] at htr
              simp only [hl, Option.getD_some] at hb
              exact (tryAddrs_inr.1 htr).1 b hb
          · exact h4 b hb
        · rw [if_neg hd] at h; cases h

theorem tryAddrs_timeout {D : Nat} {l : List Try} (h : tryAddrs D l = .inl .timeout) : ∃ a ∈ l, D ≤ a.time ∨ a.res = .stuck := by
  induction l with
  | nil => simp [tryAddrs] at h
  | cons x xs ih =>
    by_cases hd : D ≤ x.time
    · exact ⟨x, by simp, Or.inl hd⟩
    · rcases hr : x.res
      · simp [tryAddrs, hd, hr] at h
      · simp only [tryAddrs, hd, if_false, hr] at h
        have h' : tryAddrs D xs = .inl .timeout := by
          rcases ht : tryAddrs D xs with o | b <;> rw [ht] at h <;> simp_all
        obtain ⟨a, ha, h⟩ := ih h'
        exact ⟨a, by simp [ha], h⟩
      · simp only [tryAddrs, hd, if_false, hr] at h
        obtain ⟨a, ha, h⟩ := ih h
        exact ⟨a, by simp [ha], h⟩
      · simp [tryAddrs, hd, hr] at h
      · exact ⟨x, by simp, Or.inr hr⟩

theorem tryAddrs_first {D : Nat} {a b : List Try} {t : Try} (ha : ∀ x ∈ a, x.time < D ∧ (x.res = .refused ∨ x.res = .other)) (ht : t.time < D) :
    (t.res = .ok → tryAddrs D (a ++ t :: b) = .inl (.connected t.time)) ∧
    (t.res = .interrupted → tryAddrs D (a ++ t :: b) = .inl .interrupted) ∧
    (t.res = .stuck → tryAddrs D (a ++ t :: b) = .inl .timeout) := by
  induction a with
  | nil =>
    refine ⟨?_, ?_, ?_⟩ <;> intro h <;> simp only [List.nil_append, tryAddrs] <;> rw [if_neg (by omega), h]
  | cons x a ih =>
    obtain ⟨h1, h2, h3⟩ := ih (fun y hy => ha y (List.mem_cons_of_mem _ hy))
    obtain ⟨hx, hr⟩ := ha x List.mem_cons_self
    refine ⟨?_, ?_, ?_⟩ <;> intro h <;> simp only [List.cons_append, tryAddrs] <;> rw [if_neg (by omega)] <;>
      rcases hr with hr | hr <;> rw [hr] <;> simp [h1, h2, h3, h]

/-- The first attempt that is not simply turned down decides: connected, interrupted, or out of time when it gets no answer. -/
theorem attempt_decides {D d : Nat} {rs : List Round} {a b : List Try} {t : Try}
    (ha : ∀ x ∈ a, x.time < D ∧ (x.res = .refused ∨ x.res = .other)) (ht : t.time < D) :
    (t.res = .ok → tryFamily D (⟨some (a ++ t :: b), d⟩ :: rs) = .connected t.time) ∧
    (t.res = .interrupted → tryFamily D (⟨some (a ++ t :: b), d⟩ :: rs) = .interrupted) ∧
    (t.res = .stuck → tryFamily D (⟨some (a ++ t :: b), d⟩ :: rs) = .timeout) := by
  obtain ⟨h1, h2, h3⟩ := tryAddrs_first (b := b) ha ht
  refine ⟨?_, ?_, ?_⟩ <;> intro h <;> simp [tryFamily, tryRound, h1, h2, h3, h]

example : tryFamily 2000 [⟨some [⟨0, .refused⟩, ⟨3, .other⟩, ⟨5, .stuck⟩, ⟨9, .ok⟩], 1⟩] = .timeout := by decide

/-- A timeout is reported only when an attempt started too late, got no answer until the deadline, or less than a second was left to try
again. -/
theorem timeout_means {D : Nat} {rs : List Round} (h : tryFamily D rs = .timeout) :
    (∃ a ∈ attempts rs, D ≤ a.time ∨ a.res = .stuck) ∨ ∃ r ∈ rs, D ≤ r.done + 1000 := by
  induction rs with
  | nil => simp [tryFamily] at h
  | cons r rs ih =>
    rcases htr : tryRound D r with o | b
    · simp only [tryFamily, htr] at h
      subst h
      rcases hl : r.tries with _ | l
      · simp [tryRound, hl] at htr
      · simp only [tryRound, hl] at htr
        obtain ⟨a, ha, h⟩ := tryAddrs_timeout htr
        exact Or.inl ⟨a, by simp [attempts, hl, ha], h⟩
    · cases b with
      | false => simp [tryFamily, htr] at h
      | true =>
        simp only [tryFamily, htr] at h
        by_cases hd : r.done + delay < D
        · rw [if_pos hd] at h
          rcases ih h with ⟨a, ha, h⟩ | ⟨r', hr', h⟩
          · exact Or.inl ⟨a, by simp [attempts, ha], h⟩
          · exact Or.inr ⟨r', by simp [hr'], h⟩
        · exact Or.inr ⟨r, by simp, by unfold delay at hd; omega⟩

/-- "No address can be used" is the answer exactly when a round, reached by rounds that were repeated, had attempts that all failed and were
not refused (or no addresses at all). -/
theorem useless_means {D : Nat} {rs : List Round} (h : tryFamily D rs = .useless) :
    ∃ pre r post l, rs = pre ++ r :: post ∧ r.tries = some l ∧ (∀ a ∈ l, a.time < D ∧ a.res = .other) ∧
      ∀ q ∈ pre, q.done + 1000 < D ∧ ∀ m, q.tries = some m → (∀ a ∈ m, a.res ≠ .ok) ∧ ∃ a ∈ m, a.res = .refused := by
  induction rs with
  | nil => simp [tryFamily] at h
  | cons r rs ih =>
    rcases htr : tryRound D r with o | b
    · simp only [tryFamily, htr] at h
      subst h
      rcases hl : r.tries with _ | l
      · simp [tryRound, hl] at htr
      · simp only [tryRound, hl] at htr
        exfalso
        have : ∀ l, tryAddrs D l ≠ .inl .useless := by
          intro l
          induction l with
          | nil => simp [tryAddrs]
          | cons x xs ih2 =>
            by_cases hd : D ≤ x.time
            · simp [tryAddrs, hd]
            · rcases hr : x.res <;> simp only [tryAddrs, hd, if_false, hr]
              · simp
              · rcases ht : tryAddrs D xs with o | b
                · intro e; exact ih2 (ht.trans e)
                · simp
              · exact ih2
              · simp
              · simp
        exact this l htr
    · cases b with
      | false =>
        rcases hl : r.tries with _ | l
        · simp [tryRound, hl] at htr
        · simp only [tryRound, hl] at htr
          have h1 := tryAddrs_inr.1 htr
          refine ⟨[], r, rs, l, rfl, hl, ?_, by simp⟩
          intro a ha
          refine ⟨(h1.1 a ha).1, ?_⟩
          rcases (h1.1 a ha).2 with h2 | h2
          · exact absurd (h1.2.2 ⟨a, ha, h2⟩) (by simp)
          · exact h2
      | true =>
        simp only [tryFamily, htr] at h
        by_cases hd : r.done + delay < D
        · rw [if_pos hd] at h
          obtain ⟨pre, r', post, l, rfl, h1, h2, h3⟩ := ih h
          refine ⟨r :: pre, r', post, l, rfl, h1, h2, ?_⟩
          intro q hq
          rcases List.mem_cons.1 hq with rfl | hq
          · refine ⟨hd, fun m hm => ?_⟩
            simp only [tryRound, hm] at htr
            have h4 := tryAddrs_inr.1 htr
            refine ⟨fun a ha hok => ?_, h4.2.1 rfl⟩
            rcases (h4.1 a ha).2 with h5 | h5 <;> rw [hok] at h5 <;> cases h5
          · exact h3 q hq
        · rw [if_neg hd] at h; cases h

/-- Trying ends: after as many rounds as seconds were given. -/
theorem gives_up {D t0 : Nat} {rs : List Round} (ht : Timed t0 rs) (hD : t0 < D) (hn : D ≤ t0 + 1000 * rs.length) :
    tryFamily D rs ≠ .trying := by
  induction rs generalizing t0 with
  | nil => simp at hn; omega
  | cons r rs ih =>
    obtain ⟨h1, h2, h3⟩ := ht
    rcases htr : tryRound D r with o | b
    · simp only [tryFamily, htr]
      rintro rfl
      rcases hl : r.tries with _ | l
      · simp [tryRound, hl] at htr
      · simp only [tryRound, hl] at htr
        have : ∀ l, tryAddrs D l ≠ .inl .trying := by
          intro l
          induction l with
          | nil => simp [tryAddrs]
          | cons x xs ih2 =>
            by_cases hd : D ≤ x.time
            · simp [tryAddrs, hd]
            · rcases hr : x.res <;> simp only [tryAddrs, hd, if_false, hr]
              · simp
              · rcases ht : tryAddrs D xs with o | b
                · intro e; exact ih2 (ht.trans e)
                · simp
              · exact ih2
              · simp
              · simp
        exact this l htr
    · cases b with
      | false => simp [tryFamily, htr]
      | true =>
        simp only [tryFamily, htr]
        by_cases hd : r.done + delay < D
        · rw [if_pos hd]
          unfold delay at hd
          refine ih h3 hd ?_
          simp only [List.length_cons, Nat.mul_add, Nat.mul_one] at hn
          omega
        · rw [if_neg hd]; simp

theorem tryAddrs_serves {D up : Nat} {l : List Try} (hD : ∀ a ∈ l, a.time < D)
    (h : ∀ a ∈ l, (a.time < up ∧ a.res = .refused) ∨ (up ≤ a.time ∧ a.res = .ok)) (hne : l ≠ []) :
    (∃ t, tryAddrs D l = .inl (.connected t) ∧ up ≤ t) ∨ (tryAddrs D l = .inr true ∧ ∃ a ∈ l, a.time < up) := by
  induction l with
  | nil => exact absurd rfl hne
  | cons x xs ih =>
    have hd : ¬ D ≤ x.time := by have := hD x (by simp); omega
    rcases h x (by simp) with ⟨h1, h2⟩ | ⟨h1, h2⟩
    · simp only [tryAddrs, hd, if_false, h2]
      by_cases hx : xs = []
      · subst hx; exact Or.inr ⟨rfl, x, by simp, h1⟩
      · rcases ih (fun a ha => hD a (by simp [ha])) (fun a ha => h a (by simp [ha])) hx with ⟨t, h3, h4⟩ | ⟨h3, _⟩
        · exact Or.inl ⟨t, by rw [h3], h4⟩
        · exact Or.inr ⟨by rw [h3], x, by simp, h1⟩
    · simp only [tryAddrs, hd, if_false, h2]
      exact Or.inl ⟨x.time, rfl, h1⟩

/-- A process that starts before the server waits for it: if the server comes up more than a second and two rounds before the deadline,
the connection is made. -/
theorem waits_for_server {D t0 up d : Nat} {rs : List Round} (ht : Timed t0 rs) (hp : Prompt d t0 rs) (hs : Serves up rs)
    (hD : t0 + d < D) (hup : up + 2 * d + 1000 ≤ D) (hn : D ≤ t0 + 1000 * rs.length) :
    ∃ t, tryFamily D rs = .connected t ∧ up ≤ t ∧ t < D := by
  have key : ∀ (rs : List Round) (t0 : Nat), Timed t0 rs → Prompt d t0 rs → Serves up rs → t0 + d < D →
      tryFamily D rs = .trying ∨ ∃ t, tryFamily D rs = .connected t ∧ up ≤ t := by
    intro rs
    induction rs with
    | nil => intros; exact Or.inl rfl
    | cons r rs ih =>
      intro t0 ht hp hs hD
      obtain ⟨h1, h2, h3⟩ := ht
      obtain ⟨h4, h5⟩ := hp
      obtain ⟨l, hl, hne, hl2⟩ := hs r (by simp)
      simp only [hl, Option.getD_some] at h1
      rcases tryAddrs_serves (D := D) (fun a ha => by have := h1 a ha; omega) hl2 hne with ⟨t, h6, h7⟩ | ⟨h6, a, ha, h7⟩
      · exact Or.inr ⟨t, by simp [tryFamily, tryRound, hl, h6], h7⟩
      · have h8 := h1 a ha
        have hd : r.done + delay < D := by unfold delay; omega
        have : tryFamily D (r :: rs) = tryFamily D rs := by simp [tryFamily, tryRound, hl, h6, hd]
        rw [this]
        exact ih _ h3 h5 (fun q hq => hs q (by simp [hq])) (by omega)
  rcases key rs t0 ht hp hs hD with h | ⟨t, h, h2⟩
  · exact absurd h (gives_up ht (by omega) hn)
  · obtain ⟨_, a, _, _, _, _, h3, _⟩ := connected_first h
    exact ⟨t, h, h2, h3⟩

/-- The two address families: IPv4 alone is tried only if no IPv6 (or mapped) address can be used, with time of its own. -/
theorem connect_ok {T s6 s4 t : Nat} {r6 r4 : List Round} :
    connect T s6 r6 s4 r4 = .connected t ↔
      tryFamily (s6 + T / 1000 * 1000) r6 = .connected t ∨
      (tryFamily (s6 + T / 1000 * 1000) r6 = .useless ∧ tryFamily (s4 + T / 1000 * 1000) r4 = .connected t) := by
  unfold connect limit
  rcases tryFamily (s6 + T / 1000 * 1000) r6 <;> simp

/-- **Refuted**: "a timeout of 0 means no timeout", and "a timeout of less than a second is kept": no connection is ever made, whatever the
server does. -/
theorem short_timeout_refuted {T s6 s4 : Nat} {r : Round} {r6 r4 : List Round} (hT : T < 1000) (ht : Timed s6 (r :: r6))
    (hr : r.tries ≠ some []) : connect T s6 (r :: r6) s4 r4 = .timeout := by
  have hl : T / 1000 * 1000 = 0 := by omega
  obtain ⟨h1, h2, _⟩ := ht
  have : tryFamily (s6 + T / 1000 * 1000) (r :: r6) = .timeout := by
    rw [hl]
    rcases htr : r.tries with _ | l
    · have : ¬ r.done + delay < s6 + 0 := by unfold delay; omega
      simp only [tryFamily, tryRound, htr]
      rw [if_neg this]
    · cases l with
      | nil => exact absurd htr hr
      | cons a l =>
        have h3 := h1 a (by simp [htr])
        have h4 : s6 + 0 ≤ a.time := by omega
        simp only [tryFamily, tryRound, htr, tryAddrs]
        rw [if_pos h4]
  unfold connect limit
  rw [this]

/-! ## Meeting -/

theorem userKey_ne (k : Key) : userKey k ≠ initKey := by
  unfold userKey initKey
  intro h
  have := congrArg (fun l => l.head?) h
  simp at this

theorem counts_snoc (ls : List Label) (l : Label) :
    counts (ls ++ [l]) = counts ls + (match l with | .count _ => 1 | _ => 0) := by
  cases l <;> simp [counts, List.filter_append]

structure Inv (c : Cfg) (ls : List Label) (s : St) : Prop where
  wf : s.phases.WF
  /-- the key of the meeting holds the count -/
  key : ∀ w, c.world = some w → counts ls < 2 ^ 62 →
    s.store.get? initKey = if counts ls = 0 then none else some (toStr (counts ls))
  up : s.phases ≠ [] → s.listening = true
  clock : s.since ≤ s.now
  wake : s.phases.get? 0 = some .waiting → s.since ≤ s.wakeAt ∧ s.wakeAt ≤ s.now + 10
  waits : s.phases.get? 0 = some .waiting → c.world ≠ none ∧ s.gaveUp = false ∧ Label.count 0 ∈ ls
  done : s.phases.get? 0 = some .joined ∨ s.phases.get? 0 = some .back → ∀ w, c.world = some w → s.gaveUp = false →
    counts ls < 2 ^ 31 → w ≤ counts ls
  young : s.phases.get? 0 = none ∨ s.phases.get? 0 = some .connected → s.gaveUp = false
  gave : s.gaveUp = true → c.timeout ≠ 0 ∧ (c.timeout / 1000 + 1) * 1000 ≤ s.now - s.since

theorem wrap_small {n : Nat} (h : n < 2 ^ 62 + 1) : wrap (n : Int) = n := by
  unfold wrap; omega

theorem stoll_count {n : Nat} (h : n < 2 ^ 62 + 1) : stoll (toStr (n : Int)) = some (n : Int) :=
  stoll_toStr _ (by simp only [Store.inRange, decide_eq_true_eq]; omega)

theorem tooLate_iff (c : Cfg) (e : Nat) : tooLate c e = true ↔ c.timeout ≠ 0 ∧ (c.timeout / 1000 + 1) * 1000 ≤ e := by
  simp only [tooLate, Bool.and_eq_true, decide_eq_true_eq, ne_eq]
  constructor
  · rintro ⟨h1, h2⟩; exact ⟨by simpa using h1, by omega⟩
  · rintro ⟨h1, h2⟩; exact ⟨by simpa using h1, by omega⟩

attribute [local grind =] Dict.get?_set Dict.get?_erase

theorem phases_ne {d : Dict Proc Phase} {p : Proc} {x : Phase} (h : d.get? p = some x) : d ≠ [] := by
  rintro rfl; cases h

theorem look_some {c : Cfg} {s s' : St} (h : look c s = some s') :
    ∃ w v n, c.world = some w ∧ s.store.get? initKey = some v ∧ stoi v = some n ∧ s' = decision c w s n := by
  unfold look at h
  rcases hw : c.world with _ | w
  · rw [hw] at h; cases h
  · rcases hv : s.store.get? initKey with _ | v
    · rw [hw, hv] at h; cases h
    · rw [hw, hv] at h
      simp only at h
      rcases hn : stoi v with _ | n
      · rw [hn] at h; cases h
      · rw [hn] at h
        exact ⟨w, v, n, rfl, rfl, hn, (Option.some.inj h).symm⟩

theorem stoi_count {n : Nat} (h : n < 2 ^ 31) : stoi (toStr (n : Int)) = some (n : Int) := by
  unfold stoi
  rw [stoll_count (by omega)]
  simp only
  rw [if_pos (by omega)]

theorem stoi_count' {n : Nat} {x : Int} (h : n < 2 ^ 62 + 1) (hx : stoi (toStr (n : Int)) = some x) : x = n ∧ n < 2 ^ 31 := by
  unfold stoi at hx
  rw [stoll_count h] at hx
  simp only at hx
  by_cases hb : -2147483648 ≤ (n : Int) ∧ (n : Int) < 2147483648
  · rw [if_pos hb] at hx
    exact ⟨(Option.some.inj hx).symm, by omega⟩
  · rw [if_neg hb] at hx; cases hx

theorem add_count {d d' : Dict Key (List Char)} {n : Nat} (hn : n < 2 ^ 62) (h : add d initKey 1 = some d')
    (hk : d.get? initKey = if n = 0 then none else some (toStr (n : Int))) : d' = d.set initKey (toStr ((n + 1 : Nat) : Int)) := by
  unfold add at h
  by_cases h0 : n = 0
  · rw [if_pos h0] at hk
    rw [hk] at h
    simp only [Option.some.injEq] at h
    subst h0
    rw [← h]
    have : wrap 1 = 1 := by decide
    rw [this]; rfl
  · rw [if_neg h0] at hk
    rw [hk] at h
    simp only at h
    rw [stoll_count (by omega)] at h
    simp only [Option.some.injEq] at h
    rw [← h]
    have h1 : (1 : Int) + (n : Int) = ((n + 1 : Nat) : Int) := by omega
    rw [h1, wrap_small (by omega)]

theorem doCount_some {c : Cfg} {s s' : St} {p : Proc} (h : doCount c s p = some s') :
    (c.world = none ∧ s' = { s with phases := s.phases.set p .joined }) ∨
    (∃ w d, c.world = some w ∧ add s.store initKey 1 = some d ∧
      ((p = 0 ∧ s' = { s with store := d, phases := s.phases.set p .waiting, since := s.now, wakeAt := s.now }) ∨
       (p ≠ 0 ∧ s' = { s with store := d, phases := s.phases.set p .joined }))) := by
  unfold doCount at h
  rcases hw : c.world with _ | w
  · rw [hw] at h
    exact Or.inl ⟨rfl, (Option.some.inj h).symm⟩
  · rw [hw] at h
    simp only at h
    rcases ha : add s.store initKey 1 with _ | d
    · rw [ha] at h; cases h
    · rw [ha] at h
      simp only at h
      refine Or.inr ⟨w, d, rfl, rfl, ?_⟩
      by_cases hp : p = 0
      · rw [if_pos hp] at h; exact Or.inl ⟨hp, (Option.some.inj h).symm⟩
      · rw [if_neg hp] at h; exact Or.inr ⟨hp, (Option.some.inj h).symm⟩

theorem inv_step {c : Cfg} {ls : List Label} {l : Label} {s s' : St} (hi : Inv c ls s) (h : step c s l = some s') :
    Inv c (ls ++ [l]) s' := by
  obtain ⟨wf, key, up, clock, wake, waits, done, young, gave⟩ := hi
  cases l with
  | tick d =>
    simp only [step, Option.some.injEq] at h
    subst h
    refine ⟨wf, by simpa [counts_snoc] using key, up, ?_, ?_, ?_, by simpa [counts_snoc] using done, young, ?_⟩
    · simp only; omega
    · intro h; have := wake h; simp only; omega
    · intro h; have := waits h; simp [this]
    · intro h; have := gave h; simp only; omega
  | listen =>
    by_cases hl : s.listening = true
    · simp [step, hl] at h
    · simp only [step, hl, Bool.false_eq_true, if_false, Option.some.injEq] at h
      subst h
      refine ⟨wf, by simpa [counts_snoc] using key, fun _ => rfl, clock, wake, ?_, by simpa [counts_snoc] using done, young, gave⟩
      intro h; have := waits h; simp [this]
  | connect p =>
    by_cases hl : s.listening = true ∧ s.phases.get? p = none
    · simp only [step] at h
      rw [if_pos hl] at h
      simp only [Option.some.injEq] at h
      subst h
      refine ⟨wf.set _ _, by simpa [counts_snoc] using key, fun _ => hl.1, clock, ?_, ?_, ?_, ?_, gave⟩
      · intro h; exact wake (by grind)
      · intro h; have := waits (by grind); simp [this]
      · rw [counts_snoc]; intro h; exact done (by grind)
      · intro h; exact young (by grind)
    · simp only [step] at h
      rw [if_neg hl] at h; cases h
  | count p =>
    by_cases hp : s.phases.get? p = some .connected
    · simp only [step] at h
      rw [if_pos hp] at h
      rcases doCount_some h with ⟨hw, rfl⟩ | ⟨w, d, hw, ha, h⟩
      · refine ⟨wf.set _ _, by simp [hw], fun _ => up (phases_ne hp), clock, ?_, ?_, by simp [hw], ?_, gave⟩
        · intro h; exact wake (by grind)
        · intro h; have := waits (by grind); simp [this]
        · intro h; exact young (by grind)
      · have hkey : ∀ w, c.world = some w → counts (ls ++ [Label.count p]) < 2 ^ 62 →
            d.get? initKey = if counts (ls ++ [Label.count p]) = 0 then none else some (toStr (counts (ls ++ [Label.count p]))) := by
          intro w' hw' hn
          simp only [counts_snoc] at hn ⊢
          rw [add_count (by omega) ha (key w' hw' (by omega))]
          rw [Dict.get?_set]
          simp
        rcases h with ⟨hp0, rfl⟩ | ⟨hp0, rfl⟩
        · refine ⟨wf.set _ _, hkey, fun _ => up (phases_ne hp), Nat.le_refl _, ?_, ?_, ?_, ?_, ?_⟩
          · intro _; simp only; omega
          · intro _; subst hp0; exact ⟨by simp [hw], young (Or.inr hp), by simp⟩
          · subst hp0; simp only [Dict.get?_set, if_true]; intro h; rcases h with h | h <;> cases h
          · intro _; subst hp0; exact young (Or.inr hp)
          · intro h
            subst hp0
            have h2 := young (Or.inr hp)
            have h3 : s.gaveUp = true := h
            rw [h2] at h3; cases h3
        · refine ⟨wf.set _ _, hkey, fun _ => up (phases_ne hp), clock, ?_, ?_, ?_, ?_, gave⟩
          · intro h; exact wake (by grind)
          · intro h; have := waits (by grind); simp [this]
          · intro h w' hw' hg hn
            rw [counts_snoc] at hn ⊢
            simp only at hn ⊢
            have := done (by grind) w' hw' hg (by omega)
            omega
          · intro h; exact young (by grind)
    · simp only [step] at h
      rw [if_neg hp] at h; cases h
  | poll =>
    by_cases hp : s.phases.get? 0 = some .waiting ∧ s.wakeAt ≤ s.now
    · simp only [step] at h
      rw [if_pos hp] at h
      obtain ⟨w, v, n, hw, hv, hn, rfl⟩ := look_some h
      have hg := (waits hp.1).2.1
      have hwk := wake hp.1
      have hws := waits hp.1
      have hcc : counts (ls ++ [Label.poll]) = counts ls := by simp [counts_snoc]
      unfold decision
      by_cases h1 : (w : Int) ≤ n
      · rw [if_pos h1]
        refine ⟨wf.set _ _, by rw [hcc]; exact key, fun _ => up (phases_ne hp.1), clock, ?_, ?_, ?_, ?_, gave⟩
        · simp [Dict.get?_set]
        · simp [Dict.get?_set]
        · intro _ w' hw' _ hc
          rw [hcc] at hc ⊢
          have hk := key w' hw' (by omega)
          rw [hv] at hk
          have hw2 : w = w' := by rw [hw] at hw'; exact Option.some.inj hw'
          subst hw2
          by_cases h0 : counts ls = 0
          · rw [if_pos h0] at hk; cases hk
          · rw [if_neg h0] at hk
            have hv2 : v = toStr (counts ls : Int) := Option.some.inj hk
            rw [hv2] at hn
            have := (stoi_count' (by omega) hn).1
            omega
        · intro _; exact hg
      · rw [if_neg h1]
        by_cases h2 : tooLate c (s.now - s.since) = true
        · rw [if_pos h2]
          refine ⟨wf.set _ _, by rw [hcc]; exact key, fun _ => up (phases_ne hp.1), clock, ?_, ?_, ?_, ?_, ?_⟩
          · simp [Dict.get?_set]
          · simp [Dict.get?_set]
          · intro _ _ _ h; cases h
          · simp [Dict.get?_set]
          · intro _; exact (tooLate_iff c _).1 h2
        · rw [if_neg h2]
          refine ⟨wf, by rw [hcc]; exact key, up, clock, ?_, ?_, ?_, young, gave⟩
          · intro _; simp only; omega
          · intro _; simp [hws]
          · rw [hcc]; exact done
    · simp only [step] at h
      rw [if_neg hp] at h; cases h
  | ret p =>
    by_cases hp : s.phases.get? p = some .joined
    · simp only [step] at h
      rw [if_pos hp] at h
      simp only [Option.some.injEq] at h
      subst h
      refine ⟨wf.set _ _, by simpa [counts_snoc] using key, fun _ => up (phases_ne hp), clock, ?_, ?_, ?_, ?_, gave⟩
      · intro h; exact wake (by grind)
      · intro h; have := waits (by grind); simp [this]
      · rw [counts_snoc]; intro h; exact done (by grind)
      · intro h; exact young (by grind)
    · simp only [step] at h
      rw [if_neg hp] at h; cases h
  | set k v =>
    simp only [step, Option.some.injEq] at h
    subst h
    refine ⟨wf, ?_, up, clock, wake, ?_, by simpa [counts_snoc] using done, young, gave⟩
    · intro w hw hn
      have : counts (ls ++ [Label.set k v]) = counts ls := by simp [counts_snoc]
      rw [this] at hn ⊢
      simp only [Dict.get?_set, userKey_ne, if_false]
      exact key w hw hn
    · intro h; have := waits h; simp [this]
  | del k =>
    simp only [step, Option.some.injEq] at h
    subst h
    refine ⟨wf, ?_, up, clock, wake, ?_, by simpa [counts_snoc] using done, young, gave⟩
    · intro w hw hn
      have : counts (ls ++ [Label.del k]) = counts ls := by simp [counts_snoc]
      rw [this] at hn ⊢
      simp only [Dict.get?_erase, userKey_ne, if_false]
      exact key w hw hn
    · intro h; have := waits h; simp [this]
  | crash p =>
    by_cases hp : p = 0
    · simp [step, hp] at h
    · simp only [step, hp, if_false, Option.some.injEq] at h
      subst h
      have h0 : (s.phases.erase p).get? 0 = s.phases.get? 0 := by grind
      refine ⟨wf.erase _, by simpa [counts_snoc] using key, ?_, clock, ?_, ?_, ?_, ?_, gave⟩
      · intro h; exact up (by rintro h2; rw [h2] at h; exact h rfl)
      · simp only [h0]; exact wake
      · simp only [h0]; intro h; have := waits h; simp [this]
      · simp only [h0, counts_snoc]; exact done
      · simp only [h0]; exact young

theorem inv_run {c : Cfg} {ls : List Label} {s : St} (h : Run c ls s) : Inv c ls s := by
  induction h with
  | init => exact ⟨Dict.WF.nil, by simp [counts, init], by simp [init], Nat.le_refl _, by simp [init], by simp [init], by simp [init], by simp [init],
      by simp [init]⟩
  | snoc _ hs ih => exact inv_step ih hs

/-- Nobody returns, or even connects, before the server is there. -/
theorem server_first {c : Cfg} {ls : List Label} {s : St} (h : Run c ls s) {p : Proc} {x : Phase} (hp : s.phases.get? p = some x) :
    s.listening = true := (inv_run h).up (phases_ne hp)

theorem mem_count {ls : List Label} {p : Proc} : Label.count p ∈ ls ↔ p ∈ ls.filterMap (fun l => match l with | .count q => some q | _ => none) := by
  simp only [List.mem_filterMap]
  constructor
  · intro h; exact ⟨_, h, rfl⟩
  · rintro ⟨l, hl, h⟩
    cases l <;> simp at h
    subst h; exact hl

theorem counts_eq (ls : List Label) : counts ls = (ls.filterMap (fun l => match l with | .count q => some q | _ => none)).length := by
  induction ls with
  | nil => rfl
  | cons l ls ih =>
    have : counts (l :: ls) = counts ls + (match l with | .count _ => 1 | _ => 0) := by cases l <;> simp [counts]
    rw [this, ih]
    cases l <;> simp

theorem count_procs (ls : List Label) (p : Proc) :
    (ls.filterMap (fun l => match l with | .count q => some q | _ => none)).count p = ls.count (Label.count p) := by
  induction ls with
  | nil => rfl
  | cons l ls ih =>
    cases l with
    | count q => simp only [List.filterMap_cons, List.count_cons, ih]; simp
    | _ => simp only [List.filterMap_cons, List.count_cons, ih]; simp

/-- distinct numbers below `w`, at least `w` of them, are all of them -/
theorem all_of_many (w : Nat) : ∀ (l : List Nat), l.Nodup → (∀ x ∈ l, x < w) → w ≤ l.length → ∀ p, p < w → p ∈ l := by
  induction w with
  | zero => intro _ _ _ _ p hp; omega
  | succ w ih =>
    intro l hn hb hl p hp
    have h1 : w ∈ l := by
      by_cases hw : w ∈ l
      · exact hw
      · exfalso
        have hb' : ∀ x ∈ l, x < w := by
          intro x hx
          have := hb x hx
          have : x ≠ w := by rintro rfl; exact hw hx
          omega
        have : ∀ (v : Nat) (l : List Nat), l.Nodup → (∀ x ∈ l, x < v) → l.length ≤ v := by
          intro v
          induction v with
          | zero =>
            intro l _ hb
            cases l with
            | nil => simp
            | cons a l => have := hb a (by simp); omega
          | succ v ihv =>
            intro l hn hb
            have h2 := ihv (l.erase v) (hn.erase v) (by
              intro x hx
              have h3 := (List.Nodup.mem_erase_iff hn).1 hx
              have := hb x h3.2
              have := h3.1
              omega)
            by_cases hv : v ∈ l
            · rw [List.length_erase_of_mem hv] at h2; omega
            · rw [List.erase_of_not_mem hv] at h2; omega
        have := this w l hn hb'
        omega
    by_cases hpw : p = w
    · rw [hpw]; exact h1
    · have h2 := ih (l.erase w) (hn.erase w) (by
        intro x hx
        have h3 := (List.Nodup.mem_erase_iff hn).1 hx
        have := hb x h3.2
        have := h3.1
        omega) (by rw [List.length_erase_of_mem h1]; omega) p (by omega)
      exact List.mem_of_mem_erase h2

/-- The server's process does not return before as many processes were counted as the group has, or its time was over. -/
theorem server_waits_partial {c : Cfg} {ls : List Label} {s : St} (h : Run c ls s) (hr : Returned s 0) {w : Nat} (hw : c.world = some w)
    (hn : counts ls < 2 ^ 31) :
    w ≤ counts ls ∨ (c.timeout ≠ 0 ∧ (c.timeout / 1000 + 1) * 1000 ≤ s.now - s.since) := by
  have hi := inv_run h
  by_cases hg : s.gaveUp = true
  · exact Or.inr (hi.gave hg)
  · exact Or.inl (hi.done (Or.inr hr) w hw (by simpa using hg) hn)

/-- If only the processes 0 … w-1 take part, none of them twice, and the server's process returned before its time was over, all of them have
come. -/
theorem all_came_partial {c : Cfg} {ls : List Label} {s : St} (h : Run c ls s) (hr : Returned s 0) {w : Nat} (hw : c.world = some w)
    (hn : counts ls < 2 ^ 31) (hin : c.timeout = 0 ∨ s.now - s.since < (c.timeout / 1000 + 1) * 1000)
    (ho : OnceEach ls) (hb : ∀ p, Label.count p ∈ ls → p < w) (p : Proc) (hp : p < w) : Label.count p ∈ ls := by
  have h1 : w ≤ counts ls := by
    rcases server_waits_partial h hr hw hn with h1 | h1
    · exact h1
    · rcases hin with h2 | h2
      · exact absurd h2 h1.1
      · omega
  rw [mem_count]
  refine all_of_many w _ ?_ (fun x hx => hb x (mem_count.2 hx)) (by rw [← counts_eq]; exact h1) p hp
  rw [List.nodup_iff_count]
  intro a
  rw [count_procs]
  exact ho a

/-- One look of the server: it goes on waiting exactly if processes are missing and its time (rounded up to the next whole second) is not
over; otherwise it returns.  Whatever keys were set or deleted by users of the store does not matter. -/
theorem poll_decides {c : Cfg} {ls : List Label} {s : St} (h : Run c ls s) {w : Nat} (hw : c.world = some w) (hn : counts ls < 2 ^ 31)
    (hp : s.phases.get? 0 = some .waiting) (hk : s.wakeAt ≤ s.now) :
    ∃ s', Run c (ls ++ [.poll]) s' ∧
      (s'.phases.get? 0 = some .waiting ↔ counts ls < w ∧ (c.timeout = 0 ∨ s.now - s.since < (c.timeout / 1000 + 1) * 1000)) ∧
      (s'.phases.get? 0 ≠ some .waiting → ∃ s'', Run c (ls ++ [.poll] ++ [.ret 0]) s'' ∧ Returned s'' 0) := by
  have hi := inv_run h
  have hkey := hi.key w hw (by omega)
  have h0 : counts ls ≠ 0 := by
    intro h0
    have h1 := (hi.waits hp).2.2
    have h2 : ∀ ls : List Label, counts ls = 0 → Label.count 0 ∉ ls := by
      intro ls h hm
      rw [counts_eq, List.length_eq_zero_iff] at h
      have h3 := mem_count.1 hm
      rw [h] at h3
      cases h3
    exact h2 ls h0 h1
  rw [if_neg h0] at hkey
  have hstep : step c s .poll = some (decision c w s (counts ls : Int)) := by
    simp only [step]
    rw [if_pos ⟨hp, hk⟩]
    unfold look
    rw [hw, hkey]
    simp only
    rw [stoi_count hn]
  refine ⟨_, Run.snoc h hstep, ?_, ?_⟩
  · unfold decision
    by_cases h1 : (w : Int) ≤ (counts ls : Int)
    · rw [if_pos h1]
      simp only [Dict.get?_set, if_true]
      constructor
      · intro h; cases h
      · intro h; omega
    · rw [if_neg h1]
      by_cases h2 : tooLate c (s.now - s.since) = true
      · rw [if_pos h2]
        simp only [Dict.get?_set, if_true]
        have h3 := (tooLate_iff c _).1 h2
        constructor
        · intro h; cases h
        · rintro ⟨_, h4 | h4⟩
          · exact absurd h4 h3.1
          · omega
      · rw [if_neg h2]
        have h3 : ¬ (c.timeout ≠ 0 ∧ (c.timeout / 1000 + 1) * 1000 ≤ s.now - s.since) := fun h => h2 ((tooLate_iff c _).2 h)
        simp only [hp, true_iff]
        refine ⟨by omega, ?_⟩
        by_cases h4 : c.timeout = 0
        · exact Or.inl h4
        · right
          have h5 : ¬ (c.timeout / 1000 + 1) * 1000 ≤ s.now - s.since := fun h => h3 ⟨h4, h⟩
          omega
  · intro hne
    have hj : (decision c w s (counts ls : Int)).phases.get? 0 = some .joined := by
      unfold decision at hne ⊢
      by_cases h1 : (w : Int) ≤ (counts ls : Int)
      · rw [if_pos h1]; simp [Dict.get?_set]
      · rw [if_neg h1] at hne ⊢
        by_cases h2 : tooLate c (s.now - s.since) = true
        · rw [if_pos h2]; simp [Dict.get?_set]
        · rw [if_neg h2] at hne; exact absurd hp hne
    refine ⟨_, Run.snoc (Run.snoc h hstep) (by simp only [step]; rw [if_pos hj]), ?_⟩
    simp [Returned, Dict.get?_set]

/-- The server looks again after at most 10 ms. -/
theorem looks_soon {c : Cfg} {ls : List Label} {s : St} (h : Run c ls s) (hp : s.phases.get? 0 = some .waiting) : s.wakeAt ≤ s.now + 10 :=
  ((inv_run h).wake hp).2

/-- A process other than the server's never waits: once connected it can be counted and return at once. -/
theorem others_return {c : Cfg} {ls : List Label} {s : St} (h : Run c ls s) {p : Proc} (hp : s.phases.get? p = some .connected) (hp0 : p ≠ 0)
    (hn : counts ls < 2 ^ 62) : ∃ s', Run c (ls ++ [.count p] ++ [.ret p]) s' ∧ Returned s' p := by
  have hi := inv_run h
  obtain ⟨s1, h1, h2⟩ : ∃ s1, step c s (.count p) = some s1 ∧ s1.phases.get? p = some .joined := by
    simp only [step]
    rw [if_pos hp]
    unfold doCount
    rcases hw : c.world with _ | w
    · exact ⟨_, rfl, by simp [Dict.get?_set]⟩
    · simp only
      have hk := hi.key w hw hn
      have : ∃ d, add s.store initKey 1 = some d := by
        unfold add
        by_cases h0 : counts ls = 0
        · rw [if_pos h0] at hk; rw [hk]; exact ⟨_, rfl⟩
        · rw [if_neg h0] at hk; rw [hk]; simp only
          rw [stoll_count (by omega)]; exact ⟨_, rfl⟩
      obtain ⟨d, hd⟩ := this
      rw [hd]
      simp only
      rw [if_neg hp0]
      exact ⟨_, rfl, by simp [Dict.get?_set]⟩
  refine ⟨_, Run.snoc (Run.snoc h h1) (by simp only [step]; rw [if_pos h2]), ?_⟩
  simp [Returned, Dict.get?_set]

theorem run_of {c : Cfg} (ls0 ls : List Label) (s0 s : St) (h0 : Run c ls0 s0) (h : ls.foldlM (step c) s0 = some s) :
    Run c (ls0 ++ ls) s := by
  induction ls generalizing ls0 s0 with
  | nil => simp only [List.foldlM_nil] at h; injection h with h; subst h; simpa using h0
  | cons l ls ih =>
    simp only [List.foldlM_cons] at h
    rcases hl : step c s0 l with _ | s1
    · rw [hl] at h; cases h
    · rw [hl] at h
      have := ih (ls0 ++ [l]) s1 (Run.snoc h0 hl) h
      simpa using this

/-- **Refuted**: "making the store is a barrier": in a group of any size above two, a process that is not the server's returns although
another one was never started. -/
theorem not_a_barrier_refuted (w T : Nat) (hw : 2 < w) : ∃ s, Run ⟨some w, T⟩ [.listen, .connect 1, .count 1, .ret 1] s ∧ Returned s 1 ∧
    Label.count 2 ∉ [Label.listen, .connect 1, .count 1, .ret 1] ∧ 2 < w :=
  ⟨_, run_of [] _ _ _ Run.init rfl, rfl, by decide, hw⟩

/-- **Refuted**: "the store of the server's process is made only when all have come, or an error is raised": after the timeout it is simply
there, with one process counted. -/
theorem silent_timeout_refuted (w T : Nat) (hw : 1 < w) (hT : 0 < T) :
    ∃ s, Run ⟨some w, T⟩ [.listen, .connect 0, .count 0, .tick ((T / 1000 + 1) * 1000), .poll, .ret 0] s ∧ Returned s 0 ∧
      counts [.listen, .connect 0, .count 0, .tick ((T / 1000 + 1) * 1000), .poll, .ret 0] = 1 := by
  have h1 : Run ⟨some w, T⟩ [.listen, .connect 0, .count 0, .tick ((T / 1000 + 1) * 1000)]
      ⟨(T / 1000 + 1) * 1000, true, [(initKey, toStr 1)], [(0, .waiting)], 0, 0, false⟩ := by
    have := run_of (c := ⟨some w, T⟩) [] [.listen, .connect 0, .count 0] init
      ⟨0, true, [(initKey, toStr 1)], [(0, .waiting)], 0, 0, false⟩ Run.init rfl
    have h2 := Run.snoc (l := .tick ((T / 1000 + 1) * 1000)) this rfl
    simpa using h2
  have hc : counts [Label.listen, .connect 0, .count 0, .tick ((T / 1000 + 1) * 1000)] = 1 := rfl
  obtain ⟨s', h2, h3, h4⟩ := poll_decides h1 (w := w) rfl (by rw [hc]; omega) rfl (Nat.zero_le _)
  obtain ⟨s'', h5, h6⟩ := h4 (by
    rw [ne_eq, h3, hc]
    rintro ⟨_, h | h⟩
    · simp only at h; omega
    · simp only at h; omega)
  exact ⟨s'', h5, h6, rfl⟩

/-- **Refuted**: "when the server's process returns in time all have come" without the condition that none is counted twice: a process that
is restarted is counted again. -/
theorem restart_counts_twice_refuted : ∃ s, Run ⟨some 3, 300000⟩
    [.listen, .connect 0, .count 0, .connect 1, .count 1, .crash 1, .connect 1, .count 1, .poll, .ret 0] s ∧ Returned s 0 ∧ s.now = 0 ∧
    Label.count 2 ∉ [Label.listen, .connect 0, .count 0, .connect 1, .count 1, .crash 1, .connect 1, .count 1, .poll, .ret 0] :=
  ⟨_, run_of [] _ _ _ Run.init rfl, rfl, rfl, by decide⟩

/-! ## Concrete cases -/

/-- three processes meet; somebody uses a key `init/` of his own meanwhile -/
example : ∃ s, Run ⟨some 3, 300000⟩ [.listen, .connect 0, .connect 2, .count 0, .poll, .count 2, .set "init/".toList "x".toList, .tick 10, .poll,
    .connect 1, .count 1, .ret 1, .tick 10, .poll, .ret 0] s ∧ Returned s 0 ∧ Returned s 1 ∧
    OnceEach [.listen, .connect 0, .connect 2, .count 0, .poll, .count 2, .set "init/".toList "x".toList, .tick 10, .poll,
    .connect 1, .count 1, .ret 1, .tick 10, .poll, .ret 0] := by
  refine ⟨_, run_of [] _ _ _ Run.init rfl, rfl, rfl, ?_⟩
  intro p
  simp only [List.count_cons, List.count_nil, beq_iff_eq, Label.count.injEq]
  grind
/-- the server comes up at 1500 ms; tried at 0, 1001 and 2002 ms -/
example : tryFamily 300000 [⟨some [⟨0, .refused⟩], 1⟩, ⟨some [⟨1001, .refused⟩], 1002⟩, ⟨some [⟨2002, .ok⟩], 2003⟩] = .connected 2002 := by decide
example : Timed 0 [⟨some [⟨0, .refused⟩], 1⟩, ⟨some [⟨1001, .refused⟩], 1002⟩, ⟨some [⟨2002, .ok⟩], 2003⟩] ∧
    Prompt 5 0 [⟨some [⟨0, .refused⟩], 1⟩, ⟨some [⟨1001, .refused⟩], 1002⟩, ⟨some [⟨2002, .ok⟩], 2003⟩] ∧
    Serves 1500 [⟨some [⟨0, .refused⟩], 1⟩, ⟨some [⟨1001, .refused⟩], 1002⟩, ⟨some [⟨2002, .ok⟩], 2003⟩] := by
  refine ⟨by simp [Timed], by simp [Prompt], ?_⟩
  intro r hr
  simp only [List.mem_cons, List.not_mem_nil, or_false] at hr
  rcases hr with rfl | rfl | rfl <;> exact ⟨_, rfl, by simp, by simp⟩
/-- with three seconds given the same attempts succeed, with two they do not -/
example : tryFamily 3000 [⟨some [⟨0, .refused⟩], 1⟩, ⟨some [⟨1001, .refused⟩], 1002⟩, ⟨some [⟨2002, .ok⟩], 2003⟩] = .connected 2002 ∧
    tryFamily 2000 [⟨some [⟨0, .refused⟩], 1⟩, ⟨some [⟨1001, .refused⟩], 1002⟩, ⟨some [⟨2002, .ok⟩], 2003⟩] = .timeout := by decide
example : connect 300000 0 [⟨some [⟨0, .other⟩], 1⟩] 1 [⟨some [⟨1, .ok⟩], 2⟩] = .connected 1 := by decide
example : connect 999 0 [⟨some [⟨0, .ok⟩], 1⟩] 1 [⟨some [⟨1, .ok⟩], 2⟩] = .timeout := by decide

end Xoscar.Meet
