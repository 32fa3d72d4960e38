import Verif.Spec.Closer
import Verif.Proof.Base
namespace Xoscar.Closer

attribute [local grind =] Dict.get?_set Dict.get?_erase

/-! ## What holds in every run -/

structure Inv (s : St) : Prop where
  loopsFresh : ∀ l x, s.loops.get? l = some x → l < s.nextLoop
  thrFresh : ∀ t x, s.threads.get? t = some x → t < s.nextThr
  thrLoop : ∀ t x, s.threads.get? t = some x → s.loops.get? x.loop ≠ none
  closeL : ∀ l, s.closeLoop = some l → s.loops.get? l ≠ none
  closeT : ∀ t, s.closeThread = some t → s.threads.get? t ≠ none
  queued : ∀ l x c, s.loops.get? l = some x → c ∈ x.jobs → s.pcs.get? c = some .done
  isClosed : ∀ c, c ∈ s.closed → s.pcs.get? c = some .done
  started : s.initialized = true → s.closeLoop ≠ none
  past : ∀ c p, s.pcs.get? c = some p → p ≠ .check → p ≠ .mkLoop → s.closeLoop ≠ none
  pastT : ∀ c, s.pcs.get? c = some .start → s.closeThread ≠ none

theorem inv_init : Inv init := by
  constructor <;> simp [init, Dict.get?]

theorem step_cases {s s' : St} {l : Label} (h : step s l = some s') :
    (∃ c, l = .threadEnds c ∧ s.pcs.get? c = none ∧ s' = setPc s c .check) ∨
    (∃ c p, l = .adv c ∧ s.pcs.get? c = some p ∧ adv s c p = some s') ∨
    (∃ t x y, l = .run t ∧ s.threads.get? t = some x ∧ s.loops.get? x.loop = some y ∧ x.phase = .started ∧ y.running = true ∧
      s' = { s with threads := s.threads.set t { x with phase := .ended }, loops := s.loops.set x.loop { y with stopping := true } }) ∨
    (∃ t x y, l = .run t ∧ s.threads.get? t = some x ∧ s.loops.get? x.loop = some y ∧ x.phase = .started ∧ y.running = false ∧
      s' = { s with threads := s.threads.set t { x with phase := .running }, loops := s.loops.set x.loop { y with running := true } }) ∨
    (∃ k x c rest, l = .job k ∧ s.loops.get? k = some x ∧ x.running = true ∧ x.jobs = c :: rest ∧
      s' = { s with loops := s.loops.set k { x with jobs := rest }, closed := s.closed ++ [c] }) ∨
    (∃ t x y, l = .stops t ∧ s.threads.get? t = some x ∧ s.loops.get? x.loop = some y ∧ x.phase = .running ∧ y.stopping = true ∧
      s' = { s with threads := s.threads.set t { x with phase := .ended }, loops := s.loops.set x.loop { y with running := false } }) := by
  cases l with
  | threadEnds c =>
    left; unfold step at h
    rcases hq : s.pcs.get? c with _ | x
    · simp only [hq] at h; exact ⟨c, rfl, hq, (Option.some.inj h).symm⟩
    · simp only [hq] at h; cases h
  | adv c =>
    right; left; unfold step at h
    rcases hq : s.pcs.get? c with _ | x
    · simp only [hq] at h; cases h
    · simp only [hq] at h; exact ⟨c, x, rfl, hq, h⟩
  | run t =>
    right; right; unfold step at h
    rcases hq : s.threads.get? t with _ | x
    · simp only [hq] at h; cases h
    simp only [hq] at h
    rcases hy : s.loops.get? x.loop with _ | y
    · simp only [hy] at h; cases h
    simp only [hy] at h
    split at h
    · rename_i hp
      split at h
      · rename_i hr; exact .inl ⟨t, x, y, rfl, hq, hy, hp, hr, (Option.some.inj h).symm⟩
      · rename_i hr; exact .inr (.inl ⟨t, x, y, rfl, hq, hy, hp, by simpa using hr, (Option.some.inj h).symm⟩)
    · cases h
  | job k =>
    right; right; right; right; left; unfold step at h
    rcases hq : s.loops.get? k with _ | x
    · simp only [hq] at h; cases h
    simp only [hq] at h
    split at h
    · rename_i hr
      rcases hj : x.jobs with _ | ⟨c, rest⟩
      · rw [hj] at h; cases h
      · rw [hj] at h; exact ⟨k, x, c, rest, rfl, hq, hr, hj, (Option.some.inj h).symm⟩
    · cases h
  | stops t =>
    right; right; right; right; right; unfold step at h
    rcases hq : s.threads.get? t with _ | x
    · simp only [hq] at h; cases h
    simp only [hq] at h
    rcases hy : s.loops.get? x.loop with _ | y
    · simp only [hy] at h; cases h
    simp only [hy] at h
    split at h
    · rename_i hp; exact ⟨t, x, y, rfl, hq, hy, hp.1, hp.2, (Option.some.inj h).symm⟩
    · cases h

theorem adv_cases {s s' : St} {c : Caller} {p : Pc} (h : adv s c p = some s') :
    (p = .check ∧ s.initialized = true ∧ s' = setPc s c .submit) ∨
    (p = .check ∧ s.initialized = false ∧ s' = setPc s c .mkLoop) ∨
    (p = .mkLoop ∧ s' = { setPc s c .mkThread with loops := s.loops.set s.nextLoop ⟨false, false, []⟩, closeLoop := some s.nextLoop, nextLoop := s.nextLoop + 1 }) ∨
    (∃ l, p = .mkThread ∧ s.closeLoop = some l ∧ s' = { setPc s c .start with threads := s.threads.set s.nextThr ⟨l, .created⟩, closeThread := some s.nextThr, nextThr := s.nextThr + 1 }) ∨
    (∃ t x, p = .start ∧ s.closeThread = some t ∧ s.threads.get? t = some x ∧ x.phase = .created ∧
      s' = { setPc s c .setInit with threads := s.threads.set t { x with phase := .started } }) ∨
    (∃ t x, p = .start ∧ s.closeThread = some t ∧ s.threads.get? t = some x ∧ x.phase ≠ .created ∧ s' = setPc s c .failed) ∨
    (p = .setInit ∧ s' = { setPc s c .submit with initialized := true }) ∨
    (∃ l x, p = .submit ∧ s.closeLoop = some l ∧ s.loops.get? l = some x ∧
      s' = { setPc s c .done with loops := s.loops.set l { x with jobs := x.jobs ++ [c] } }) := by
  cases p with
  | check =>
    simp only [adv] at h
    have h := (Option.some.inj h).symm
    rcases hi : s.initialized with _ | _
    · rw [hi] at h; exact .inr (.inl ⟨rfl, rfl, h⟩)
    · rw [hi] at h; exact .inl ⟨rfl, rfl, h⟩
  | mkLoop => exact .inr (.inr (.inl ⟨rfl, (Option.some.inj h).symm⟩))
  | mkThread =>
    unfold adv at h
    rcases hl : s.closeLoop with _ | l
    · simp only [hl] at h; cases h
    · simp only [hl] at h; exact .inr (.inr (.inr (.inl ⟨l, rfl, rfl, (Option.some.inj h).symm⟩)))
  | start =>
    unfold adv at h
    rcases hl : s.closeThread with _ | t
    · simp only [hl] at h; cases h
    simp only [hl] at h
    rcases hx : s.threads.get? t with _ | x
    · simp only [hx] at h; cases h
    simp only [hx] at h
    split at h
    · rename_i hp; exact .inr (.inr (.inr (.inr (.inl ⟨t, x, rfl, rfl, hx, hp, (Option.some.inj h).symm⟩))))
    · rename_i hp; exact .inr (.inr (.inr (.inr (.inr (.inl ⟨t, x, rfl, rfl, hx, hp, (Option.some.inj h).symm⟩)))))
  | setInit => exact .inr (.inr (.inr (.inr (.inr (.inr (.inl ⟨rfl, (Option.some.inj h).symm⟩))))))
  | submit =>
    unfold adv at h
    rcases hl : s.closeLoop with _ | l
    · simp only [hl] at h; cases h
    simp only [hl] at h
    rcases hx : s.loops.get? l with _ | x
    · simp only [hx] at h; cases h
    simp only [hx] at h
    exact .inr (.inr (.inr (.inr (.inr (.inr (.inr ⟨l, x, rfl, rfl, hx, (Option.some.inj h).symm⟩))))))
  | done => cases h
  | failed => cases h

theorem inv_step {s s' : St} {l : Label} (hi : Inv s) (h : step s l = some s') : Inv s' := by
  obtain ⟨h1, h2, h3, h4, h5, h6, h7, h8, h9, h10⟩ := hi
  rcases step_cases h with ⟨c, rfl, a1, rfl⟩ | ⟨c, p, rfl, a1, a2⟩ | ⟨t, x, y, rfl, a1, a2, a3, a4, rfl⟩ | ⟨t, x, y, rfl, a1, a2, a3, a4, rfl⟩ |
    ⟨k, x, c, rest, rfl, a1, a2, a3, rfl⟩ | ⟨t, x, y, rfl, a1, a2, a3, a4, rfl⟩
  · constructor <;> simp only [setPc] <;> grind
  · rcases adv_cases a2 with ⟨rfl, b1, rfl⟩ | ⟨rfl, b1, rfl⟩ | ⟨rfl, rfl⟩ | ⟨l, rfl, b1, rfl⟩ | ⟨t, x, rfl, b1, b2, b3, rfl⟩ |
      ⟨t, x, rfl, b1, b2, b3, rfl⟩ | ⟨rfl, rfl⟩ | ⟨l, x, rfl, b1, b2, rfl⟩
    · constructor <;> simp only [setPc] <;> grind
    · constructor <;> simp only [setPc] <;> grind
    · constructor <;> simp only [setPc] <;> grind
    · constructor <;> simp only [setPc] <;> grind
    · constructor <;> simp only [setPc] <;> grind
    · constructor <;> simp only [setPc] <;> grind
    · constructor <;> simp only [setPc] <;> grind
    · constructor <;> simp only [setPc] <;> grind
  · constructor <;> simp only <;> grind
  · constructor <;> simp only <;> grind
  · constructor <;> simp only <;> grind
  · constructor <;> simp only <;> grind

theorem inv_run {ls : List Label} {s : St} (h : Run ls s) : Inv s := by
  induction h with
  | init => exact inv_init
  | snoc _ hs ih => exact inv_step ih hs

/-- A finalizer never hangs: until it is done (or has failed) it can go on. -/
theorem finalizer_goes_on {ls : List Label} {s : St} (h : Run ls s) {c : Caller} {p : Pc} (hp : s.pcs.get? c = some p) (hd : p ≠ .done)
    (hf : p ≠ .failed) : ∃ s', step s (.adv c) = some s' := by
  have hi := inv_run h
  unfold step; simp only [hp]
  cases p with
  | check => exact ⟨_, rfl⟩
  | mkLoop => exact ⟨_, rfl⟩
  | mkThread =>
    unfold adv
    rcases hl : s.closeLoop with _ | l
    · exact absurd hl (hi.past c _ hp (by decide) (by decide))
    · exact ⟨_, rfl⟩
  | start =>
    unfold adv
    rcases hl : s.closeThread with _ | t
    · exact absurd hl (hi.pastT c hp)
    · obtain ⟨y, hy⟩ := Option.ne_none_iff_exists'.1 (hi.closeT t hl)
      simp only [hy]; split <;> exact ⟨_, rfl⟩
  | setInit => exact ⟨_, rfl⟩
  | submit =>
    unfold adv
    rcases hl : s.closeLoop with _ | l
    · exact absurd hl (hi.past c _ hp (by decide) (by decide))
    · obtain ⟨y, hy⟩ := Option.ne_none_iff_exists'.1 (hi.closeL l hl)
      simp only [hy]; exact ⟨_, rfl⟩
  | done => exact absurd rfl hd
  | failed => exact absurd rfl hf

/-! ## When the finalizers do not overlap -/

structure Good (s : St) : Prop where
  ex : ∃ l t x y, s.closeLoop = some l ∧ s.threads.get? t = some x ∧ x.loop = l ∧ s.loops.get? l = some y ∧ y.stopping = false ∧
    ((x.phase = .started ∧ y.running = false) ∨ (x.phase = .running ∧ y.running = true)) ∧ ∀ t' x', s.threads.get? t' = some x' → t' = t

structure Ser (s : St) : Prop where
  one : ∀ c d, SettingUp s c → SettingUp s d → c = d
  noFailed : ∀ c, s.pcs.get? c ≠ some .failed
  noneYet : s.initialized = false → (∀ c, s.pcs.get? c ≠ some .mkThread ∧ s.pcs.get? c ≠ some .start ∧ s.pcs.get? c ≠ some .setInit) →
    s.closeLoop = none ∧ ∀ t, s.threads.get? t = none
  initd : s.initialized = true → ∀ c, ¬ SettingUp s c
  st1 : ∀ c, s.pcs.get? c = some .mkThread → ∃ l, s.closeLoop = some l ∧ s.loops.get? l = some ⟨false, false, []⟩ ∧ ∀ t, s.threads.get? t = none
  st2 : ∀ c, s.pcs.get? c = some .start → ∃ l t, s.closeLoop = some l ∧ s.closeThread = some t ∧ s.threads.get? t = some ⟨l, .created⟩ ∧
    s.loops.get? l = some ⟨false, false, []⟩ ∧ ∀ t' x', s.threads.get? t' = some x' → t' = t
  st3 : ∀ c, s.pcs.get? c = some .setInit → Good s
  st4 : s.initialized = true → Good s
  past : ∀ c, (s.pcs.get? c = some .submit ∨ s.pcs.get? c = some .done) → s.initialized = true
  done : ∀ c, s.pcs.get? c = some .done → c ∈ s.closed ∨ ∃ l y, s.closeLoop = some l ∧ s.loops.get? l = some y ∧ c ∈ y.jobs

theorem ser_init : Ser init := by
  constructor <;> simp [init, Dict.get?, SettingUp]

theorem ser_adv {s s' : St} {c : Caller} {p : Pc} (hi : Inv s) (ho : Ser s) (a1 : s.pcs.get? c = some p) (a2 : adv s c p = some s')
    (hs : p = .check → ∀ d, ¬ SettingUp s d) : Ser s' := by
  obtain ⟨h1, h2, h3, h4, h5, h6, h7, h8, h9, h10⟩ := ho
  simp only [SettingUp] at h1 h4 hs
  rcases adv_cases a2 with ⟨rfl, b1, rfl⟩ | ⟨rfl, b1, rfl⟩ | ⟨rfl, rfl⟩ | ⟨l, rfl, b1, rfl⟩ | ⟨t, x, rfl, b1, b2, b3, rfl⟩ |
      ⟨t, x, rfl, b1, b2, b3, rfl⟩ | ⟨rfl, rfl⟩ | ⟨l, x, rfl, b1, b2, rfl⟩
  · constructor <;> simp only [setPc, SettingUp] <;> grind [Good]
  · constructor <;> simp only [setPc, SettingUp] <;> grind [Good]
  · have q : (s.pcs.set c Pc.mkThread).get? c = some .mkThread := by simp
    have hin : s.initialized = false := by
      rcases hz : s.initialized with _ | _
      · rfl
      · exact absurd (.inl a1) (h4 hz c)
    have hz := h3 hin (fun d => by grind)
    constructor <;> simp only [setPc, SettingUp] <;> grind [Good]
  · have q : (s.pcs.set c Pc.start).get? c = some .start := by simp
    constructor <;> simp only [setPc, SettingUp] <;> grind [Good]
  · have q : (s.pcs.set c Pc.setInit).get? c = some .setInit := by simp
    obtain ⟨l, t', g1, g2, g3, g4, g5⟩ := h6 c a1
    rw [g2] at b1; injection b1 with b1; subst b1
    rw [b2] at g3; injection g3 with g3; subst g3
    have hgood : Good { setPc s c .setInit with threads := s.threads.set t' ⟨l, .started⟩ } := by
      refine ⟨l, t', ⟨l, .started⟩, _, g1, by simp, rfl, g4, rfl, .inl ⟨rfl, rfl⟩, ?_⟩
      intro t'' x'' hx''
      simp only at hx''
      grind
    constructor
    · simp only [setPc, SettingUp]; grind
    · simp only [setPc, SettingUp]; grind
    · simp only [setPc, SettingUp]; grind
    · simp only [setPc, SettingUp]; grind
    · simp only [setPc, SettingUp]; grind
    · simp only [setPc, SettingUp]; grind
    · exact fun _ _ => hgood
    · exact fun _ => hgood
    · simp only [setPc, SettingUp]; grind
    · simp only [setPc, SettingUp]; grind
  · constructor <;> simp only [setPc, SettingUp] <;> grind [Good]
  · constructor <;> simp only [setPc, SettingUp] <;> grind [Good]
  · constructor <;> simp only [setPc, SettingUp] <;> grind [Good]

theorem good_of {s s' : St} (h : Good s) (h1 : s'.closeLoop = s.closeLoop) (h2 : s'.threads = s.threads) (h3 : s'.loops = s.loops) : Good s' := by
  obtain ⟨l, t, x, y, g⟩ := h
  exact ⟨l, t, x, y, by rw [h1, h2, h3]; exact g⟩

theorem thr_good {s : St} (ho : Ser s) {t : Thr} {x : Th} (h : s.threads.get? t = some x) (hp : x.phase ≠ .created) :
    Good s ∧ ∀ c, s.pcs.get? c ≠ some .mkThread ∧ s.pcs.get? c ≠ some .start := by
  have hno : ∀ c, s.pcs.get? c ≠ some .mkThread ∧ s.pcs.get? c ≠ some .start := by
    intro c
    refine ⟨fun hc => ?_, fun hc => ?_⟩
    · obtain ⟨_, _, _, h3⟩ := ho.st1 c hc
      rw [h3] at h; cases h
    · obtain ⟨l, t', _, _, g, _, h3⟩ := ho.st2 c hc
      obtain rfl := h3 t x h
      rw [g] at h; injection h with h; subst h; exact hp rfl
  refine ⟨?_, hno⟩
  rcases hin : s.initialized with _ | _
  · by_cases hs : ∃ c, s.pcs.get? c = some .setInit
    · obtain ⟨c, hc⟩ := hs; exact ho.st3 c hc
    · have := (ho.noneYet hin (fun c => ⟨(hno c).1, (hno c).2, fun hc => hs ⟨c, hc⟩⟩)).2 t
      rw [this] at h; cases h
  · exact ho.st4 hin

theorem ser_step {s s' : St} {l : Label} (hi : Inv s) (ho : Ser s) (h : step s l = some s')
    (hs : ∀ c, l = .adv c → s.pcs.get? c = some .check → ∀ d, ¬ SettingUp s d) : Ser s' := by
  rcases step_cases h with ⟨c, rfl, a1, rfl⟩ | ⟨c, p, rfl, a1, a2⟩ | ⟨t, x, y, rfl, a1, a2, a3, a4, rfl⟩ | ⟨t, x, y, rfl, a1, a2, a3, a4, rfl⟩ |
    ⟨k, x, c, rest, rfl, a1, a2, a3, rfl⟩ | ⟨t, x, y, rfl, a1, a2, a3, a4, rfl⟩
  · obtain ⟨h1, h2, h3, h4, h5, h6, h7, h8, h9, h10⟩ := ho
    simp only [SettingUp] at h1 h4
    have h3' : s.initialized = false → (∀ d, (s.pcs.set c Pc.check).get? d ≠ some .mkThread ∧ (s.pcs.set c Pc.check).get? d ≠ some .start ∧
        (s.pcs.set c Pc.check).get? d ≠ some .setInit) → s.closeLoop = none ∧ ∀ t, s.threads.get? t = none := by
      intro hin hall; apply h3 hin; intro d; have := hall d; grind
    constructor <;> simp only [setPc, SettingUp] <;> grind [Good]
  · exact ser_adv hi ho a1 a2 (fun hp => hs c rfl (by rw [a1, hp]))
  · -- no second thread runs the loop
    obtain ⟨⟨l, t', x', y', g1, g2, g3, g4, g5, g6, g7⟩, _⟩ := thr_good ho a1 (by rw [a3]; decide)
    obtain rfl := g7 t x a1
    rw [a1] at g2; injection g2 with g2; subst g2
    rw [g3] at a2; rw [a2] at g4; injection g4 with g4; subst g4
    rw [a3, a4] at g6; simp at g6
  · obtain ⟨⟨l, t', x', y', g1, g2, g3, g4, g5, g6, g7⟩, hno⟩ := thr_good ho a1 (by rw [a3]; decide)
    obtain rfl := g7 t x a1
    rw [a1] at g2; injection g2 with g2; subst g2
    subst g3; rw [a2] at g4; injection g4 with g4; subst g4
    have hgood : Good { s with threads := s.threads.set t { x with phase := .running }, loops := s.loops.set x.loop { y with running := true } } :=
      ⟨_, t, { x with phase := .running }, { y with running := true }, g1, by simp, rfl, by simp, g5, .inr ⟨rfl, rfl⟩, by
        intro t' x' h; simp only at h; grind⟩
    exact ⟨ho.one, ho.noFailed, fun h3 h4 => (by
      have := (ho.noneYet h3 h4).2 t; rw [this] at a1; cases a1), ho.initd, fun c hc => absurd hc (hno c).1, fun c hc => absurd hc (hno c).2,
      fun _ _ => hgood, fun _ => hgood, ho.past, fun c hc => by
        have := ho.done c hc
        grind⟩
  · have hin : s.initialized = true := ho.past c (.inr (hi.queued k x c a1 (by rw [a3]; simp)))
    have hno := ho.initd hin
    obtain ⟨l, t, x', y', g1, g2, g3, g4, g5, g6, g7⟩ := ho.st4 hin
    have hgood : Good { s with loops := s.loops.set k { x with jobs := rest }, closed := s.closed ++ [c] } := by
      by_cases hk : k = l
      · subst hk; rw [a1] at g4; injection g4 with g4; subst g4
        exact ⟨k, t, x', { x with jobs := rest }, g1, g2, g3, by simp, g5, g6, g7⟩
      · exact ⟨l, t, x', y', g1, g2, g3, by simp only; rw [Dict.get?_set, if_neg hk]; exact g4, g5, g6, g7⟩
    refine ⟨ho.one, ho.noFailed, fun h => (by rw [hin] at h; cases h), ho.initd, fun c hc => absurd (.inr (.inl hc)) (hno c),
      fun c hc => absurd (.inr (.inr (.inl hc))) (hno c), fun _ _ => hgood, fun _ => hgood, ho.past, fun d hd => ?_⟩
    rcases ho.done d hd with h | ⟨l', y'', e1, e2, e3⟩
    · exact .inl (by simp [h])
    · rw [g1] at e1; injection e1 with e1; subst e1
      by_cases hk : k = l
      · subst hk; rw [a1] at e2; injection e2 with e2; subst e2
        rw [a3] at e3
        rcases List.mem_cons.1 e3 with rfl | e3
        · exact .inl (by simp)
        · exact .inr ⟨k, _, g1, by simp; rfl, e3⟩
      · exact .inr ⟨l, y'', g1, by simp only; rw [Dict.get?_set, if_neg hk]; exact e2, e3⟩
  · obtain ⟨⟨l, t', x', y', g1, g2, g3, g4, g5, g6, g7⟩, _⟩ := thr_good ho a1 (by rw [a3]; decide)
    obtain rfl := g7 t x a1
    rw [a1] at g2; injection g2 with g2; subst g2
    rw [g3] at a2; rw [a2] at g4; injection g4 with g4; subst g4
    rw [a4] at g5; cases g5

theorem serial_run {s : St} (h : SerialRun s) : ∃ ls, Run ls s := by
  induction h with
  | init => exact ⟨[], .init⟩
  | snoc _ hs _ ih => obtain ⟨ls, h⟩ := ih; exact ⟨_, .snoc h hs⟩

theorem ser_run {s : St} (h : SerialRun s) : Ser s := by
  induction h with
  | init => exact ser_init
  | snoc h1 hs hq ih => obtain ⟨ls, h2⟩ := serial_run h1; exact ser_step (inv_run h2) ih hs hq

/-- a running loop gets to every job -/
theorem drains {s : St} {l : Loop} {y : Lp} (hl : s.loops.get? l = some y) (hr : y.running = true) {c : Caller} (hc : c ∈ y.jobs) :
    ∃ s', Later s s' ∧ c ∈ s'.closed := by
  rcases hj : y.jobs with _ | ⟨d, rest⟩
  · rw [hj] at hc; simp at hc
  · have key : ∀ (jobs : List Caller) (s : St), s.loops.get? l = some ⟨true, y.stopping, jobs⟩ → c ∈ jobs → ∃ s', Later s s' ∧ c ∈ s'.closed := by
      intro jobs
      induction jobs with
      | nil => intro s _ h; simp at h
      | cons d rest ih =>
        intro s hl hc
        have hs : step s (.job l) = some { s with loops := s.loops.set l ⟨true, y.stopping, rest⟩, closed := s.closed ++ [d] } := by
          unfold step; simp only [hl, if_true]
        rcases List.mem_cons.1 hc with rfl | hc
        · exact ⟨_, .step hs .refl, by simp⟩
        · obtain ⟨s', h1, h2⟩ := ih { s with loops := s.loops.set l ⟨true, y.stopping, rest⟩, closed := s.closed ++ [d] } (by simp) hc
          exact ⟨s', .step hs h1, h2⟩
    refine key y.jobs s ?_ hc
    rw [hl]; cases y; simp at hr; subst hr; rfl

def ran (s : St) (t : Thr) (x : Th) (l : Loop) (y : Lp) : St :=
  { s with threads := s.threads.set t { x with phase := .running }, loops := s.loops.set l { y with running := true } }

/-- When no thread ends just while another sets up the close thread, every finalizer succeeds and, at whatever moment one looks, the close thread
gets to close the connections of the ended thread. -/
theorem closed_partial {s : St} (h : SerialRun s) {c : Caller} (hc : s.pcs.get? c = some .done) : ∃ s', Later s s' ∧ c ∈ s'.closed := by
  have ho := ser_run h
  rcases ho.done c hc with hd | ⟨l, y, h1, h2, h3⟩
  · exact ⟨s, .refl, hd⟩
  · obtain ⟨l', t, x, y', g1, g2, g3, g4, g5, g6, g7⟩ := ho.st4 (ho.past c (.inr hc))
    rw [h1] at g1; injection g1 with g1; subst g1
    rw [h2] at g4; injection g4 with g4; subst g4
    rcases g6 with ⟨p1, p2⟩ | ⟨p1, p2⟩
    · have hs : step s (.run t) = some (ran s t x l y) := by
        unfold step; simp only [g2, g3, h2, p1, p2, if_true]; simp [ran, g3]
      obtain ⟨s', e1, e2⟩ := drains (s := ran s t x l y) (l := l) (y := { y with running := true }) (by simp [ran]) rfl h3
      exact ⟨s', .step hs e1, e2⟩
    · exact drains h2 p2 h3

/-- … and no finalizer fails. -/
theorem no_failure_partial {s : St} (h : SerialRun s) (c : Caller) : s.pcs.get? c ≠ some .failed := (ser_run h).noFailed c

/-! ## When they overlap -/

theorem failed_stays {s s' : St} (h : Later s s') {c : Caller} (hc : s.pcs.get? c = some .failed) : s'.pcs.get? c = some .failed := by
  induction h with
  | refl => exact hc
  | @step s s1 s' l hs _ ih =>
    apply ih
    rcases step_cases hs with ⟨d, rfl, a1, rfl⟩ | ⟨d, p, rfl, a1, a2⟩ | ⟨t, x, y, rfl, a1, a2, a3, a4, rfl⟩ | ⟨t, x, y, rfl, a1, a2, a3, a4, rfl⟩ |
      ⟨k, x, d, rest, rfl, a1, a2, a3, rfl⟩ | ⟨t, x, y, rfl, a1, a2, a3, a4, rfl⟩
    · simp only [setPc]; grind
    · have hne : p ≠ .failed := fun h => by subst h; cases a2
      rcases adv_cases a2 with ⟨rfl, b1, rfl⟩ | ⟨rfl, b1, rfl⟩ | ⟨rfl, rfl⟩ | ⟨l, rfl, b1, rfl⟩ | ⟨t, x, rfl, b1, b2, b3, rfl⟩ |
        ⟨t, x, rfl, b1, b2, b3, rfl⟩ | ⟨rfl, rfl⟩ | ⟨l, x, rfl, b1, b2, rfl⟩ <;> simp only [setPc] <;> grind
    all_goals exact hc

theorem later_run {ls : List Label} {s s' : St} (h : Run ls s) (hl : Later s s') : ∃ ls', Run ls' s' := by
  induction hl generalizing ls with
  | refl => exact ⟨ls, h⟩
  | step hs _ ih => exact ih (h.snoc hs)

/-- The connections of a thread whose finalizer failed are never closed. -/
theorem failed_never {ls : List Label} {s s' : St} (h : Run ls s) {c : Caller} (hc : s.pcs.get? c = some .failed) (hl : Later s s') :
    c ∉ s'.closed := by
  obtain ⟨ls', hr⟩ := later_run h hl
  intro hm
  have := (inv_run hr).isClosed c hm
  rw [failed_stays hl hc] at this; cases this

theorem run_of (ls0 ls : List Label) (s0 s : St) (h0 : Run ls0 s0) (h : ls.foldlM step s0 = some s) : Run (ls0 ++ ls) s := by
  induction ls generalizing ls0 s0 with
  | nil => simp only [List.foldlM_nil] at h; injection h with h; subst h; simpa using h0
  | cons l ls ih =>
    simp only [List.foldlM_cons] at h
    rcases hl : step s0 l with _ | s1
    · rw [hl] at h; cases h
    · rw [hl] at h
      have := ih (ls0 ++ [l]) s1 (Run.snoc h0 hl) h
      simpa using this

/-- **Refuted**: "the connections of an ended thread are closed": two threads end at the same time as the first ones of the process; one of the
finalizers starts the other's close thread, whose own start then fails. -/
theorem start_twice_refuted : ∃ s, Run [.threadEnds 1, .threadEnds 2, .adv 1, .adv 2, .adv 1, .adv 1, .adv 2, .adv 2, .adv 1, .adv 2] s ∧
    s.pcs.get? 2 = some .failed ∧ ∀ s', Later s s' → 2 ∉ s'.closed := by
  have hr := run_of [] [.threadEnds 1, .threadEnds 2, .adv 1, .adv 2, .adv 1, .adv 1, .adv 2, .adv 2, .adv 1, .adv 2] _
    ⟨false, some 1, some 1, [(0, ⟨false, false, []⟩), (1, ⟨false, false, []⟩)], [(0, ⟨0, .created⟩), (1, ⟨1, .started⟩)],
      [(1, .setInit), (2, .failed)], 2, 2, []⟩ Run.init (by
    simp [List.foldlM, step, adv, init, setPc, Dict.get?, Dict.set])
  exact ⟨_, hr, rfl, fun s' hl => failed_never hr rfl hl⟩

structure Dead (s : St) : Prop where
  init : s.initialized = true
  pcs : ∀ c, ¬ SettingUp s c
  threads : ∀ t x, s.threads.get? t = some x → x.phase = .ended
  loops : ∀ l x, s.loops.get? l = some x → x.running = false

theorem dead_later {s s' : St} (h : Later s s') (hd : Dead s) : s'.closed = s.closed := by
  induction h with
  | refl => rfl
  | @step s s1 s' l hs _ ih =>
    have key : Dead s1 ∧ s1.closed = s.closed := by
      obtain ⟨h1, h2, h3, h4⟩ := hd
      simp only [SettingUp] at h2
      rcases step_cases hs with ⟨d, rfl, a1, rfl⟩ | ⟨d, p, rfl, a1, a2⟩ | ⟨t, x, y, rfl, a1, a2, a3, a4, rfl⟩ | ⟨t, x, y, rfl, a1, a2, a3, a4, rfl⟩ |
        ⟨k, x, d, rest, rfl, a1, a2, a3, rfl⟩ | ⟨t, x, y, rfl, a1, a2, a3, a4, rfl⟩
      · refine ⟨?_, rfl⟩; constructor <;> simp only [setPc, SettingUp] <;> grind
      · rcases adv_cases a2 with ⟨rfl, b1, rfl⟩ | ⟨rfl, b1, rfl⟩ | ⟨rfl, rfl⟩ | ⟨l, rfl, b1, rfl⟩ | ⟨t, x, rfl, b1, b2, b3, rfl⟩ |
          ⟨t, x, rfl, b1, b2, b3, rfl⟩ | ⟨rfl, rfl⟩ | ⟨l, x, rfl, b1, b2, rfl⟩
        · refine ⟨?_, rfl⟩; constructor <;> simp only [setPc, SettingUp] <;> grind
        · rw [h1] at b1; cases b1
        · exact absurd (.inl a1) (h2 d)
        · exact absurd (.inr (.inl a1)) (h2 d)
        · exact absurd (.inr (.inr (.inl a1))) (h2 d)
        · exact absurd (.inr (.inr (.inl a1))) (h2 d)
        · exact absurd (.inr (.inr (.inr a1))) (h2 d)
        · refine ⟨?_, rfl⟩; constructor <;> simp only [setPc, SettingUp] <;> grind
      · have := h3 t x a1; rw [a3] at this; cases this
      · have := h3 t x a1; rw [a3] at this; cases this
      · have := h4 k x a1; rw [a2] at this; cases this
      · have := h3 t x a1; rw [a3] at this; cases this
    rw [ih key.1, key.2]

/-- **Refuted**, worse: both close threads are given the same loop; the second fails to run it and stops the first.  From then on the
connections of no thread are ever closed. -/
theorem loop_stopped_refuted : ∃ s, Run [.threadEnds 1, .threadEnds 2, .adv 1, .adv 2, .adv 1, .adv 2, .adv 1, .adv 1, .adv 2, .adv 2, .adv 1, .adv 2,
    .run 0, .run 1, .stops 0] s ∧ s.initialized = true ∧ ∀ s', Later s s' → s'.closed = [] := by
  have hr := run_of [] [.threadEnds 1, .threadEnds 2, .adv 1, .adv 2, .adv 1, .adv 2, .adv 1, .adv 1, .adv 2, .adv 2, .adv 1, .adv 2,
      .run 0, .run 1, .stops 0] _
    ⟨true, some 1, some 1, [(0, ⟨false, false, []⟩), (1, ⟨false, true, []⟩)], [(0, ⟨1, .ended⟩), (1, ⟨1, .ended⟩)],
      [(1, .submit), (2, .submit)], 2, 2, []⟩ Run.init (by
    simp [List.foldlM, step, adv, init, setPc, Dict.get?, Dict.set])
  refine ⟨_, hr, rfl, fun s' hl => dead_later hl ⟨rfl, ?_, ?_, ?_⟩⟩
  · intro c h; simp only [SettingUp, Dict.get?] at h; grind
  · intro t x h; simp only [Dict.get?] at h; grind
  · intro t x h; simp only [Dict.get?] at h; grind

/-! ## Nothing is closed twice, or that is in use -/

/-- The connections of a thread are closed only after it has ended, and only once. -/
theorem closed_once {ls : List Label} {s : St} (h : Run ls s) : s.closed.Nodup ∧ ∀ c ∈ s.closed, .threadEnds c ∈ ls := by
  have key : ∀ {ls s}, Run ls s → s.closed.Nodup ∧ (∀ l x, s.loops.get? l = some x → x.jobs.Nodup ∧ ∀ c ∈ x.jobs, c ∉ s.closed) ∧
      (∀ l l' x x' c, s.loops.get? l = some x → s.loops.get? l' = some x' → c ∈ x.jobs → c ∈ x'.jobs → l = l') ∧
      (∀ c p, s.pcs.get? c = some p → Label.threadEnds c ∈ ls) := by
    intro ls s h
    induction h with
    | init => simp [init, Dict.get?]
    | @snoc ls l s s' hr hs ih =>
      obtain ⟨h1, h2, h3, h4⟩ := ih
      have hi := inv_run hr
      have h4' : ∀ c p, s.pcs.get? c = some p → Label.threadEnds c ∈ ls ++ [l] := fun c p h => by simp [h4 c p h]
      rcases step_cases hs with ⟨d, rfl, a1, rfl⟩ | ⟨d, p, rfl, a1, a2⟩ | ⟨t, x, y, rfl, a1, a2, a3, a4, rfl⟩ | ⟨t, x, y, rfl, a1, a2, a3, a4, rfl⟩ |
        ⟨k, x, d, rest, rfl, a1, a2, a3, rfl⟩ | ⟨t, x, y, rfl, a1, a2, a3, a4, rfl⟩
      · refine ⟨h1, h2, h3, fun c p hc => ?_⟩
        simp only [setPc] at hc
        rw [Dict.get?_set] at hc; split at hc
        · subst_vars; simp
        · exact h4' c p hc
      · have h5 : ∀ q, ∀ c r, (s.pcs.set d q).get? c = some r → Label.threadEnds c ∈ ls ++ [Label.adv d] := by
          intro q c r hc
          rw [Dict.get?_set] at hc; split at hc
          · subst_vars; exact h4' _ _ a1
          · exact h4' c r hc
        rcases adv_cases a2 with ⟨rfl, b1, rfl⟩ | ⟨rfl, b1, rfl⟩ | ⟨rfl, rfl⟩ | ⟨l, rfl, b1, rfl⟩ | ⟨t, x, rfl, b1, b2, b3, rfl⟩ |
          ⟨t, x, rfl, b1, b2, b3, rfl⟩ | ⟨rfl, rfl⟩ | ⟨l, x, rfl, b1, b2, rfl⟩
        · exact ⟨h1, h2, h3, h5 _⟩
        · exact ⟨h1, h2, h3, h5 _⟩
        · refine ⟨h1, ?_, ?_, h5 _⟩ <;> simp only [setPc] <;> grind
        · exact ⟨h1, h2, h3, h5 _⟩
        · exact ⟨h1, h2, h3, h5 _⟩
        · exact ⟨h1, h2, h3, h5 _⟩
        · exact ⟨h1, h2, h3, h5 _⟩
        · have hq : ∀ l x, s.loops.get? l = some x → d ∉ x.jobs := fun l x hl hd => by
            have := hi.queued l x d hl hd; rw [a1] at this; cases this
          have hcl : d ∉ s.closed := fun hd => by have := hi.isClosed d hd; rw [a1] at this; cases this
          refine ⟨h1, ?_, ?_, h5 _⟩
          · intro l' x' hl'
            simp only at hl'
            rw [Dict.get?_set] at hl'
            split at hl'
            · injection hl' with hl'; subst hl'
              refine ⟨List.nodup_append.2 ⟨(h2 l x b2).1, by simp, ?_⟩, ?_⟩
              · intro a ha b hb; rw [List.mem_singleton] at hb; subst hb; exact fun e => hq l x b2 (e ▸ ha)
              · intro c hc
                rcases List.mem_append.1 hc with hc | hc
                · exact (h2 l x b2).2 c hc
                · rw [List.mem_singleton] at hc; subst hc; exact hcl
            · exact h2 l' x' hl'
          · intro l1 l2 x1 x2 c
            simp only
            intro g1 g2 g3 g4
            grind
      · refine ⟨h1, ?_, ?_, h4'⟩ <;> simp only <;> grind
      · refine ⟨h1, ?_, ?_, h4'⟩ <;> simp only <;> grind
      · have hj := h2 k x a1
        rw [a3] at hj
        refine ⟨?_, ?_, ?_, h4'⟩
        · exact List.nodup_append.2 ⟨h1, by simp, fun a ha b hb => by
            rw [List.mem_singleton] at hb; subst hb; exact fun e => hj.2 b (by simp) (e ▸ ha)⟩
        · intro l' x' hl'
          simp only at hl'
          rw [Dict.get?_set] at hl'
          split at hl'
          · injection hl' with hl'; subst hl'
            have hn := List.nodup_cons.1 hj.1
            refine ⟨hn.2, fun c hc => ?_⟩
            simp only [List.mem_append, List.mem_singleton, not_or]
            exact ⟨hj.2 c (by simp [hc]), fun e => hn.1 (e ▸ hc)⟩
          · rename_i hne
            refine ⟨(h2 l' x' hl').1, fun c hc => ?_⟩
            simp only [List.mem_append, List.mem_singleton, not_or]
            exact ⟨(h2 l' x' hl').2 c hc, fun e => hne (h3 k l' x x' c a1 hl' (by rw [a3, e]; simp) hc)⟩
        · intro l1 l2 x1 x2 c
          simp only
          intro g1 g2 g3 g4
          grind
      · refine ⟨h1, ?_, ?_, h4'⟩ <;> simp only <;> grind
  obtain ⟨h1, _, _, h4⟩ := key h
  exact ⟨h1, fun c hc => h4 c _ ((inv_run h).isClosed c hc)⟩

/-! ## Concrete cases -/

/-- two threads one after the other -/
example : ∃ s, SerialRun s ∧ s.pcs.get? 2 = some .done ∧ s.closed = [1] ∧ ∃ s', step s (.job 0) = some s' ∧ s'.closed = [1, 2] := by
  have st : ∀ {s s' : St} {l : Label}, SerialRun s → step s l = some s' → (∀ d, s.pcs.get? d ≠ some .mkLoop ∧ s.pcs.get? d ≠ some .mkThread ∧
      s.pcs.get? d ≠ some .start ∧ s.pcs.get? d ≠ some .setInit) → SerialRun s' := fun h hs hq =>
    .snoc h hs (fun _ _ _ d hd => by rcases hd with hd | hd | hd | hd <;> simp [hq d] at hd)
  have st' : ∀ {s s' : St} {c : Caller} {p : Pc}, SerialRun s → s.pcs.get? c = some p → p ≠ .check → step s (.adv c) = some s' → SerialRun s' :=
    fun h hc hp hs => .snoc h hs (fun d hd hq => by injection hd with hd; subst hd; rw [hc] at hq; injection hq with hq; exact absurd hq hp)
  have e := st (l := .threadEnds 1) SerialRun.init rfl (by intro d; simp [init, Dict.get?])
  have e := st (l := .adv 1) e rfl (by intro d; simp only [setPc, init, Dict.set, Dict.get?]; grind)
  have e := st' (c := 1) (p := .mkLoop) e rfl (by decide) rfl
  have e := st' (c := 1) (p := .mkThread) e rfl (by decide) rfl
  have e := st' (c := 1) (p := .start) e rfl (by decide) rfl
  have e := st' (c := 1) (p := .setInit) e rfl (by decide) rfl
  have e := st' (c := 1) (p := .submit) e rfl (by decide) rfl
  have e := SerialRun.snoc (l := .run 0) e rfl (by intro c h; cases h)
  have e := SerialRun.snoc (l := .job 0) e rfl (by intro c h; cases h)
  have e := SerialRun.snoc (l := .threadEnds 2) e rfl (by intro c h; cases h)
  have e : SerialRun ⟨true, some 0, some 0, [(0, ⟨true, false, []⟩)], [(0, ⟨0, .running⟩)], [(1, .done), (2, .check)], 1, 1, [1]⟩ := e
  have e := st (l := .adv 2) e rfl (by intro d; simp only [Dict.get?]; grind)
  have e := st' (c := 2) (p := .submit) e rfl (by decide) rfl
  exact ⟨_, e, rfl, rfl, _, rfl, rfl⟩

end Xoscar.Closer
