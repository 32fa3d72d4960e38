import Verif.Spec.InitPg
import Verif.Proof.Base
/-!
# C91: joining the default group
-/
namespace Xoscar.InitPg
attribute [local grind =] Dict.get?_set Dict.get?_erase

structure Inv (st : St) : Prop where
  pool : ∀ x q, st.pools.get? x = some q ↔ ∃ pr, st.procs.get? q = some pr ∧ pr.addr = x
  actor : ∀ x r, st.actors.get? x = some r → ∃ q, st.pools.get? x = some q

theorem asked_iff (a : Args) (pr : Proc) (x : String) : Asked a pr x ↔ addressOf a pr.rankAddr = some x := by
  unfold Asked addressOf
  rcases a.address with _ | y
  · simp
  · by_cases e : y = ""
    · simp [e]
    · simp only [if_neg e]; grind

theorem valid_iff (a : Args) (pr : Proc) : Valid a pr ↔ deviceOk a pr.device = .ok true ∧ cupyOk a.backend pr.cupy = true := by
  unfold Valid deviceOk cupyOk envOk
  rcases hb : a.backend with _ | _ | _ <;> rcases hd : a.device with _ | d <;> rcases he : pr.device with _ | _ | i <;> simp <;> grind

/-- the four parts of a successful or failed creation -/
theorem initPg_cases (st : St) (pr : Proc) (a : Args) (c : Bool) :
    (∃ r, initPg st pr a c = (st, r) ∧ r ≠ .ok ∧ r ≠ .failed) ∨
    ∃ x q qr, Valid a pr ∧ Asked a pr x ∧ st.pools.get? x = some q ∧ st.procs.get? q = some qr ∧ st.actors.get? x = none ∧ cupyOk a.backend qr.cupy = true ∧
      initPg st pr a c = create st x q qr ⟨a.rank, a.world, a.backend, deviceOf a pr.device⟩ c := by
  have henv : ∀ e r, envOk e = .error r → r = .valueError := by
    intro e r h; unfold envOk at h; split at h <;> simp_all
  have hdev : ∀ r, deviceOk a pr.device = .error r → r = .valueError := by
    intro r h
    unfold deviceOk at h
    split at h
    · cases h
    · cases h
    · split at h
      · split at h
        · cases h
        · exact henv _ _ h
      · exact henv _ _ h
  unfold initPg
  rcases h1 : deviceOk a pr.device with e | _ | _
  · left; refine ⟨e, rfl, ?_⟩; rw [hdev e h1]; simp
  · left; exact ⟨_, rfl, by simp⟩
  · dsimp only
    by_cases h2 : cupyOk a.backend pr.cupy = true
    · rw [if_pos h2]
      have hv := (valid_iff a pr).mpr ⟨h1, h2⟩
      rcases h3 : addressOf a pr.rankAddr with _ | x
      · left; exact ⟨_, rfl, by simp⟩
      · have ha := (asked_iff a pr x).mpr h3
        dsimp only
        unfold createAt
        rcases h4 : st.pools.get? x with _ | q
        · left; exact ⟨_, rfl, by simp⟩
        · dsimp only
          rcases h5 : st.procs.get? q with _ | qr
          · left; exact ⟨_, rfl, by simp⟩
          · dsimp only
            rcases h6 : st.actors.get? x with _ | r0
            · by_cases h7 : cupyOk a.backend qr.cupy = true
              · right; exact ⟨x, q, qr, hv, ha, h4, h5, h6, h7, by simp [h7]⟩
              · left; exact ⟨.cupy, by simp [h7], by simp⟩
            · left; exact ⟨.already, by simp, by simp⟩
    · rw [if_neg h2]; left; exact ⟨_, rfl, by simp⟩

theorem run_inv {ls : List Label} {st : St} (h : Run ls st) : Inv st := by
  induction h with
  | init => exact ⟨by simp [init, Dict.get?], by simp [init, Dict.get?]⟩
  | snoc hr hs ih =>
    rename_i ls l s s'
    obtain ⟨i1, i2⟩ := ih
    cases l with
    | start p pr =>
      simp only [step] at hs
      split at hs
      · injection hs with hs; subst hs
        constructor
        · intro x q; dsimp only; have := i1 x q; have := i1 pr.addr q; have := i1 x p; grind
        · intro x r hx; dsimp only at *; have := i2 x r hx; grind
      · cases hs
    | child p q x =>
      simp only [step] at hs
      split at hs
      · rename_i pr _ _ _
        injection hs with hs; subst hs
        constructor
        · intro y z; dsimp only; have := i1 y z; have := i1 x z; have := i1 y q; grind
        · intro y r hx; dsimp only at *; have := i2 y r hx; grind
      · cases hs
    | init p a c r =>
      simp only [step] at hs
      split at hs
      · rename_i pr hp
        split at hs
        · injection hs with hs; subst hs
          rcases initPg_cases s pr a c with ⟨r, e, _⟩ | ⟨x, q, qr, _, _, hx, hq, _, _, e⟩
          · rw [e]; exact ⟨i1, i2⟩
          · rw [e]; unfold create
            have key : Inv { s with procs := s.procs.set q { qr with rankAddr := some x } } := by
              constructor
              · intro y z; dsimp only; have := i1 y z; grind
              · intro y r hy; exact i2 y r hy
            cases c
            · exact key
            · refine ⟨key.pool, ?_⟩
              intro y r hy
              simp only [if_true] at hy
              dsimp only at *
              have := i2 y r
              grind
        · cases hs
      · cases hs
    | destroy x =>
      simp only [step] at hs
      split at hs
      · injection hs with hs; subst hs
        refine ⟨i1, ?_⟩
        intro y r hy; have := i2 y r; dsimp only at *; grind
      · cases hs

theorem init_step {st st' : St} {p : Nat} {a : Args} {c : Bool} {r : Res} (hs : step st (.init p a c r) = some st') :
    ∃ pr, st.procs.get? p = some pr ∧ initPg st pr a c = (st', r) := by
  simp only [step] at hs
  split at hs
  · rename_i pr hp
    split at hs
    · rename_i e; injection hs with hs; exact ⟨pr, hp, by rw [← hs, ← e]⟩
    · cases hs
  · cases hs

/-- **Who may join**: `init_process_group` succeeds exactly if the arguments are in order, an address is given or set, a pool is there that has no
rank yet (with cupy if needed), and the group can be connected. -/
theorem joined_iff {st : St} {p : Nat} {pr : Proc} (hp : st.procs.get? p = some pr) (a : Args) (c : Bool) :
    (∃ st', step st (.init p a c .ok) = some st') ↔ Valid a pr ∧ c = true ∧ ∃ x q qr, Asked a pr x ∧ st.pools.get? x = some q ∧
      st.procs.get? q = some qr ∧ st.actors.get? x = none ∧ (a.backend = .nccl → qr.cupy = true) := by
  constructor
  · rintro ⟨st', hs⟩
    obtain ⟨pr', hp', e⟩ := init_step hs
    rw [hp] at hp'; injection hp' with hp'; subst hp'
    rcases initPg_cases st pr a c with ⟨r, e', h1, _⟩ | ⟨x, q, qr, hv, ha, hx, hq, hn, hc, e'⟩
    · rw [e'] at e; injection e with _ e; exact absurd e h1
    · rw [e'] at e
      unfold create at e
      cases c
      · injection e with _ e; cases e
      · exact ⟨hv, rfl, x, q, qr, ha, hx, hq, hn, fun hb => by rw [hb] at hc; exact hc⟩
  · rintro ⟨hv, rfl, x, q, qr, ha, hx, hq, hn, hc⟩
    have hc' : cupyOk a.backend qr.cupy = true := by
      rcases hv with hb | ⟨hb, _⟩
      · rw [hb]; rfl
      · rw [hb]; exact hc hb
    have e : initPg st pr a true = create st x q qr ⟨a.rank, a.world, a.backend, deviceOf a pr.device⟩ true := by
      obtain ⟨h1, h2⟩ := (valid_iff a pr).mp hv
      unfold initPg
      rw [h1]
      simp only [h2, if_true, (asked_iff a pr x).mp ha, createAt, hx, hq, hn, Option.isSome_none, hc']
      simp
    refine ⟨(create st x q qr ⟨a.rank, a.world, a.backend, deviceOf a pr.device⟩ true).1, ?_⟩
    simp only [step, hp, e]; rfl

theorem device_spec (a : Args) (pr : Proc) (hv : Valid a pr) : Device a pr (deviceOf a pr.device) := by
  unfold Device deviceOf
  unfold Valid at hv
  rcases hb : a.backend with _ | _ | _ <;> rcases hd : a.device with _ | d <;> rcases he : pr.device with _ | _ | i <;> simp_all

/-- **What joining does**: the pool asked for has the rank asked for, with the device asked for; collective calls made in that pool's process act as
this rank, on the caller's own data; nobody else's rank or environment changes. -/
theorem joined {ls : List Label} {st st' : St} (_h : Run ls st) {p : Nat} {a : Args} {c : Bool} (hs : step st (.init p a c .ok) = some st') :
    ∃ pr x q d, st.procs.get? p = some pr ∧ Asked a pr x ∧ Device a pr d ∧ st.pools.get? x = some q ∧
      st'.actors.get? x = some ⟨a.rank, a.world, a.backend, d⟩ ∧ (∀ y, y ≠ x → st'.actors.get? y = st.actors.get? y) ∧
      call st' q = .acts ⟨a.rank, a.world, a.backend, d⟩ true ∧ (∀ z, z ≠ q → st'.procs.get? z = st.procs.get? z) ∧ st'.pools = st.pools := by
  obtain ⟨pr, hp, e⟩ := init_step hs
  rcases initPg_cases st pr a c with ⟨r, e', h1, _⟩ | ⟨x, q, qr, hv, ha, hx, hq, hn, hc, e'⟩
  · rw [e'] at e; injection e with _ e; exact absurd e h1
  · rw [e'] at e
    unfold create at e
    cases c
    · injection e with _ e; cases e
    · simp only [if_true] at e
      injection e with e _; subst e
      refine ⟨pr, x, q, deviceOf a pr.device, hp, ha, device_spec a pr hv, hx, ?_, ?_, ?_, ?_, rfl⟩
      · simp
      · intro y hy; have : ¬ x = y := fun e => hy e.symm; simp [this]
      · simp [call, hx]
      · intro z hz; have : ¬ q = z := fun e => hz e.symm; simp [this]

/-- Joining through another process's pool does not make the caller part of the group. -/
theorem other_process {ls : List Label} {st st' : St} (h : Run ls st) {p : Nat} {a : Args} {c : Bool} (hs : step st (.init p a c .ok) = some st')
    (hc : call st p = .notInit) {pr : Proc} (hp : st.procs.get? p = some pr) (ha : ∀ x, Asked a pr x → x ≠ pr.addr) : call st' p = .notInit := by
  obtain ⟨pr', x, q, d, hp', hx, _, hq, _, _, _, h8, _⟩ := joined h hs
  rw [hp] at hp'; injection hp' with hp'; subst hp'
  have hpq : p ≠ q := by
    intro e
    obtain ⟨qr, h1, h2⟩ := ((run_inv h).pool x q).mp hq
    rw [← e, hp] at h1; injection h1 with h1; subst h1
    exact ha x hx h2.symm
  unfold call at hc ⊢
  rw [h8 p hpq, hp]
  rw [hp] at hc
  dsimp only at hc ⊢
  rcases hr : pr.rankAddr with _ | y
  · rfl
  · exfalso
    simp only [hr] at hc
    split at hc <;> cases hc

/-- A refused `init_process_group` changes no rank; unless the group could not be connected it changes nothing at all. -/
theorem refused {st st' : St} {p : Nat} {a : Args} {c : Bool} {r : Res} (hs : step st (.init p a c r) = some st') (hr : r ≠ .ok) :
    st'.actors = st.actors ∧ (r ≠ .failed → st' = st) := by
  obtain ⟨pr, hp, e⟩ := init_step hs
  rcases initPg_cases st pr a c with ⟨r', e', _⟩ | ⟨x, q, qr, _, _, _, _, _, _, e'⟩
  · rw [e'] at e; injection e with e _; subst e; exact ⟨rfl, fun _ => rfl⟩
  · rw [e'] at e
    unfold create at e
    cases c
    · injection e with e1 e2; subst e1; exact ⟨rfl, fun h => absurd e2.symm h⟩
    · injection e with e1 e2; exact absurd e2.symm hr

/-- The reasons given: no address, no pool, a rank that is there already. -/
theorem reasons {st : St} {p : Nat} {pr : Proc} (hp : st.procs.get? p = some pr) {a : Args} {c : Bool} (hv : Valid a pr) :
    ((∃ st', step st (.init p a c .noAddress) = some st') ↔ ¬ ∃ x, Asked a pr x) ∧
    (∀ x, Asked a pr x → st.pools.get? x = none → ∃ st', step st (.init p a c .noPool) = some st') ∧
    ((∃ st', step st (.init p a c .already) = some st') ↔
      ∃ x q qr r, Asked a pr x ∧ st.pools.get? x = some q ∧ st.procs.get? q = some qr ∧ st.actors.get? x = some r) := by
  obtain ⟨h1, h2⟩ := (valid_iff a pr).mp hv
  have hstep : ∀ r, (∃ st', step st (.init p a c r) = some st') ↔ (initPg st pr a c).2 = r := by
    intro r
    simp only [step, hp]
    constructor
    · rintro ⟨st', h⟩; split at h
      · assumption
      · cases h
    · intro h; exact ⟨_, if_pos h⟩
  have hg0 : addressOf a pr.rankAddr = none → initPg st pr a c = (st, .noAddress) := by
    intro e; unfold initPg; rw [h1]; simp only [h2, if_true, e]
  have hg1 : ∀ x, addressOf a pr.rankAddr = some x → initPg st pr a c = createAt st x ⟨a.rank, a.world, a.backend, deviceOf a pr.device⟩ c := by
    intro x e; unfold initPg; rw [h1]; simp only [h2, if_true, e]
  have hcr : ∀ x, (createAt st x ⟨a.rank, a.world, a.backend, deviceOf a pr.device⟩ c).2 ≠ .noAddress := by
    intro x; unfold createAt create
    repeat' split
    all_goals simp
  refine ⟨?_, ?_, ?_⟩
  · rw [hstep]
    rcases h3 : addressOf a pr.rankAddr with _ | x
    · rw [hg0 h3]; simp only [true_iff]; rintro ⟨x, hx⟩; rw [asked_iff, h3] at hx; cases hx
    · rw [hg1 x h3]
      exact ⟨fun e => absurd e (hcr x), fun e => absurd ⟨x, (asked_iff a pr x).mpr h3⟩ e⟩
  · intro x hx hn
    rw [hstep, hg1 x ((asked_iff a pr x).mp hx)]
    simp [createAt, hn]
  · rw [hstep]
    rcases h3 : addressOf a pr.rankAddr with _ | x
    · rw [hg0 h3]; simp only [reduceCtorEq, false_iff]; rintro ⟨x, _, _, _, hx, _⟩; rw [asked_iff, h3] at hx; cases hx
    · rw [hg1 x h3]
      constructor
      · intro e
        unfold createAt at e
        rcases h4 : st.pools.get? x with _ | q
        · rw [h4] at e; cases e
        · rw [h4] at e; dsimp only at e
          rcases h5 : st.procs.get? q with _ | qr
          · rw [h5] at e; cases e
          · rw [h5] at e; dsimp only at e
            rcases h6 : st.actors.get? x with _ | r
            · exfalso
              rw [h6] at e
              unfold create at e
              revert e
              cases c <;> by_cases h7 : cupyOk a.backend qr.cupy = true <;> simp [h7]
            · exact ⟨x, q, qr, r, (asked_iff a pr x).mpr h3, h4, h5, h6⟩
      · rintro ⟨y, q, qr, r, hy, h4, h5, h6⟩
        rw [asked_iff, h3] at hy; injection hy with hy; subst hy
        simp [createAt, h4, h5, h6]

/-- The reasons given for arguments that are not in order. -/
theorem reasons_args {st : St} {p : Nat} {pr : Proc} (hp : st.procs.get? p = some pr) (a : Args) (c : Bool) :
    (a.backend = .other → ∃ st', step st (.init p a c .device) = some st') ∧
    (a.backend = .nccl → (∀ d, a.device = some d → d < 0) → (pr.device = none ∨ ∃ i, pr.device = some (some i) ∧ i < 0) →
      ∃ st', step st (.init p a c .device) = some st') ∧
    (a.backend = .nccl → (∀ d, a.device = some d → d < 0) → pr.device = some none → ∃ st', step st (.init p a c .valueError) = some st') ∧
    (a.backend = .nccl → pr.cupy = false → ((∃ d, a.device = some d ∧ 0 ≤ d) ∨ ∃ i, pr.device = some (some i) ∧ 0 ≤ i) →
      ∃ st', step st (.init p a c .cupy) = some st') := by
  have hstep : ∀ r, (initPg st pr a c).2 = r → ∃ st', step st (.init p a c r) = some st' := by
    intro r h
    simp only [step, hp]
    exact ⟨_, if_pos h⟩
  refine ⟨?_, ?_, ?_, ?_⟩
  · intro hb; apply hstep; simp [initPg, deviceOk, hb]
  · intro hb hd he
    apply hstep
    have : deviceOk a pr.device = .ok false := by
      rcases hdv : a.device with _ | d
      · rcases he with he | ⟨i, he, hi⟩
        · simp [deviceOk, hb, hdv, he, envOk]
        · have : ¬ 0 ≤ i := by omega
          simp [deviceOk, hb, hdv, he, envOk, hi]
      · have h0 : ¬ 0 ≤ d := by have := hd d hdv; omega
        rcases he with he | ⟨i, he, hi⟩
        · simp [deviceOk, hb, hdv, he, envOk, h0]
        · simp [deviceOk, hb, hdv, he, envOk, h0, hi]
    simp [initPg, this]
  · intro hb hd he
    apply hstep
    have : deviceOk a pr.device = .error .valueError := by
      rcases hdv : a.device with _ | d
      · simp [deviceOk, hb, hdv, he, envOk]
      · have h0 : ¬ 0 ≤ d := by have := hd d hdv; omega
        simp [deviceOk, hb, hdv, he, envOk, h0]
    simp [initPg, this]
  · intro hb hc hd
    apply hstep
    have h1 : deviceOk a pr.device = .ok true := by
      have hv := (valid_iff a { pr with cupy := true }).mp (.inr ⟨hb, rfl, hd⟩)
      exact hv.1
    simp [initPg, h1, cupyOk, hb, hc]

/-- one step keeps a rank that is not destroyed, and the calls of its process -/
theorem keep {st st' : St} (i : Inv st) {l : Label} (hs : step st l = some st') {x : String} {q : Nat} {r : Rank} (hq : st.pools.get? x = some q)
    (hr : st.actors.get? x = some r) (hc : ∃ pr, st.procs.get? q = some pr ∧ pr.rankAddr = some x) (hl : l ≠ .destroy x) :
    st'.pools.get? x = some q ∧ st'.actors.get? x = some r ∧ ∃ pr, st'.procs.get? q = some pr ∧ pr.rankAddr = some x := by
  obtain ⟨pr0, hp0, hra⟩ := hc
  cases l with
  | start p pr =>
    simp only [step] at hs
    split at hs
    · rename_i a1 a2
      injection hs with hs; subst hs
      have n1 : ¬ p = q := by intro e; rw [e, hp0] at a1; cases a1
      have n2 : ¬ pr.addr = x := by intro e; rw [e, hq] at a2; cases a2
      exact ⟨by simp [n2, hq], hr, pr0, by simp [n1, hp0], hra⟩
    · cases hs
  | child p z y =>
    simp only [step] at hs
    split at hs
    · rename_i _ a1 a2
      injection hs with hs; subst hs
      have n1 : ¬ z = q := by intro e; rw [e, hp0] at a1; cases a1
      have n2 : ¬ y = x := by intro e; rw [e, hq] at a2; cases a2
      exact ⟨by simp [n2, hq], hr, pr0, by simp [n1, hp0], hra⟩
    · cases hs
  | init p a c res =>
    obtain ⟨pr, hp, e⟩ := init_step hs
    rcases initPg_cases st pr a c with ⟨r', e', _⟩ | ⟨y, z, zr, _, _, hy, hz, hn, _, e'⟩
    · rw [e'] at e; injection e with e _; subst e; exact ⟨hq, hr, pr0, hp0, hra⟩
    · have hyx : ¬ y = x := by intro ee; rw [ee, hr] at hn; cases hn
      have hzq : ¬ z = q := by
        intro ee
        obtain ⟨p1, b1, b2⟩ := (i.pool y z).mp hy
        obtain ⟨p2, c1, c2⟩ := (i.pool x q).mp hq
        rw [ee, c1] at b1; injection b1 with b1; subst b1
        exact hyx (b2.symm.trans c2)
      rw [e'] at e
      unfold create at e
      cases c
      · injection e with e _; subst e
        exact ⟨hq, hr, pr0, by simp [hzq, hp0], hra⟩
      · injection e with e _; subst e
        exact ⟨hq, by simp [hyx, hr], pr0, by simp [hzq, hp0], hra⟩
  | destroy y =>
    simp only [step] at hs
    split at hs
    · injection hs with hs; subst hs
      have : ¬ y = x := fun e => hl (by rw [e])
      exact ⟨hq, by simp [this, hr], pr0, hp0, hra⟩
    · cases hs

/-- **A rank once joined stays**: whatever happens later, anywhere, collective calls made in the pool's process act as this rank, on the caller's own
data, until the rank's actor is destroyed. -/
theorem stays {ls : List Label} {st st1 : St} (h : Run ls st) {p : Nat} {a : Args} {c : Bool} (hs : step st (.init p a c .ok) = some st1)
    (ms : List Label) {st2 : St} (hrun : ms.foldlM step st1 = some st2) :
    ∃ pr x q d, st.procs.get? p = some pr ∧ Asked a pr x ∧ Device a pr d ∧ st.pools.get? x = some q ∧
      (Label.destroy x ∉ ms → call st2 q = .acts ⟨a.rank, a.world, a.backend, d⟩ true) := by
  obtain ⟨pr, x, q, d, hp, hx, hd, hq, hact, _, hcall, _, hpools⟩ := joined h hs
  refine ⟨pr, x, q, d, hp, hx, hd, hq, ?_⟩
  intro hms
  have hq1 : st1.pools.get? x = some q := by rw [hpools]; exact hq
  have hc1 : ∃ pr, st1.procs.get? q = some pr ∧ pr.rankAddr = some x := by
    obtain ⟨pr', hp', e⟩ := init_step hs
    rw [hp] at hp'; injection hp' with hp'; subst hp'
    rcases initPg_cases st pr a c with ⟨r, e', h1, _⟩ | ⟨y, z, zr, _, hy, hyz, hz, hn, _, e'⟩
    · rw [e'] at e; injection e with _ e; exact absurd e h1
    · have hyx : y = x := by
        rw [asked_iff] at hx hy; rw [hx] at hy; injection hy with hy; exact hy.symm
      subst hyx
      rw [hq] at hyz; injection hyz with hyz; subst hyz
      rw [e'] at e; unfold create at e
      cases c
      · injection e with _ e; cases e
      · injection e with e _; subst e
        exact ⟨{ zr with rankAddr := some y }, by simp, rfl⟩
  have key : ∀ (ms : List Label) (ks : List Label) (s s2 : St), Run ks s → s.pools.get? x = some q → s.actors.get? x = some ⟨a.rank, a.world, a.backend, d⟩ →
      (∃ pr, s.procs.get? q = some pr ∧ pr.rankAddr = some x) → Label.destroy x ∉ ms → ms.foldlM step s = some s2 →
      call s2 q = .acts ⟨a.rank, a.world, a.backend, d⟩ true := by
    intro ms
    induction ms with
    | nil =>
      intro ks s s2 _ g1 g2 g3 _ e; injection e with e; subst e
      obtain ⟨pr, g3, g4⟩ := g3
      simp [call, g1, g2, g3, g4]
    | cons l ms ih =>
      intro ks s s2 hr g1 g2 g3 hm e
      rw [List.foldlM_cons] at e
      rcases hstep : step s l with _ | s1
      · rw [hstep] at e; cases e
      · rw [hstep] at e
        obtain ⟨k1, k2, k3⟩ := keep (run_inv hr) hstep g1 g2 g3 (fun e => hm (by rw [e]; simp))
        exact ih _ s1 s2 (hr.snoc hstep) k1 k2 k3 (fun hh => hm (by simp [hh])) e
  exact key ms _ st1 st2 (h.snoc hs) hq1 hact hc1 hms hrun

/-- The caller's own data are moved exactly if the rank its calls act as is the one of its own pool. -/
theorem own_data {ls : List Label} {st : St} (h : Run ls st) {p : Nat} {r : Rank} {f : Bool} (hc : call st p = .acts r f) :
    ∃ pr x, st.procs.get? p = some pr ∧ pr.rankAddr = some x ∧ st.actors.get? x = some r ∧ (f = true ↔ x = pr.addr) := by
  unfold call at hc
  rcases hp : st.procs.get? p with _ | pr
  · rw [hp] at hc; cases hc
  · rw [hp] at hc; dsimp only at hc
    rcases hx : pr.rankAddr with _ | x
    · rw [hx] at hc; cases hc
    · rw [hx] at hc; dsimp only at hc
      split at hc
      · rename_i q r' hq hr
        injection hc with e1 e2
        subst e1
        refine ⟨pr, x, rfl, hx, hr, ?_⟩
        rw [← e2, decide_eq_true_iff]
        constructor
        · intro e
          obtain ⟨qr, b1, b2⟩ := ((run_inv h).pool x q).mp hq
          rw [e, hp] at b1; injection b1 with b1; subst b1; exact b2.symm
        · intro e
          have := ((run_inv h).pool x p).mpr ⟨pr, hp, e.symm⟩
          rw [hq] at this; exact Option.some.inj this
      · cases hc

/-! ## What goes wrong -/

/-- **Refuted**: "a process that has not joined cannot take part": the environment is inherited, so the calls of a process started by one that has joined
act as the parent's rank, and the caller's buffers are never filled. -/
theorem child_refuted {ls : List Label} {st : St} (h : Run ls st) {p : Nat} {r : Rank} {f : Bool} (hc : call st p = .acts r f) {q : Nat} {y : String}
    (hq : st.procs.get? q = none) (hy : st.pools.get? y = none) :
    ∃ st', Run (ls ++ [.child p q y]) st' ∧ call st' q = .acts r false := by
  obtain ⟨pr, x, hp, hx, hr, _⟩ := own_data h hc
  have hs : step st (.child p q y) = some { st with procs := st.procs.set q { pr with addr := y }, pools := st.pools.set y q } := by
    simp only [step, hp, hq, hy]
  refine ⟨_, h.snoc hs, ?_⟩
  obtain ⟨z, hz⟩ := (run_inv h).actor x r hr
  have n1 : ¬ y = x := by intro e; rw [e, hz] at hy; cases hy
  have n2 : z ≠ q := by
    intro e
    obtain ⟨zr, b1, _⟩ := ((run_inv h).pool x z).mp hz
    rw [e, hq] at b1; cases b1
  simp [call, hx, n1, hz, hr, n2]

/-- **Refuted**: "the device used is a device": a negative `device_id` is let through if the environment names a device, and is used. -/
theorem device_refuted {st : St} {p : Nat} {pr : Proc} (hp : st.procs.get? p = some pr) (hq : st.pools.get? pr.addr = some p) (hne : pr.addr ≠ "")
    (hcu : pr.cupy = true) {i : Int} (hd : pr.device = some (some i)) (hi : 0 ≤ i) (hn : st.actors.get? pr.addr = none) (k w d : Int) (_hneg : d < 0) :
    ∃ st', step st (.init p ⟨k, w, .nccl, some d, some pr.addr⟩ true .ok) = some st' ∧ call st' p = .acts ⟨k, w, .nccl, some d⟩ true := by
  have e : initPg st pr ⟨k, w, .nccl, some d, some pr.addr⟩ true = create st pr.addr p pr ⟨k, w, .nccl, some d⟩ true := by
    have hnd : ¬ 0 ≤ d := by omega
    simp [initPg, deviceOk, hnd, hd, envOk, hi, cupyOk, hcu, addressOf, hne, createAt, hq, hp, hn, deviceOf]
  refine ⟨(create st pr.addr p pr ⟨k, w, .nccl, some d⟩ true).1, ?_, ?_⟩
  · simp only [step, hp, e]; rfl
  · simp [create, call, hq]

/-- **Refuted**: "a rank outside `0 … world - 1` is refused": any rank and any world size reach the group's set-up. -/
theorem rank_refuted {st : St} {p : Nat} {pr : Proc} (hp : st.procs.get? p = some pr) (hq : st.pools.get? pr.addr = some p) (hne : pr.addr ≠ "")
    (hn : st.actors.get? pr.addr = none) (k w : Int) (dev : Option Int) :
    ∃ st', step st (.init p ⟨k, w, .gloo, dev, some pr.addr⟩ true .ok) = some st' ∧ call st' p = .acts ⟨k, w, .gloo, dev⟩ true := by
  have e : initPg st pr ⟨k, w, .gloo, dev, some pr.addr⟩ true = create st pr.addr p pr ⟨k, w, .gloo, dev⟩ true := by
    simp [initPg, deviceOk, cupyOk, addressOf, hne, createAt, hq, hp, hn, deviceOf]
  refine ⟨(create st pr.addr p pr ⟨k, w, .gloo, dev⟩ true).1, ?_, ?_⟩
  · simp only [step, hp, e]; rfl
  · simp [create, call, hq]

/-- **Refuted**: "an init that failed leaves the process as if nothing had happened": the environment is set, so collective calls report a missing actor
instead of asking to call `init_process_group` first. -/
theorem failed_refuted {ls : List Label} {st st' : St} (h : Run ls st) {p : Nat} {a : Args} {c : Bool} (hs : step st (.init p a c .failed) = some st')
    {pr : Proc} (hp : st.procs.get? p = some pr) (ha : Asked a pr pr.addr) : call st' p = .noActor := by
  obtain ⟨pr', hp', e⟩ := init_step hs
  rw [hp] at hp'; injection hp' with hp'; subst hp'
  rcases initPg_cases st pr a c with ⟨r, e', _, h1⟩ | ⟨x, q, qr, _, hx, hxq, hq, hn, _, e'⟩
  · rw [e'] at e; injection e with _ e; exact absurd e h1
  · have hxa : x = pr.addr := by
      rw [asked_iff] at hx ha; rw [hx] at ha; exact Option.some.inj ha
    have hqp : q = p := by
      have := ((run_inv h).pool x p).mpr ⟨pr, hp, hxa.symm⟩
      rw [hxq] at this; exact Option.some.inj this
    rw [e'] at e; unfold create at e
    cases c
    · injection e with e _; subst e
      simp [call, hqp, hn]
    · injection e with _ e; cases e

/-! ## The hypotheses are met -/

/-- two processes of a user; the first joins, starts a third process, the second fails once, then joins for nccl with the device of the environment -/
def exLs : List Label :=
  [.start 0 ⟨"a", none, none, false⟩, .start 1 ⟨"b", none, some (some 2), true⟩, .init 0 ⟨0, 2, .gloo, none, some "a"⟩ true .ok, .child 0 2 "c",
   .init 1 ⟨1, 2, .nccl, none, some "b"⟩ false .failed, .init 1 ⟨1, 2, .nccl, none, none⟩ true .ok, .init 0 ⟨5, 2, .gloo, none, none⟩ true .already,
   .init 0 ⟨5, 2, .nccl, none, none⟩ true .device, .init 2 ⟨5, 2, .gloo, none, some ""⟩ true .already]

def exEnd : St := (exLs.foldlM step init).getD init

theorem run_foldlM (ls : List Label) : ∀ {ls0 : List Label} {s s' : St}, Run ls0 s → ls.foldlM step s = some s' → Run (ls0 ++ ls) s' := by
  induction ls with
  | nil => intro ls0 s s' h e; injection e with e; subst e; simpa using h
  | cons l ls ih =>
    intro ls0 s s' h e
    rw [List.foldlM_cons] at e
    rcases hstep : step s l with _ | s1
    · rw [hstep] at e; cases e
    · rw [hstep] at e
      simpa using ih (h.snoc hstep) e

example : Run exLs exEnd := by
  have := run_foldlM exLs Run.init (s' := exEnd) (by rfl)
  simpa using this

example : call exEnd 0 = .acts ⟨0, 2, .gloo, none⟩ true ∧ call exEnd 1 = .acts ⟨1, 2, .nccl, some 2⟩ true ∧ call exEnd 2 = .acts ⟨0, 2, .gloo, none⟩ false := by
  decide

/-- the states in which `device_refuted` and `rank_refuted` apply -/
example : ∃ st, Run [.start 1 ⟨"b", none, some (some 2), true⟩] st ∧ st.pools.get? "b" = some 1 ∧ st.actors.get? "b" = none :=
  ⟨_, run_foldlM (ls0 := []) [.start 1 ⟨"b", none, some (some 2), true⟩] Run.init rfl, rfl, rfl⟩

/-- joining for another process (`other_process`) -/
example : ∃ st, Run [.start 0 ⟨"a", none, none, false⟩, .start 1 ⟨"b", none, none, false⟩, .init 0 ⟨0, 1, .gloo, none, some "b"⟩ true .ok] st ∧
    call st 0 = .notInit ∧ call st 1 = .acts ⟨0, 1, .gloo, none⟩ true :=
  ⟨_, run_foldlM (ls0 := []) _ Run.init rfl, by decide, by decide⟩

end Xoscar.InitPg
