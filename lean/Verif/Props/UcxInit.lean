import Verif.Spec.UcxInit
import Verif.Proof.Base

/-! # C104: settings for UCX -/
namespace Xoscar.UcxInit
open Xoscar

theorem joinUnder_cons (w : Text) (ws : List Text) (h : ws ≠ []) : joinUnder (w :: ws) = w ++ '_' :: joinUnder ws := by
  cases ws with
  | nil => exact absurd rfl h
  | cons x xs => rfl

theorem splitDash_ne (t : Text) : splitDash t ≠ [] := by
  cases t with
  | nil => simp [splitDash]
  | cons c t =>
    simp only [splitDash]
    split
    · simp
    · split <;> simp

theorem joinUnder_head (c : Char) (w : Text) (ws : List Text) : joinUnder ((c :: w) :: ws) = c :: joinUnder (w :: ws) := by
  cases ws <;> simp [joinUnder]

/-- the name a key is turned into -/
theorem keyOf_eq (k : Text) : keyOf k = settingName k := by
  unfold keyOf settingName
  congr 1
  induction k with
  | nil => simp [splitDash, joinUnder]
  | cons c t ih =>
    simp only [splitDash]
    split
    · rename_i h
      have hne := splitDash_ne t
      rw [List.map_cons, joinUnder_cons _ _ (by simpa using hne), ih]
      simp [h]
    · rename_i h
      have hne := splitDash_ne t
      cases hs : splitDash t with
      | nil => exact absurd hs hne
      | cons w ws =>
        rw [hs] at ih
        simp only [List.map_cons] at ih ⊢
        rw [joinUnder_head, ih]
        simp [h]

theorem tls_eq (c : Cfg) : tls c = commas (transports c) := by
  unfold tls transports
  cases c.nvlink <;> cases c.cudaCopy <;> cases c.infiniband <;> rfl

theorem inside_iff (a b : Text) : inside a b = true ↔ Occurs a b := by
  induction b with
  | nil =>
    simp only [inside, List.isEmpty_iff]
    constructor
    · rintro rfl; exact ⟨[], [], rfl⟩
    · rintro ⟨x, y, h⟩
      have := congrArg List.length h
      simp at this
      exact List.eq_nil_of_length_eq_zero (by omega)
  | cons c t ih =>
    simp only [inside, Bool.or_eq_true, ih, List.isPrefixOf_iff_prefix]
    constructor
    · rintro (⟨y, h⟩ | ⟨x, y, h⟩)
      · exact ⟨[], y, by simp [h]⟩
      · exact ⟨c :: x, y, by simp [h]⟩
    · rintro ⟨x, y, h⟩
      cases x with
      | nil => exact Or.inl ⟨y, by simpa using h.symm⟩
      | cons d x =>
        simp only [List.cons_append, List.cons.injEq] at h
        exact Or.inr ⟨x, y, h.2⟩

theorem high_iff (c : Cfg) : (c.tcp || c.nvlink || c.infiniband) = true ↔ c.High := by
  unfold Cfg.High
  simp only [Bool.or_eq_true, or_assoc]

theorem options_tls (c : Cfg) (env : Dict Text Text) :
    (options c env).get? TLS = (if c.tcp || c.nvlink || c.infiniband then some (tls c) else env.get? UCX_TLS) := by
  unfold options
  split
  · simp [Dict.get?_cons]
  · split
    · rename_i h; rw [h]; simp [Dict.get?_cons]
    · rename_i h; rw [h]; rfl

/-- the last entry with this name -/
def lastOf (K : Text) : List (Text × Text) → Option Text
  | [] => none
  | (k, v) :: r => match lastOf K r with
    | some w => some w
    | none => if keyOf k = K then some v else none

theorem lastOf_iff (K v : Text) (l : List (Text × Text)) :
    lastOf K l = some v ↔ ∃ pre k post, l = pre ++ (k, v) :: post ∧ settingName k = K ∧ ∀ p ∈ post, settingName p.1 ≠ K := by
  induction l with
  | nil => simp [lastOf]
  | cons p r ih =>
    obtain ⟨k, w⟩ := p
    have hnone : lastOf K r = none ↔ ∀ p ∈ r, settingName p.1 ≠ K := by
      clear ih
      induction r with
      | nil => simp [lastOf]
      | cons q r ih =>
        obtain ⟨k', w'⟩ := q
        simp only [lastOf, keyOf_eq, List.mem_cons, forall_eq_or_imp]
        cases hl : lastOf K r with
        | some x =>
          rw [hl] at ih
          simp only [reduceCtorEq, false_iff] at ih ⊢
          rintro ⟨_, h⟩; exact ih h
        | none =>
          rw [hl] at ih
          have := ih.1 rfl
          by_cases e : settingName k' = K
          · simp [e]
          · simp only [e, if_false, true_iff, ne_eq, not_false_eq_true, true_and]; exact this
    simp only [lastOf]
    cases hl : lastOf K r with
    | some x =>
      rw [hl] at ih
      simp only
      rw [ih]
      constructor
      · rintro ⟨pre, k', post, h1, h2, h3⟩
        exact ⟨(k, w) :: pre, k', post, by rw [h1]; rfl, h2, h3⟩
      · rintro ⟨pre, k', post, h1, h2, h3⟩
        cases pre with
        | nil =>
          simp only [List.nil_append, List.cons.injEq] at h1
          obtain ⟨_, rfl⟩ := h1
          rw [hnone.2 h3] at hl; cases hl
        | cons q pre =>
          simp only [List.cons_append, List.cons.injEq] at h1
          exact ⟨pre, k', post, h1.2, h2, h3⟩
    | none =>
      simp only [keyOf_eq]
      have hr := hnone.1 hl
      by_cases e : settingName k = K
      · rw [if_pos e]
        constructor
        · intro h; injection h with h; subst h; exact ⟨[], k, r, rfl, e, hr⟩
        · rintro ⟨pre, k', post, h1, h2, h3⟩
          cases pre with
          | nil =>
            simp only [List.nil_append, List.cons.injEq, Prod.mk.injEq] at h1
            rw [h1.1.2]
          | cons q pre =>
            simp only [List.cons_append, List.cons.injEq] at h1
            exact absurd h2 (hr (k', v) (by rw [h1.2]; simp))
      · rw [if_neg e]
        simp only [reduceCtorEq, false_iff]
        rintro ⟨pre, k', post, h1, h2, h3⟩
        cases pre with
        | nil =>
          simp only [List.nil_append, List.cons.injEq, Prod.mk.injEq] at h1
          exact e (by rw [h1.1.1]; exact h2)
        | cons q pre =>
          simp only [List.cons_append, List.cons.injEq] at h1
          exact absurd h2 (hr (k', v) (by rw [h1.2]; simp))

theorem envsLoop_get (opts env : Dict Text Text) (l : List (Text × Text)) (e0 : Dict Text Text) (K : Text) :
    (envsLoop opts env l e0).get? K =
      if opts.has (K.drop 4) = false ∧ env.has K = false then
        (match lastOf K l with | some v => some v | none => e0.get? K) else e0.get? K := by
  induction l generalizing e0 with
  | nil => simp [envsLoop, lastOf]
  | cons p r ih =>
    obtain ⟨k, v⟩ := p
    simp only [envsLoop, lastOf]
    by_cases h1 : opts.has ((keyOf k).drop 4) = true
    · rw [if_pos h1, ih]
      by_cases hc : opts.has (K.drop 4) = false ∧ env.has K = false
      · rw [if_pos hc, if_pos hc]
        have : keyOf k ≠ K := by rintro rfl; rw [h1] at hc; exact absurd hc.1 (by simp)
        simp only [if_neg this]
        cases lastOf K r <;> rfl
      · rw [if_neg hc, if_neg hc]
    · rw [if_neg h1]
      by_cases h2 : env.has (keyOf k) = true
      · rw [if_pos h2, ih]
        by_cases hc : opts.has (K.drop 4) = false ∧ env.has K = false
        · rw [if_pos hc, if_pos hc]
          have : keyOf k ≠ K := by rintro rfl; rw [h2] at hc; exact absurd hc.2 (by simp)
          simp only [if_neg this]
          cases lastOf K r <;> rfl
        · rw [if_neg hc, if_neg hc]
      · rw [if_neg h2, ih]
        by_cases hc : opts.has (K.drop 4) = false ∧ env.has K = false
        · rw [if_pos hc, if_pos hc]
          cases lastOf K r with
          | some w => rfl
          | none =>
            simp only [Dict.get?_set]
            by_cases e : keyOf k = K <;> simp [e]
        · rw [if_neg hc, if_neg hc, Dict.get?_set]
          have : keyOf k ≠ K := by
            rintro rfl
            exact hc ⟨by simpa using h1, by simpa using h2⟩
          rw [if_neg this]

theorem ucxTls_iff (c : Cfg) (env : Dict Text Text) (v : Text) :
    Wanted c env UCX_TLS v ↔
      ((env.get? UCX_TLS).or (((options c env).get? TLS).or ((envs c env).get? UCX_TLS))) = some v := by
  have hdrop : UCX_TLS.drop 4 = TLS := rfl
  have he : (envs c env).get? UCX_TLS = if (options c env).has TLS = false ∧ env.has UCX_TLS = false then
      (match lastOf UCX_TLS c.environment with | some v => some v | none => none) else none := by
    unfold envs; rw [envsLoop_get, hdrop]; rfl
  cases hx : env.get? UCX_TLS with
  | some w =>
    simp only [Option.some_or]
    constructor
    · intro h
      cases h with
      | external h => rw [← hx]; exact h
      | transports h _ _ => rw [hx] at h; cases h
      | priority h _ _ => rw [hx] at h; cases h
      | low h _ _ _ _ => rw [hx] at h; cases h
    · intro h; exact .external (hx.trans h)
  | none =>
    have hh : env.has UCX_TLS = false := by unfold Dict.has; rw [hx]; rfl
    by_cases hi : (c.tcp || c.nvlink || c.infiniband) = true
    · rw [options_tls, if_pos hi, tls_eq]
      simp only [Option.none_or, Option.some_or, Option.some.injEq]
      constructor
      · intro h
        cases h with
        | external h => rw [hx] at h; cases h
        | transports _ _ _ => rfl
        | priority _ _ h => exact absurd h (by decide)
        | low _ h _ _ _ => exact absurd ⟨(high_iff c).1 hi, Or.inl rfl⟩ h
      · intro h; rw [← h]; exact .transports hx ((high_iff c).1 hi) rfl
    · have ho : (options c env).get? TLS = none := by rw [options_tls, if_neg hi, hx]
      have hoh : (options c env).has TLS = false := by unfold Dict.has; rw [ho]; rfl
      rw [ho, he, if_pos ⟨hoh, hh⟩]
      simp only [Option.none_or]
      have hl : (match lastOf UCX_TLS c.environment with | some v => some v | none => none) = lastOf UCX_TLS c.environment := by
        cases lastOf UCX_TLS c.environment <;> rfl
      rw [hl, lastOf_iff]
      have hnh : ¬ c.High := fun h => hi ((high_iff c).2 h)
      constructor
      · intro h
        cases h with
        | external h => rw [hx] at h; cases h
        | transports _ h _ => exact absurd h hnh
        | priority _ h _ => exact absurd h hnh
        | low _ _ h1 h2 h3 => exact ⟨_, _, _, h1, h2, h3⟩
      · rintro ⟨pre, k, post, h1, h2, h3⟩
        exact .low hx (fun h => hnh h.1) h1 h2 h3

theorem wantsContext_iff (c : Cfg) (env : Dict Text Text) :
    wantsContext c env = true ↔ c.createContex = true ∨
      ∃ v, Wanted c env UCX_TLS v ∧ Occurs ['c', 'u', 'd', 'a'] v ∧ ¬ Occurs ['^', 'c', 'u', 'd', 'a'] v := by
  unfold wantsContext
  rw [Bool.or_eq_true, Bool.and_eq_true, inside_iff, Bool.not_eq_true', ← Bool.not_eq_true, inside_iff]
  apply or_congr Iff.rfl
  simp only [ucxTls_iff]
  unfold ucxTls
  generalize env.get? UCX_TLS = x
  generalize (options c env).get? TLS = y
  generalize (envs c env).get? UCX_TLS = z
  have hnil : ¬ Occurs ['c', 'u', 'd', 'a'] [] := by
    rintro ⟨l, r, h⟩
    have := congrArg List.length h
    simp at this
  cases x <;> cases y <;> cases z <;> simp [hnil]

/-- (C104) **A CUDA context is created before UCX is initialised exactly if the setting of `UCX_TLS` asked for mentions
CUDA** (and not as excluded), the external environment coming first, then the high level settings, then `environment`, or if
it is asked for outright; without Numba this is an ImportError and nothing happens. -/
theorem context_iff (p : Proc) (c : Cfg) (numba works : Bool) (hi : p.inited = false) (hc : p.context = false) :
    let need := c.createContex = true ∨ ∃ v, Wanted c p.pyEnv ['U', 'C', 'X', '_', 'T', 'L', 'S'] v ∧ Occurs ['c', 'u', 'd', 'a'] v ∧ ¬ Occurs ['^', 'c', 'u', 'd', 'a'] v
    ((init p c numba works).2.context = true ↔ need ∧ numba = true) ∧
    ((init p c numba works).1 = .importError ↔ need ∧ numba = false) ∧
    ((init p c numba works).1 = .importError → (init p c numba works).2 = p) := by
  intro need
  have hw : wantsContext c p.pyEnv = true ↔ need := wantsContext_iff c p.pyEnv
  unfold init
  rw [hi]
  simp only [Bool.false_eq_true, if_false]
  by_cases hn : need
  · have h1 := hw.2 hn
    cases numba <;> cases works <;> simp [h1, hn, hc]
  · have h1 : wantsContext c p.pyEnv = false := by
      cases h : wantsContext c p.pyEnv with
      | true => exact absurd (hw.1 h) hn
      | false => rfl
    cases numba <;> cases works <;> simp [h1, hn, hc]

/-- (C104) **The environment of the process is the same afterwards**, however `init` ends. -/
theorem environment_kept (p : Proc) (c : Cfg) (numba works : Bool) :
    (init p c numba works).2.pyEnv = p.pyEnv ∧ (init p c numba works).2.cEnv = p.cEnv := by
  unfold init
  cases hi : p.inited <;> cases hw : wantsContext c p.pyEnv <;> cases numba <;> cases works <;> simp [hw]

/-- (C104) **UCX is initialised once**: not again while it is, and again after a failure or `reset`. -/
theorem once (p : Proc) (c : Cfg) (numba works : Bool) :
    (p.inited = true → init p c numba works = (.done, p)) ∧
    (p.inited = false → ((init p c numba works).2.inited = true ↔ (init p c numba works).1 = .done)) ∧
    (p.inited = false → (init p c numba works).1 = .done → (init p c numba works).2.inits.length = p.inits.length + 1) ∧
    (reset p).inited = false := by
  unfold init reset
  cases h : p.inited <;> cases hw : wantsContext c p.pyEnv <;> cases numba <;> cases works <;> simp [h, hw]

/-- (C104) what UCX is given: nothing but the environment of the process -/
theorem seen (p : Proc) (c : Cfg) (numba works : Bool) (s : Dict Text Text × Dict Text Text)
    (h : (init p c numba works).2.inits = p.inits ++ [s]) : s = ([], p.cEnv) := by
  unfold init at h
  cases hi : p.inited <;> cases hw : wantsContext c p.pyEnv <;> cases numba <;> cases works <;> simp [hi, hw] at h <;>
    exact h.symm

/-- (C104) **UCX has all the settings asked for exactly if all of them were in the environment of the process already**:
high level settings and `environment` have no effect. -/
theorem settings_partial (p : Proc) (c : Cfg) (numba works : Bool) (s : Dict Text Text × Dict Text Text)
    (hs : (init p c numba works).2.inits = p.inits ++ [s]) (hsame : p.cEnv = p.pyEnv) :
    (∀ K v, Wanted c p.pyEnv K v → ucxHas s K = some v) ↔
      (c.High → ∀ K, K = ['U', 'C', 'X', '_', 'T', 'L', 'S'] ∨ K = ['U', 'C', 'X', '_', 'S', 'O', 'C', 'K', 'A', 'D', 'D', 'R', '_', 'T', 'L', 'S', '_', 'P', 'R', 'I', 'O', 'R', 'I', 'T', 'Y'] → K ∈ p.pyEnv.keys) ∧
      (∀ k v, (k, v) ∈ c.environment → settingName k ∈ p.pyEnv.keys) := by
  have e := seen p c numba works s hs
  have hhas : ∀ K, ucxHas s K = p.pyEnv.get? K := by
    intro K; rw [e, ← hsame]; rfl
  simp only [hhas]
  constructor
  · intro h
    have hhigh : c.High → ∀ K, K = ['U', 'C', 'X', '_', 'T', 'L', 'S'] ∨ K = ['U', 'C', 'X', '_', 'S', 'O', 'C', 'K', 'A', 'D', 'D', 'R', '_', 'T', 'L', 'S', '_', 'P', 'R', 'I', 'O', 'R', 'I', 'T', 'Y'] → K ∈ p.pyEnv.keys := by
      intro hh K hK
      rw [← Dict.get?_isSome_iff]
      cases hg : p.pyEnv.get? K with
      | some v => rfl
      | none =>
        rcases hK with hK | hK
        · have := h K _ (.transports hg hh hK); rw [hg] at this; cases this
        · have := h K _ (.priority hg hh hK); rw [hg] at this; cases this
    refine ⟨hhigh, fun k v hm => ?_⟩
    rw [← Dict.get?_isSome_iff]
    cases hg : p.pyEnv.get? (settingName k) with
    | some v => rfl
    | none =>
      exfalso
      by_cases hsp : c.High ∧ (settingName k = ['U', 'C', 'X', '_', 'T', 'L', 'S'] ∨ settingName k = ['U', 'C', 'X', '_', 'S', 'O', 'C', 'K', 'A', 'D', 'D', 'R', '_', 'T', 'L', 'S', '_', 'P', 'R', 'I', 'O', 'R', 'I', 'T', 'Y'])
      · have := hhigh hsp.1 _ hsp.2
        rw [← Dict.get?_isSome_iff, hg] at this; cases this
      · have hex : ∃ w, lastOf (settingName k) c.environment = some w := by
          have : ∀ l : List (Text × Text), (k, v) ∈ l → ∃ w, lastOf (settingName k) l = some w := by
            intro l hl
            induction l with
            | nil => cases hl
            | cons q r ih =>
              obtain ⟨k', v'⟩ := q
              simp only [lastOf]
              cases hr : lastOf (settingName k) r with
              | some w => exact ⟨w, rfl⟩
              | none =>
                rcases List.mem_cons.mp hl with hl | hl
                · injection hl with h1 h2
                  subst h1
                  exact ⟨v', by simp [keyOf_eq]⟩
                · obtain ⟨w, hw⟩ := ih hl
                  rw [hr] at hw; cases hw
          exact this _ hm
        obtain ⟨w, hw⟩ := hex
        obtain ⟨pre, k', post, h1, h2, h3⟩ := (lastOf_iff _ _ _).1 hw
        have := h _ _ (.low hg hsp h1 h2 h3)
        rw [hg] at this; cases this
  · rintro ⟨h1, h2⟩ K v hw
    have habs : p.pyEnv.get? K = none → K ∉ p.pyEnv.keys := (Dict.get?_eq_none_iff _ _).1
    cases hw with
    | external h => exact h
    | transports h hh hK => exact absurd (h1 hh K (Or.inl hK)) (habs h)
    | priority h hh hK => exact absurd (h1 hh K (Or.inr hK)) (habs h)
    | @low k v pre post h _ he hk _ => exact absurd (hk ▸ h2 k v (by rw [he]; simp)) (habs h)

/-- (C104) refuted: with nvlink asked for and nothing in the environment, `UCX_TLS` should be `tcp,cuda_copy,cuda_ipc`, but UCX has
no such setting; nor has it one given in `environment`. -/
theorem settings_refuted : ∃ (c : Cfg) (p p' : Proc) (s : Dict Text Text × Dict Text Text), init p c true true = (.done, p') ∧
    p'.inits = p.inits ++ [s] ∧ Wanted c p.pyEnv UCX_TLS (commas [['t', 'c', 'p'], ['c', 'u', 'd', 'a', '_', 'c', 'o', 'p', 'y'], ['c', 'u', 'd', 'a', '_', 'i', 'p', 'c']]) ∧
    Wanted c p.pyEnv ['U', 'C', 'X', '_', 'M', 'A', 'X', '_', 'R'] ['1'] ∧
    ucxHas s UCX_TLS = none ∧ ucxHas s ['U', 'C', 'X', '_', 'M', 'A', 'X', '_', 'R'] = none := by
  refine ⟨{ nvlink := true, environment := [(['m', 'a', 'x', '-', 'r'], ['1'])] }, ⟨false, [], [], false, []⟩, _, ([], []), rfl, by decide, ?_, ?_, rfl, rfl⟩
  · exact .transports rfl (Or.inr (Or.inl rfl)) rfl
  · exact .low (pre := []) (post := []) rfl (by rintro ⟨_, h | h⟩ <;> revert h <;> decide) rfl (by decide) (by simp)

/-- `settings_partial` and `context_iff` are not about nothing: TLS in the environment, and the same setting again in
`environment`: UCX has it and a context is created -/
example : ∃ p', init ⟨false, [(UCX_TLS, ['c', 'u', 'd', 'a'])], [(UCX_TLS, ['c', 'u', 'd', 'a'])], false, []⟩ { environment := [(['t', 'l', 's'], ['x'])] } true true = (.done, p') ∧
    p'.inits = [([], [(UCX_TLS, ['c', 'u', 'd', 'a'])])] ∧ p'.context = true ∧ settingName ['t', 'l', 's'] = UCX_TLS :=
  ⟨_, rfl, by decide, by decide, by decide⟩

end Xoscar.UcxInit
