import Verif.Spec.Watch
import Verif.Proof.Base
/-!
# C86: the watchdogs of the debug mode
-/
namespace Xoscar.Watch

/-! ## Warnings about a body that takes long -/

/-- there are warnings only with an option of this name and a positive value -/
theorem period_iff (opts : Option Opts) (name : String) (t : Nat) :
    period opts name = some t ↔ ∃ o v, opts = some o ∧ o.get? name = some (some v) ∧ 0 < v ∧ t = v.toNat := by
  unfold period
  cases opts with
  | none => simp
  | some o =>
    cases h : o.get? name with
    | none => simp [h]
    | some x =>
      cases x with
      | none => simp [h]
      | some v =>
        have e : (o.get? name).getD (some (-1)) = some v := by rw [h]; rfl
        simp only [e]
        by_cases hv : v > 0
        · rw [if_pos hv, Option.some.injEq]
          constructor
          · intro e; exact ⟨o, v, rfl, h, hv, e.symm⟩
          · rintro ⟨o', v', ho, h', _, rfl⟩
            cases ho; rw [h] at h'; cases h'; rfl
        · rw [if_neg hv]
          constructor
          · intro e; cases e
          · rintro ⟨o', v', ho, h', h2, _⟩
            cases ho; rw [h] at h'; cases h'; exact absurd h2 hv

structure Inv (t : Nat) (g : Guard) : Prop where
  per : g.period = some t
  le : g.start ≤ g.now
  rnd : g.rnd = g.warned.length + 1
  due : g.start + t * tri g.rnd ≤ g.due
  early : ∀ (k : Nat) (x : Nat), g.warned[k]? = some x → t * tri (k + 1) ≤ x ∧ x ≤ g.now - g.start
  count : t * tri g.warned.length ≤ g.now - g.start

theorem inv_run {opts : Option Opts} {name : String} {t0 t : Nat} {ls : List Label} {g : Guard} (h : Run (enter opts name t0) ls g)
    (hp : period opts name = some t) : Inv t g ∧ g.start = t0 := by
  induction h with
  | init =>
    refine ⟨⟨?_, Nat.le_refl _, rfl, ?_, ?_, ?_⟩, rfl⟩
    · exact hp
    · simp [enter, hp, tri]
    · simp [enter]
    · simp [enter, tri]
  | @snoc ls l g g' _ hs ih =>
    obtain ⟨ih, h0⟩ := ih
    cases l with
    | pass d =>
      simp only [step, Option.some.injEq] at hs
      subst hs
      refine ⟨⟨ih.per, ?_, ih.rnd, ih.due, ?_, ?_⟩, h0⟩
      · have := ih.le; simp only; omega
      · intro k x hx
        have := ih.early k x hx
        simp only; omega
      · have := ih.count; simp only; omega
    | wake =>
      have hs : (if g.inside = true ∧ g.due ≤ g.now then some { g with warned := g.warned ++ [g.now - g.start], rnd := g.rnd + 1, due := g.now + t * (g.rnd + 1) } else none) = some g' := by
        rw [← hs]; simp only [step, ih.per]
      by_cases hc : g.inside = true ∧ g.due ≤ g.now
      · rw [if_pos hc] at hs
        cases hs
        have hle := ih.le
        have hdue := ih.due
        have hrnd := ih.rnd
        have hage : t * tri g.rnd ≤ g.now - g.start := by omega
        refine ⟨⟨ih.per, hle, by simp [hrnd], ?_, ?_, ?_⟩, h0⟩
        · show g.start + t * (tri g.rnd + (g.rnd + 1)) ≤ g.now + t * (g.rnd + 1)
          rw [Nat.mul_add t (tri g.rnd)]
          omega
        · intro k x hx
          simp only at hx ⊢
          rw [List.getElem?_append] at hx
          split at hx
          · exact ih.early k x hx
          · next hk =>
            have : k = g.warned.length := by
              by_cases he : k - g.warned.length = 0
              · omega
              · simp [he] at hx
            subst this
            simp at hx
            subst hx
            rw [← hrnd]
            exact ⟨hage, Nat.le_refl _⟩
        · simp only [List.length_append, List.length_cons, List.length_nil, Nat.zero_add]
          rw [← hrnd]; exact hage
      · rw [if_neg hc] at hs; cases hs
    | leave =>
      simp only [step] at hs
      split at hs <;> cases hs
      exact ⟨⟨ih.per, ih.le, ih.rnd, ih.due, ih.early, ih.count⟩, h0⟩

/-- the `k`-th warning does not come before `1 + 2 + … + k` times the timeout; it tells at least that time, and at most the time passed by now -/
theorem not_early {opts : Option Opts} {name : String} {t0 t : Nat} {ls : List Label} {g : Guard} (h : Run (enter opts name t0) ls g)
    (hp : period opts name = some t) (k x : Nat) (hk : g.warned[k]? = some x) : t * tri (k + 1) ≤ x ∧ x ≤ g.age := (inv_run h hp).1.early k x hk

/-- a body that is not older than the timeout has not been warned about; in general the number of warnings is bounded by the age -/
theorem warnings_bounded {opts : Option Opts} {name : String} {t0 t : Nat} {ls : List Label} {g : Guard} (h : Run (enter opts name t0) ls g)
    (hp : period opts name = some t) : t * tri g.warned.length ≤ g.age ∧ (g.age < t → g.warned = []) := by
  refine ⟨(inv_run h hp).1.count, fun ha => ?_⟩
  cases hw : g.warned with
  | nil => rfl
  | cons x xs =>
    have := not_early h hp 0 x (by rw [hw]; rfl)
    have ht : tri (0 + 1) = 1 := rfl
    rw [ht, Nat.mul_one] at this
    omega

/-- no warning without the option -/
theorem disabled_silent {opts : Option Opts} {name : String} {t0 : Nat} {ls : List Label} {g : Guard} (h : Run (enter opts name t0) ls g)
    (hp : period opts name = none) : g.warned = [] := by
  suffices g.warned = [] ∧ g.period = none from this.1
  induction h with
  | init => exact ⟨rfl, hp⟩
  | @snoc ls l g g' _ hs ih =>
    obtain ⟨h1, h2⟩ := ih
    cases l with
    | pass d => simp only [step, Option.some.injEq] at hs; subst hs; exact ⟨h1, h2⟩
    | wake => simp only [step, h2] at hs; cases hs
    | leave => simp only [step] at hs; split at hs <;> cases hs; exact ⟨h1, h2⟩

/-- nothing is said after the body has ended, however it ended -/
theorem left_silent {g0 g : Guard} {ls : List Label} (h0 : g0.inside = false) (h : Run g0 ls g) : g.warned = g0.warned := by
  suffices g.warned = g0.warned ∧ g.inside = false from this.1
  induction h with
  | init => exact ⟨rfl, h0⟩
  | @snoc ls l g g' _ hs ih =>
    obtain ⟨h1, h2⟩ := ih
    cases l with
    | pass d => simp only [step, Option.some.injEq] at hs; subst hs; exact ⟨h1, h2⟩
    | wake =>
      simp only [step] at hs
      split at hs
      · rw [if_neg (by simp [h2])] at hs; cases hs
      · cases hs
    | leave => simp only [step, h2] at hs; cases hs

theorem Prompt.init {g0 : Guard} {ls : List Label} {l : Label} (h : Prompt g0 (ls ++ [l])) : Prompt g0 ls := by
  intro pre d post g e
  exact h pre d (post ++ [l]) g (by rw [e]; simp)

/-- with a loop that is not late the warnings come exactly at `t`, `3 t`, `6 t`, `10 t`, … until the body ends -/
theorem prompt_exact {opts : Option Opts} {name : String} {t0 t : Nat} {ls : List Label} {g : Guard} (h : Run (enter opts name t0) ls g)
    (hp : period opts name = some t) (hpr : Prompt (enter opts name t0) ls) :
    g.warned = (List.range g.warned.length).map (fun k => t * tri (k + 1)) ∧ (g.inside = true → g.age ≤ t * tri (g.warned.length + 1)) := by
  suffices g.warned = (List.range g.warned.length).map (fun k => t * tri (k + 1)) ∧
      (g.inside = true → g.now ≤ g.due ∧ g.due = g.start + t * tri (g.warned.length + 1)) by
    refine ⟨this.1, fun hi => ?_⟩
    obtain ⟨a, b⟩ := this.2 hi
    unfold Guard.age; omega
  induction h with
  | init => simp [enter, hp, tri]
  | @snoc ls l g g' hr hs ih =>
    obtain ⟨h1, h2⟩ := ih hpr.init
    have hi := (inv_run hr hp).1
    cases l with
    | pass d =>
      simp only [step, Option.some.injEq] at hs
      subst hs
      refine ⟨h1, fun hin => ⟨?_, (h2 hin).2⟩⟩
      exact hpr ls d [] g rfl hr hin
    | wake =>
      simp only [step, hi.per] at hs
      by_cases hc : g.inside = true ∧ g.due ≤ g.now
      · rw [if_pos hc] at hs
        cases hs
        obtain ⟨a, b⟩ := h2 hc.1
        have hnow : g.now = g.start + t * tri (g.warned.length + 1) := by have := hc.2; omega
        refine ⟨?_, fun _ => ⟨by simp only; omega, ?_⟩⟩
        · simp only [List.length_append, List.length_cons, List.length_nil, Nat.zero_add, List.range_succ, List.map_append, List.map_cons, List.map_nil]
          rw [← h1]
          congr 2
          omega
        · simp only [List.length_append, List.length_cons, List.length_nil, Nat.zero_add, hi.rnd]
          rw [show tri (g.warned.length + 1 + 1) = tri (g.warned.length + 1) + (g.warned.length + 1 + 1) from rfl, Nat.mul_add t (tri (g.warned.length + 1))]
          omega
      · rw [if_neg hc] at hs; cases hs
    | leave =>
      simp only [step] at hs
      split at hs <;> cases hs
      exact ⟨h1, fun hin => by cases hin⟩

theorem run_of (g0 : Guard) (ls : List Label) (g : Guard) (h : ls.foldlM step g0 = some g) : Run g0 ls g := by
  induction ls using List.reverseRecOn' generalizing g with
  | nil => cases h; exact .init
  | append_singleton ls l ih =>
    rw [List.foldlM_append] at h
    cases h1 : ls.foldlM step g0 with
    | none => rw [h1] at h; cases h
    | some g1 =>
      rw [h1] at h
      have h2 : step g1 l = some g := by
        simp only [List.foldlM_cons, List.foldlM_nil, Option.bind_eq_bind, Option.bind_some] at h
        cases h3 : step g1 l with
        | none => rw [h3] at h; cases h
        | some g2 => rw [h3] at h; exact h
      exact .snoc (ih g1 h1) h2

example : Run (enter (some defaults) "actor_call_timeout" 5) [.pass 10, .wake, .pass 20, .wake, .pass 7, .leave]
    ⟨some 10, 5, 42, 3, 65, [10, 30], false⟩ := run_of _ _ _ (by decide)

/-! ## The options -/

theorem fold_get (given d0 : Opts) (name : String) : (given.foldl (fun d kv => d.set kv.1 kv.2) d0).get? name =
    ((given.reverse.find? (fun kv => kv.1 = name)).map Prod.snd).or (d0.get? name) := by
  induction given using List.reverseRecOn' with
  | nil => simp
  | append_singleton l kv ih =>
    rw [List.foldl_append, List.reverse_append]
    simp only [List.foldl_cons, List.foldl_nil, List.reverse_cons, List.reverse_nil, List.nil_append, List.cons_append, List.find?_cons]
    rw [Dict.get?_set, ih]
    by_cases h : kv.1 = name
    · simp [h]
    · simp [h]

/-- with `DEBUG_OSCAR` as JSON: every option has the value given last, else its default; an option that does not exist is an error -/
theorem reload_json (v : EnvVar) (given : Opts) (h0 : v.text ≠ "0") (h1 : v.text ≠ "1") (hj : v.json = some given) :
    (reload (some v) = none ↔ ∃ kv ∈ given, kv.1 ∉ defaults.keys) ∧
    ∀ o, reload (some v) = some o → ∃ d, o = some d ∧ ∀ name, d.get? name = ((given.reverse.find? (fun kv => kv.1 = name)).map Prod.snd).or (defaults.get? name) := by
  have e : reload (some v) = if given.all (fun kv => defaults.has kv.1) then some (some (given.foldl (fun d kv => d.set kv.1 kv.2) defaults)) else none := by
    simp only [reload, if_neg h0, if_neg h1, hj]
  rw [e]
  constructor
  · by_cases ha : given.all (fun kv => defaults.has kv.1) = true
    · rw [if_pos ha]
      simp only [List.all_eq_true] at ha
      constructor
      · intro e; cases e
      · rintro ⟨kv, hkv, hn⟩
        exact absurd ((Dict.has_iff _ _).mp (ha kv hkv)) hn
    · rw [if_neg ha]
      refine ⟨fun _ => ?_, fun _ => rfl⟩
      apply Classical.byContradiction
      intro hc
      apply ha
      rw [List.all_eq_true]
      intro kv hkv
      apply (Dict.has_iff _ _).mpr
      apply Classical.byContradiction
      intro hn
      exact hc ⟨kv, hkv, hn⟩
  · intro o ho
    split at ho
    · cases ho
      refine ⟨_, rfl, fun name => ?_⟩
      exact fold_get given defaults name
    · cases ho

/-- `DEBUG_OSCAR=1`: calls are warned about after 10, messages and locks after 30, the other two options are on; nothing
without the variable or with 0; a text that is not JSON is an error -/
theorem reload_one (j : Option Opts) : (∃ o, reload (some ⟨"1", j⟩) = some (some o) ∧ period (some o) "actor_call_timeout" = some 10 ∧
      period (some o) "process_message_timeout" = some 30 ∧ period (some o) "actor_lock_timeout" = some 30 ∧
      o.get? "log_unhandled_errors" = some (some 1) ∧ o.get? "log_cycle_send" = some (some 1)) ∧
    (∀ text, text ≠ "0" → text ≠ "1" → reload (some ⟨text, none⟩) = none) ∧
    reload (some ⟨"0", j⟩) = some none ∧ reload none = some none ∧ ∀ name, period none name = none :=
  ⟨⟨defaults, rfl, by decide, by decide, by decide, by decide, by decide⟩, fun _ h0 h1 => by simp [reload, h0, h1], rfl, rfl, fun _ => rfl⟩

/-! ## Tasks that take too long -/

theorem inside_iff (a b : List Char) : inside a b = true ↔ Occurs a b := by
  induction b with
  | nil =>
    simp only [inside, List.isEmpty_iff]
    constructor
    · rintro rfl; exact ⟨[], [], rfl⟩
    · rintro ⟨x, y, h⟩
      have := congrArg List.length h
      simp at this
      exact List.eq_nil_of_length_eq_zero (by omega)
  | cons c t ih =>
    simp only [inside, Bool.or_eq_true, ih, List.isPrefixOf_iff_prefix]
    constructor
    · rintro (⟨y, h⟩ | ⟨x, y, h⟩)
      · exact ⟨[], y, by simp [h]⟩
      · exact ⟨c :: x, y, by simp [h]⟩
    · rintro ⟨x, y, h⟩
      cases x with
      | nil => left; exact ⟨y, by simpa using h.symm⟩
      | cons d x =>
        right
        simp only [List.cons_append, List.cons.injEq] at h
        exact ⟨x, y, h.2⟩

/-- a round reports exactly the tasks that are not done, are at least as old as the limit and match no filter -/
theorem check_iff (seconds : Int) (filters : List (List Char)) (now : Nat) (tasks : List Task) (t : Task) :
    t ∈ check seconds filters now tasks ↔ t ∈ tasks ∧ t.done = false ∧
      (match t.created with
        | some c => seconds ≤ (now : Int) - c
        | none => seconds ≤ 0) ∧ ∀ f ∈ filters, ¬ Occurs f t.text := by
  unfold check
  simp only [List.mem_filter, Bool.and_eq_true, Bool.not_eq_true', decide_eq_true_eq, ← Bool.not_eq_true, List.any_eq_true, inside_iff, not_exists, not_and]
  cases h : t.created with
  | none =>
    simp only [Option.getD_none, Int.sub_self, ge_iff_le]
    constructor
    · rintro ⟨a, ⟨b, c⟩, d⟩; exact ⟨a, by simpa using b, c, d⟩
    · rintro ⟨a, b, c, d⟩; exact ⟨a, ⟨by simpa using b, c⟩, d⟩
  | some c =>
    simp only [Option.getD_some, ge_iff_le]
    constructor
    · rintro ⟨a, ⟨b, c⟩, d⟩; exact ⟨a, by simpa using b, c, d⟩
    · rintro ⟨a, b, c, d⟩; exact ⟨a, ⟨by simpa using b, c⟩, d⟩

/-- every task of age at least the limit, once reported, is reported again in every later round until it is done -/
theorem check_again (seconds : Int) (filters : List (List Char)) (now later : Nat) (tasks tasks' : List Task) (t : Task) (hl : now ≤ later)
    (h : t ∈ check seconds filters now tasks) (ht : t ∈ tasks') : t ∈ check seconds filters later tasks' := by
  rw [check_iff] at h ⊢
  refine ⟨ht, h.2.1, ?_, h.2.2.2⟩
  have := h.2.2.1
  cases hc : t.created with
  | none => simpa [hc] using this
  | some c => simp only [hc] at this ⊢; omega

/-- tasks made before the detector are never reported (for a positive limit) -/
theorem unpatched_never (seconds : Int) (hs : 0 < seconds) (filters : List (List Char)) (now : Nat) (tasks : List Task) (t : Task) (hc : t.created = none) :
    t ∉ check seconds filters now tasks := by
  rw [check_iff]
  rintro ⟨_, _, h, _⟩
  rw [hc] at h
  simp only at h
  omega

/-- **refuted**: an empty filter excludes everything … -/
theorem empty_filter_refuted (seconds : Int) (filters : List (List Char)) (now : Nat) (tasks : List Task) (h : [] ∈ filters) :
    check seconds filters now tasks = [] := by
  rw [List.eq_nil_iff_forall_not_mem]
  intro t ht
  rw [check_iff] at ht
  exact ht.2.2.2 [] h ⟨[], t.text, by simp⟩

theorem splitSemi_ne (s : List Char) : splitSemi s ≠ [] := by
  cases s with
  | nil => simp [splitSemi]
  | cons c t =>
    simp only [splitSemi]
    split
    · simp
    · split <;> simp

/-- `split(";")` takes the text apart at the semicolons -/
theorem split_join (s : List Char) : ((splitSemi s).intersperse [';']).flatten = s := by
  induction s with
  | nil => rfl
  | cons c t ih =>
    have hne := splitSemi_ne t
    simp only [splitSemi]
    cases h : splitSemi t with
    | nil => exact absurd h hne
    | cons x xs =>
      rw [h] at ih
      split
      · next hc => subst hc; simp [ih]
      · cases xs with
        | nil => simpa using ih
        | cons y ys => simpa using ih

theorem split_pieces (s : List Char) : ∀ p ∈ splitSemi s, ';' ∉ p := by
  induction s with
  | nil => simp [splitSemi]
  | cons c t ih =>
    simp only [splitSemi]
    split
    · simpa using ih
    · next hc =>
      split
      · next h => exact absurd h (splitSemi_ne t)
      · next x xs h =>
        rw [h] at ih
        intro p hp
        simp only [List.mem_cons] at hp ih
        rcases hp with rfl | hp
        · simp only [List.mem_cons, not_or]
          exact ⟨Ne.symm hc, ih x (Or.inl rfl)⟩
        · exact ih p (Or.inr hp)

theorem split_end (u : List Char) : splitSemi (u ++ [';']) = splitSemi u ++ [[]] := by
  induction u with
  | nil => rfl
  | cons c u ih =>
    simp only [List.cons_append, splitSemi, ih]
    split
    · rfl
    · cases h : splitSemi u with
      | nil => exact absurd h (splitSemi_ne u)
      | cons x xs => rfl

/-- the filters: those given, else those of the environment, else "xoscar"; always the detector itself -/
theorem settings_filters {interval seconds envInterval envSeconds : Option Int} {filters : List (List Char)} {envFilters : Option (List Char)}
    {i n : Int} {fs : List (List Char)} (h : settings interval seconds envInterval envSeconds filters envFilters = some (i, n, fs)) :
    0 < i ∧ "asyncio_task_timeout_detector".toList ∈ fs ∧ (∀ f ∈ filters, f ∈ fs) ∧
      (filters = [] → ∀ f, f ∈ fs ↔ f ∈ splitSemi (envFilters.getD "xoscar".toList) ∨ f = "asyncio_task_timeout_detector".toList) := by
  unfold settings at h
  by_cases hc : pick interval (envInterval.getD (-1)) > 0
  · rw [if_pos hc] at h
    have h := Option.some.inj h
    have e1 : i = pick interval (envInterval.getD (-1)) := (congrArg Prod.fst h).symm
    have e2 : fs = (if filters.isEmpty then splitSemi (envFilters.getD "xoscar".toList) else filters) ++ ["asyncio_task_timeout_detector".toList] :=
      (congrArg (fun x => x.2.2) h).symm
    refine ⟨by rw [e1]; exact hc, by rw [e2]; exact List.mem_append_right _ (List.mem_singleton.mpr rfl), ?_, ?_⟩
    · intro f hf
      rw [e2, if_neg (by intro he; rw [List.isEmpty_iff] at he; rw [he] at hf; cases hf)]
      exact List.mem_append_left _ hf
    · intro he f
      rw [e2, he, if_pos (List.isEmpty_nil), List.mem_append, List.mem_singleton]
  · rw [if_neg hc] at h; cases h

/-- the interval and the limit: what is given, else the environment; without a limit the interval is the limit -/
theorem settings_times {interval seconds envInterval envSeconds : Option Int} {filters : List (List Char)} {envFilters : Option (List Char)} :
    (∀ i, interval = some i → 0 < i → ∃ n fs, settings interval seconds envInterval envSeconds filters envFilters = some (i, n, fs) ∧
      (∀ m, seconds = some m → m ≠ 0 → n = m) ∧ (seconds = none → envSeconds = none → n = i)) ∧
    (interval = none → envInterval = none → settings interval seconds envInterval envSeconds filters envFilters = none) := by
  constructor
  · intro i hi hpos
    have e : pick interval (envInterval.getD (-1)) = i := by rw [hi]; exact if_neg (by omega)
    unfold settings
    rw [e, if_pos hpos]
    refine ⟨_, _, rfl, ?_, ?_⟩
    · intro m hm h0
      rw [hm]; exact if_neg h0
    · intro h1 h2
      rw [h1, h2]; rfl
  · intro h1 h2
    subst h1; subst h2
    rfl

/-- … and `XOSCAR_DEBUG_ASYNCIO_TASK_EXCLUDE_FILTERS` with nothing in it, or with a semicolon at its end, has one: nothing is ever reported -/
theorem trailing_semicolon_refuted (s : List Char) (hs : s = [] ∨ ∃ u, s = u ++ [';']) {interval seconds envInterval envSeconds : Option Int}
    {i n : Int} {fs : List (List Char)} (h : settings interval seconds envInterval envSeconds [] (some s) = some (i, n, fs)) (now : Nat) (tasks : List Task) :
    check n fs now tasks = [] := by
  apply empty_filter_refuted
  rw [(settings_filters h).2.2.2 rfl]
  left
  rcases hs with rfl | ⟨u, rfl⟩
  · exact List.mem_singleton.mpr rfl
  · show [] ∈ splitSemi (u ++ [';'])
    rw [split_end]; simp

/-- the detector does not report itself -/
theorem not_itself {interval seconds envInterval envSeconds : Option Int} {filters : List (List Char)} {envFilters : Option (List Char)}
    {i n : Int} {fs : List (List Char)} (h : settings interval seconds envInterval envSeconds filters envFilters = some (i, n, fs)) (now : Nat)
    (tasks : List Task) (t : Task) (ht : Occurs "asyncio_task_timeout_detector".toList t.text) : t ∉ check n fs now tasks := by
  rw [check_iff]
  exact fun hc => hc.2.2.2 _ (settings_filters h).2.1 ht

example : check 5 ["ab".toList] 12 [⟨some 7, "xaby".toList, false⟩, ⟨some 7, "xay".toList, false⟩, ⟨some 8, "c".toList, false⟩, ⟨none, "d".toList, false⟩,
    ⟨some 1, "e".toList, true⟩] = [⟨some 7, "xay".toList, false⟩] := by decide

end Xoscar.Watch
