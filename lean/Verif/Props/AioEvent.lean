import Verif.Spec.AioEvent
import Verif.Proof.Base
/-!
# C105: events that can be awaited
-/
namespace Xoscar.AioEvent

attribute [local grind =] Dict.get?_set Dict.get?_erase

theorem get?_map (d : Dict Job Phase) (f : Phase → Phase) (k : Job) :
    Dict.get? (d.map (fun x => (x.1, f x.2))) k = (Dict.get? d k).map f := by
  induction d with
  | nil => rfl
  | cons x xs ih =>
    obtain ⟨a, b⟩ := x
    simp only [List.map_cons, Dict.get?_cons]
    split
    · rfl
    · exact ih

theorem keys_map (d : Dict Job Phase) (f : Phase → Phase) : Dict.keys (d.map (fun x => (x.1, f x.2))) = Dict.keys d := by
  simp [Dict.keys, List.map_map, Function.comp_def]

variable {n : Nat} {mp : Event → Bool}

theorem run_snoc {ls : List Label} {l : Label} {s' : St} (h : Run n mp (ls ++ [l]) s') :
    ∃ s, Run n mp ls s ∧ step n mp s l = some s' := by
  simp only [Run, List.foldlM_append, List.foldlM_cons, List.foldlM_nil, Option.bind_eq_bind, Option.bind_eq_some_iff] at h
  obtain ⟨s, h1, x, h2, h3⟩ := h
  injection h3 with h3; subst h3
  exact ⟨s, h1, h2⟩

theorem more_cons {s s' : St} {l : Label} {ls : List Label} (h : More n mp s (l :: ls) s') :
    ∃ t, step n mp s l = some t ∧ More n mp t ls s' := by
  simp only [More, List.foldlM_cons, Option.bind_eq_bind, Option.bind_eq_some_iff] at h
  exact h

theorem more_step {s t s' : St} {l : Label} {ls : List Label} (h : step n mp s l = some t) (h' : More n mp t ls s') :
    More n mp s (l :: ls) s' := by
  simp only [More, List.foldlM_cons, Option.bind_eq_bind, h, Option.bind_some]
  exact h'

theorem run_more {s s' : St} {ls ls' : List Label} (h : Run n mp ls s) (h' : More n mp s ls' s') : Run n mp (ls ++ ls') s' := by
  simp only [Run, List.foldlM_append, Option.bind_eq_bind, Option.bind_eq_some_iff]
  exact ⟨s, h, h'⟩

/-! ## The flag -/

theorem isSet_snoc (ls : List Label) (l : Label) (e : Event) : IsSet (ls ++ [l]) e ↔ l = .set e ∨ (l ≠ .clear e ∧ IsSet ls e) := by
  constructor
  · rintro ⟨pre, suf, h, hc⟩
    rcases List.eq_nil_or_concat suf with rfl | ⟨suf', x, rfl⟩
    · left
      have := List.append_inj' h rfl
      simpa using this.2
    · right
      have h' : ls ++ [l] = (pre ++ .set e :: suf') ++ [x] := by simpa using h
      have := List.append_inj' h' rfl
      obtain ⟨h1, h2⟩ := this
      simp only [List.cons.injEq, and_true] at h2
      subst h2
      simp only [List.concat_eq_append, List.mem_append, List.mem_singleton, not_or] at hc
      exact ⟨fun hl => hc.2 hl.symm, pre, suf', h1, hc.1⟩
  · rintro (rfl | ⟨hl, pre, suf, rfl, hc⟩)
    · exact ⟨ls, [], rfl, by simp⟩
    · refine ⟨pre, suf ++ [l], by simp, ?_⟩
      simp only [List.mem_append, List.mem_singleton, not_or]
      exact ⟨hc, fun h => hl h.symm⟩

theorem on_step {s s' : St} {l : Label} (hs : step n mp s l = some s') (e : Event) :
    e ∈ s'.on ↔ l = .set e ∨ (l ≠ .clear e ∧ e ∈ s.on) := by
  cases l <;> simp only [step] at hs <;> grind

/-- `is_set()` is what the last `set` or `clear` made it. -/
theorem is_set_exact {ls : List Label} {s : St} (h : Run n mp ls s) (e : Event) : e ∈ s.on ↔ IsSet ls e := by
  induction ls using List.reverseRecOn' generalizing s with
  | nil =>
    simp only [Run, List.foldlM_nil] at h
    injection h with h; subst h
    constructor
    · intro h; cases h
    · rintro ⟨pre, suf, h, _⟩
      have := congrArg List.length h
      simp at this
  | append_singleton ls l ih =>
    obtain ⟨t, ht, hs⟩ := run_snoc h
    rw [on_step hs, isSet_snoc, ih ht]

/-! ## The invariant -/

structure Inv (ls : List Label) (s : St) : Prop where
  qnd : s.queue.Nodup
  kinds : ∀ j k, s.kinds.get? j = some k ↔ .call j k ∈ ls
  queued : ∀ j ∈ s.queue, s.kinds.get? j ≠ none ∧ s.busy.get? j = none ∧ j ∉ s.gone ∧ ∀ b, (j, b) ∉ s.results
  busyKind : ∀ j p, s.busy.get? j = some p → s.kinds.get? j ≠ none
  fresh : ∀ j p b, s.busy.get? j = some p → (j, b) ∉ s.results
  resKind : ∀ j b, (j, b) ∈ s.results → s.kinds.get? j ≠ none
  nodup : (s.results.map (·.1)).Nodup
  goneRes : ∀ j ∈ s.gone, ∀ b, (j, b) ∉ s.results
  goneKind : ∀ j ∈ s.gone, s.kinds.get? j ≠ none
  waiting : ∀ j e l, s.busy.get? j = some (.waiting e l) → s.kinds.get? j = some (.wait e l) ∧ e ∉ s.on
  woken : ∀ j e, s.busy.get? j = some (.woken e) → ∃ l, s.kinds.get? j = some (.wait e l)
  acct : ∀ j k, s.kinds.get? j = some k → j ∈ s.queue ∨ s.busy.get? j ≠ none ∨ j ∈ s.gone ∨ ∃ b, (j, b) ∈ s.results
  goneCalled : ∀ j, j ∈ s.gone ↔ .cancel j ∈ ls
  expired : ∀ j e, s.busy.get? j = some (.expired e) → s.kinds.get? j = some (.wait e true) ∧ .expire j ∈ ls


theorem wake_ne {e : Event} {p q : Phase} (h : wake e p = q) : p = q ∨ (∃ l, p = .waiting e l ∧ q = .woken e) := by
  cases p <;> simp only [wake] at h <;> grind

theorem inv_init : Inv [] {} := by
  constructor <;> simp

theorem inv_step {ls : List Label} {s s' : St} {l : Label} (h : Inv ls s) (hs : step n mp s l = some s') : Inv (ls ++ [l]) s' := by
  obtain ⟨h0, h1, h2, h3, h4, h5, h6, h7, h8, h9, h10, h11, h12, h13⟩ := h
  cases l with
  | call j k =>
    simp only [step] at hs
    have hk : s.kinds.get? j = none := by
      rcases hk : s.kinds.get? j with _ | x
      · rfl
      · simp [Dict.has, hk] at hs
    have hs' : s' = { s with kinds := s.kinds.set j k, queue := s.queue ++ [j] } := by
      simp [Dict.has, hk] at hs; exact hs.symm
    subst hs'
    have hb : s.busy.get? j = none := by
      rcases h : s.busy.get? j with _ | p
      · rfl
      · exact absurd hk (h3 j p h)
    constructor
    case kinds =>
      intro j' k'
      simp only [Dict.get?_set, List.mem_append, List.mem_singleton, Label.call.injEq]
      by_cases hj : j = j'
      · subst hj
        have : Label.call j k' ∉ ls := fun hc => by rw [← h1, hk] at hc; cases hc
        simp only [if_true, Option.some.injEq, this, true_and, false_or]
        exact eq_comm
      · have hj' : ¬ (j' = j) := fun h => hj h.symm
        simp only [hj, hj', if_false, false_and, or_false]
        exact h1 j' k'
    all_goals grind
  | start =>
    simp only [step] at hs
    split at hs
    · cases hs
    next j rest hq =>
    split at hs
    · split at hs
      · next k hk =>
        injection hs with hs; subst hs
        have a0 : ∀ e l, enter s.on k = .waiting e l → k = .wait e l ∧ e ∉ s.on := by
          intro e l; cases k <;> simp only [enter] <;> grind
        have a1 : ∀ e, enter s.on k ≠ .woken e := by intro e; cases k <;> simp only [enter] <;> grind
        have a2 : ∀ e, enter s.on k ≠ .expired e := by intro e; cases k <;> simp only [enter] <;> grind
        constructor <;> grind
      · cases hs
    · cases hs
  | set e =>
    simp only [step] at hs
    injection hs with hs; subst hs
    have hg : ∀ j, Dict.get? (s.busy.map (fun x => (x.1, wake e x.2))) j = (s.busy.get? j).map (wake e) := get?_map _ _
    have w1 : ∀ p e' l, wake e p = .waiting e' l → p = .waiting e' l ∧ e' ≠ e := by
      intro p e' l; cases p <;> simp only [wake] <;> grind
    have w2 : ∀ p e', wake e p = .woken e' → p = .woken e' ∨ ∃ l, p = .waiting e' l := by
      intro p e' h
      cases p with
      | waiting e'' l =>
        simp only [wake] at h
        split at h
        · injection h with h; subst h; exact Or.inr ⟨l, rfl⟩
        · cases h
      | sure => cases h
      | woken e'' => exact Or.inl h
      | expired e'' => cases h
    have w3 : ∀ p e', wake e p = .expired e' → p = .expired e' := by
      intro p e'; cases p <;> simp only [wake] <;> grind
    constructor <;> simp only [hg, Option.map_eq_some_iff, ne_eq, Option.map_eq_none_iff, List.mem_append, List.mem_singleton]
    case waiting =>
      rintro j e' l ⟨p, hp, hw⟩
      obtain ⟨rfl, hne⟩ := w1 _ _ _ hw
      refine ⟨(h9 j e' l hp).1, ?_⟩
      rw [List.mem_insert_iff, not_or]
      exact ⟨hne, (h9 j e' l hp).2⟩
    case woken =>
      rintro j e' ⟨p, hp, hw⟩
      rcases w2 _ _ hw with rfl | ⟨l, rfl⟩
      · exact h10 j e' hp
      · exact ⟨l, (h9 j e' l hp).1⟩
    case expired =>
      rintro j e' ⟨p, hp, hw⟩
      have := w3 _ _ hw
      subst this
      exact ⟨(h13 j e' hp).1, Or.inl (h13 j e' hp).2⟩
    all_goals grind
  | clear e =>
    simp only [step] at hs
    injection hs with hs; subst hs
    constructor <;> grind
  | expire j =>
    simp only [step] at hs
    split at hs
    · next e hb =>
      injection hs with hs; subst hs
      constructor <;> grind
    · cases hs
  | finish j =>
    simp only [step] at hs
    split at hs
    · next p hp =>
      split at hs
      · next b hb =>
        injection hs with hs; subst hs
        constructor
        case nodup =>
          split
          · exact h6
          · simp only [List.map_append, List.map_cons, List.map_nil, List.nodup_append]
            refine ⟨h6, by simp, ?_⟩
            rintro a ha b' hb' rfl
            simp only [List.mem_singleton] at hb'
            subst hb'
            obtain ⟨⟨x, y⟩, hx, rfl⟩ := List.mem_map.mp ha
            exact h4 _ _ _ hp hx
        all_goals grind
      · cases hs
    · cases hs
  | cancel j =>
    simp only [step] at hs
    split at hs
    · next hq =>
      injection hs with hs; subst hs
      constructor <;> grind
    · split at hs
      · next hq hb =>
        injection hs with hs; subst hs
        obtain ⟨hb1, hb2⟩ := hb
        have : s.busy.get? j ≠ none := by
          intro h; simp [Dict.has, h] at hb1
        have : ∃ p, s.busy.get? j = some p := by
          rcases h : s.busy.get? j with _ | p
          · exact absurd h this
          · exact ⟨p, rfl⟩
        constructor <;> grind
      · cases hs

theorem inv_run {ls : List Label} {s : St} (h : Run n mp ls s) : Inv ls s := by
  induction ls using List.reverseRecOn' generalizing s with
  | nil =>
    simp only [Run, List.foldlM_nil] at h
    injection h with h; subst h
    exact inv_init
  | append_singleton ls l ih =>
    obtain ⟨t, ht, hs⟩ := run_snoc h
    exact inv_step (ih ht) hs

/-! ## What a wait returns -/

/-- at some time after the call the event is set -/
theorem isSet_undone {pre suf : List Label} {e : Event} (h : IsSet pre e) (hn : ¬ IsSet (pre ++ suf) e) : .clear e ∈ suf := by
  obtain ⟨p, q, rfl, hq⟩ := h
  refine Classical.byContradiction fun hc => hn ⟨p, q ++ suf, by simp, ?_⟩
  simp only [List.mem_append, not_or]
  exact ⟨hq, hc⟩

/-- the event was set at a time between the call of the job and now -/
def SetSince (ls : List Label) (j : Job) (e : Event) : Prop :=
  ∃ pre suf l, ls = pre ++ suf ∧ .call j (.wait e l) ∈ pre ∧ IsSet pre e

theorem setSince_snoc {ls : List Label} {j : Job} {e : Event} (l : Label) (h : SetSince ls j e) : SetSince (ls ++ [l]) j e := by
  obtain ⟨pre, suf, lim, rfl, h1, h2⟩ := h
  exact ⟨pre, suf ++ [l], lim, by simp, h1, h2⟩

theorem setSince_now {ls : List Label} {j : Job} {e : Event} {l : Bool} (h : .call j (.wait e l) ∈ ls) (hs : IsSet ls e) : SetSince ls j e :=
  ⟨ls, [], l, by simp, h, hs⟩

structure Said (mp : Event → Bool) (ls : List Label) (s : St) : Prop where
  sure : ∀ j e l, s.busy.get? j = some .sure → s.kinds.get? j = some (.wait e l) → SetSince ls j e
  woken : ∀ j e, s.busy.get? j = some (.woken e) → SetSince ls j e
  yes : ∀ j e l, (j, true) ∈ s.results → s.kinds.get? j = some (.wait e l) → SetSince ls j e
  no : ∀ j, (j, false) ∈ s.results → ∃ e l, s.kinds.get? j = some (.wait e l) ∧
    ((l = true ∧ .expire j ∈ ls) ∨ (mp e = true ∧ .clear e ∈ ls))

theorem said_step {ls : List Label} {s s' : St} {l : Label} (hr : Run n mp ls s) (h : Said mp ls s) (hs : step n mp s l = some s') :
    Said mp (ls ++ [l]) s' := by
  have hi := inv_run hr
  have hi' := inv_step hi hs
  have hr' : Run n mp (ls ++ [l]) s' := run_more hr (more_step hs (by simp [More]))
  have flag := is_set_exact hr
  have flag' := is_set_exact hr'
  obtain ⟨h1, h2, h3, h4⟩ := h
  have up := fun j e => @setSince_snoc ls j e l
  cases l with
  | call j k =>
    simp only [step] at hs
    have hk : s.kinds.get? j = none := by
      rcases hk : s.kinds.get? j with _ | x
      · rfl
      · simp [Dict.has, hk] at hs
    have hs' : s' = { s with kinds := s.kinds.set j k, queue := s.queue ++ [j] } := by
      simp [Dict.has, hk] at hs; exact hs.symm
    subst hs'
    have hb := hi.busyKind
    have hres := hi.resKind
    constructor <;> grind
  | start =>
    simp only [step] at hs
    split at hs
    · cases hs
    next j rest hq =>
    split at hs
    · split at hs
      · next k hk =>
        injection hs with hs; subst hs
        have a1 : ∀ e, enter s.on k ≠ .woken e := by intro e; cases k <;> simp only [enter] <;> grind
        have a0 : ∀ e l, enter s.on k = .sure → k = .wait e l → e ∈ s.on := by
          intro e l; cases k <;> simp only [enter] <;> grind
        constructor
        · intro j' e l hb hk'
          simp only [Dict.get?_set] at hb
          split at hb
          · next hj =>
            subst hj
            injection hb with hb
            simp only [hk, Option.some.injEq] at hk'
            refine up _ _ (setSince_now (l := l) ((hi.kinds _ _).1 ?_) ((flag e).1 (a0 e l hb hk')))
            rw [hk, hk']
          · exact up _ _ (h1 j' e l hb hk')
        · intro j' e hb
          simp only [Dict.get?_set] at hb
          split at hb
          · injection hb with hb; exact absurd hb (a1 e)
          · exact up _ _ (h2 j' e hb)
        · intro j' e l hb hk'; exact up _ _ (h3 j' e l hb hk')
        · intro j' hb
          obtain ⟨e, l, hk', hh⟩ := h4 j' hb
          refine ⟨e, l, hk', ?_⟩
          simp only [List.mem_append]
          rcases hh with ⟨h1, h2⟩ | ⟨h1, h2⟩
          · exact Or.inl ⟨h1, Or.inl h2⟩
          · exact Or.inr ⟨h1, Or.inl h2⟩
      · cases hs
    · cases hs
  | set e =>
    simp only [step] at hs
    injection hs with hs; subst hs
    have hg : ∀ j, Dict.get? (s.busy.map (fun x => (x.1, wake e x.2))) j = (s.busy.get? j).map (wake e) := get?_map _ _
    have w1 : ∀ p, wake e p = .sure → p = .sure := by
      intro p; cases p <;> simp only [wake] <;> grind
    constructor <;> simp only [hg, Option.map_eq_some_iff]
    · rintro j e' l ⟨p, hp, hw⟩ hk
      have := w1 _ hw
      subst this
      exact up _ _ (h1 j e' l hp hk)
    · rintro j e' ⟨p, hp, hw⟩
      rcases wake_ne hw with rfl | ⟨l, rfl, he⟩
      · exact up _ _ (h2 j e' hp)
      · injection he with he
        subst he
        have hk := (hi.waiting j e' l hp).1
        refine setSince_now (l := l) (List.mem_append_left _ ((hi.kinds _ _).1 hk)) ?_
        exact (isSet_snoc _ _ _).2 (Or.inl rfl)
    · intro j e' l hb hk; exact up _ _ (h3 j e' l hb hk)
    · intro j' hb
      obtain ⟨e, l, hk', hh⟩ := h4 j' hb
      refine ⟨e, l, hk', ?_⟩
      simp only [List.mem_append]
      rcases hh with ⟨h1, h2⟩ | ⟨h1, h2⟩
      · exact Or.inl ⟨h1, Or.inl h2⟩
      · exact Or.inr ⟨h1, Or.inl h2⟩
  | clear e =>
    simp only [step] at hs
    injection hs with hs; subst hs
    constructor <;> grind
  | expire j =>
    simp only [step] at hs
    split at hs
    · next e hb =>
      injection hs with hs; subst hs
      constructor <;> grind
    · cases hs
  | finish j =>
    simp only [step] at hs
    split at hs
    · next p hp =>
      split at hs
      · next b hb =>
        injection hs with hs; subst hs
        have key : (∀ e l, b = true → s.kinds.get? j = some (.wait e l) → SetSince ls j e) ∧
            (b = false → ∃ e l, s.kinds.get? j = some (.wait e l) ∧ ((l = true ∧ .expire j ∈ ls) ∨ (mp e = true ∧ .clear e ∈ ls))) := by
          cases p with
          | sure =>
            simp only [answer, Option.some.injEq] at hb
            exact ⟨fun e l _ hk => h1 j e l hp hk, fun hf => by rw [hf] at hb; cases hb⟩
          | waiting e l => cases hb
          | woken e =>
            simp only [answer, Option.some.injEq] at hb
            obtain ⟨l, hk⟩ := hi.woken j e hp
            refine ⟨fun e' l' _ hk' => ?_, fun hf => ?_⟩
            · rw [hk] at hk'; injection hk' with hk'; injection hk' with he; subst he; exact h2 j e hp
            · rw [hf] at hb
              split at hb
              · next hm =>
                simp only [decide_eq_false_iff_not] at hb
                refine ⟨e, l, hk, Or.inr ⟨hm, ?_⟩⟩
                obtain ⟨pre, suf, _, rfl, _, hset⟩ := h2 j e hp
                rw [flag] at hb
                exact List.mem_append_right _ (isSet_undone hset hb)
              · cases hb
          | expired e =>
            simp only [answer, Option.some.injEq] at hb
            obtain ⟨hk, hx⟩ := hi.expired j e hp
            refine ⟨fun e' l' hf hk' => ?_, fun _ => ⟨e, true, hk, Or.inl ⟨rfl, hx⟩⟩⟩
            rw [hk] at hk'; injection hk' with hk'; injection hk' with he; subst he
            rw [hf] at hb
            split at hb
            · simp only [decide_eq_true_eq] at hb
              exact setSince_now ((hi.kinds _ _).1 hk) ((flag e).1 hb)
            · cases hb
        obtain ⟨k1, k2⟩ := key
        constructor
        · intro j' e l hb hk
          simp only [Dict.get?_erase] at hb
          split at hb
          · cases hb
          · exact up _ _ (h1 j' e l hb hk)
        · intro j' e hb
          simp only [Dict.get?_erase] at hb
          split at hb
          · cases hb
          · exact up _ _ (h2 j' e hb)
        · intro j' e l hm hk
          have : (j', true) ∈ s.results ∨ (j' = j ∧ b = true) := by grind
          rcases this with hm | ⟨rfl, hbt⟩
          · exact up _ _ (h3 j' e l hm hk)
          · exact up _ _ (k1 e l hbt hk)
        · intro j' hm
          have : (j', false) ∈ s.results ∨ (j' = j ∧ b = false) := by grind
          have := this.elim (h4 j') (fun ⟨a, c⟩ => a ▸ k2 c)
          obtain ⟨e, l, hk', hh⟩ := this
          refine ⟨e, l, hk', ?_⟩
          simp only [List.mem_append]
          rcases hh with ⟨h1, h2⟩ | ⟨h1, h2⟩
          · exact Or.inl ⟨h1, Or.inl h2⟩
          · exact Or.inr ⟨h1, Or.inl h2⟩
      · cases hs
    · cases hs
  | cancel j =>
    simp only [step] at hs
    split at hs
    · injection hs with hs; subst hs
      constructor <;> grind
    · split at hs
      · injection hs with hs; subst hs
        constructor <;> grind
      · cases hs

theorem said_run {ls : List Label} {s : St} (h : Run n mp ls s) : Said mp ls s := by
  induction ls using List.reverseRecOn' generalizing s with
  | nil =>
    simp only [Run, List.foldlM_nil] at h
    injection h with h; subst h
    constructor <;> simp
  | append_singleton ls l ih =>
    obtain ⟨t, ht, hs⟩ := run_snoc h
    exact said_step ht (ih ht) hs

/-- A wait that returns `True`: the event was set at a time between its call and its return. -/
theorem true_means_set {ls : List Label} {s : St} (h : Run n mp ls s) {j : Job} {e : Event} {l : Bool} (hc : .call j (.wait e l) ∈ ls)
    (hr : (j, true) ∈ s.results) : ∃ pre suf, ls = pre ++ suf ∧ .call j (.wait e l) ∈ pre ∧ IsSet pre e := by
  have hi := inv_run h
  have hk := (hi.kinds _ _).2 hc
  obtain ⟨pre, suf, l', rfl, h1, h2⟩ := (said_run h).yes j e l hr hk
  have := (hi.kinds _ _).2 (List.mem_append_left suf h1)
  rw [hk] at this
  injection this with this
  exact ⟨pre, suf, rfl, this ▸ h1, h2⟩

/-- A wait that returns `False`: it has a time limit, which has passed - or it waits for a `multiprocessing.Event` that was cleared. -/
theorem false_means_late {ls : List Label} {s : St} (h : Run n mp ls s) {j : Job} (hr : (j, false) ∈ s.results) :
    ∃ e l, .call j (.wait e l) ∈ ls ∧ ((l = true ∧ .expire j ∈ ls) ∨ (mp e = true ∧ .clear e ∈ ls)) := by
  obtain ⟨e, l, hk, hh⟩ := (said_run h).no j hr
  exact ⟨e, l, ((inv_run h).kinds _ _).1 hk, hh⟩

/-- Every call returns at most once, and none that was not made or was cancelled. -/
theorem at_most_once {ls : List Label} {s : St} (h : Run n mp ls s) :
    (s.results.map (·.1)).Nodup ∧ ∀ j b, (j, b) ∈ s.results → (∃ k, .call j k ∈ ls) ∧ .cancel j ∉ ls := by
  have hi := inv_run h
  refine ⟨hi.nodup, fun j b hr => ⟨?_, fun hc => hi.goneRes j ((hi.goneCalled j).2 hc) b hr⟩⟩
  rcases hk : s.kinds.get? j with _ | k
  · exact absurd hk (hi.resKind j b hr)
  · exact ⟨k, (hi.kinds _ _).1 hk⟩

/-! ## A set wakes the waits -/

def Woke (j : Job) (e : Event) (s : St) : Prop :=
  s.kinds.get? j = some (.wait e false) ∧ j ∉ s.queue ∧
  (s.busy.get? j = some .sure ∨ s.busy.get? j = some (.woken e) ∨ (s.busy.get? j = none ∧ (j ∈ s.gone ∨ (j, true) ∈ s.results)))

theorem woke_step {j : Job} {e : Event} (he : mp e = false) {s s' : St} {l : Label} (h : Woke j e s) (hs : step n mp s l = some s') : Woke j e s' := by
  obtain ⟨hk, hnq, h⟩ := h
  cases l with
  | call j' k =>
    simp only [step] at hs
    have hk' : s.kinds.get? j' = none := by
      rcases hk : s.kinds.get? j' with _ | x
      · rfl
      · simp [Dict.has, hk] at hs
    have hs' : s' = { s with kinds := s.kinds.set j' k, queue := s.queue ++ [j'] } := by
      simp [Dict.has, hk'] at hs; exact hs.symm
    subst hs'
    constructor <;> grind
  | start =>
    simp only [step] at hs
    split at hs
    · cases hs
    next j' rest hq =>
    split at hs
    · split at hs
      · next k hk' =>
        injection hs with hs; subst hs
        rw [hq, List.mem_cons, not_or] at hnq
        refine ⟨hk, hnq.2, ?_⟩
        have hj : ¬ j' = j := fun hh => hnq.1 hh.symm
        simp only [Dict.get?_set, hj, if_false]
        exact h
      · cases hs
    · cases hs
  | set e' =>
    simp only [step] at hs
    injection hs with hs; subst hs
    refine ⟨hk, hnq, ?_⟩
    simp only [get?_map]
    rcases h with h | h | h
    · exact Or.inl (by rw [h]; rfl)
    · exact Or.inr (Or.inl (by rw [h]; rfl))
    · exact Or.inr (Or.inr ⟨by rw [h.1]; rfl, h.2⟩)
  | clear e' =>
    simp only [step] at hs
    injection hs with hs; subst hs
    exact ⟨hk, hnq, h⟩
  | expire j' =>
    simp only [step] at hs
    split at hs
    · next e' hb =>
      injection hs with hs; subst hs
      refine ⟨hk, hnq, ?_⟩
      simp only [Dict.get?_set]
      by_cases hj : j' = j
      · subst hj; grind
      · simp only [hj, if_false]; exact h
    · cases hs
  | finish j' =>
    simp only [step] at hs
    split at hs
    · next p hp =>
      split at hs
      · next b hb =>
        injection hs with hs; subst hs
        refine ⟨hk, hnq, ?_⟩
        simp only [Dict.get?_erase]
        by_cases hj : j' = j
        · subst hj
          have hbt : b = true := by
            rcases h with h | h | h
            · rw [hp] at h; injection h with h; subst h; simp only [answer, Option.some.injEq] at hb; exact hb.symm
            · rw [hp] at h; injection h with h; subst h; simp only [answer, he, Bool.false_eq_true, if_false, Option.some.injEq] at hb; exact hb.symm
            · rw [hp] at h; cases h.1
          subst hbt
          refine Or.inr (Or.inr ⟨by simp, ?_⟩)
          by_cases hg : j' ∈ s.gone
          · exact Or.inl hg
          · right; simp [hg]
        · simp only [hj, if_false]
          rcases h with h | h | ⟨h1, h3⟩
          · exact Or.inl h
          · exact Or.inr (Or.inl h)
          · refine Or.inr (Or.inr ⟨h1, ?_⟩)
            rcases h3 with h3 | h3
            · exact Or.inl h3
            · right; split
              · exact h3
              · exact List.mem_append_left _ h3
      · cases hs
    · cases hs
  | cancel j' =>
    simp only [step] at hs
    split at hs
    · injection hs with hs; subst hs
      exact ⟨hk, fun hm => hnq (List.mem_filter.mp hm).1, by grind⟩
    · split at hs
      · injection hs with hs; subst hs
        exact ⟨hk, hnq, by grind⟩
      · cases hs

theorem woke_more {j : Job} {e : Event} (he : mp e = false) {s s' : St} {ls : List Label} (h : Woke j e s) (hm : More n mp s ls s') : Woke j e s' := by
  induction ls generalizing s with
  | nil =>
    simp only [More, List.foldlM_nil] at hm
    injection hm with hm; subst hm; exact h
  | cons l ls ih =>
    obtain ⟨t, ht, hm⟩ := more_cons hm
    exact ih (woke_step he h ht) hm

/-- `set` wakes every wait that a thread has taken: whatever happens next, also when the event is cleared at once, the wait has returned `True`
or its thread can end, and the caller then has `True`, unless it was cancelled.  (A `threading.Event`, no time limit.) -/
theorem set_wakes {ls more : List Label} {s s' : St} (h : Run n mp ls s) {j : Job} {e : Event} (he : mp e = false)
    (hc : .call j (.wait e false) ∈ ls) (hb : s.busy.get? j ≠ none) (hm : More n mp s (.set e :: more) s') :
    .cancel j ∈ ls ++ .set e :: more ∨ (j, true) ∈ s'.results ∨ ∃ t, step n mp s' (.finish j) = some t ∧ (j, true) ∈ t.results := by
  have hi := inv_run h
  have hk := (hi.kinds _ _).2 hc
  obtain ⟨t, ht, hm'⟩ := more_cons hm
  have hw : Woke j e t := by
    simp only [step] at ht
    injection ht with ht; subst ht
    refine ⟨hk, fun hq => hb (hi.queued j hq).2.1, ?_⟩
    simp only [get?_map]
    rcases hp : s.busy.get? j with _ | p
    · exact absurd hp hb
    cases p with
    | sure => exact Or.inl rfl
    | woken e' =>
      obtain ⟨l, hk'⟩ := hi.woken j e' hp
      rw [hk] at hk'; injection hk' with hk'; injection hk' with he'; subst he'
      exact Or.inr (Or.inl rfl)
    | expired e' =>
      have hk' := (hi.expired j e' hp).1
      rw [hk] at hk'; injection hk' with hk'; injection hk' with _ hl; cases hl
    | waiting e' l =>
      have hk' := (hi.waiting j e' l hp).1
      rw [hk] at hk'; injection hk' with hk'; injection hk' with he'; subst he'
      exact Or.inr (Or.inl (by simp [wake]))
  have hw' := woke_more he hw hm'
  have hi' := inv_run (run_more h hm)
  by_cases hg : j ∈ s'.gone
  · exact Or.inl ((hi'.goneCalled j).1 hg)
  · right
    have ends : ∀ p, s'.busy.get? j = some p → answer mp s'.on p = some true →
        ∃ t, step n mp s' (.finish j) = some t ∧ (j, true) ∈ t.results := by
      intro p hp ha
      exact ⟨{ s' with busy := s'.busy.erase j, results := s'.results ++ [(j, true)] }, by simp [step, hp, ha, hg], by simp⟩
    rcases hw'.2.2 with h1 | h1 | ⟨_, h2⟩
    · exact Or.inr (ends _ h1 rfl)
    · exact Or.inr (ends _ h1 (by simp [answer, he]))
    · exact Or.inl (h2.resolve_left hg)

/-! ## Waits that nothing ends -/

def Stuck (j : Job) (e : Event) (s : St) : Prop :=
  e ∉ s.on ∧ s.kinds.get? j = some (.wait e false) ∧ (s.busy.get? j = none ∨ s.busy.get? j = some (.waiting e false))

theorem wake_other {e e' : Event} {l : Bool} (h : e' ≠ e) : wake e' (.waiting e l) = .waiting e l := by
  simp only [wake]
  rw [if_neg (fun hh => h hh.symm)]

theorem stuck_step {j : Job} {e : Event} {s s' : St} {l : Label} (h : Stuck j e s) (hl : l ≠ .set e) (hs : step n mp s l = some s') :
    Stuck j e s' ∧ (∀ b, (j, b) ∈ s'.results → (j, b) ∈ s.results) ∧ (s.busy.get? j = some (.waiting e false) → s'.busy.get? j = some (.waiting e false)) := by
  obtain ⟨ho, hk, hb⟩ := h
  have ho' : e ∉ s'.on := by
    rw [on_step hs]
    rintro (rfl | ⟨_, h⟩)
    · exact hl rfl
    · exact ho h
  cases l with
  | call j' k =>
    simp only [step] at hs
    have hk' : s.kinds.get? j' = none := by
      rcases hk : s.kinds.get? j' with _ | x
      · rfl
      · simp [Dict.has, hk] at hs
    have hs' : s' = { s with kinds := s.kinds.set j' k, queue := s.queue ++ [j'] } := by
      simp [Dict.has, hk'] at hs; exact hs.symm
    subst hs'
    refine ⟨⟨ho', ?_, hb⟩, fun _ h => h, fun h => h⟩
    grind
  | start =>
    simp only [step] at hs
    split at hs
    · cases hs
    next j' rest hq =>
    split at hs
    · split at hs
      · next k hk' =>
        injection hs with hs; subst hs
        by_cases hj : j' = j
        · subst hj
          rw [hk] at hk'; injection hk' with hk'; subst hk'
          have : enter s.on (.wait e false) = .waiting e false := by simp [enter, ho]
          exact ⟨⟨ho', hk, Or.inr (by simp [this])⟩, fun _ h => h, fun _ => by simp [this]⟩
        · exact ⟨⟨ho', hk, by simpa [hj] using hb⟩, fun _ h => h, fun h => by simpa [hj] using h⟩
      · cases hs
    · cases hs
  | set e' =>
    simp only [step] at hs
    injection hs with hs; subst hs
    have hne : e' ≠ e := fun h => hl (h ▸ rfl)
    refine ⟨⟨ho', hk, ?_⟩, fun _ h => h, ?_⟩
    · simp only [get?_map]
      rcases hb with hb | hb
      · exact Or.inl (by rw [hb]; rfl)
      · exact Or.inr (by rw [hb, Option.map_some, wake_other hne])
    · intro hb
      simp only [get?_map]
      rw [hb, Option.map_some, wake_other hne]
  | clear e' =>
    simp only [step] at hs
    injection hs with hs; subst hs
    exact ⟨⟨ho', hk, hb⟩, fun _ h => h, fun h => h⟩
  | expire j' =>
    simp only [step] at hs
    split at hs
    · next e' hb' =>
      injection hs with hs; subst hs
      have hj : ¬ j' = j := by
        intro hj; subst hj
        rcases hb with hb | hb <;> rw [hb] at hb' <;> cases hb'
      exact ⟨⟨ho', hk, by simpa [hj] using hb⟩, fun _ h => h, fun h => by simpa [hj] using h⟩
    · cases hs
  | finish j' =>
    simp only [step] at hs
    split at hs
    · next p hp =>
      split at hs
      · next b ha =>
        injection hs with hs; subst hs
        have hj : ¬ j' = j := by
          intro hj; subst hj
          rcases hb with hb | hb
          · rw [hb] at hp; cases hp
          · rw [hb] at hp; injection hp with hp; subst hp; cases ha
        refine ⟨⟨ho', hk, by simpa [hj] using hb⟩, ?_, fun h => by simpa [hj] using h⟩
        intro b' h
        simp only at h
        split at h
        · exact h
        · rcases List.mem_append.mp h with h | h
          · exact h
          · simp only [List.mem_singleton, Prod.mk.injEq] at h
            exact absurd h.1.symm hj
      · cases hs
    · cases hs
  | cancel j' =>
    simp only [step] at hs
    split at hs
    · injection hs with hs; subst hs
      exact ⟨⟨ho', hk, hb⟩, fun _ h => h, fun h => h⟩
    · split at hs
      · injection hs with hs; subst hs
        exact ⟨⟨ho', hk, hb⟩, fun _ h => h, fun h => h⟩
      · cases hs

theorem stuck_more {j : Job} {e : Event} {s s' : St} {ls : List Label} (h : Stuck j e s) (hl : .set e ∉ ls) (hm : More n mp s ls s') :
    Stuck j e s' ∧ (∀ b, (j, b) ∈ s'.results → (j, b) ∈ s.results) ∧ (s.busy.get? j = some (.waiting e false) → s'.busy.get? j = some (.waiting e false)) := by
  induction ls generalizing s with
  | nil =>
    simp only [More, List.foldlM_nil] at hm
    injection hm with hm; subst hm; exact ⟨h, fun _ h => h, fun h => h⟩
  | cons l ls ih =>
    obtain ⟨t, ht, hm⟩ := more_cons hm
    simp only [List.mem_cons, not_or] at hl
    obtain ⟨h1, h2, h3⟩ := stuck_step h (fun hh => hl.1 hh.symm) ht
    obtain ⟨h4, h5, h6⟩ := ih h1 hl.2 hm
    exact ⟨h4, fun b hb => h2 b (h5 b hb), fun hb => h6 (h3 hb)⟩

/-- **Refuted**: "`set` wakes every wait made before it": one that no thread has taken yet misses it when the event is cleared again, and waits
for the next `set`, if one ever comes. -/
theorem pulse_missed_refuted {ls more : List Label} {s s' : St} (h : Run n mp ls s) {j : Job} {e : Event}
    (hc : .call j (.wait e false) ∈ ls) (hq : j ∈ s.queue) (hm : More n mp s (.set e :: .clear e :: more) s') (hs : .set e ∉ more) :
    ∀ b, (j, b) ∉ s'.results := by
  have hi := inv_run h
  obtain ⟨t, ht, hm⟩ := more_cons hm
  obtain ⟨u, hu, hm⟩ := more_cons hm
  have hr : ∀ b, (j, b) ∉ u.results := by
    intro b
    simp only [step] at ht hu
    injection ht with ht; subst ht
    injection hu with hu; subst hu
    exact (hi.queued j hq).2.2.2 b
  have hst : Stuck j e u := by
    refine ⟨?_, ?_, Or.inl ?_⟩
    · rw [on_step hu]; simp
    · simp only [step] at ht hu
      injection ht with ht; subst ht
      injection hu with hu; subst hu
      exact (hi.kinds _ _).2 hc
    · simp only [step] at ht hu
      injection ht with ht; subst ht
      injection hu with hu; subst hu
      simp only [get?_map, (hi.queued j hq).2.1]; rfl
  exact fun b hb => hr b ((stuck_more hst hs hm).2.1 b hb)

/-- **Refuted**: "a wait that is given up leaves nothing behind": when its caller is cancelled (by `asyncio.wait_for`, say) the thread stays in
the wait, until the event is set. -/
theorem given_up_stays_refuted {ls more : List Label} {s s' : St} (h : Run n mp ls s) {j : Job} {e : Event}
    (hb : s.busy.get? j = some (.waiting e false)) (hm : More n mp s (.cancel j :: more) s') (hs : .set e ∉ more) :
    s'.busy.get? j = some (.waiting e false) := by
  have hi := inv_run h
  have := hi.waiting j e false hb
  exact (stuck_more ⟨this.2, this.1, Or.inr hb⟩ (by simp only [List.mem_cons, not_or]; exact ⟨by simp, hs⟩) hm).2.2 hb

/-- One that is given up before a thread takes it never comes to a thread. -/
theorem given_up_early {ls more : List Label} {s s' : St} (h : Run n mp ls s) {j : Job} (hq : j ∈ s.queue)
    (hm : More n mp s (.cancel j :: more) s') : j ∉ s'.queue ∧ s'.busy.get? j = none := by
  have hi := inv_run h
  obtain ⟨t, ht, hm'⟩ := more_cons hm
  clear hm
  have hm := hm'
  clear hm'
  have key : t.kinds.get? j ≠ none ∧ j ∉ t.queue ∧ t.busy.get? j = none := by
    simp only [step, hq, if_true] at ht
    injection ht with ht; subst ht
    exact ⟨(hi.queued j hq).1, by simp, (hi.queued j hq).2.1⟩
  clear hi h hq ht
  induction more generalizing t with
  | nil =>
    simp only [More, List.foldlM_nil] at hm
    injection hm with hm; subst hm; exact key.2
  | cons l more ih =>
    obtain ⟨u, hu, hm'⟩ := more_cons hm
    clear hm
    have hm := hm'
    clear hm'
    refine ih u hm ?_
    obtain ⟨k1, k2, k3⟩ := key
    cases l with
    | call j' k =>
      simp only [step] at hu
      have hk' : t.kinds.get? j' = none := by
        rcases hk : t.kinds.get? j' with _ | x
        · rfl
        · simp [Dict.has, hk] at hu
      have hs' : u = { t with kinds := t.kinds.set j' k, queue := t.queue ++ [j'] } := by
        simp [Dict.has, hk'] at hu; exact hu.symm
      subst hs'
      have : ¬ j' = j := fun hh => k1 (hh ▸ hk')
      refine ⟨by simpa [this] using k1, ?_, k3⟩
      simp only [List.mem_append, List.mem_singleton, not_or]
      exact ⟨k2, fun hh => this hh.symm⟩
    | start =>
      simp only [step] at hu
      split at hu
      · cases hu
      next j' rest hq =>
      split at hu
      · split at hu
        · next k hk' =>
          injection hu with hu; subst hu
          rw [hq, List.mem_cons, not_or] at k2
          have : ¬ j' = j := fun hh => k2.1 hh.symm
          exact ⟨k1, k2.2, by simpa [this] using k3⟩
        · cases hu
      · cases hu
    | set e' =>
      simp only [step] at hu
      injection hu with hu; subst hu
      exact ⟨k1, k2, by simp [get?_map, k3]⟩
    | clear e' =>
      simp only [step] at hu
      injection hu with hu; subst hu
      exact ⟨k1, k2, k3⟩
    | expire j' =>
      simp only [step] at hu
      split at hu
      · next e' hb' =>
        injection hu with hu; subst hu
        have : ¬ j' = j := by rintro rfl; rw [k3] at hb'; cases hb'
        exact ⟨k1, k2, by simpa [this] using k3⟩
      · cases hu
    | finish j' =>
      simp only [step] at hu
      split at hu
      · split at hu
        · injection hu with hu; subst hu
          exact ⟨k1, k2, by simp [k3]⟩
        · cases hu
      · cases hu
    | cancel j' =>
      simp only [step] at hu
      split at hu
      · injection hu with hu; subst hu
        exact ⟨k1, fun hm => k2 (List.mem_filter.mp hm).1, k3⟩
      · split at hu
        · injection hu with hu; subst hu
          exact ⟨k1, k2, k3⟩
        · cases hu

/-- **Refuted**: "waits hold up no other work": when every thread of the executor is in a wait without a time limit, nothing that is handed to the
executor - messages above the threshold, file operations, waits for events that are set - comes to an end until one of these events is set;
whoever is cancelled. -/
theorem exhausted_refuted {ls more : List Label} {s s' : St} (h : Run n mp ls s) (hn : s.busy.length = n)
    (hb : ∀ j p, s.busy.get? j = some p → ∃ e, p = .waiting e false ∧ .set e ∉ more) (hm : More n mp s more s') :
    s'.results = s.results ∧ s'.busy = s.busy := by
  have wake_id : ∀ (d : Dict Job Phase) (e : Event), (∀ x ∈ d, wake e x.2 = x.2) → d.map (fun x => (x.1, wake e x.2)) = d := by
    intro d e
    induction d with
    | nil => intro _; rfl
    | cons x xs ih =>
      intro hx
      obtain ⟨a, b⟩ := x
      simp only [List.map_cons, hx (a, b) (by simp), ih (fun y hy => hx y (List.mem_cons_of_mem _ hy))]
  have wf : s.busy.WF := by
    clear hn hb hm
    induction ls using List.reverseRecOn' generalizing s with
    | nil =>
      simp only [Run, List.foldlM_nil] at h
      injection h with h; subst h; exact Dict.WF.nil
    | append_singleton ls l ih =>
      obtain ⟨t, ht, hs⟩ := run_snoc h
      have ih := ih ht
      cases l <;> simp only [step] at hs <;> (repeat' split at hs) <;> first
        | (injection hs with hs; subst hs; first
            | exact ih
            | exact ih.set _ _
            | exact ih.erase _
            | (simp only [Dict.WF, keys_map]; exact ih)
            | (unfold Dict.WF; rw [keys_map]; exact ih))
        | cases hs
  clear h
  induction more generalizing s with
  | nil =>
    simp only [More, List.foldlM_nil] at hm
    injection hm with hm; subst hm; exact ⟨rfl, rfl⟩
  | cons l more ih =>
    obtain ⟨t, ht, hm'⟩ := more_cons hm
    have key : t.results = s.results ∧ t.busy = s.busy := by
      cases l with
      | call j' k =>
        simp only [step] at ht
        split at ht
        · cases ht
        · injection ht with ht; subst ht; exact ⟨rfl, rfl⟩
      | start =>
        simp only [step] at ht
        split at ht
        · cases ht
        · rw [if_neg (by omega)] at ht; cases ht
      | set e =>
        simp only [step] at ht
        injection ht with ht; subst ht
        refine ⟨rfl, wake_id _ _ ?_⟩
        rintro ⟨j, p⟩ hx
        obtain ⟨e', rfl, he'⟩ := hb j p (Dict.get?_of_mem wf hx)
        simp only [List.mem_cons, not_or] at he'
        exact wake_other (fun hh => he'.1 (hh ▸ rfl))
      | clear e =>
        simp only [step] at ht
        injection ht with ht; subst ht; exact ⟨rfl, rfl⟩
      | expire j =>
        simp only [step] at ht
        split at ht
        · next e hb' =>
          obtain ⟨e', h1, _⟩ := hb _ _ hb'
          cases h1
        · cases ht
      | finish j =>
        simp only [step] at ht
        split at ht
        · next p hp =>
          obtain ⟨e', rfl, _⟩ := hb _ _ hp
          simp only [answer] at ht
          cases ht
        · cases ht
      | cancel j =>
        simp only [step] at ht
        split at ht
        · injection ht with ht; subst ht; exact ⟨rfl, rfl⟩
        · split at ht
          · injection ht with ht; subst ht; exact ⟨rfl, rfl⟩
          · cases ht
    obtain ⟨k1, k2⟩ := key
    have := ih (s := t) (by rw [k2]; exact hn)
      (by
        intro j p hp
        rw [k2] at hp
        obtain ⟨e, h1, h2⟩ := hb j p hp
        exact ⟨e, h1, fun hh => h2 (List.mem_cons_of_mem _ hh)⟩) hm' (by rw [k2]; exact wf)
    rw [← k1, ← k2]
    exact this

/-- … and for every number of threads as many waits bring this about; even if all their callers have given up. -/
theorem exhausting (n : Nat) (mp : Event → Bool) : ∃ ls s, Run n mp ls s ∧ s.busy.length = n ∧
    (∀ j p, s.busy.get? j = some p → p = .waiting 0 false ∧ .cancel j ∈ ls) := by
  have : ∀ k, k ≤ n → ∃ ls s, Run n mp ls s ∧ s.on = [] ∧ s.queue = [] ∧ s.busy.length = k ∧ (∀ j, k ≤ j → s.kinds.get? j = none) ∧
      (∀ j p, s.busy.get? j = some p → p = .waiting 0 false ∧ .cancel j ∈ ls) := by
    intro k hk
    induction k with
    | zero => exact ⟨[], {}, rfl, rfl, rfl, rfl, fun _ _ => rfl, fun j p h => by cases h⟩
    | succ k ih =>
      obtain ⟨ls, s, hr, h1, h2, h3, h4, h5⟩ := ih (by omega)
      have hi := inv_run hr
      have hkk := h4 k (Nat.le_refl _)
      have hb : s.busy.get? k = none := by
        rcases hb : s.busy.get? k with _ | p
        · rfl
        · exact absurd hkk (hi.busyKind k p hb)
      have hg : k ∉ s.gone := fun hg => hi.goneKind k hg hkk
      have len : ∀ (d : Dict Job Phase) (p : Phase), d.get? k = none → (d.set k p).length = d.length + 1 := by
        intro d p
        induction d with
        | nil => intro _; rfl
        | cons x xs ih =>
          obtain ⟨a, b⟩ := x
          intro hx
          simp only [Dict.get?_cons] at hx
          split at hx
          · cases hx
          · next hne => simp only [Dict.set, hne, if_false, List.length_cons, ih hx]
      refine ⟨ls ++ [.call k (.wait 0 false), .start, .cancel k],
        { s with kinds := s.kinds.set k (.wait 0 false), queue := [], busy := s.busy.set k (.waiting 0 false), gone := k :: s.gone }, ?_, h1, rfl, ?_, ?_, ?_⟩
      · refine run_more hr ?_
        have hlt : s.busy.length < n := by omega
        simp [More, step, Dict.has, hkk, h2, h1, enter, hlt, hg]
      · simp only [len _ _ hb, h3]
      · intro j hj
        have : ¬ k = j := by omega
        simp only [Dict.get?_set, this, if_false]
        exact h4 j (by omega)
      · intro j p hp
        simp only [Dict.get?_set] at hp
        split at hp
        · next hj =>
          subst hj
          injection hp with hp
          exact ⟨hp.symm, by simp⟩
        · exact ⟨(h5 j p hp).1, List.mem_append_left _ (h5 j p hp).2⟩
  obtain ⟨ls, s, h1, _, _, h4, _, h6⟩ := this n (Nat.le_refl _)
  exact ⟨ls, s, h1, h4, h6⟩

/-- **Refuted**, for a `multiprocessing.Event`: "without a time limit a wait returns `True`".  A `clear` right after the `set` that woke it makes it
`False`. -/
theorem mp_false_refuted {ls : List Label} {s : St} (h : Run n mp ls s) {j : Job} {e : Event} (he : mp e = true)
    (hb : s.busy.get? j = some (.waiting e false)) (hg : .cancel j ∉ ls) :
    ∃ s', More n mp s [.set e, .clear e, .finish j] s' ∧ (j, false) ∈ s'.results := by
  have hi := inv_run h
  have hg' : j ∉ s.gone := fun hh => hg ((hi.goneCalled j).1 hh)
  have hw : Dict.get? (s.busy.map (fun x => (x.1, wake e x.2))) j = some (.woken e) := by
    rw [get?_map, hb]; simp [wake]
  refine ⟨{ s with on := (s.on.insert e).filter (· ≠ e), busy := Dict.erase (s.busy.map (fun x => (x.1, wake e x.2))) j,
                   results := s.results ++ [(j, false)] }, ?_, by simp⟩
  simp [More, step, hw, answer, he, hg']

/-! ## Otherwise everything ends -/

/-- everything that is in the executor ends by itself: no wait without a time limit for an event that is not set -/
def Ends (s : St) : Prop := ∀ j e l, (j ∈ s.queue ∨ s.busy.get? j ≠ none) → s.kinds.get? j = some (.wait e l) → l = true ∨ e ∈ s.on

/-- labels of the executor's own: no calls, sets, clears or cancellations -/
def Own (l : Label) : Prop := l = .start ∨ (∃ j, l = .expire j) ∨ ∃ j, l = .finish j

theorem drain {ls : List Label} {s : St} (h : Run n mp ls s) (hn : 0 < n) (he : Ends s) (m : Nat) (hm : 2 * s.queue.length + s.busy.length = m) :
    ∃ more s', More n mp s more s' ∧ (∀ l ∈ more, Own l) ∧ s'.queue = [] ∧ s'.busy = [] := by
  induction m using Nat.strongRecOn generalizing ls s with
  | _ m ih =>
  have hi := inv_run h
  rcases hb : s.busy with _ | ⟨⟨j, p⟩, rest⟩
  · rcases hq : s.queue with _ | ⟨j, q⟩
    · exact ⟨[], s, rfl, by simp, hq, hb⟩
    · have hk := (hi.queued j (hq ▸ List.mem_cons_self)).1
      rcases hk' : s.kinds.get? j with _ | k
      · exact absurd hk' hk
      have hst : step n mp s .start = some { s with queue := q, busy := s.busy.set j (enter s.on k) } := by
        simp [step, hq, hb, hn, hk']
      have hr := run_more h (more_step hst (by rfl : More n mp _ [] _))
      obtain ⟨more, s', m1, m2, m3, m4⟩ := ih _ (by
        have : (s.busy.set j (enter s.on k)).length = 1 := by rw [hb]; rfl
        simp only [this]
        rw [hq, hb] at hm
        simp only [List.length_cons, List.length_nil] at hm
        omega) hr (by
          intro j' e l hin hkk
          refine he j' e l ?_ hkk
          rcases hin with hin | hin
          · exact Or.inl (hq ▸ List.mem_cons_of_mem _ hin)
          · by_cases hj : j = j'
            · subst hj; exact Or.inl (hq ▸ List.mem_cons_self)
            · simp only [Dict.get?_set, hj, if_false] at hin
              exact Or.inr hin) rfl
      exact ⟨.start :: more, s', more_step hst m1, by
        intro l hl
        rcases List.mem_cons.mp hl with rfl | hl
        · exact Or.inl rfl
        · exact m2 l hl, m3, m4⟩
  · have hp : s.busy.get? j = some p := by rw [hb]; simp [Dict.get?_cons]
    have len : ∀ (d : Dict Job Phase), (d.erase j).length ≤ d.length := by
      intro d
      induction d with
      | nil => simp [Dict.erase]
      | cons x xs ih =>
        obtain ⟨a, b⟩ := x
        simp only [Dict.erase]
        split <;> simp only [List.length_cons] <;> omega
    have fin : ∀ (t : St) (ls' : List Label) (b : Bool), Run n mp ls' t → t.queue = s.queue → t.kinds = s.kinds → t.on = s.on →
        (∃ p', t.busy = (j, p') :: rest ∧ answer mp t.on p' = some b) →
        ∃ more s', More n mp t more s' ∧ (∀ l ∈ more, Own l) ∧ s'.queue = [] ∧ s'.busy = [] := by
      rintro t ls' b hr tq tk to ⟨p', tb, ta⟩
      have hp' : t.busy.get? j = some p' := by rw [tb]; simp [Dict.get?_cons]
      have hst : step n mp t (.finish j) =
          some { t with busy := t.busy.erase j, results := if j ∈ t.gone then t.results else t.results ++ [(j, b)] } := by
        simp [step, hp', ta]
      have hr' := run_more hr (more_step hst (by rfl : More n mp _ [] _))
      obtain ⟨more, s', m1, m2, m3, m4⟩ := ih _ (by
        have h1 : (t.busy.erase j).length ≤ rest.length := by
          rw [tb]; simp only [Dict.erase, if_true]; exact len rest
        rw [hb] at hm
        simp only [List.length_cons] at hm
        simp only [tq]
        omega) hr' (by
          intro j' e l hin hkk
          simp only [tk, to, tq] at hin hkk ⊢
          refine he j' e l ?_ hkk
          rcases hin with hin | hin
          · exact Or.inl hin
          · right
            simp only [Dict.get?_erase] at hin
            split at hin
            · exact absurd rfl hin
            · next hj =>
              rw [hb]; rw [tb] at hin
              simp only [Dict.get?_cons, hj, if_false] at hin ⊢
              exact hin) rfl
      exact ⟨.finish j :: more, s', more_step hst m1, by
        intro l hl
        rcases List.mem_cons.mp hl with rfl | hl
        · exact Or.inr (Or.inr ⟨j, rfl⟩)
        · exact m2 l hl, m3, m4⟩
    rcases ha : answer mp s.on p with _ | b
    · cases p with
      | sure => cases ha
      | woken e => cases ha
      | expired e => cases ha
      | waiting e l =>
        obtain ⟨hk, ho⟩ := hi.waiting j e l hp
        have hl := (he j e l (Or.inr (by rw [hp]; simp)) hk).resolve_right ho
        subst hl
        have hst : step n mp s (.expire j) = some { s with busy := s.busy.set j (.expired e) } := by simp [step, hp]
        have hr := run_more h (more_step hst (by rfl : More n mp _ [] _))
        obtain ⟨more, s', m1, m2, m3, m4⟩ := fin _ _ (if mp e then decide (e ∈ s.on) else false) hr rfl rfl rfl
          ⟨.expired e, by simp [hb, Dict.set], rfl⟩
        exact ⟨.expire j :: more, s', more_step hst m1, by
          intro l hl
          rcases List.mem_cons.mp hl with rfl | hl
          · exact Or.inr (Or.inl ⟨j, rfl⟩)
          · exact m2 l hl, m3, m4⟩
    · exact fin s ls b h rfl rfl rfl ⟨p, hb, ha⟩

/-- As long as every wait that has not returned has a time limit or its event is set, everything that was handed to the executor ends, by what its threads do alone:
every call has its result, or was cancelled. -/
theorem all_end_partial {ls : List Label} {s : St} (h : Run n mp ls s) (hn : 0 < n)
    (he : ∀ j e, .call j (.wait e false) ∈ ls → (∀ b, (j, b) ∉ s.results) → IsSet ls e) :
    ∃ more s', More n mp s more s' ∧ (∀ l ∈ more, Own l) ∧ s'.queue = [] ∧ s'.busy = [] ∧
      ∀ j k, .call j k ∈ ls → .cancel j ∈ ls ∨ ∃ b, (j, b) ∈ s'.results := by
  have hi := inv_run h
  obtain ⟨more, s', h1, h2, h3, h4⟩ := drain h hn (by
    intro j e l hin hk
    cases l with
    | true => exact Or.inl rfl
    | false =>
      refine Or.inr ((is_set_exact h e).2 (he j e ((hi.kinds _ _).1 hk) fun b => ?_))
      rcases hin with hin | hin
      · exact (hi.queued j hin).2.2.2 b
      · rcases hp : s.busy.get? j with _ | p
        · exact absurd hp hin
        · exact hi.fresh j p b hp) _ rfl
  refine ⟨more, s', h1, h2, h3, h4, fun j k hc => ?_⟩
  have hi' := inv_run (run_more h h1)
  have hk := (hi'.kinds _ _).2 (List.mem_append_left more hc)
  rcases hi'.acct j k hk with hh | hh | hh | hh
  · rw [h3] at hh; cases hh
  · rw [h4] at hh; exact absurd rfl hh
  · left
    rcases List.mem_append.mp ((hi'.goneCalled j).1 hh) with hc | hc
    · exact hc
    · rcases h2 _ hc with h | ⟨_, h⟩ | ⟨_, h⟩ <;> cases h
  · exact Or.inr hh

/-! ## Concrete cases -/

/-- one thread; event 5 is a `threading.Event`, event 6 a `multiprocessing.Event` -/
def demoMp : Event → Bool := fun e => e == 6

def demo : List Label := [.call 0 (.wait 5 false), .call 1 (.wait 5 false), .call 2 .other, .start]
def demoSt : St := ⟨[], [(0, .wait 5 false), (1, .wait 5 false), (2, .other)], [1, 2], [(0, .waiting 5 false)], [], []⟩

theorem demo_run : Run 1 demoMp demo demoSt := by simp only [Run, demo]; decide

/-- a pulse: the first wait returns, the second waits for ever, and the other job behind it -/
def pulse : List Label := [.set 5, .clear 5, .finish 0, .start]
def pulseSt : St := ⟨[], [(0, .wait 5 false), (1, .wait 5 false), (2, .other)], [2], [(1, .waiting 5 false)], [], [(0, true)]⟩
theorem pulse_run : More 1 demoMp demoSt pulse pulseSt := by simp only [More, pulse]; decide

example := set_wakes demo_run (j := 0) (e := 5) rfl (by decide) (by decide) pulse_run
example : ∀ b, (1, b) ∉ pulseSt.results := pulse_missed_refuted demo_run (j := 1) (e := 5) (by decide) (by decide) pulse_run (by decide)
example : ∃ pre suf, demo ++ pulse = pre ++ suf ∧ .call 0 (.wait 5 false) ∈ pre ∧ IsSet pre 5 :=
  true_means_set (run_more demo_run pulse_run) (by decide) (by decide)
example {more : List Label} {s' : St} (hm : More 1 demoMp demoSt more s') (h : .set 5 ∉ more) : s'.results = [] ∧ s'.busy = [(0, .waiting 5 false)] :=
  exhausted_refuted demo_run rfl (by
    intro j p hp
    simp only [demoSt, Dict.get?_cons, Dict.get?_nil] at hp
    split at hp
    · injection hp with hp; exact ⟨5, hp.symm, h⟩
    · cases hp) hm
example : ∃ more s', More 1 demoMp ⟨[5], [(0, .wait 5 false), (1, .wait 5 false), (2, .other)], [1, 2], [(0, .woken 5)], [], []⟩ more s' ∧ (∀ l ∈ more, Own l) ∧ s'.queue = [] ∧ s'.busy = [] ∧
    ∀ j k, .call j k ∈ demo ++ [.set 5] → .cancel j ∈ demo ++ [.set 5] ∨ ∃ b, (j, b) ∈ s'.results :=
  all_end_partial (run_more demo_run (by rfl : More 1 demoMp demoSt [.set 5] _)) (by decide) (by
    intro j e hc _
    have : e = 5 := by
      simp only [demo, List.cons_append, List.nil_append, List.mem_cons, Label.call.injEq, Kind.wait.injEq, List.not_mem_nil, or_false,
        reduceCtorEq, and_false] at hc
      rcases hc with ⟨_, h, _⟩ | ⟨_, h, _⟩ <;> exact h
    subst this
    exact ⟨demo, [], rfl, by simp⟩)
example : (3, false) ∈ (⟨[], [(3, .wait 5 true)], [], [], [], [(3, false)]⟩ : St).results ∧
    Run 1 demoMp [.call 3 (.wait 5 true), .start, .expire 3, .finish 3] ⟨[], [(3, .wait 5 true)], [], [], [], [(3, false)]⟩ :=
  ⟨by decide, by simp only [Run]; decide⟩
example : ∃ s', More 1 demoMp ⟨[], [(4, .wait 6 false)], [], [(4, .waiting 6 false)], [], []⟩ [.set 6, .clear 6, .finish 4] s' ∧ (4, false) ∈ s'.results :=
  mp_false_refuted (ls := [.call 4 (.wait 6 false), .start]) (by simp only [Run]; decide) (by decide) (by decide) (by decide)
example {more : List Label} {s' : St} (hm : More 1 demoMp demoSt (.cancel 0 :: more) s') (h : .set 5 ∉ more) :
    s'.busy.get? 0 = some (.waiting 5 false) := given_up_stays_refuted demo_run (by decide) hm h
example {more : List Label} {s' : St} (hm : More 1 demoMp demoSt (.cancel 2 :: more) s') : 2 ∉ s'.queue ∧ s'.busy.get? 2 = none :=
  given_up_early demo_run (by decide) hm

end Xoscar.AioEvent
