import Verif.Spec.Conns
import Verif.Proof.Base
namespace Xoscar.Conns

attribute [local grind =] Dict.get?_set Dict.get?_erase

/-- the cache refers to existing connections of the right thread and key -/
structure Inv (s : St) : Prop where
  fresh : ∀ c i, s.conns.get? c = some i → c < s.next
  cached : ∀ th k c, s.cache.get? (th, k) = some c → ∃ i, s.conns.get? c = some i ∧ i.thread = th ∧ i.key = k
  heard : ∀ tk c, (tk, c) ∈ s.results → c ∈ s.listened

theorem inv_init (r : Key → Dest) : Inv (init r) :=
  ⟨fun c i h => (by simp [init, Dict.get?] at h), fun a b c h => (by simp [init, Dict.get?] at h), fun a c h => (by simp [init] at h)⟩

theorem mem_listen (l : List Conn) (c d : Conn) : d ∈ listen l c ↔ d ∈ l ∨ d = c := by
  unfold listen; split <;> simp; grind

/-- all that `step` can do, by cases -/
theorem step_cases {s s' : St} {l : Label} (h : step s l = some s') :
    (∃ tk th k, l = .arrive tk th k ∧ s.reqs.get? tk = none ∧ s' = { s with reqs := s.reqs.set tk ⟨th, k, s.epoch, .waiting⟩ }) ∨
    (∃ tk x, l = .enter tk ∧ s.reqs.get? tk = some x ∧ x.phase = .waiting ∧ held s x.thread x.lockOf = false ∧
      s.cache.get? (x.thread, x.key) = none ∧ s' = begin_ s tk x) ∨
    (∃ tk x c i, l = .enter tk ∧ s.reqs.get? tk = some x ∧ x.phase = .waiting ∧ held s x.thread x.lockOf = false ∧
      s.cache.get? (x.thread, x.key) = some c ∧ s.conns.get? c = some i ∧ i.isOpen = true ∧ s' = give s tk c) ∨
    (∃ tk x c i, l = .enter tk ∧ s.reqs.get? tk = some x ∧ x.phase = .waiting ∧ held s x.thread x.lockOf = false ∧
      s.cache.get? (x.thread, x.key) = some c ∧ s.conns.get? c = some i ∧ i.isOpen = false ∧
      s' = begin_ { s with cache := s.cache.erase (x.thread, x.key) } tk x) ∨
    (∃ tk x d, l = .connected tk ∧ s.reqs.get? tk = some x ∧ x.phase = .connecting d ∧
      s' = give { s with conns := s.conns.set s.next ⟨x.thread, x.key, d, true⟩, next := s.next + 1,
                         cache := s.cache.set (x.thread, x.key) s.next } tk s.next) ∨
    (∃ tk x, l = .failed tk ∧ s.reqs.get? tk = some x ∧ s' = { s with reqs := s.reqs.erase tk }) ∨
    (∃ c i, l = .close c ∧ s.conns.get? c = some i ∧ s' = { s with conns := s.conns.set c { i with isOpen := false } }) ∨
    (∃ r, l = .reconfigure r ∧ s' = { s with route := r, epoch := s.epoch + 1, cache := [] }) := by
  cases l with
  | arrive tk th k =>
    left; unfold step at h
    rcases hq : s.reqs.get? tk with _ | x
    · simp only [hq] at h; exact ⟨tk, th, k, rfl, hq, (Option.some.inj h).symm⟩
    · simp only [hq] at h; cases h
  | enter tk =>
    right; unfold step at h
    rcases hq : s.reqs.get? tk with _ | x
    · simp only [hq] at h; cases h
    simp only [hq] at h
    split at h
    · rename_i hp
      rcases hc : s.cache.get? (x.thread, x.key) with _ | c
      · simp only [hc] at h; exact .inl ⟨tk, x, rfl, hq, hp.1, hp.2, hc, (Option.some.inj h).symm⟩
      · simp only [hc] at h
        rcases hi : s.conns.get? c with _ | i
        · simp only [hi] at h; cases h
        · simp only [hi] at h
          split at h
          · rename_i ho; exact .inr (.inl ⟨tk, x, c, i, rfl, hq, hp.1, hp.2, hc, hi, ho, (Option.some.inj h).symm⟩)
          · rename_i ho
            exact .inr (.inr (.inl ⟨tk, x, c, i, rfl, hq, hp.1, hp.2, hc, hi, by simpa using ho, (Option.some.inj h).symm⟩))
    · cases h
  | connected tk =>
    right; right; right; right; left; unfold step at h
    rcases hq : s.reqs.get? tk with _ | x
    · simp only [hq] at h; cases h
    simp only [hq] at h
    rcases hp : x.phase with _ | d
    · rw [hp] at h; cases h
    · rw [hp] at h; exact ⟨tk, x, d, rfl, hq, hp, (Option.some.inj h).symm⟩
  | failed tk =>
    right; right; right; right; right; left; unfold step at h
    rcases hq : s.reqs.get? tk with _ | x
    · simp only [hq] at h; cases h
    · simp only [hq] at h; exact ⟨tk, x, rfl, hq, (Option.some.inj h).symm⟩
  | close c =>
    right; right; right; right; right; right; left; unfold step at h
    rcases hq : s.conns.get? c with _ | x
    · simp only [hq] at h; cases h
    · simp only [hq] at h; exact ⟨c, x, rfl, hq, (Option.some.inj h).symm⟩
  | reconfigure r =>
    right; right; right; right; right; right; right
    exact ⟨r, rfl, (Option.some.inj h).symm⟩

theorem inv_step {s s' : St} {l : Label} (hi : Inv s) (h : step s l = some s') : Inv s' := by
  obtain ⟨hf, hc, hh⟩ := hi
  rcases step_cases h with ⟨tk, th, k, rfl, h1, rfl⟩ | ⟨tk, x, rfl, h1, h2, h3, h4, rfl⟩ | ⟨tk, x, c, i, rfl, h1, h2, h3, h4, h5, h6, rfl⟩ |
    ⟨tk, x, c, i, rfl, h1, h2, h3, h4, h5, h6, rfl⟩ | ⟨tk, x, d, rfl, h1, h2, rfl⟩ | ⟨tk, x, rfl, h1, rfl⟩ | ⟨c, i, rfl, h1, rfl⟩ | ⟨r, rfl, rfl⟩
  · exact ⟨hf, hc, hh⟩
  · exact ⟨hf, hc, hh⟩
  · refine ⟨hf, hc, fun t d hd => ?_⟩
    simp only [give, List.mem_append, List.mem_singleton, Prod.mk.injEq, mem_listen] at hd ⊢
    rcases hd with hd | ⟨_, rfl⟩
    · exact .inl (hh t d hd)
    · exact .inr rfl
  · refine ⟨hf, fun th k c' h' => hc th k c' ?_, hh⟩
    simp only [begin_] at h'; grind
  · refine ⟨fun c i h' => ?_, fun th k c h' => ?_, fun t d' hd => ?_⟩
    · simp only [give] at h' ⊢
      have := hf c
      rw [Dict.get?_set] at h'
      split at h'
      · subst_vars; exact Nat.lt_succ_self _
      · exact Nat.lt_succ_of_lt (this i h')
    · simp only [give] at h' ⊢
      rw [Dict.get?_set] at h'
      split at h'
      · rename_i he; injection h' with h'; injection he with he1 he2
        exact ⟨_, by rw [Dict.get?_set, if_pos h'], he1, he2⟩
      · obtain ⟨i, hi, h7⟩ := hc th k c h'
        have := hf c i hi
        exact ⟨i, by rw [Dict.get?_set, if_neg (fun he => absurd this (by rw [he]; exact Nat.lt_irrefl _))]; exact hi, h7⟩
    · simp only [give, List.mem_append, List.mem_singleton, Prod.mk.injEq, mem_listen] at hd ⊢
      rcases hd with hd | ⟨_, rfl⟩
      · exact .inl (hh t d' hd)
      · exact .inr rfl
  · exact ⟨hf, hc, hh⟩
  · refine ⟨fun c' i' h' => ?_, fun th k c' h' => ?_, hh⟩
    · simp only at h' ⊢; grind
    · simp only at h' ⊢; obtain ⟨j, hj, h7, h8⟩ := hc th k c' h'
      grind
  · exact ⟨hf, fun th k c h' => by simp [Dict.get?] at h', hh⟩

theorem inv_run {r : Key → Dest} {ls : List Label} {s : St} (h : Run r ls s) : Inv s := by
  induction h with
  | init => exact inv_init r
  | snoc _ hs ih => exact inv_step ih hs

theorem append_self_ne {α : Type} (l : List α) (x : α) : l ≠ l ++ [x] := fun h => by
  have := congrArg List.length h; simp at this

/-- Every connection a call is given is open at that moment, belongs to the calling thread, was made for the destination of the call, and
its replies are listened to. -/
theorem given_open {r : Key → Dest} {ls : List Label} {s s' : St} {l : Label} (h : Run r ls s) (hs : step s l = some s') {th : Thread}
    {k : Key} {c : Conn} (hg : HandsOut s s' th k c) : OpenFor s' th k c ∧ c ∈ s'.listened := by
  have hi := inv_run h
  have hi' := inv_step hi hs
  obtain ⟨tk, y, hy, hth, hk, hr⟩ := hg
  refine ⟨?_, hi'.heard tk c (by rw [hr]; simp)⟩
  rcases step_cases hs with ⟨_, _, _, rfl, h1, rfl⟩ | ⟨_, x, rfl, h1, h2, h3, h4, rfl⟩ | ⟨tk', x, c', i, rfl, h1, h2, h3, h4, h5, h6, rfl⟩ |
    ⟨_, x, c', i, rfl, h1, h2, h3, h4, h5, h6, rfl⟩ | ⟨tk', x, d, rfl, h1, h2, rfl⟩ | ⟨_, x, rfl, h1, rfl⟩ | ⟨c', i, rfl, h1, rfl⟩ | ⟨r, rfl, rfl⟩
  · exact absurd hr (append_self_ne _ _)
  · exact absurd hr (append_self_ne _ _)
  · simp only [give, List.append_cancel_left_eq, List.cons.injEq, Prod.mk.injEq, and_true] at hr
    obtain ⟨rfl, rfl⟩ := hr
    rw [h1] at hy; injection hy with hy; subst hy
    obtain ⟨j, hj, h7, h8⟩ := hi.cached _ _ _ h4
    rw [h5] at hj; injection hj with hj; subst hj
    exact ⟨i, h5, h7.trans hth, h8.trans hk, h6⟩
  · exact absurd hr (append_self_ne _ _)
  · simp only [give, List.append_cancel_left_eq, List.cons.injEq, Prod.mk.injEq, and_true] at hr
    obtain ⟨rfl, rfl⟩ := hr
    rw [h1] at hy; injection hy with hy; subst hy
    exact ⟨_, by simp only [give]; rw [Dict.get?_set, if_pos rfl], hth, hk, rfl⟩
  · exact absurd hr (append_self_ne _ _)
  · exact absurd hr (append_self_ne _ _)
  · exact absurd hr (append_self_ne _ _)

/-! ## One connection per thread and destination -/

/-- as long as the router is not changed: every open connection is in the cache, and who connects found nothing usable there -/
structure One (s : St) : Prop where
  zero : s.epoch = 0
  locks : ∀ tk x, s.reqs.get? tk = some x → x.lockOf = 0
  excl : ∀ tk tk' x x' d d', s.reqs.get? tk = some x → s.reqs.get? tk' = some x' → x.phase = .connecting d → x'.phase = .connecting d' →
    x.thread = x'.thread → tk = tk'
  opens : ∀ c i, s.conns.get? c = some i → i.isOpen = true → s.cache.get? (i.thread, i.key) = some c
  none_ : ∀ tk x d, s.reqs.get? tk = some x → x.phase = .connecting d → s.cache.get? (x.thread, x.key) = none

theorem held_false {s : St} {th : Thread} {n : Nat} (h : held s th n = false) {tk : Task} {x : Req} (hx : s.reqs.get? tk = some x)
    (ht : x.thread = th) (hn : x.lockOf = n) : x.phase = .waiting := by
  unfold held at h
  rw [List.any_eq_false] at h
  have := h (tk, x) (Dict.mem_of_get? hx)
  simpa [ht, hn] using this

theorem one_step {s s' : St} {l : Label} (hi : Inv s) (ho : One s) (hl : ∀ r, l ≠ .reconfigure r) (h : step s l = some s') : One s' := by
  obtain ⟨hz, hlk, hx, hop, hn⟩ := ho
  rcases step_cases h with ⟨tk, th, k, rfl, h1, rfl⟩ | ⟨tk, x, rfl, h1, h2, h3, h4, rfl⟩ | ⟨tk, x, c, i, rfl, h1, h2, h3, h4, h5, h6, rfl⟩ |
    ⟨tk, x, c, i, rfl, h1, h2, h3, h4, h5, h6, rfl⟩ | ⟨tk, x, d, rfl, h1, h2, rfl⟩ | ⟨tk, x, rfl, h1, rfl⟩ | ⟨c, i, rfl, h1, rfl⟩ | ⟨r, rfl, rfl⟩
  · refine ⟨hz, ?_, ?_, hop, ?_⟩ <;> simp only <;> grind
  · have hh := @held_false s x.thread x.lockOf h3
    refine ⟨hz, ?_, ?_, hop, ?_⟩ <;> simp only [begin_] <;> grind
  · refine ⟨hz, ?_, ?_, hop, ?_⟩ <;> simp only [give] <;> grind
  · have hh := @held_false s x.thread x.lockOf h3
    refine ⟨hz, ?_, ?_, ?_, ?_⟩ <;> simp only [begin_] <;> grind
  · have hf := hi.fresh
    refine ⟨hz, ?_, ?_, ?_, ?_⟩ <;> simp only [give] <;> grind
  · refine ⟨hz, ?_, ?_, hop, ?_⟩ <;> simp only <;> grind
  · refine ⟨hz, hlk, hx, ?_, hn⟩; simp only; grind
  · exact absurd rfl (hl r)

theorem one_run {r : Key → Dest} {ls : List Label} {s : St} (h : Run r ls s) (hu : Unchanged ls) : One s := by
  induction h with
  | init => refine ⟨rfl, ?_, ?_, ?_, ?_⟩ <;> simp [init, Dict.get?]
  | snoc h1 hs ih =>
    exact one_step (inv_run h1) (ih fun l hl => hu l (by simp [hl])) (fun r => hu _ (by simp) r) hs

/-- While the router is not changed a thread has at most one open connection for each destination, whatever its tasks do at the same time. -/
theorem one_connection_partial {r : Key → Dest} {ls : List Label} {s : St} (h : Run r ls s) (hu : Unchanged ls) {th : Thread} {k : Key}
    {c c' : Conn} (hc : OpenFor s th k c) (hc' : OpenFor s th k c') : c = c' := by
  have ho := one_run h hu
  obtain ⟨i, h1, rfl, rfl, h2⟩ := hc
  obtain ⟨i', h3, h4, h5, h6⟩ := hc'
  have a := ho.opens c i h1 h2
  have b := ho.opens c' i' h3 h6
  rw [h4, h5, a] at b; injection b

/-- Changes of the router apart, an open connection is used again instead of making another. -/
theorem reused_partial {r : Key → Dest} {ls : List Label} {s s' : St} (h : Run r ls s) (hu : Unchanged ls) {tk : Task} {x : Req} {c : Conn}
    (hx : s.reqs.get? tk = some x) (hw : x.phase = .waiting) (hc : OpenFor s x.thread x.key c) (hs : step s (.enter tk) = some s') :
    s'.results = s.results ++ [(tk, c)] ∧ s'.conns = s.conns := by
  have ho := one_run h hu
  obtain ⟨i, h1, h2, h3, h4⟩ := hc
  have a := ho.opens c i h1 h4
  rw [h2, h3] at a
  rcases step_cases hs with ⟨_, _, _, h', _⟩ | ⟨tk', y, h', g1, g2, g3, g4, rfl⟩ | ⟨tk', y, c', j, h', g1, g2, g3, g4, g5, g6, rfl⟩ |
    ⟨tk', y, c', j, h', g1, g2, g3, g4, g5, g6, rfl⟩ | ⟨_, _, _, h', _⟩ | ⟨_, _, h', _⟩ | ⟨_, _, h', _⟩ | ⟨_, h', _⟩ <;> cases h'
  · rw [hx] at g1; injection g1 with g1; subst g1; rw [a] at g4; cases g4
  · rw [hx] at g1; injection g1 with g1; subst g1
    rw [a] at g4; injection g4 with g4; subst g4
    exact ⟨rfl, rfl⟩
  · rw [hx] at g1; injection g1 with g1; subst g1
    rw [a] at g4; injection g4 with g4; subst g4
    rw [h1] at g5; injection g5 with g5; subst g5
    rw [h4] at g6; cases g6

/-! ## Connections lead where the router says -/

structure Leads (s : St) : Prop where
  cached : ∀ th k c i, s.cache.get? (th, k) = some c → s.conns.get? c = some i → i.dest = s.route k
  conn : ∀ tk x d, s.reqs.get? tk = some x → x.phase = .connecting d → d = s.route x.key

theorem leads_step {s s' : St} {l : Label} (hi : Inv s) (ho : Leads s) (hq : (∃ q, l = .reconfigure q) → s.reqs = []) (h : step s l = some s') :
    Leads s' := by
  obtain ⟨hc, hd⟩ := ho
  rcases step_cases h with ⟨tk, th, k, rfl, h1, rfl⟩ | ⟨tk, x, rfl, h1, h2, h3, h4, rfl⟩ | ⟨tk, x, c, i, rfl, h1, h2, h3, h4, h5, h6, rfl⟩ |
    ⟨tk, x, c, i, rfl, h1, h2, h3, h4, h5, h6, rfl⟩ | ⟨tk, x, d, rfl, h1, h2, rfl⟩ | ⟨tk, x, rfl, h1, rfl⟩ | ⟨c, i, rfl, h1, rfl⟩ | ⟨r, rfl, rfl⟩
  · refine ⟨hc, ?_⟩ <;> simp only <;> grind
  · refine ⟨hc, ?_⟩ <;> simp only [begin_] <;> grind
  · refine ⟨hc, ?_⟩ <;> simp only [give] <;> grind
  · refine ⟨?_, ?_⟩ <;> simp only [begin_] <;> grind
  · have hf := hi.fresh
    have hcc := hi.cached
    refine ⟨?_, ?_⟩ <;> simp only [give] <;> grind
  · refine ⟨hc, ?_⟩ <;> simp only <;> grind
  · refine ⟨?_, hd⟩; simp only; grind
  · have := hq ⟨r, rfl⟩
    refine ⟨?_, ?_⟩ <;> simp [this, Dict.get?]

theorem quiet_run {r : Key → Dest} {s : St} (h : QuietRun r s) : ∃ ls, Run r ls s := by
  induction h with
  | init => exact ⟨[], .init⟩
  | snoc _ hs _ ih => obtain ⟨ls, h⟩ := ih; exact ⟨_, .snoc h hs⟩

theorem leads_quiet {r : Key → Dest} {s : St} (h : QuietRun r s) : Leads s := by
  induction h with
  | init => refine ⟨?_, ?_⟩ <;> simp [init, Dict.get?]
  | snoc h1 hs hq ih => obtain ⟨ls, h2⟩ := quiet_run h1; exact leads_step (inv_run h2) ih hq hs

/-- A connection a call is given leads to where the router says at that moment, provided the router was never changed while somebody asked for
a connection. -/
theorem leads_right_partial {r : Key → Dest} {s s' : St} {l : Label} (h : QuietRun r s) (hs : step s l = some s') {th : Thread} {k : Key}
    {c : Conn} (hg : HandsOut s s' th k c) : ∃ i, s'.conns.get? c = some i ∧ i.dest = s'.route k := by
  obtain ⟨ls, hr⟩ := quiet_run h
  have hi := inv_run hr
  have hl := leads_quiet h
  obtain ⟨tk, y, hy, hth, hk, hr⟩ := hg
  rcases step_cases hs with ⟨_, _, _, rfl, h1, rfl⟩ | ⟨_, x, rfl, h1, h2, h3, h4, rfl⟩ | ⟨tk', x, c', i, rfl, h1, h2, h3, h4, h5, h6, rfl⟩ |
    ⟨_, x, c', i, rfl, h1, h2, h3, h4, h5, h6, rfl⟩ | ⟨tk', x, d, rfl, h1, h2, rfl⟩ | ⟨_, x, rfl, h1, rfl⟩ | ⟨c', i, rfl, h1, rfl⟩ | ⟨r, rfl, rfl⟩
  · exact absurd hr (append_self_ne _ _)
  · exact absurd hr (append_self_ne _ _)
  · simp only [give, List.append_cancel_left_eq, List.cons.injEq, Prod.mk.injEq, and_true] at hr
    obtain ⟨rfl, rfl⟩ := hr
    rw [h1] at hy; injection hy with hy; subst hy
    exact ⟨i, h5, hk ▸ hl.cached _ _ _ _ h4 h5⟩
  · exact absurd hr (append_self_ne _ _)
  · simp only [give, List.append_cancel_left_eq, List.cons.injEq, Prod.mk.injEq, and_true] at hr
    obtain ⟨rfl, rfl⟩ := hr
    rw [h1] at hy; injection hy with hy; subst hy
    exact ⟨_, by simp only [give]; rw [Dict.get?_set, if_pos rfl], hk ▸ hl.conn _ _ _ h1 h2⟩
  · exact absurd hr (append_self_ne _ _)
  · exact absurd hr (append_self_ne _ _)
  · exact absurd hr (append_self_ne _ _)

/-- **Refuted**: "calls go where the router says": when the router is changed while a connection to a destination is being made, the
connection to the old address is put into the new cache; every later call of the thread uses it. -/
theorem stale_route_refuted (r r' : Key → Dest) (th : Thread) (k : Key) (hne : r k ≠ r' k) :
    ∃ s s', Run r [.arrive 0 th k, .enter 0, .reconfigure r', .connected 0, .arrive 1 th k] s ∧ step s (.enter 1) = some s' ∧
      HandsOut s s' th k 0 ∧ ∃ i, s'.conns.get? 0 = some i ∧ i.dest = r k ∧ i.dest ≠ s'.route k := by
  refine ⟨⟨r', 1, [((th, k), 0)], [(1, ⟨th, k, 1, .waiting⟩)], [(0, ⟨th, k, r k, true⟩)], 1, [0], [(0, 0)]⟩,
    ⟨r', 1, [((th, k), 0)], [], [(0, ⟨th, k, r k, true⟩)], 1, [0], [(0, 0), (1, 0)]⟩, ?_, ?_, ?_, ?_⟩
  · have e := ((((Run.init (r := r)).snoc (l := .arrive 0 th k) rfl).snoc (l := .enter 0) (by
      simp [step, init, Dict.get?, Dict.set, held, begin_]; rfl)).snoc (l := .reconfigure r') rfl).snoc (l := .connected 0) (by
      simp [step, Dict.get?, give, Dict.set, Dict.erase, listen]; rfl)
    exact e.snoc (l := .arrive 1 th k) (by simp [step, Dict.get?, Dict.set])
  · simp [step, Dict.get?, Dict.erase, held, give, listen]
  · exact ⟨1, _, rfl, rfl, rfl, rfl⟩
  · exact ⟨_, rfl, rfl, hne⟩

/-- **Refuted**: "one connection for each destination", at every change of the router: the open connections are forgotten but not closed, and
the next call makes another. -/
theorem forgotten_open_refuted {r : Key → Dest} {ls : List Label} {s : St} (h : Run r ls s) (hq : s.reqs = []) (r' : Key → Dest)
    {th : Thread} {k : Key} {c : Conn} (hc : OpenFor s th k c) :
    ∃ s', Run r (ls ++ [.reconfigure r'] ++ [.arrive 0 th k] ++ [.enter 0] ++ [.connected 0]) s' ∧
      ∃ c', c' ≠ c ∧ OpenFor s' th k c ∧ OpenFor s' th k c' := by
  have hi := inv_run h
  obtain ⟨i, h1, h2, h3, h4⟩ := hc
  have e := ((h.snoc (l := .reconfigure r') rfl).snoc (l := .arrive 0 th k) (by simp [step, hq, Dict.get?]; rfl)).snoc (l := .enter 0) (by
    simp [step, hq, Dict.get?, Dict.set, held, begin_]; rfl)
  refine ⟨_, e.snoc (l := .connected 0) (by simp [step, Dict.get?, Dict.set]; rfl), s.next, ?_, ?_, ?_⟩
  · have := hi.fresh c i h1
    exact fun he => absurd this (by rw [he]; exact Nat.lt_irrefl _)
  · have := hi.fresh c i h1
    refine ⟨i, ?_, h2, h3, h4⟩
    simp only [give]
    rw [Dict.get?_set, if_neg (fun he => absurd this (by rw [he]; exact Nat.lt_irrefl _))]
    exact h1
  · exact ⟨_, by simp only [give]; rw [Dict.get?_set, if_pos rfl], rfl, rfl, rfl⟩

/-- Whatever happens, a connection never leads elsewhere than to an address the router gave for its destination at some time. -/
theorem once_right {r : Key → Dest} {ls : List Label} {s : St} (h : Run r ls s) {c : Conn} {i : Info} (hc : s.conns.get? c = some i) :
    i.dest = r i.key ∨ ∃ r', .reconfigure r' ∈ ls ∧ i.dest = r' i.key := by
  have key : ∀ {ls s}, Run r ls s → (s.route = r ∨ Label.reconfigure s.route ∈ ls) ∧
      (∀ c i, s.conns.get? c = some i → i.dest = r i.key ∨ ∃ r', Label.reconfigure r' ∈ ls ∧ i.dest = r' i.key) ∧
      (∀ tk x d, s.reqs.get? tk = some x → x.phase = .connecting d → d = r x.key ∨ ∃ r', Label.reconfigure r' ∈ ls ∧ d = r' x.key) := by
    intro ls s h
    induction h with
    | init => exact ⟨.inl rfl, by simp [init, Dict.get?], by simp [init, Dict.get?]⟩
    | @snoc ls l s s' h1 hs ih =>
      obtain ⟨a, b, c⟩ := ih
      have a' : s.route = r ∨ Label.reconfigure s.route ∈ ls ++ [l] := a.imp id (fun h => by simp [h])
      have b' : ∀ c i, s.conns.get? c = some i → i.dest = r i.key ∨ ∃ r', Label.reconfigure r' ∈ ls ++ [l] ∧ i.dest = r' i.key :=
        fun c i h => (b c i h).imp id (fun ⟨r', h, e⟩ => ⟨r', by simp [h], e⟩)
      have c' : ∀ tk x d, s.reqs.get? tk = some x → x.phase = .connecting d → d = r x.key ∨
          ∃ r', Label.reconfigure r' ∈ ls ++ [l] ∧ d = r' x.key :=
        fun tk x d h h' => (c tk x d h h').imp id (fun ⟨r', h, e⟩ => ⟨r', by simp [h], e⟩)
      rcases step_cases hs with ⟨tk, th, k, _, h1, rfl⟩ | ⟨tk, x, _, h1, h2, h3, h4, rfl⟩ | ⟨tk, x, c, i, _, h1, h2, h3, h4, h5, h6, rfl⟩ |
        ⟨tk, x, c, i, _, h1, h2, h3, h4, h5, h6, rfl⟩ | ⟨tk, x, d, _, h1, h2, rfl⟩ | ⟨tk, x, _, h1, rfl⟩ | ⟨c, i, _, h1, rfl⟩ | ⟨r', hl, rfl⟩
      · refine ⟨a', b', ?_⟩; simp only; grind
      · refine ⟨a', b', ?_⟩; simp only [begin_]
        intro t y d hy hp
        rw [Dict.get?_set] at hy
        split at hy
        · injection hy with hy; subst hy; injection hp with hp; subst hp
          exact a'.imp (fun h => by rw [h]) (fun h => ⟨_, h, rfl⟩)
        · exact c' t y d hy hp
      · refine ⟨a', b', ?_⟩; simp only [give]; grind
      · refine ⟨a', b', ?_⟩; simp only [begin_]
        intro t y d hy hp
        rw [Dict.get?_set] at hy
        split at hy
        · injection hy with hy; subst hy; injection hp with hp; subst hp
          exact a'.imp (fun h => by rw [h]) (fun h => ⟨_, h, rfl⟩)
        · exact c' t y d hy hp
      · refine ⟨a', ?_, ?_⟩
        · simp only [give]; intro c i hc
          rw [Dict.get?_set] at hc
          split at hc
          · injection hc with hc; subst hc; exact c' tk x d h1 h2
          · exact b' c i hc
        · simp only [give]; intro t y d hy hp
          rw [Dict.get?_erase] at hy; split at hy
          · cases hy
          · exact c' t y d hy hp
      · refine ⟨a', b', ?_⟩; simp only; grind
      · refine ⟨a', ?_, c'⟩; simp only; intro c' i' hc
        rw [Dict.get?_set] at hc
        split at hc
        · injection hc with hc; subst hc; exact b' c i h1
        · exact b' c' i' hc
      · subst hl; refine ⟨.inr (by simp), b', c'⟩
  exact (key h).2.1 c i hc

/-! ## Nobody keeps the lock -/

def Excl (s : St) : Prop := ∀ tk tk' x x' d d', s.reqs.get? tk = some x → s.reqs.get? tk' = some x' → x.phase = .connecting d →
  x'.phase = .connecting d' → x.thread = x'.thread → x.lockOf = x'.lockOf → tk = tk'

theorem excl_run {r : Key → Dest} {ls : List Label} {s : St} (h : Run r ls s) : Excl s ∧ s.reqs.WF := by
  induction h with
  | init => exact ⟨by intro a b c d e f h; simp [init, Dict.get?] at h, Dict.WF.nil⟩
  | snoc h1 hs ih =>
    obtain ⟨hx, hw⟩ := ih
    unfold Excl at hx ⊢
    rcases step_cases hs with ⟨tk, th, k, rfl, h1, rfl⟩ | ⟨tk, x, rfl, h1, h2, h3, h4, rfl⟩ | ⟨tk, x, c, i, rfl, h1, h2, h3, h4, h5, h6, rfl⟩ |
      ⟨tk, x, c, i, rfl, h1, h2, h3, h4, h5, h6, rfl⟩ | ⟨tk, x, d, rfl, h1, h2, rfl⟩ | ⟨tk, x, rfl, h1, rfl⟩ | ⟨c, i, rfl, h1, rfl⟩ | ⟨r, rfl, rfl⟩
    · refine ⟨?_, hw.set _ _⟩; simp only; grind
    · have hh := @held_false _ x.thread x.lockOf h3
      refine ⟨?_, hw.set _ _⟩; simp only [begin_]; grind
    · refine ⟨?_, hw.erase _⟩; simp only [give]; grind
    · have hh := @held_false _ x.thread x.lockOf h3
      refine ⟨?_, hw.set _ _⟩; simp only [begin_]; grind
    · refine ⟨?_, hw.erase _⟩; simp only [give]; grind
    · refine ⟨?_, hw.erase _⟩; simp only; grind
    · exact ⟨hx, hw⟩
    · exact ⟨hx, hw⟩

theorem enters {r : Key → Dest} {ls : List Label} {s : St} (h : Run r ls s) {tk : Task} {x : Req} (hx : s.reqs.get? tk = some x)
    (hp : x.phase = .waiting) (hf : held s x.thread x.lockOf = false) : ∃ s', step s (.enter tk) = some s' := by
  have hi := inv_run h
  unfold step
  simp only [hx, hp, hf, and_self, if_true]
  rcases hc : s.cache.get? (x.thread, x.key) with _ | c
  · exact ⟨_, rfl⟩
  · obtain ⟨i, h1, _⟩ := hi.cached _ _ _ hc
    simp only [h1]
    split <;> exact ⟨_, rfl⟩

/-- However a connect ends - made, failed or cancelled - a task that waits for its turn can go on. -/
theorem next_enters {r : Key → Dest} {ls : List Label} {s s' : St} (h : Run r ls s) {tk tk' : Task} {x y : Req} {d : Dest}
    (hx : s.reqs.get? tk = some x) (hp : x.phase = .connecting d) (hy : s.reqs.get? tk' = some y) (hw : y.phase = .waiting)
    (ht : y.thread = x.thread) (hl : y.lockOf = x.lockOf) (hs : step s (.connected tk) = some s' ∨ step s (.failed tk) = some s') :
    s'.reqs.get? tk' = some y ∧ ∃ s'', step s' (.enter tk') = some s'' := by
  obtain ⟨he, hwf⟩ := excl_run h
  have hne : tk ≠ tk' := fun e => by subst e; rw [hx] at hy; injection hy with hy; subst hy; rw [hp] at hw; cases hw
  have hr : s'.reqs = s.reqs.erase tk := by
    rcases hs with hs | hs
    · unfold step at hs; simp only [hx, hp] at hs; injection hs with hs; subst hs; rfl
    · unfold step at hs; simp only [hx] at hs; injection hs with hs; subst hs; rfl
  have hy' : s'.reqs.get? tk' = some y := by rw [hr, Dict.get?_erase, if_neg hne]; exact hy
  refine ⟨hy', ?_⟩
  have hrun : ∃ ls', Run r ls' s' := by rcases hs with hs | hs <;> exact ⟨_, h.snoc hs⟩
  obtain ⟨ls', hrun⟩ := hrun
  refine enters hrun hy' hw ?_
  unfold held
  rw [List.any_eq_false, hr]
  rintro ⟨t, z⟩ hz
  obtain ⟨hz1, hz2⟩ := Dict.mem_erase.1 hz
  have hz3 : s.reqs.get? t = some z := Dict.get?_of_mem hwf hz1
  rcases hzp : z.phase with _ | e
  · simp
  · simp only [Bool.and_eq_true, beq_iff_eq, not_and]
    intro h1
    exact absurd (he tk t x z d e hx hz3 hp hzp (by rw [h1.1, ht]) (by rw [h1.2, hl])) (fun e => hz2 (by simp [e]))

/-! ## Concrete cases -/

/-- two tasks of a thread want the same connection at once: one is made; a third task of another thread makes its own -/
example : ∃ s, Run (fun k => k) [.arrive 0 7 3, .arrive 1 7 3, .enter 0, .arrive 2 8 3, .enter 2, .connected 0, .enter 1, .connected 2] s ∧
    s.results = [(0, 0), (1, 0), (2, 1)] ∧ s.listened = [0, 1] := by
  refine ⟨⟨fun k => k, 0, [((7, 3), 0), ((8, 3), 1)], [], [(0, ⟨7, 3, 3, true⟩), (1, ⟨8, 3, 3, true⟩)], 2, [0, 1], [(0, 0), (1, 0), (2, 1)]⟩, ?_, rfl, rfl⟩
  have e := ((((Run.init (r := fun k => k)).snoc (l := .arrive 0 7 3) rfl).snoc (l := .arrive 1 7 3) rfl).snoc (l := .enter 0) rfl).snoc
    (l := .arrive 2 8 3) rfl
  exact (((e.snoc (l := .enter 2) rfl).snoc (l := .connected 0) rfl).snoc (l := .enter 1) rfl).snoc (l := .connected 2) rfl
/-- while one connects the other waits -/
example : ∃ s, Run (fun k => k) [.arrive 0 7 3, .arrive 1 7 3, .enter 0] s ∧ step s (.enter 1) = none := by
  have e := (((Run.init (r := fun k => k)).snoc (l := .arrive 0 7 3) rfl).snoc (l := .arrive 1 7 3) rfl).snoc (l := .enter 0) rfl
  exact ⟨_, e, rfl⟩
/-- a closed connection is replaced -/
example : ∃ s, Run (fun k => k) [.arrive 0 7 3, .enter 0, .connected 0, .close 0, .arrive 0 7 3, .enter 0, .connected 0] s ∧
    s.results = [(0, 0), (0, 1)] ∧ OpenFor s 7 3 1 ∧ ¬ OpenFor s 7 3 0 := by
  have e := (((Run.init (r := fun k => k)).snoc (l := .arrive 0 7 3) rfl).snoc (l := .enter 0) rfl).snoc (l := .connected 0) rfl
  refine ⟨_, (((e.snoc (l := .close 0) rfl).snoc (l := .arrive 0 7 3) rfl).snoc (l := .enter 0) rfl).snoc (l := .connected 0) rfl, rfl, ?_, ?_⟩
  · exact ⟨_, rfl, rfl, rfl, rfl⟩
  · rintro ⟨i, h1, h2, h3, h4⟩
    have h1 := Option.some.inj h1; subst h1; cases h4
/-- a quiet change of the router: the next call goes to the new address -/
example : ∃ s s', QuietRun (fun k => k) s ∧ step s (.connected 1) = some s' ∧ HandsOut s s' 7 3 1 ∧ s'.route 3 = 4 := by
  have e := (((QuietRun.init (r := fun k => k)).snoc (l := .arrive 0 7 3) rfl (by rintro ⟨_, h⟩; cases h)).snoc (l := .enter 0) rfl
    (by rintro ⟨_, h⟩; cases h)).snoc (l := .connected 0) rfl (by rintro ⟨_, h⟩; cases h)
  have e := ((e.snoc (l := .reconfigure (fun k => k + 1)) rfl (fun _ => rfl)).snoc (l := .arrive 1 7 3) rfl (by rintro ⟨_, h⟩; cases h)).snoc
    (l := .enter 1) rfl (by rintro ⟨_, h⟩; cases h)
  exact ⟨_, _, e, rfl, ⟨1, _, rfl, rfl, rfl, rfl⟩, rfl⟩

end Xoscar.Conns
