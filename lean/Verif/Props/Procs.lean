import Verif.Spec.Procs
/-!
# C71: processes of a pool end with it

`w` is everything the operating system and the other processes do, `p` the process of a sub pool; it has been started at a moment `t₀`.
-/
namespace Xoscar.Procs

theorem runs_iff (w : World) (t : Nat) (p : Proc) : w.runs t p = true ↔ Alive w t p := by
  simp [World.runs, Alive]

theorem dead_later {w : World} (hw : w.Lawful) {p : Proc} {t0 t t' : Nat} (h0 : Alive w t0 p) (h1 : t0 ≤ t) (h2 : t ≤ t')
    (hd : ¬ Alive w t p) : ¬ Alive w t' p := by
  -- the first moment after `t0` at which it does not run
  have : ∀ n, ¬ Alive w (t0 + n) p → ∃ k, k < n ∧ Alive w (t0 + k) p ∧ ¬ Alive w (t0 + k + 1) p := by
    intro n
    induction n with
    | zero => intro h; exact absurd h0 h
    | succ n ih =>
      intro h
      by_cases hn : Alive w (t0 + n) p
      · exact ⟨n, Nat.lt_succ_self n, hn, h⟩
      · obtain ⟨k, hk, h⟩ := ih hn
        exact ⟨k, by omega, h⟩
  obtain ⟨k, hk, ha, hb⟩ := this (t - t0) (by rw [Nat.add_sub_cancel' h1]; exact hd)
  exact hw.ended (t0 + k) p ha hb t' (by omega)

theorem killSubPool_ends {w : World} (hw : w.Lawful) {p : Proc} {t0 t : Nat} (h0 : Alive w t0 p) (ht : t0 ≤ t) (force : Bool)
    (hk : KillWorks w (killSubPool w t p force).sent) : ∀ t', t + 2 ≤ t' → ¬ Alive w t' p := by
  intro t' ht'
  by_cases hr : Alive w (t + 1) p
  · have hr' := (runs_iff w (t + 1) p).2 hr
    refine dead_later hw h0 (by omega) ht' (hk ⟨t + 1, p, .kill⟩ ?_ rfl)
    simp only [killSubPool, hr', Bool.or_true, if_true, signalChild]
    simp
  · exact dead_later hw h0 (by omega) (by omega : t + 1 ≤ t') hr

/-- Stopping a sub pool - whatever its process does, and whether or not it answers - has ended its process when it returns, if SIGKILL
ends processes. -/
theorem stop_ends {w : World} (hw : w.Lawful) {p : Proc} {t0 t : Nat} (h0 : Alive w t0 p) (ht : t0 ≤ t) (timeout : Option Nat)
    (force : Bool) (r : Reply) (d : Done) (hd : stopSubPool w t p timeout force r = .ok d) (hk : KillWorks w d.sent) :
    ∀ t', d.time ≤ t' → ¬ Alive w t' p := by
  intro t' ht'
  have key : ∀ f l t1, t ≤ t1 → d = { killSubPool w t1 p f with limit := l } → ¬ Alive w t' p := by
    rintro f l t1 h1 rfl
    exact killSubPool_ends hw h0 (by omega) f hk t' (by simp only [killSubPool] at ht'; omega)
  unfold stopSubPool at hd
  split at hd
  · injection hd with hd
    exact key true _ t (Nat.le_refl t) hd.symm
  · cases r <;> simp only at hd
    · injection hd with hd; exact key false _ (t + 1) (by omega) hd.symm
    · injection hd with hd; exact key true _ (t + 1) (by omega) hd.symm
    · injection hd with hd; exact key true _ (t + 1) (by omega) hd.symm
    · cases hd

/-- It takes at most the time limit of the request (2 s if none is given) and 9 s more, of which 2 s are for SIGTERM, which only a pool that
answered gets; with `force` at most 7 s; it raises exactly when the request fails in
another way than by its time limit or a lost connection, and never with `force`. -/
theorem stop_bounded (w : World) (t : Nat) (p : Proc) (timeout : Option Nat) (force : Bool) (r : Reply) :
    (∀ d, stopSubPool w t p timeout force r = .ok d → 
      d.limit = if force then 7 else if r = .reply then timeout.getD 2 + 9 else timeout.getD 2 + 7) ∧
    (stopSubPool w t p timeout force r = .raised ↔ force = false ∧ r = .other) := by
  constructor
  · intro d hd
    unfold stopSubPool at hd
    split at hd
    · next hf => injection hd with hd; subst hd; simp [killSubPool, hf]
    · next hf =>
      cases r <;> simp only [killSubPool, Stopped.ok.injEq, reduceCtorEq] at hd <;> subst hd <;> simp [hf]
  · unfold stopSubPool
    cases force <;> cases r <;> simp

/-- **Refuted**: "`stop` ends the sub pools' processes": when the request fails in another way, the process is left as it is. -/
theorem stop_request_failed_refuted (w : World) (t : Nat) (p : Proc) (timeout : Option Nat) :
    stopSubPool w t p timeout false .other = .raised := rfl

/-- A sub pool that answers the request and ends on SIGTERM is not killed: SIGTERM is all it gets, if its pid is not given to another
process meanwhile. -/
theorem graceful {w : World} {t : Nat} {p : Proc} {timeout : Option Nat} {d : Done} (hw : w.Lawful) {t0 : Nat} (h0 : Alive w t0 p)
    (ht : t0 ≤ t) (hd : stopSubPool w t p timeout false .reply = .ok d) (he : ¬ Alive w (t + 2) p) (hp : PidKept w p (t + 3)) :
    d.sent = if w.runs (t + 1) p then [⟨t + 1, p, .term⟩] else [] := by
  have hd' : d.sent = (killSubPool w (t + 1) p false).sent := by
    simp only [stopSubPool, Bool.false_eq_true, if_false, Stopped.ok.injEq] at hd
    rw [← hd]
  have h2 : w.runs (t + 1 + 1) p = false := by
    rcases h : w.runs (t + 1 + 1) p
    · rfl
    · exact absurd ((runs_iff _ _ _).1 h) he
  have h3 : w.holder (t + 1 + 2) (w.pid p) = none := by
    rcases h : w.holder (t + 1 + 2) (w.pid p) with _ | q
    · rfl
    · have hq := hp q h
      subst hq
      exact absurd h (dead_later hw h0 (by omega) (by omega : t + 2 ≤ t + 1 + 2) he)
  rw [hd']
  simp only [killSubPool, h2, Bool.or_self, Bool.false_eq_true, if_false, List.append_nil, killByPid, h3, signalChild]

/-- A forced stop sends SIGKILL only - as does one that is not answered in time or whose connection is lost; SIGTERM is sent exactly when
the pool answered and its process still runs. -/
theorem term_iff (w : World) (t : Nat) (p : Proc) (timeout : Option Nat) (force : Bool) (r : Reply) (d : Done)
    (hd : stopSubPool w t p timeout force r = .ok d) :
    (∃ s ∈ d.sent, s.sig = .term) ↔ force = false ∧ r = .reply ∧ Alive w (t + 1) p := by
  have aux : ∀ t' pid, ∀ s ∈ killByPid w t' pid, s.sig = .kill := by
    intro t' pid s hs
    unfold killByPid at hs
    split at hs
    · cases hs
    · simp only [List.mem_append, List.mem_map, List.mem_singleton] at hs
      rcases hs with ⟨c, _, rfl⟩ | rfl <;> rfl
  have aux2 : ∀ t', ∀ s ∈ signalChild w t' p .kill, s.sig = .kill := by
    intro t' s hs
    unfold signalChild at hs
    split at hs
    · simp only [List.mem_singleton] at hs; subst hs; rfl
    · cases hs
  have aux3 : ∀ t' (b : Bool), ∀ s ∈ (if b then signalChild w t' p .kill else []), s.sig = .kill := by
    intro t' b s hs
    cases b
    · simp only [Bool.false_eq_true, if_false] at hs; cases hs
    · exact aux2 _ s (by simpa using hs)
  have forced : ∀ t', ¬ ∃ s ∈ (killSubPool w t' p true).sent, s.sig = .term := by
    rintro t' ⟨s, hs, ht⟩
    simp only [killSubPool, if_true, List.nil_append, List.mem_append, Bool.true_or] at hs
    rcases hs with h | h
    · rw [aux2 _ s h] at ht; cases ht
    · rw [aux _ _ s h] at ht; cases ht
  have asked : (∃ s ∈ (killSubPool w (t + 1) p false).sent, s.sig = .term) ↔ Alive w (t + 1) p := by
    rw [← runs_iff]
    constructor
    · rintro ⟨s, hs, ht⟩
      simp only [killSubPool, Bool.false_eq_true, if_false, List.mem_append] at hs
      rcases hs with (h | h) | h
      · unfold signalChild at h
        split at h
        · assumption
        · cases h
      · rw [aux3 _ _ s h] at ht; cases ht
      · rw [aux _ _ s h] at ht; cases ht
    · intro h
      refine ⟨⟨t + 1, p, .term⟩, ?_, rfl⟩
      simp [killSubPool, signalChild, h]
  unfold stopSubPool at hd
  cases force
  · cases r <;> simp only [Bool.false_eq_true, if_false, Stopped.ok.injEq, reduceCtorEq] at hd <;> subst hd <;> simp only [true_and, reduceCtorEq, false_and, iff_false]
    · exact asked
    · exact forced _
    · exact forced _
  · simp only [if_true, Stopped.ok.injEq] at hd
    subst hd
    simp only [Bool.true_eq_false, false_and, iff_false]
    exact forced t

/-- Only the sub pool's process gets signals, if its pid is not given to another process before the code is done and SIGKILL ends
processes. -/
theorem kill_own_only {w : World} (hw : w.Lawful) {p : Proc} {t0 t : Nat} (h0 : Alive w t0 p) (ht : t0 ≤ t) (force : Bool)
    (hk : KillWorks w (killSubPool w t p force).sent) (hp : PidKept w p (t + 2)) :
    ∀ s ∈ (killSubPool w t p force).sent, s.to = p := by
  intro s hs
  have hdead := killSubPool_ends hw h0 ht force hk (t + 2) (Nat.le_refl _)
  have h3 : w.holder (t + 2) (w.pid p) = none := by
    rcases h : w.holder (t + 2) (w.pid p) with _ | q
    · rfl
    · have hq := hp q h; subst hq; exact absurd h hdead
  simp only [killSubPool, killByPid, h3, List.append_nil, List.mem_append] at hs
  have aux : ∀ t' sg, s ∈ signalChild w t' p sg → s.to = p := by
    intro t' sg h
    unfold signalChild at h
    split at h
    · simp only [List.mem_singleton] at h; subst h; rfl
    · cases h
  rcases hs with h | h
  · split at h
    · cases h
    · exact aux _ _ h
  · split at h
    · exact aux _ _ h
    · cases h

/-- **Refuted**: "the entire process tree is terminated" (the comment in the code): the processes a sub pool has started get no signal at
all, whenever SIGKILL ends processes. -/
theorem descendants_left_refuted {w : World} (hw : w.Lawful) {p : Proc} {t0 t : Nat} (h0 : Alive w t0 p) (ht : t0 ≤ t) (force : Bool)
    (hk : KillWorks w (killSubPool w t p force).sent) (hp : PidKept w p (t + 2)) (c : Proc) (hc : c ≠ p) :
    ∀ s ∈ (killSubPool w t p force).sent, s.to ≠ c := by
  intro s hs e
  exact hc (e ▸ kill_own_only hw h0 ht force hk hp s hs)

/-- **Refuted**: "only processes of the pool are killed": whoever has been given the pid of the ended process is killed, with all
its descendants. -/
theorem stranger_killed_refuted (w : World) (t : Nat) (p q : Proc) (force : Bool) (hq : w.holder (t + 2) (w.pid p) = some q) :
    ⟨t + 2, q, .kill⟩ ∈ (killSubPool w t p force).sent ∧
    ∀ c ∈ w.descendants (t + 2) q, ⟨t + 2, c, .kill⟩ ∈ (killSubPool w t p force).sent := by
  simp only [killSubPool, killByPid, hq, List.mem_append, List.mem_map, List.mem_singleton]
  exact ⟨.inr (.inr (by simp)), fun c hc => .inr (.inl ⟨c, hc, rfl⟩)⟩

/-- Stopping the main pool's sub pools: each that runs is stopped and ended, and the others get nothing. -/
theorem stop_all_ends {w : World} (hw : w.Lawful) {t0 t : Nat} (ht : t0 ≤ t) (ps : List Proc) (h0 : ∀ p ∈ ps, Alive w t0 p)
    (reply : Proc → Reply) (hr : stopRaises (stopSubPools w t ps reply) = false)
    (hk : ∀ p d, (p, Stopped.ok d) ∈ stopSubPools w t ps reply → KillWorks w d.sent) :
    ∀ p ∈ ps, ∀ t', t + 4 ≤ t' → ¬ Alive w t' p := by
  intro p hp t' ht'
  by_cases hr' : w.runs t p = true
  · have hm : (p, stopSubPool w t p none false (reply p)) ∈ stopSubPools w t ps reply :=
      List.mem_map.2 ⟨p, List.mem_filter.2 ⟨hp, hr'⟩, rfl⟩
    have hno : stopSubPool w t p none false (reply p) ≠ .raised := by
      intro h
      have : stopRaises (stopSubPools w t ps reply) = true := by
        simp only [stopRaises, List.any_eq_true]
        exact ⟨_, hm, by rw [h]; rfl⟩
      rw [hr] at this; cases this
    rcases hd : stopSubPool w t p none false (reply p) with d | _
    · rw [hd] at hm
      refine stop_ends hw (h0 p hp) ht none false (reply p) d hd (hk p d hm) t' ?_
      have : d.time = t + 4 := by
        unfold stopSubPool at hd
        cases hrp : reply p <;> rw [hrp] at hd <;> simp [killSubPool] at hd <;> subst hd <;> simp
      omega
    · exact absurd hd hno
  · have : ¬ Alive w t p := fun h => hr' ((runs_iff w t p).2 h)
    exact dead_later hw (h0 p hp) ht (by omega) this

theorem stop_all_raises (w : World) (t : Nat) (ps : List Proc) (reply : Proc → Reply) :
    stopRaises (stopSubPools w t ps reply) = true ↔ ∃ p ∈ ps, Alive w t p ∧ reply p = .other := by
  simp only [stopRaises, List.any_eq_true, stopSubPools, List.mem_map, List.mem_filter, beq_iff_eq]
  constructor
  · rintro ⟨_, ⟨p, ⟨h1, h2⟩, rfl⟩, h3⟩
    exact ⟨p, h1, (runs_iff _ _ _).1 h2, (((stop_bounded w t p none false (reply p)).2).1 h3).2⟩
  · rintro ⟨p, h1, h2, h3⟩
    exact ⟨_, ⟨p, ⟨h1, (runs_iff _ _ _).2 h2⟩, rfl⟩, by simp only [h3]; rfl⟩

/-! ## a sub pool and the end of the main process -/

theorem look_found (s : Watch) (e : Entry) (h : e.found = true) (hs : s = .new ∨ s = .watching) : s.look e = .watching := by
  rcases hs with rfl | rfl <;> simp [Watch.look, h]

theorem foldl_done (s : Watch) (es : List Entry) (h : s = .stopped ∨ s = .failed) : es.foldl Watch.look s = s := by
  induction es generalizing s with
  | nil => rfl
  | cons e es ih =>
    rw [List.foldl_cons]
    rcases h with rfl | rfl
    · exact ih _ (.inl rfl)
    · exact ih _ (.inr rfl)

theorem foldl_watching (es : List Entry) :
    es.foldl Watch.look .watching = if es.all Entry.found then .watching else .stopped := by
  induction es with
  | nil => rfl
  | cons e es ih =>
    rw [List.foldl_cons]
    rcases h : e.found
    · have : Watch.look .watching e = .stopped := by simp [Watch.look, h]
      rw [this, foldl_done _ _ (.inl rfl)]; simp [h]
    · have : Watch.look .watching e = .watching := by simp [Watch.look, h]
      rw [this, ih]; simp [h]

/-- While the main process runs, a sub pool does not stop by itself; once a look has found the main process and a later one finds its pid
unused, it has stopped. -/
theorem watch_exact (e : Entry) (es : List Entry) :
    (Watch.run (e :: es) = .watching ↔ ∀ x ∈ e :: es, x ≠ .none) ∧
    (Watch.run (e :: es) = .stopped ↔ e ≠ .none ∧ .none ∈ es) ∧
    (Watch.run (e :: es) = .failed ↔ e = .none) := by
  have hf : ∀ x : Entry, x.found = true ↔ x ≠ .none := by intro x; cases x <;> simp [Entry.found]
  have hall : es.all Entry.found = true ↔ ∀ x ∈ es, x ≠ .none := by
    simp only [List.all_eq_true, hf]
  have hnone : (¬ ∀ x ∈ es, x ≠ .none) ↔ Entry.none ∈ es := by
    constructor
    · intro h; apply Classical.byContradiction; intro hn; exact h (fun x hx e => hn (e ▸ hx))
    · intro h hall; exact hall _ h rfl
  simp only [Watch.run, List.foldl_cons, List.forall_mem_cons]
  by_cases he : e = .none
  · subst he
    have : Watch.look .new Entry.none = .failed := rfl
    rw [this, foldl_done _ _ (.inr rfl)]
    simp
  · have : Watch.look .new e = .watching := look_found _ _ ((hf e).2 he) (.inl rfl)
    rw [this, foldl_watching]
    by_cases ha : es.all Entry.found = true
    · rw [if_pos ha]
      have := hall.1 ha
      simp only [true_iff, reduceCtorEq, false_iff]
      exact ⟨⟨he, this⟩, fun h => hnone.2 h.2 this, he⟩
    · rw [if_neg ha]
      have : ¬ ∀ x ∈ es, x ≠ .none := fun h => ha (hall.2 h)
      simp only [true_iff, reduceCtorEq, false_iff]
      exact ⟨fun h => this h.2, ⟨he, hnone.1 this⟩, he⟩

/-- When the main process was gone before the first look, the other watcher ends the process at its next look. -/
theorem second_watcher (es : List Entry) : ppidEnds es = true ↔ .none ∈ es := by
  simp only [ppidEnds, List.any_eq_true, Bool.not_eq_true']
  constructor
  · rintro ⟨x, hx, h⟩; cases x <;> simp [Entry.found] at h; exact hx
  · intro h; exact ⟨_, h, rfl⟩

/-- **Refuted**: "sub pools end after the main process has": not while the main process has not been collected by its parent, and not when
its pid has been given to another process between two looks - neither watcher notices. -/
theorem main_ended_unnoticed_refuted (main other : Proc) (n m : Nat) :
    Watch.run (List.replicate (n + 1) (Entry.running main) ++ List.replicate m (.zombie main)) = .watching ∧
    ppidEnds (List.replicate (n + 1) (Entry.running main) ++ List.replicate m (.zombie main)) = false ∧
    Watch.run (List.replicate (n + 1) (Entry.running main) ++ List.replicate m (.running other)) = .watching ∧
    ppidEnds (List.replicate (n + 1) (Entry.running main) ++ List.replicate m (.running other)) = false := by
  have h1 : ∀ e, e ≠ Entry.none → Entry.none ∉ (List.replicate (n + 1) (Entry.running main) ++ List.replicate m e) := by
    intro e he h
    simp only [List.mem_append, List.mem_replicate] at h
    rcases h with ⟨_, h⟩ | ⟨_, h⟩
    · cases h
    · exact he h.symm
  have h2 : ∀ e, e ≠ Entry.none → Watch.run (List.replicate (n + 1) (Entry.running main) ++ List.replicate m e) = .watching := by
    intro e he
    have := h1 e he
    rw [List.replicate_succ, List.cons_append] at this ⊢
    exact ((watch_exact _ _).1).2 (fun x hx hh => this (hh ▸ hx))
  have h3 : ∀ e, e ≠ Entry.none → ppidEnds (List.replicate (n + 1) (Entry.running main) ++ List.replicate m e) = false := by
    intro e he
    rcases h : ppidEnds (List.replicate (n + 1) (Entry.running main) ++ List.replicate m e)
    · rfl
    · exact absurd ((second_watcher _).1 h) (h1 e he)
  exact ⟨h2 _ (by simp), h3 _ (by simp), h2 _ (by simp), h3 _ (by simp)⟩

/-! ## a world: process 1 (pid 7) ignores SIGTERM and has a child 2 (pid 8) -/

def sampleWorld : World where
  pid := fun p => p + 6
  holder := fun t pid => if pid = 7 then (if t ≤ 2 then some 1 else none) else if pid = 8 then some 2 else none
  descendants := fun _ p => if p = 1 then [2] else []

theorem sample_lawful : sampleWorld.Lawful := by
  refine ⟨?_, ?_⟩
  · intro t pid p h
    simp only [sampleWorld] at h ⊢
    grind
  · intro t p ha hb t' ht
    simp only [Alive, sampleWorld] at *
    grind

example : stopSubPool sampleWorld 0 1 none false .reply = .ok ⟨[⟨1, 1, .term⟩, ⟨2, 1, .kill⟩], 4, 11⟩ := by decide
example : Alive sampleWorld 0 1 ∧ KillWorks sampleWorld [⟨1, 1, .term⟩, ⟨2, 1, .kill⟩] ∧ PidKept sampleWorld 1 3 := by
  refine ⟨rfl, ?_, ?_⟩
  · intro s hs h
    simp only [List.mem_cons, List.not_mem_nil, or_false] at hs
    rcases hs with rfl | rfl
    · cases h
    · intro h; cases h
  · intro q h; simp [sampleWorld] at h
/-- its child runs on -/
example : Alive sampleWorld 1000 2 := rfl

end Xoscar.Procs
