import Verif.Spec.Delay
/-! C81: delayed tells. -/
namespace Xoscar.Delay

variable {ls : List Label} {st : St}

/-- what a task knows -/
def Task.req (t : Task) : Req := ⟨t.made, t.loc, t.delay, t.ignore, t.cell⟩

theorem lt_of_get {α : Type} {l : List α} {i : Nat} {t : α} (h : l[i]? = some t) : i < l.length := by
  rcases Nat.lt_or_ge i l.length with h' | h'
  · exact h'
  · rw [List.getElem?_eq_none h'] at h; cases h

theorem get_set {l : List Task} {i j : Nat} {t t0 : Task} (hi : l[i]? = some t0) : (l.set i t)[j]? = if i = j then some t else l[j]? := by
  rw [List.getElem?_set]
  by_cases h : i = j
  · subst h; simp [lt_of_get hi]
  · simp [h]

theorem requestsFrom_snoc (n : Nat) (ls : List Label) (lb : Label) :
    requestsFrom n (ls ++ [lb]) = requestsFrom n ls ++ requestsFrom (n + ls.count .tick) [lb] := by
  induction ls generalizing n with
  | nil => simp [requestsFrom]
  | cons x ls ih =>
    cases x <;> simp only [List.cons_append, requestsFrom, ih, List.count_cons] <;> simp
    congr 1; omega

theorem map_req_set {l : List Task} {i : Nat} {t : Task} {p : Phase} (h : l[i]? = some t) :
    (l.set i { t with ph := p }).map Task.req = l.map Task.req := by
  apply List.ext_getElem?
  intro j
  simp only [List.getElem?_map]
  rw [get_set h]
  by_cases hij : i = j
  · subst hij; rw [h]; simp [Task.req]
  · simp [hij]

/-- What a step does to the tasks, the calls made and the log. -/
inductive Effect (st : St) : Label → St → Prop where
  | new (loc : Bool) (d : Option Int) (ig : Bool) (c : Nat) :
    Effect st (.tellDelay loc d ig c) { st with tasks := st.tasks ++ [{ loc, made := st.now, delay := d, ignore := ig, cell := c }] }
  | tick : Effect st .tick { st with now := st.now + 1 }
  | same (lb : Label) (st' : St) (hl : (∃ c v, lb = .mutate c v) ∨ lb = .destroy) (ht : st'.tasks = st.tasks) (hs : st'.sent = st.sent)
    (hg : st'.logged = st.logged) (hn : st'.now = st.now) : Effect st lb st'
  | start (i : Nat) (t : Task) (h : st.tasks[i]? = some t) (hp : t.ph = .created) : Effect st (.start i) (startTask st i t)
  | wake (i : Nat) (t : Task) (till : Nat) (h : st.tasks[i]? = some t) (hp : t.ph = .sleeping till) (hn : till ≤ st.now) :
    Effect st (.wake i) (wakeTask st i t)
  | write (i : Nat) (t : Task) (h : st.tasks[i]? = some t) (hp : t.ph = .sending) :
    Effect st (.write i) { st.setPh i t .written with sent := st.sent ++ [(i, st.now, st.mem t.cell)] }
  | sendOk (i : Nat) (t : Task) (h : st.tasks[i]? = some t) (hp : t.ph = .written) : Effect st (.sendEnds i none) (st.setPh i t (.ended .ok))
  | sendErr (i : Nat) (t : Task) (e : Err) (h : st.tasks[i]? = some t) (hp : t.ph = .sending ∨ t.ph = .written) :
    Effect st (.sendEnds i (some e)) (failTask st i t e)
  | cancel (i : Nat) (t : Task) (h : st.tasks[i]? = some t) (hp : ∀ o, t.ph ≠ .ended o) : Effect st (.cancel i) (st.setPh i t (.ended .cancelled))

theorem effect {lb : Label} {st' : St} (hs : step st lb = some st') : Effect st lb st' := by
  cases lb with
  | tellDelay loc d ig c => simp only [step] at hs; injection hs with hs; subst hs; exact .new ..
  | tick => simp only [step] at hs; injection hs with hs; subst hs; exact .tick
  | mutate c v => simp only [step] at hs; injection hs with hs; subst hs; exact .same _ _ (Or.inl ⟨_, _, rfl⟩) rfl rfl rfl rfl
  | destroy => simp only [step] at hs; injection hs with hs; subst hs; exact .same _ _ (Or.inr rfl) rfl rfl rfl rfl
  | start i =>
    simp only [step] at hs
    split at hs
    · cases hs
    · split at hs
      · injection hs with hs; subst hs; exact .start _ _ (by assumption) (by assumption)
      · cases hs
  | wake i =>
    simp only [step] at hs
    split at hs
    · cases hs
    · split at hs
      · split at hs
        · injection hs with hs; subst hs; exact .wake _ _ _ (by assumption) (by assumption) (by assumption)
        · cases hs
      · cases hs
  | write i =>
    simp only [step] at hs
    split at hs
    · cases hs
    · split at hs
      · injection hs with hs; subst hs; exact .write _ _ (by assumption) (by assumption)
      · cases hs
  | sendEnds i e =>
    simp only [step] at hs
    split at hs
    · cases hs
    · split at hs
      · split at hs
        · injection hs with hs; subst hs; exact .sendOk _ _ (by assumption) (by assumption)
        · cases hs
      · split at hs
        · injection hs with hs; subst hs; exact .sendErr _ _ _ (by assumption) (by assumption)
        · cases hs
  | cancel i =>
    simp only [step] at hs
    split at hs
    · cases hs
    · split at hs
      · cases hs
      · rename_i hne
        injection hs with hs; subst hs; exact .cancel _ _ (by assumption) (fun o ho => hne o ho)

/-- Task `i` was made by the `i`-th call, with its arguments; the clock is right. -/
theorem tasks_requests (h : Run ls st) : st.tasks.map Task.req = requests ls ∧ st.now = ls.count .tick := by
  induction h with
  | init => exact ⟨rfl, rfl⟩
  | @snoc ls lb st st' hr hs ih =>
    unfold requests at ih ⊢
    rw [requestsFrom_snoc, Nat.zero_add, ← ih.1, ← ih.2, List.count_append, ← ih.2]
    cases effect hs with
    | new loc d ig c => simp [requestsFrom, Task.req]
    | tick => simp [requestsFrom]
    | same _ _ hl ht _ _ hn =>
      rcases hl with ⟨c, v, rfl⟩ | rfl <;> simp [requestsFrom, ht, hn]
    | start i t h hp =>
      unfold startTask; split <;> simp [St.setPh, requestsFrom, map_req_set h]
    | wake i t till h hp hn =>
      unfold wakeTask; repeat' split
      all_goals simp [St.setPh, requestsFrom, map_req_set h]
    | write i t h hp => simp [St.setPh, requestsFrom, map_req_set h]
    | sendOk i t h hp => simp [St.setPh, requestsFrom, map_req_set h]
    | sendErr i t e h hp =>
      unfold failTask; split <;> simp [St.setPh, requestsFrom, map_req_set h]
    | cancel i t h hp => simp [St.setPh, requestsFrom, map_req_set h]

/-- What is known of a task. -/
def TaskOk (st : St) (i : Nat) (t : Task) : Prop :=
  match t.ph with
  | .created => i ∉ st.sent.map (·.1) ∧ i ∉ st.logged
  | .sleeping till => i ∉ st.sent.map (·.1) ∧ i ∉ st.logged ∧ ∃ d, t.delay = some d ∧ (t.made : Int) + d ≤ till
  | .sending => i ∉ st.sent.map (·.1) ∧ i ∉ st.logged ∧ t.loc = false ∧ ∃ d, t.delay = some d ∧ (t.made : Int) + d ≤ st.now
  | .written => i ∈ st.sent.map (·.1) ∧ i ∉ st.logged ∧ t.loc = false
  | .ended .ok => (i ∈ st.sent.map (·.1) ∨ (t.loc = false ∧ t.ignore = true)) ∧ i ∉ st.logged ∧ t.delay ≠ none
  | .ended .typeError => i ∉ st.sent.map (·.1) ∧ t.delay = none ∧ (i ∈ st.logged ↔ t.loc = false)
  | .ended .cancelled => i ∉ st.logged
  | .ended (.err e) => (i ∈ st.logged ↔ t.loc = false) ∧ t.delay ≠ none ∧ (t.loc = true → e = .notExist ∧ i ∉ st.sent.map (·.1)) ∧
      (t.loc = false → ¬ (t.ignore = true ∧ e = .refused))

structure Inv (st : St) : Prop where
  made : ∀ (i : Nat) (t : Task), st.tasks[i]? = some t → t.made ≤ st.now
  task : ∀ (i : Nat) (t : Task), st.tasks[i]? = some t → TaskOk st i t
  once : (st.sent.map (·.1)).Nodup
  due : ∀ s ∈ st.sent, s.2.1 ≤ st.now ∧ ∃ t d, st.tasks[s.1]? = some t ∧ t.delay = some d ∧ (t.made : Int) + d ≤ s.2.1
  log : ∀ i ∈ st.logged, i < st.tasks.length

theorem taskOk_congr {st st' : St} {i : Nat} {t : Task} (h : TaskOk st i t) (hs : i ∈ st'.sent.map (·.1) ↔ i ∈ st.sent.map (·.1))
    (hg : i ∈ st'.logged ↔ i ∈ st.logged) (hn : st.now ≤ st'.now) : TaskOk st' i t := by
  unfold TaskOk at h ⊢
  split <;> simp only [hs, hg] <;> simp only [*] at h <;> try exact h
  obtain ⟨h1, h2, h3, d, h4, h5⟩ := h
  exact ⟨h1, h2, h3, d, h4, by omega⟩

theorem inv_put {st st' : St} {i : Nat} {t : Task} {p : Phase} (h : Inv st) (hi : st.tasks[i]? = some t) (v : Nat) (s g : Bool)
    (ht : st'.tasks = st.tasks.set i { t with ph := p }) (hn : st'.now = st.now)
    (hs : st'.sent = st.sent ++ (if s then [(i, st.now, v)] else [])) (hg : st'.logged = st.logged ++ (if g then [i] else []))
    (hf : s = true → i ∉ st.sent.map (·.1)) (hd : s = true → ∃ d, t.delay = some d ∧ (t.made : Int) + d ≤ st.now)
    (hok : TaskOk st' i { t with ph := p }) : Inv st' := by
  have msent : ∀ j, j ≠ i → (j ∈ st'.sent.map (·.1) ↔ j ∈ st.sent.map (·.1)) := by
    intro j hj; rw [hs]; cases s <;> simp [hj]
  have mlog : ∀ j, j ≠ i → (j ∈ st'.logged ↔ j ∈ st.logged) := by
    intro j hj; rw [hg]; cases g <;> simp [hj]
  constructor
  · intro j u hj
    rw [ht, get_set hi] at hj
    rw [hn]
    split at hj
    · injection hj with hj; subst hj; exact h.made i t hi
    · exact h.made j u hj
  · intro j u hj
    rw [ht, get_set hi] at hj
    split at hj
    · rename_i e; subst e; injection hj with hj; subst hj; exact hok
    · rename_i e
      exact taskOk_congr (h.task j u hj) (msent j (fun h => e h.symm)) (mlog j (fun h => e h.symm)) (by omega)
  · rw [hs]
    cases s with
    | false => simpa using h.once
    | true =>
      have := hf rfl
      simp only [if_true, List.map_append, List.map_cons, List.map_nil]
      rw [List.nodup_append]
      refine ⟨h.once, by simp, ?_⟩
      intro a ha b hb e
      simp only [List.mem_singleton] at hb
      subst hb; subst e; exact this ha
  · intro x hx
    have old : x ∈ st.sent → x.2.1 ≤ st'.now ∧ ∃ t d, st'.tasks[x.1]? = some t ∧ t.delay = some d ∧ (t.made : Int) + d ≤ x.2.1 := by
      intro hx
      obtain ⟨h1, u, d, h2, h3, h4⟩ := h.due x hx
      refine ⟨by omega, ?_⟩
      rw [ht, get_set hi]
      split
      · rename_i e; rw [← e, hi] at h2; injection h2 with h2; subst h2; exact ⟨_, d, rfl, h3, h4⟩
      · exact ⟨u, d, h2, h3, h4⟩
    rw [hs, List.mem_append] at hx
    rcases hx with hx | hx
    · exact old hx
    · cases s with
      | false => simp at hx
      | true =>
        simp only [if_true, List.mem_singleton] at hx
        subst hx
        obtain ⟨d, h1, h2⟩ := hd rfl
        refine ⟨by simp [hn], { t with ph := p }, d, ?_, h1, h2⟩
        show st'.tasks[i]? = _
        rw [ht, get_set hi, if_pos rfl]
  · intro j hj
    rw [ht, List.length_set]
    by_cases e : j = i
    · subst e; exact lt_of_get hi
    · exact h.log j ((mlog j e).1 hj)

theorem inv_step {lb : Label} {st' : St} (h : Inv st) (hs : step st lb = some st') : Inv st' := by
  cases effect hs with
  | new loc d ig c =>
    have hget : ∀ (j : Nat) (u : Task), (st.tasks ++ [{ loc, made := st.now, delay := d, ignore := ig, cell := c }])[j]? = some u →
        st.tasks[j]? = some u ∨ (j = st.tasks.length ∧ u = { loc, made := st.now, delay := d, ignore := ig, cell := c }) := by
      intro j u hj
      rcases Nat.lt_trichotomy j st.tasks.length with hlt | heq | hgt
      · rw [List.getElem?_append_left hlt] at hj; exact Or.inl hj
      · subst heq; rw [List.getElem?_append_right (by omega)] at hj; simp at hj; exact Or.inr ⟨rfl, hj.symm⟩
      · rw [List.getElem?_append_right (by omega), List.getElem?_eq_none (by simp; omega)] at hj; cases hj
    constructor
    · intro j u hj
      rcases hget j u hj with hj | ⟨_, rfl⟩
      · exact h.made j u hj
      · exact Nat.le_refl _
    · intro j u hj
      rcases hget j u hj with hj | ⟨e, rfl⟩
      · exact taskOk_congr (h.task j u hj) Iff.rfl Iff.rfl (Nat.le_refl _)
      · subst e
        refine ⟨?_, ?_⟩
        · intro hm
          obtain ⟨x, hx, e⟩ := List.mem_map.1 hm
          obtain ⟨_, u, _, h2, _⟩ := h.due x hx
          have := lt_of_get h2
          omega
        · intro hm
          have := h.log _ hm
          omega
    · exact h.once
    · intro x hx
      obtain ⟨h1, u, e, h2, h3⟩ := h.due x hx
      exact ⟨h1, u, e, by simp only; rw [List.getElem?_append_left (lt_of_get h2)]; exact h2, h3⟩
    · intro j hj
      have := h.log j hj
      simp only [List.length_append, List.length_singleton]; omega
  | tick =>
    constructor
    · intro j u hj; have := h.made j u hj; simp only; omega
    · intro j u hj; exact taskOk_congr (h.task j u hj) Iff.rfl Iff.rfl (Nat.le_succ _)
    · exact h.once
    · intro x hx
      obtain ⟨h1, h2⟩ := h.due x hx
      exact ⟨by simp only; omega, h2⟩
    · exact h.log
  | same _ _ hl ht hs' hg hn =>
    constructor
    · intro j u hj; rw [ht] at hj; rw [hn]; exact h.made j u hj
    · intro j u hj; rw [ht] at hj; exact taskOk_congr (h.task j u hj) (by rw [hs']) (by rw [hg]) (by omega)
    · rw [hs']; exact h.once
    · rw [hs', hn, ht]; exact h.due
    · rw [hg, ht]; exact h.log
  | start i t hi hp =>
    have ht := h.task i t hi
    unfold TaskOk at ht; simp only [hp] at ht
    unfold startTask
    rcases hd : t.delay with _ | d
    · refine inv_put h hi 0 false (!t.loc) rfl rfl (by simp [St.setPh]) (by cases t.loc <;> simp) (by simp) (by simp) ?_
      simp only [TaskOk, St.setPh]
      refine ⟨ht.1, hd, ?_⟩
      cases t.loc <;> simp [ht.2]
    · refine inv_put h hi 0 false false rfl rfl (by simp [St.setPh]) (by simp [St.setPh]) (by simp) (by simp) ?_
      simp only [TaskOk, St.setPh]
      refine ⟨ht.1, ht.2, d, hd, ?_⟩
      have := h.made i t hi
      omega
  | wake i t till hi hp hn =>
    have ht := h.task i t hi
    unfold TaskOk at ht; simp only [hp] at ht
    obtain ⟨h1, h2, d, h3, h4⟩ := ht
    unfold wakeTask
    split
    · rename_i hl
      split
      · refine inv_put h hi (st.mem t.cell) true false rfl rfl (by simp) (by simp [St.setPh]) (fun _ => h1) (fun _ => ⟨d, h3, by omega⟩) ?_
        simp [TaskOk, St.setPh, h2, h3]
      · refine inv_put h hi 0 false false rfl rfl (by simp [St.setPh]) (by simp [St.setPh]) (by simp) (by simp) ?_
        simp only [TaskOk, St.setPh]
        simp [h2, h3, hl]
        simpa using h1
    · rename_i hl
      refine inv_put h hi 0 false false rfl rfl (by simp [St.setPh]) (by simp [St.setPh]) (by simp) (by simp) ?_
      simp only [TaskOk, St.setPh]
      exact ⟨h1, h2, by simpa using hl, d, h3, by omega⟩
  | write i t hi hp =>
    have ht := h.task i t hi
    unfold TaskOk at ht; simp only [hp] at ht
    obtain ⟨h1, h2, h3, d, h4, h5⟩ := ht
    refine inv_put h hi (st.mem t.cell) true false rfl rfl (by simp) (by simp [St.setPh]) (fun _ => h1) (fun _ => ⟨d, h4, h5⟩) ?_
    simp [TaskOk, St.setPh, h2, h3]
  | sendOk i t hi hp =>
    have ht := h.task i t hi
    unfold TaskOk at ht; simp only [hp] at ht
    obtain ⟨h1, h2, h3⟩ := ht
    refine inv_put h hi 0 false false rfl rfl (by simp [St.setPh]) (by simp [St.setPh]) (by simp) (by simp) ?_
    simp only [TaskOk, St.setPh]
    refine ⟨Or.inl h1, h2, ?_⟩
    obtain ⟨x, hx, e⟩ := List.mem_map.1 h1
    obtain ⟨_, u, d, h4, h5, _⟩ := h.due x hx
    rw [e, hi] at h4; injection h4 with h4; subst h4
    rw [h5]; simp
  | sendErr i t e hi hp =>
    have ht := h.task i t hi
    have hl : t.loc = false ∧ i ∉ st.logged ∧ t.delay ≠ none := by
      unfold TaskOk at ht
      rcases hp with hp | hp <;> simp only [hp] at ht
      · obtain ⟨h1, h2, h3, d, h4, h5⟩ := ht
        exact ⟨h3, h2, by rw [h4]; simp⟩
      · refine ⟨ht.2.2, ht.2.1, ?_⟩
        obtain ⟨x, hx, e⟩ := List.mem_map.1 ht.1
        obtain ⟨_, u, d, h4, h5, _⟩ := h.due x hx
        rw [e, hi] at h4; injection h4 with h4; subst h4
        rw [h5]; simp
    unfold failTask
    split
    · rename_i hc
      simp only [Bool.and_eq_true] at hc
      refine inv_put h hi 0 false false rfl rfl (by simp [St.setPh]) (by simp [St.setPh]) (by simp) (by simp) ?_
      simp only [TaskOk, St.setPh]
      exact ⟨Or.inr ⟨hl.1, hc.1⟩, hl.2.1, hl.2.2⟩
    · rename_i hc
      refine inv_put h hi 0 false true rfl rfl (by simp [St.setPh]) (by simp) (by simp) (by simp) ?_
      simp only [TaskOk, St.setPh]
      simp only [Bool.and_eq_true, beq_iff_eq] at hc
      refine ⟨by simp [hl.1], hl.2.2, by simp [hl.1], fun _ => hc⟩
  | cancel i t hi hp =>
    have ht := h.task i t hi
    have hl : i ∉ st.logged := by
      unfold TaskOk at ht
      split at ht <;> first | exact ht.2 | exact ht.2.1 | (rename_i e; exact absurd e (hp _))
    refine inv_put h hi 0 false false rfl rfl (by simp [St.setPh]) (by simp [St.setPh]) (by simp) (by simp) ?_
    simpa [TaskOk, St.setPh] using hl

theorem inv_run (h : Run ls st) : Inv st := by
  induction h with
  | init => constructor <;> simp
  | snoc _ hs ih => exact inv_step ih hs

theorem req_task (h : Run ls st) {i : Nat} {t : Task} (ht : st.tasks[i]? = some t) : (requests ls)[i]? = some t.req := by
  rw [← (tasks_requests h).1, List.getElem?_map, ht]; rfl

theorem task_req (h : Run ls st) {i : Nat} {r : Req} (hr : (requests ls)[i]? = some r) : ∃ t, st.tasks[i]? = some t ∧ t.req = r := by
  rw [← (tasks_requests h).1, List.getElem?_map, Option.map_eq_some_iff] at hr
  exact hr

/-- A delayed tell is never made early: only for a call of `tell_delay` with a delay, and not before the delay has passed. -/
theorem not_early (h : Run ls st) {i time v : Nat} (hs : (i, time, v) ∈ st.sent) :
    ∃ r d, (requests ls)[i]? = some r ∧ r.delay = some d ∧ (r.time : Int) + d ≤ time := by
  obtain ⟨_, t, d, h1, h2, h3⟩ := (inv_run h).due _ hs
  exact ⟨t.req, d, req_task h h1, h2, h3⟩

/-- … and at most once. -/
theorem at_most_once (h : Run ls st) : (st.sent.map (·.1)).Nodup := (inv_run h).once

/-- Without a delay the tell is never made: `delay` has the default `None`, and the task ends with a TypeError (or is cancelled). -/
theorem without_delay_never (h : Run ls st) {i : Nat} {r : Req} (hr : (requests ls)[i]? = some r) (hd : r.delay = none) :
    i ∉ st.sent.map (·.1) ∧ ∀ t, st.tasks[i]? = some t → ∀ o, t.ph = .ended o → o = .typeError ∨ o = .cancelled := by
  constructor
  · intro hm
    obtain ⟨⟨j, time, v⟩, hx, rfl⟩ := List.mem_map.1 hm
    obtain ⟨r', d, h1, h2, _⟩ := not_early h hx
    simp only at hr
    rw [hr] at h1; injection h1 with h1; subst h1
    rw [hd] at h2; cases h2
  · intro t ht o ho
    have := (inv_run h).task i t ht
    have e := req_task h ht
    rw [hr] at e; injection e with e; subst e
    have hd' : t.delay = none := hd
    unfold TaskOk at this
    rw [ho] at this
    cases o with
    | ok => simp only at this; exact absurd hd' this.2.2
    | typeError => exact Or.inl rfl
    | cancelled => exact Or.inr rfl
    | err e => simp only at this; exact absurd hd' this.2.1

/-- The outcome of the task: success means the tell was made, or the connection was refused and this was to be ignored; an error is raised
in the task, and logged exactly when the reference is not a local one. -/
theorem outcome (h : Run ls st) {i : Nat} {t : Task} (ht : st.tasks[i]? = some t) :
    (t.ph = .ended .ok → i ∈ st.sent.map (·.1) ∨ (t.loc = false ∧ t.ignore = true)) ∧
    (∀ e, t.ph = .ended (.err e) → ¬ (t.loc = false ∧ t.ignore = true ∧ e = .refused)) ∧
    (i ∈ st.logged ↔ t.loc = false ∧ (t.ph = .ended .typeError ∨ ∃ e, t.ph = .ended (.err e))) := by
  have hk := (inv_run h).task i t ht
  unfold TaskOk at hk
  refine ⟨?_, ?_, ?_⟩
  · intro e; simp only [e] at hk; exact hk.1
  · intro e he; simp only [he] at hk
    rintro ⟨h1, h2, h3⟩; exact hk.2.2.2 h1 ⟨h2, h3⟩
  · split at hk <;> rename_i e <;> simp only [e]
    · simp [hk.2]
    · simp [hk.2.1]
    · simp [hk.2.1]
    · simp [hk.2.1]
    · simp [hk.2.1]
    · simp [hk.2.2]
    · simp [hk]
    · simp [hk.1]

theorem run_append {ls' : List Label} {st' : St} (h : Run ls st) (h' : ls'.foldlM step st = some st') : Run (ls ++ ls') st' := by
  induction ls' generalizing ls st with
  | nil => simp only [List.foldlM_nil] at h'; injection h' with h'; subst h'; simpa using h
  | cons l ls' ih =>
    simp only [List.foldlM_cons] at h'
    rcases hl : step st l with _ | s1
    · rw [hl] at h'; cases h'
    · rw [hl] at h'
      have := ih (h.snoc hl) h'
      simpa using this

theorem run_of {st' : St} (h : ls.foldlM step {} = some st') : Run ls st' := by
  have := run_append Run.init h
  simpa using this

theorem ended_step {lb : Label} {st' : St} {i : Nat} {t : Task} {o : Outcome} (ht : st.tasks[i]? = some t) (ho : t.ph = .ended o)
    (hs : step st lb = some st') : st'.tasks[i]? = some t ∧ (i ∈ st'.sent.map (·.1) → i ∈ st.sent.map (·.1)) := by
  cases effect hs with
  | new => exact ⟨by simp only; rw [List.getElem?_append_left (lt_of_get ht)]; exact ht, id⟩
  | tick => exact ⟨ht, id⟩
  | same _ _ _ h1 h2 => rw [h1, h2]; exact ⟨ht, id⟩
  | start j u hj hp =>
    have : j ≠ i := by rintro rfl; rw [hj] at ht; injection ht with ht; subst ht; rw [ho] at hp; cases hp
    unfold startTask; split <;> simp [St.setPh, get_set hj, this, ht]
  | wake j u till hj hp hn =>
    have : j ≠ i := by rintro rfl; rw [hj] at ht; injection ht with ht; subst ht; rw [ho] at hp; cases hp
    unfold wakeTask; repeat' split
    all_goals simp [St.setPh, get_set hj, this, ht, Ne.symm this]
  | write j u hj hp =>
    have : j ≠ i := by rintro rfl; rw [hj] at ht; injection ht with ht; subst ht; rw [ho] at hp; cases hp
    simp [St.setPh, get_set hj, this, ht, Ne.symm this]
  | sendOk j u hj hp =>
    have : j ≠ i := by rintro rfl; rw [hj] at ht; injection ht with ht; subst ht; rw [ho] at hp; cases hp
    simp [St.setPh, get_set hj, this, ht]
  | sendErr j u e hj hp =>
    have : j ≠ i := by
      rintro rfl; rw [hj] at ht; injection ht with ht; subst ht
      rcases hp with hp | hp <;> (rw [ho] at hp; cases hp)
    unfold failTask; split <;> simp [St.setPh, get_set hj, this, ht]
  | cancel j u hj hp =>
    have : j ≠ i := by rintro rfl; rw [hj] at ht; injection ht with ht; subst ht; exact hp _ ho
    simp [St.setPh, get_set hj, this, ht]

/-- A task that has ended stays as it is, and makes no tell any more. -/
theorem ended_final {ls' : List Label} {st' : St} {i : Nat} {t : Task} {o : Outcome} (ht : st.tasks[i]? = some t) (ho : t.ph = .ended o)
    (hs : ls'.foldlM step st = some st') : st'.tasks[i]? = some t ∧ (i ∈ st'.sent.map (·.1) → i ∈ st.sent.map (·.1)) := by
  induction ls' generalizing st with
  | nil => simp only [List.foldlM_nil] at hs; injection hs with hs; subst hs; exact ⟨ht, id⟩
  | cons l ls' ih =>
    simp only [List.foldlM_cons] at hs
    rcases hl : step st l with _ | s1
    · rw [hl] at hs; cases hs
    · rw [hl] at hs
      have h1 := ended_step ht ho hl
      have h2 := ih h1.1 hs
      exact ⟨h2.1, fun h => h1.2 (h2.2 h)⟩

/-- Cancelling the returned task before its delay is over prevents the tell, whatever happens later. -/
theorem cancel_prevents (h : Run ls st) {i : Nat} {t : Task} (ht : st.tasks[i]? = some t) (hp : t.ph = .created ∨ ∃ till, t.ph = .sleeping till)
    {ls' : List Label} {st' : St} (hs : (Label.cancel i :: ls').foldlM step st = some st') :
    i ∉ st'.sent.map (·.1) ∧ st'.tasks[i]? = some { t with ph := .ended .cancelled } := by
  have hn : i ∉ st.sent.map (·.1) := by
    have := (inv_run h).task i t ht
    unfold TaskOk at this
    rcases hp with hp | ⟨till, hp⟩ <;> simp only [hp] at this <;> exact this.1
  simp only [List.foldlM_cons] at hs
  rcases hl : step st (.cancel i) with _ | s1
  · rw [hl] at hs; cases hs
  · rw [hl] at hs
    have e : s1 = st.setPh i t (.ended .cancelled) := by
      simp only [step, ht] at hl
      rcases hp with hp | ⟨till, hp⟩ <;> simp only [hp] at hl <;> (injection hl with hl; exact hl.symm)
    have h1 : s1.tasks[i]? = some { t with ph := .ended .cancelled } := by
      subst e; simp only [St.setPh]; rw [get_set ht, if_pos rfl]
    have h2 := ended_final h1 rfl hs
    refine ⟨fun hm => ?_, h2.1⟩
    have := h2.2 hm
    subst e
    exact hn this

/-- A task can always be cancelled until it has ended. -/
theorem cancel_possible (h : Run ls st) {i : Nat} {t : Task} (ht : st.tasks[i]? = some t) (hp : ∀ o, t.ph ≠ .ended o) :
    ∃ st', step st (.cancel i) = some st' ∧ st'.tasks[i]? = some { t with ph := .ended .cancelled } := by
  refine ⟨st.setPh i t (.ended .cancelled), ?_, ?_⟩
  · simp only [step, ht]
  · simp only [St.setPh]; rw [get_set ht, if_pos rfl]

theorem ticks (st : St) (n : Nat) : (List.replicate n Label.tick).foldlM step st = some { st with now := st.now + n } := by
  induction n generalizing st with
  | zero => rfl
  | succ n ih =>
    rw [List.replicate_succ, List.foldlM_cons]
    simp only [step]
    show (List.replicate n Label.tick).foldlM step _ = _
    rw [ih]
    congr 2; simp only; omega

theorem fold_append {l1 l2 : List Label} {s1 s2 s3 : St} (h1 : l1.foldlM step s1 = some s2) (h2 : l2.foldlM step s2 = some s3) :
    (l1 ++ l2).foldlM step s1 = some s3 := by
  rw [List.foldlM_append, h1]; exact h2

/-- The tell of a task that has not ended can still be made: the delay need only pass (and, for a local reference, the actor be there). -/
theorem can_be_made (h : Run ls st) {i : Nat} {t : Task} (ht : st.tasks[i]? = some t) (hd : t.delay ≠ none) (hp : ∀ o, t.ph ≠ .ended o)
    (hl : t.loc = true → st.live = true) : ∃ (ls' : List Label) (st' : St), ls'.foldlM step st = some st' ∧ i ∈ st'.sent.map (·.1) ∧
      ∀ lb ∈ ls', lb = .tick ∨ lb = .start i ∨ lb = .wake i ∨ lb = .write i := by
  have hk := (inv_run h).task i t ht
  -- from `sending` on
  have send : ∀ (s : St) (u : Task), s.tasks[i]? = some u → u.ph = .sending → ∃ s', step s (.write i) = some s' ∧ i ∈ s'.sent.map (·.1) := by
    intro s u hu hph
    exact ⟨_, by simp only [step, hu, hph]; rfl, by simp⟩
  -- from `sleeping` on
  have sleep : ∀ (s : St) (u : Task) (till : Nat), s.tasks[i]? = some u → u.ph = .sleeping till → (u.loc = true → s.live = true) →
      ∃ (ls' : List Label) (s' : St), ls'.foldlM step s = some s' ∧ i ∈ s'.sent.map (·.1) ∧ ∀ lb ∈ ls', lb = .tick ∨ lb = .start i ∨ lb = .wake i ∨ lb = .write i := by
    intro s u till hu hph hlive
    have h1 := ticks s till
    have hwake : step { s with now := s.now + till } (.wake i) = some (wakeTask { s with now := s.now + till } i u) := by
      simp only [step, hu, hph]
      rw [if_pos (by omega)]
    have mem : ∀ lb ∈ List.replicate till Label.tick, lb = .tick ∨ lb = .start i ∨ lb = .wake i ∨ lb = .write i :=
      fun lb hm => Or.inl (List.eq_of_mem_replicate hm)
    cases hloc : u.loc with
    | true =>
      refine ⟨List.replicate till .tick ++ [.wake i], _, fold_append h1 (by rw [List.foldlM_cons, hwake]; rfl), ?_, ?_⟩
      · simp [wakeTask, hloc, hlive hloc]
      · intro lb hm
        rcases List.mem_append.1 hm with hm | hm
        · exact mem lb hm
        · simp at hm; simp [hm]
    | false =>
      have hsend : (wakeTask { s with now := s.now + till } i u).tasks[i]? = some { u with ph := .sending } := by
        simp only [wakeTask, hloc, St.setPh]
        simp only [Bool.false_eq_true, if_false]
        rw [get_set hu, if_pos rfl]
      obtain ⟨s', hw, hm⟩ := send _ _ hsend rfl
      refine ⟨List.replicate till .tick ++ [.wake i, .write i], s', fold_append h1 ?_, hm, ?_⟩
      · rw [List.foldlM_cons, hwake]
        show List.foldlM step _ [Label.write i] = _
        rw [List.foldlM_cons, hw]; rfl
      · intro lb hm
        rcases List.mem_append.1 hm with hm | hm
        · exact mem lb hm
        · simp at hm; rcases hm with rfl | rfl <;> simp
  rcases hph : t.ph with _ | till | _ | _ | o
  · obtain ⟨d, hd⟩ : ∃ d, t.delay = some d := by
      rcases h : t.delay with _ | d
      · exact absurd h hd
      · exact ⟨d, rfl⟩
    have hst : step st (.start i) = some (st.setPh i t (.sleeping (st.now + d.toNat))) := by
      simp only [step, ht, hph, startTask, hd]; rfl
    obtain ⟨ls', s', h1, h2, h3⟩ := sleep (st.setPh i t (.sleeping (st.now + d.toNat))) { t with ph := .sleeping (st.now + d.toNat) } _
      (by simp only [St.setPh]; rw [get_set ht, if_pos rfl]) rfl hl
    refine ⟨.start i :: ls', s', ?_, h2, ?_⟩
    · rw [List.foldlM_cons, hst]; exact h1
    · intro lb hm
      rcases List.mem_cons.1 hm with hm | hm
      · simp [hm]
      · exact h3 lb hm
  · exact sleep st t till ht hph hl
  · obtain ⟨s', hw, hm⟩ := send st t ht hph
    refine ⟨[.write i], s', ?_, hm, by simp⟩
    rw [List.foldlM_cons, hw]; rfl
  · unfold TaskOk at hk
    simp only [hph] at hk
    exact ⟨[], st, rfl, hk.1, by simp⟩
  · exact absurd hph (hp o)

theorem contents_snoc (ls : List Label) (lb : Label) (c : Nat) : contents (ls ++ [lb]) c =
    match lb with
    | .mutate d w => if c = d then w else contents ls c
    | _ => contents ls c := by
  unfold contents
  rw [List.foldl_append]
  cases lb <;> rfl

theorem mem_contents (h : Run ls st) (c : Nat) : st.mem c = contents ls c := by
  induction h with
  | init => rfl
  | @snoc ls lb st st' hr hs ih =>
    rw [contents_snoc]
    cases effect hs with
    | same _ _ hl =>
      rcases hl with ⟨d, v, rfl⟩ | rfl
      · simp only [step] at hs; injection hs with hs; subst hs; simp only [ih]
      · simp only [step] at hs; injection hs with hs; subst hs; exact ih
    | start i t h hp => unfold startTask; split <;> exact ih
    | wake i t till h hp hn =>
      unfold wakeTask
      split
      · split <;> exact ih
      · exact ih
    | sendErr i t e h hp => unfold failTask; split <;> exact ih
    | _ => exact ih

/-- What is told: the contents of the argument at the moment the tell is made (not when `tell_delay` was called). -/
theorem value_told (h : Run ls st) {i time v : Nat} (hs : (i, time, v) ∈ st.sent) :
    ∃ pre suf r, ls = pre ++ suf ∧ (requests pre)[i]? = some r ∧ pre.count .tick = time ∧ v = contents pre r.cell := by
  induction h with
  | init => simp at hs
  | @snoc ls lb st st' hr hstep ih =>
    have old : (i, time, v) ∈ st.sent → ∃ pre suf r, ls ++ [lb] = pre ++ suf ∧ (requests pre)[i]? = some r ∧ pre.count .tick = time ∧ v = contents pre r.cell := by
      intro h0
      obtain ⟨pre, suf, r, h1, h2⟩ := ih h0
      exact ⟨pre, suf ++ [lb], r, by rw [h1, List.append_assoc], h2⟩
    have new : ∀ (j : Nat) (t : Task), st.tasks[j]? = some t → (i, time, v) = (j, st.now, st.mem t.cell) →
        ∃ pre suf r, ls ++ [lb] = pre ++ suf ∧ (requests pre)[i]? = some r ∧ pre.count .tick = time ∧ v = contents pre r.cell := by
      intro j t ht e
      injection e with e1 e2; injection e2 with e2 e3
      subst e1; subst e2; subst e3
      exact ⟨ls, [lb], t.req, rfl, req_task hr ht, (tasks_requests hr).2.symm, mem_contents hr _⟩
    cases effect hstep with
    | new => exact old hs
    | tick => exact old hs
    | same _ _ _ _ h2 => rw [h2] at hs; exact old hs
    | start j t hj hp =>
      unfold startTask at hs; split at hs <;> exact old hs
    | wake j t till hj hp hn =>
      unfold wakeTask at hs
      repeat' split at hs
      · rcases List.mem_append.1 hs with hs | hs
        · exact old hs
        · exact new j t hj (by simpa using hs)
      · exact old hs
      · exact old hs
    | write j t hj hp =>
      rcases List.mem_append.1 hs with hs | hs
      · exact old hs
      · exact new j t hj (by simpa using hs)
    | sendOk j t hj hp => exact old hs
    | sendErr j t e hj hp =>
      unfold failTask at hs; split at hs <;> exact old hs
    | cancel j t hj hp => exact old hs

/-- A task that ended well without a tell: its connection was refused. -/
theorem silent_only_refused (h : Run ls st) {i : Nat} {t : Task} (ht : st.tasks[i]? = some t) (ho : t.ph = .ended .ok) (hn : i ∉ st.sent.map (·.1)) :
    Label.sendEnds i (some .refused) ∈ ls := by
  induction h generalizing t with
  | init => simp at ht
  | @snoc ls lb st st' hr hs ih =>
    have old : ∀ u, st.tasks[i]? = some u → u.ph = .ended .ok → Label.sendEnds i (some .refused) ∈ ls ++ [lb] := by
      intro u hu hou
      exact List.mem_append_left _ (ih hu hou (fun hm => hn (by
        have hk := (inv_run (hr.snoc hs)).task i t ht
        unfold TaskOk at hk
        simp only [ho] at hk
        cases effect hs with
        | new => exact hm
        | tick => exact hm
        | same _ _ _ _ h2 => rw [h2]; exact hm
        | start j t hj hp => unfold startTask; split <;> exact hm
        | wake j t till hj hp hn => unfold wakeTask; repeat' split
                                    all_goals simp [St.setPh] at hm ⊢
                                    all_goals first | exact Or.inl hm | exact hm
        | write j t hj hp => simp at hm ⊢; exact Or.inl hm
        | sendOk j t hj hp => exact hm
        | sendErr j t e hj hp => unfold failTask; split <;> exact hm
        | cancel j t hj hp => exact hm)))
    have keep : ∀ (j : Nat) (u : Task) (p : Phase), st.tasks[j]? = some u → st'.tasks = st.tasks.set j { u with ph := p } → p ≠ .ended .ok →
        Label.sendEnds i (some .refused) ∈ ls ++ [lb] := by
      intro j u p hj e hp
      rw [e, get_set hj] at ht
      split at ht
      · injection ht with ht; subst ht; exact absurd ho hp
      · exact old t ht ho
    cases effect hs with
    | new loc d ig c =>
      by_cases hlt : i < st.tasks.length
      · simp only at ht; rw [List.getElem?_append_left hlt] at ht; exact old t ht ho
      · simp only at ht
        rw [List.getElem?_append_right (by omega)] at ht
        rcases hk : i - st.tasks.length with _ | k
        · rw [hk] at ht; simp at ht; subst ht; cases ho
        · rw [hk] at ht; simp at ht
    | tick => exact old t ht ho
    | same _ _ _ h1 => rw [h1] at ht; exact old t ht ho
    | start j u hj hp =>
      unfold startTask at keep
      split at keep
      · exact keep j u _ hj rfl (by simp)
      · exact keep j u _ hj rfl (by simp)
    | wake j u till hj hp hl =>
      unfold wakeTask at ht hn keep
      split at ht
      · rename_i hloc
        simp only [hloc, if_true] at hn keep
        split at ht
        · rename_i hlive
          simp only [St.setPh] at ht
          rw [get_set hj] at ht
          split at ht
          · rename_i e; exfalso; subst e; simp [hlive] at hn
          · exact old t ht ho
        · rename_i hlive
          simp only [hlive] at keep
          exact keep j u _ hj rfl (by simp)
      · rename_i hloc
        simp only [hloc] at keep
        exact keep j u _ hj rfl (by simp)
    | write j u hj hp => exact keep j u _ hj rfl (by simp)
    | sendOk j u hj hp =>
      simp only [St.setPh] at ht
      rw [get_set hj] at ht
      split at ht
      · rename_i e; subst e
        have hk := (inv_run hr).task _ _ hj
        unfold TaskOk at hk; simp only [hp] at hk
        exact absurd hk.1 hn
      · exact old t ht ho
    | sendErr j u e hj hp =>
      unfold failTask at ht keep
      split at ht
      · rename_i hc
        simp only [Bool.and_eq_true, beq_iff_eq] at hc
        simp only [St.setPh] at ht
        rw [get_set hj] at ht
        split at ht
        · rename_i e'; subst e'; rw [hc.2]; simp
        · exact old t ht ho
      · rename_i hc
        simp only [hc] at keep
        exact keep j u _ hj rfl (by simp)
    | cancel j u hj hp => exact keep j u _ hj rfl (by simp)

/-- The arguments are not those of the call: an object changed during the delay is told as it is then. -/
theorem late_value_refuted : ∃ (ls : List Label) (st : St), Run ls st ∧ ls.take 2 = [.mutate 0 1, .tellDelay false (some 1) true 0] ∧
    st.sent = [(0, 1, 2)] := by
  refine ⟨[.mutate 0 1, .tellDelay false (some 1) true 0, .start 0, .mutate 0 2, .tick, .wake 0, .write 0], _, run_of rfl, rfl, rfl⟩

/-- Local and other references differ when the actor is gone: with a local reference the task ends with `ActorNotExist`, unlogged and also with
`ignore_conn_fail`; otherwise it ends well. -/
theorem local_differs : ∃ (st st' : St) (t t' : Task),
    Run [.tellDelay true (some 0) true 0, .destroy, .start 0, .wake 0] st ∧ st.tasks = [t] ∧ t.ph = .ended (.err .notExist) ∧ st.logged = [] ∧
    Run [.tellDelay false (some 0) true 0, .destroy, .start 0, .wake 0, .write 0, .sendEnds 0 none] st' ∧ st'.tasks = [t'] ∧ t'.ph = .ended .ok := by
  refine ⟨_, _, _, _, run_of rfl, rfl, rfl, rfl, run_of rfl, rfl, rfl⟩

/-- The default of `delay` makes no tell at all. -/
theorem default_delay_refuted : ∃ (st : St) (t : Task), Run [.tellDelay false none true 0, .start 0] st ∧ st.tasks = [t] ∧ t.ph = .ended .typeError ∧
    st.logged = [0] := by
  refine ⟨_, _, run_of rfl, rfl, rfl, rfl⟩

/-- Hypotheses met: two delayed tells, the second one due first; one is cancelled later. -/
example : ∃ (ls : List Label) (st : St), Run ls st ∧ st.sent = [(1, 1, 0), (0, 2, 7)] ∧ (requests ls)[1]? = some ⟨0, false, some 1, true, 3⟩ := by
  refine ⟨[.tellDelay true (some 2) true 5, .tellDelay false (some 1) true 3, .tellDelay false (some 5) false 3, .start 0, .start 1, .start 2, .mutate 5 7,
    .tick, .wake 1, .write 1, .tick, .cancel 2, .wake 0, .sendEnds 1 none], _, run_of rfl, rfl, rfl⟩

example : ∃ (st : St) (t : Task), Run [.tellDelay false (some 3) true 0, .start 0] st ∧ st.tasks[0]? = some t ∧ t.delay ≠ none ∧ t.ph = .sleeping 3 ∧
    (∀ o, t.ph ≠ .ended o) := by
  refine ⟨_, _, run_of rfl, rfl, by decide, rfl, by intro o h; cases h⟩

/-- Silent end: refused and ignored. -/
example : ∃ (st : St) (t : Task), Run [.tellDelay false (some 0) true 0, .start 0, .wake 0, .sendEnds 0 (some .refused)] st ∧ st.tasks[0]? = some t ∧
    t.ph = .ended .ok ∧ 0 ∉ st.sent.map (·.1) := by
  refine ⟨_, _, run_of rfl, rfl, rfl, by decide⟩

end Xoscar.Delay
