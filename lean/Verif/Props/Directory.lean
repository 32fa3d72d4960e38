import Verif.Proof.DirectorySeq
/-!
# C25, C26: the main pool's directory, idle-label allocation

`s.born`: the actors whose creation succeeded and that still exist, with the strategy asked for.
-/
namespace Xoscar.Directory
open Config (Addr Strategy)

/-! ## C25 -/

theorem has_of_alloc {c : Conf} {s : St} {a : Addr} {u : Uid} {x : Strategy} (ha : a ∈ c.addrs)
    (h : s.alloc.get? (a, some u) = some x) : ∃ b, lookupAlloc c s u = some b := by
  rcases hl : lookupAlloc c s u with _ | b
  · rw [lookup_none hl ha] at h; simp at h
  · exact ⟨b, rfl⟩

/-- **C25** (one request at a time): `has_actor` at the main pool is true exactly for the actors created
successfully and not destroyed, wherever they were created from and wherever they are -/
theorem directory_exact_partial {c : Conf} {s : St} (h : Seq c s) (hq : s.tasks = []) (u : Uid) :
    hasActorMain c s u = true ↔ ∃ a st, s.born.get? (a, u) = some st := by
  have hi := (si_seq h).1
  have hsame : Same s := by
    rcases hi.doing with ⟨_, h2, _⟩ | ⟨t, k, h1, _⟩
    · exact h2
    · rw [hq] at h1; simp at h1
  simp only [hasActorMain, Option.isSome_iff_exists]
  constructor
  · rintro ⟨a, ha⟩
    obtain ⟨_, x, hx⟩ := lookup_some ha
    rw [hsame] at hx; exact ⟨a, x, hx⟩
  · rintro ⟨a, st, hb⟩
    exact has_of_alloc (hi.born_addr _ _ _ hb) (by rw [hsame]; exact hb)

/-- **C25** (one request at a time): `actor_ref` at the main pool finds every such actor and returns the reference with the
right address; what it returns is an actor that exists -/
theorem actor_ref_exact_partial {c : Conf} {s : St} (h : Seq c s) (hq : s.tasks = []) (ref : Addr) (u : Uid) :
    (∀ a st, s.born.get? (a, u) = some st → actorRefMain c s ref u = some a) ∧
    (∀ a, actorRefMain c s ref u = some a → (a, u) ∈ s.live) ∧
    (∀ a b st, s.born.get? (a, u) = some st → actorRefSub c s b u = some a) ∧
    (∀ a st, s.born.get? (a, u) = some st → ∀ b, hasActorSub s b u = true ↔ b = a) := by
  obtain ⟨hi, hu, _⟩ := si_seq h
  have hsame : Same s := by
    rcases hi.doing with ⟨_, h2, _⟩ | ⟨t, k, h1, _⟩
    · exact h2
    · rw [hq] at h1; simp at h1
  have hlive : ∀ ref a, actorRefMain c s ref u = some a → (a, u) ∈ s.live := by
    intro ref a ha
    simp only [actorRefMain] at ha
    split at ha
    · next hm => cases ha; exact hm.2
    · obtain ⟨_, x, hx⟩ := lookup_some ha
      rw [hsame] at hx; exact hi.born_live _ _ _ hx
  have hfound : ∀ ref a st, s.born.get? (a, u) = some st → actorRefMain c s ref u = some a := by
    intro ref a st hb
    have : ∃ b, actorRefMain c s ref u = some b := by
      simp only [actorRefMain]
      split
      · exact ⟨_, rfl⟩
      · exact has_of_alloc (hi.born_addr _ _ _ hb) (by rw [hsame]; exact hb)
    obtain ⟨b, hb'⟩ := this
    rw [hb', hu a b u (hi.born_live _ _ _ hb) (hlive ref b hb')]
  refine ⟨hfound ref, hlive ref, fun a b st hb => ?_, fun a st hb b => ?_⟩
  rotate_left
  · simp only [hasActorSub, decide_eq_true_eq]
    exact ⟨fun h => hu b a u h (hi.born_live _ _ _ hb), fun h => h ▸ hi.born_live _ _ _ hb⟩
  simp only [actorRefSub]
  split
  · next hm => rw [hu a b u (hi.born_live _ _ _ hb) hm]
  · exact hfound c.main a st hb

/-- **C25** (any interleaving): an actor created successfully is never forgotten: while no request about its id is being
handled, `has_actor` and `actor_ref` at the main pool find it -/
theorem never_forgotten_partial {c : Conf} {ls : List Label} {s : St} (h : Run c ls s) (hl : ∀ l ∈ ls, Mild l)
    {a : Addr} {u : Uid} {st : Strategy} (hb : s.born.get? (a, u) = some st) (hq : Quiet s u) (ref : Addr) :
    hasActorMain c s u = true ∧ ∃ b, actorRefMain c s ref u = some b := by
  have hn := nf_run h hl
  have : ∃ x, s.alloc.get? (a, some u) = some x := by
    rcases hn.kept a u st hb with h | ⟨t, st', vm, h⟩ | ⟨t, w, hk, _, _, h⟩
    · exact h
    · exact absurd rfl ((hq t _ h).1 a st' vm _)
    · exact absurd rfl ((hq t _ h).2.2 a w hk)
  obtain ⟨x, hx⟩ := this
  obtain ⟨b, hb'⟩ := has_of_alloc (hn.born_addr _ _ _ hb) hx
  refine ⟨by simp [hasActorMain, hb'], ?_⟩
  simp only [actorRefMain]
  split
  · exact ⟨_, rfl⟩
  · exact ⟨b, hb'⟩

/-! ### Cases -/

/-- a main pool and two sub pools labelled "w" -/
def conf : Conf := ⟨⟨[(0, ⟨none, some "u0", ["m:0"]⟩), (1, ⟨some "w", some "u1", ["a:1"]⟩), (2, ⟨some "w", some "u2", ["b:2"]⟩)],
  [("m:0", some "u0"), ("a:1", some "u1"), ("b:2", some "u2")]⟩, "m:0"⟩

def run (ls : List Label) : Option St := ls.foldlM (step conf) init

theorem run_of (ls : List Label) (s : St) (h : run ls = some s) : Run conf ls s := by
  induction ls using List.reverseRecOn' generalizing s with
  | nil => cases h; exact .init
  | append_singleton l a ih =>
    simp only [run, List.foldlM_append] at h
    rcases hx : l.foldlM (step conf) init with _ | s0
    · rw [hx] at h; simp at h
    · rw [hx] at h
      simp only [List.foldlM, Option.bind_eq_bind, Option.bind_some] at h
      exact .snoc (ih s0 hx) (by rcases hy : step conf s0 a with _ | y <;> simp_all)

/-- actor 7 created by the main pool on the first sub pool, actor 8 created at the second, 7 destroyed, 9 created by
the main pool in the main pool -/
def sampleLabels : List Label :=
  [.createMain 7 (.idleLabel (some "w") "x") 0, .step 0, .step 0, .step 0,
   .createSub "b:2" 8 (.addressSpecified "b:2"), .step 1, .step 1, .step 1,
   .destroy "a:1" 7, .step 2, .step 2, .step 2, .step 2,
   .createMain 9 .mainPool 0, .step 3, .step 3]

/-- the hypotheses of `never_forgotten_partial` are met -/
example : ∃ s, Run conf sampleLabels s ∧ (∀ l ∈ sampleLabels, Mild l) ∧ s.born.get? ("b:2", 8) = some (.addressSpecified "b:2") ∧
    s.tasks = [] ∧ hasActorMain conf s 8 = true ∧ hasActorMain conf s 7 = false ∧ actorRefMain conf s "m:0" 9 = some "m:0" ∧
    s.replies = [(0, .ok), (1, .ok), (2, .ok), (3, .ok)] := by
  refine ⟨_, run_of _ _ rfl, ?_, rfl, rfl, by decide, by decide, by decide, rfl⟩
  simp [sampleLabels, Mild]

theorem unique_of {s : St} (h : ∀ p ∈ s.live, ∀ q ∈ s.live, p.2 = q.2 → p.1 = q.1) : Unique s :=
  fun _ _ _ h1 h2 => h _ h1 _ h2 rfl

/-- `Seq` is met by creating actor 7 through the main pool and destroying it again at its sub pool -/
theorem sample_seq : ∃ s, Seq conf s ∧ s.tasks = [] ∧ s.born = [(("a:1", 7), .idleLabel (some "w") "x")] := by
  have h0 : Seq conf init := .init
  have h1 := Seq.step (l := .createMain 7 (.idleLabel (some "w") "x") 0) h0 rfl rfl (unique_of (by decide))
  have h2 := Seq.step (l := .step 0) h1 trivial rfl (unique_of (by decide))
  have h3 := Seq.step (l := .step 0) h2 trivial rfl (unique_of (by decide))
  have h4 := Seq.step (l := .step 0) h3 trivial rfl (unique_of (by decide))
  exact ⟨_, h4, rfl, rfl⟩

/-- **C25 refuted** (failed creation at a sub pool): the main pool is told all the same, here after the actor was destroyed:
`has_actor` says true for an
actor that does not exist, for good -/
theorem ghost_of_failed_create_refuted : ∃ ls s, Run conf ls s ∧ s.tasks = [] ∧ s.replies = [(0, .ok), (2, .ok), (1, .already)] ∧
    s.live = [] ∧ hasActorMain conf s 7 = true := by
  exact ⟨_, _, run_of [.createSub "a:1" 7 .random, .step 0, .step 0, .step 0, .createSub "a:1" 7 .random, .step 1,
    .destroy "a:1" 7, .step 2, .step 2, .step 2, .step 2, .step 1] _ rfl, rfl, by decide, rfl, by decide⟩

/-- **C25 refuted** (failing `__post_create__` at a sub pool, one request at a time): the creation fails, yet the main
pool has it in its directory -/
theorem ghost_of_failed_hook_refuted : ∃ ls s, Run conf ls s ∧ s.tasks = [] ∧ s.replies = [(0, .hookFailed)] ∧
    s.born = [] ∧ hasActorMain conf s 7 = true :=
  ⟨_, _, run_of [.createSub "a:1" 7 .random, .step 0, .createFails 0, .step 0] _ rfl, rfl, rfl, rfl, by decide⟩

/-- **C25 refuted** (failing `__post_create__` in the main pool): creation fails and `has_actor` says false, but
`actor_ref` gives a reference to the half-made actor, and it can be neither created again nor destroyed without an error -/
theorem half_made_actor_refuted : ∃ ls s, Run conf ls s ∧ s.tasks = [] ∧
    s.replies = [(0, .hookFailed), (1, .already)] ∧ hasActorMain conf s 7 = false ∧ actorRefMain conf s "m:0" 7 = some "m:0" ∧
    ∃ ls' s', Run conf (ls ++ ls') s' ∧ s'.replies = [(0, .hookFailed), (1, .already), (2, .keyError)] :=
  ⟨_, _, run_of [.createMain 7 .mainPool 0, .step 0, .createFails 0, .createMain 7 .mainPool 0, .step 1] _ rfl, rfl, rfl,
    by decide, by decide, [.destroy "m:0" 7, .step 2, .step 2, .step 2], _, run_of _ _ rfl, rfl⟩

/-- **C25 refuted** (one id in two pools, all requests succeed, one at a time): destroying actor 7 of the second sub pool
destroys actor 7 of the first one as well, and the directory keeps the wrong one of the two -/
theorem wrong_actor_destroyed_refuted : ∃ ls s, Run conf ls s ∧ s.tasks = [] ∧
    s.replies = [(0, .ok), (1, .ok)] ∧ s.live = [("a:1", 7), ("b:2", 7)] ∧
    ∃ s', Run conf (ls ++ [.destroy "b:2" 7, .step 2, .step 2, .step 2, .step 2, .step 2]) s' ∧ s'.tasks = [] ∧
      s'.replies = [(0, .ok), (1, .ok), (2, .ok)] ∧ s'.live = [] ∧ actorRefMain conf s' "m:0" 7 = some "b:2" :=
  ⟨[.createSub "a:1" 7 .random, .step 0, .step 0, .step 0, .createSub "b:2" 7 .random, .step 1, .step 1, .step 1], _,
    run_of _ _ rfl, rfl, rfl, rfl, by refine ⟨_, run_of _ _ rfl, ?_⟩; exact ⟨rfl, rfl, rfl, by decide⟩⟩

/-- **C25 refuted** (concurrent, no failures): an actor destroyed at its sub pool before the answer to its creation
reached the main pool stays in the directory for good -/
theorem ghost_of_race_refuted : ∃ ls s, Run conf ls s ∧ (∀ l ∈ ls, Mild l) ∧ s.tasks = [] ∧ s.live = [] ∧
    s.replies = [(1, .ok), (0, .ok)] ∧ hasActorMain conf s 7 = true := by
  refine ⟨_, _, run_of [.createMain 7 (.addressSpecified "a:1") 0, .step 0, .step 0, .destroy "a:1" 7, .step 1, .step 1, .step 1,
    .step 0] _ rfl, ?_, rfl, rfl, rfl, by decide⟩
  simp [Mild]

/-- **C25 refuted** (concurrent): an actor created again at its sub pool while the destruction of its predecessor is
being reported is destroyed, too, although only one destruction was asked for and every request succeeded -/
theorem recreated_actor_destroyed_refuted : ∃ ls s, Run conf ls s ∧ (∀ l ∈ ls, Mild l) ∧ s.tasks = [] ∧ s.live = [] ∧
    s.replies = [(0, .ok), (2, .ok), (1, .ok)] ∧ (ls.filter (fun l => decide (l = .destroy "a:1" 7))).length = 1 := by
  refine ⟨_, _, run_of [.createSub "a:1" 7 .random, .step 0, .step 0, .step 0,
    .destroy "a:1" 7, .step 1, .step 1, .createSub "a:1" 7 .random, .step 2, .step 2, .step 2, .step 1, .step 1, .step 1] _ rfl, ?_, rfl, rfl, rfl, by decide⟩
  simp [Mild]

/-- **C25 refuted** (failing `__pre_destroy__`): a destruction asked at the main pool takes the actor out of the directory
before the sub pool destroys it; it fails, the actor lives on and the main pool does not know it -/
theorem forgotten_by_failed_destroy_refuted : ∃ ls s, Run conf ls s ∧ s.tasks = [] ∧
    s.replies = [(0, .ok), (1, .hookFailed)] ∧ s.live = [("a:1", 7)] ∧ hasActorMain conf s 7 = false :=
  ⟨_, _, run_of [.createMain 7 (.addressSpecified "a:1") 0, .step 0, .step 0, .step 0,
    .destroy "m:0" 7, .step 1, .step 1, .destroyFails 1] _ rfl, rfl, rfl, rfl, by decide⟩

/-- **C25 refuted** (lost message): a destruction asked at the main pool takes the actor out of the directory before the sub pool
is told; the message is lost, the actor lives on and the main pool does not know it -/
theorem forgotten_by_lost_destroy_refuted : ∃ ls s, Run conf ls s ∧ s.tasks = [] ∧
    s.replies = [(0, .ok), (1, .callFailed)] ∧ s.live = [("a:1", 7)] ∧ hasActorMain conf s 7 = false :=
  ⟨_, _, run_of [.createMain 7 (.addressSpecified "a:1") 0, .step 0, .step 0, .step 0,
    .destroy "m:0" 7, .step 1, .lost 1] _ rfl, rfl, rfl, rfl, by decide⟩

/-- a step of a task answers at most that task, and not with `callFailed` unless that was the outcome already -/
theorem stepTask_replies (c : Conf) (s : St) (t : Tid) (ok : Bool) (k : Task) :
    (stepTask c s t ok k).replies = s.replies ∨ ∃ r, (stepTask c s t ok k).replies = s.replies ++ [(t, r)] ∧
      (r = .callFailed → ∃ a u st vm, k = .create a u st vm (.told .callFailed)) := by
  cases k with
  | create a u st vm ph =>
    cases ph with
    | body =>
      simp only [stepTask]
      split
      · split
        · refine .inr ⟨.already, ?_, by simp⟩
          simp only [St.record, St.reply]; split <;> rfl
        · exact .inl rfl
      · exact .inl rfl
    | hook =>
      simp only [stepTask]
      split
      · refine .inr ⟨if ok then .ok else .hookFailed, ?_, by cases ok <;> simp⟩
        simp only [St.record, St.reply]; split <;> (split <;> rfl)
      · simp only [St.put]; split <;> exact .inl rfl
    | told r =>
      refine .inr ⟨r, ?_, fun h => ⟨a, u, st, vm, by rw [h]⟩⟩
      simp only [stepTask, St.record, St.reply]; split <;> rfl
  | find u ref w =>
    simp only [stepTask]
    split
    · exact .inr ⟨_, rfl, by split <;> simp⟩
    · split <;> exact .inl rfl
  | destroy a u w hk =>
    cases hk with
    | false =>
      simp only [stepTask]
      split
      · exact .inl rfl
      · exact .inr ⟨_, rfl, by split <;> simp⟩
    | true =>
      simp only [stepTask]
      split
      · split
        · split
          · exact .inl rfl
          · split
            · split
              · exact .inr ⟨_, rfl, by simp⟩
              · exact .inr ⟨_, rfl, by split <;> simp⟩
            · exact .inr ⟨_, rfl, by simp⟩
        · exact .inr ⟨_, rfl, by split <;> simp⟩
      · exact .inr ⟨_, rfl, by split <;> simp⟩

theorem eq_of_append {l : List (Tid × Reply)} {x y : Tid × Reply} (h : l ++ [x] = l ++ [y]) : x = y := by simpa using h

/-- what answers a task: a step of it, or the loss of a message of it -/
theorem answered {c : Conf} {s s' : St} {l : Label} (h : step c s l = some s') {t : Tid} {r : Reply} {k : Task}
    (ht : s.tasks.get? t = some k) (hf : ∀ t k, s.tasks.get? t = some k → t < s.next) (hr : s'.replies = s.replies ++ [(t, r)]) :
    (∃ ok, s' = stepTask c s t ok k) ∨ (r = .callFailed ∧ s' = s.reply t r ∧ l = .lost t) := by
  have hs : ∀ t' k' ok, s.tasks.get? t' = some k' → s' = stepTask c s t' ok k' → (∃ ok, s' = stepTask c s t ok k) := by
    rintro t' k' ok hk' rfl
    rcases stepTask_replies c s t' ok k' with h0 | ⟨r', h0, _⟩
    · rw [h0] at hr; simp at hr
    · rw [h0] at hr
      have := eq_of_append hr
      simp only [Prod.mk.injEq] at this
      obtain ⟨rfl, rfl⟩ := this
      rw [ht] at hk'
      cases hk'
      exact ⟨ok, rfl⟩
  have hne : ∀ x : Reply, s.replies ++ [(s.next, x)] = s.replies ++ [(t, r)] → False := by
    intro x hx
    have := eq_of_append hx
    simp only [Prod.mk.injEq] at this
    exact Nat.lt_irrefl _ (this.1 ▸ hf _ _ ht)
  cases l with
  | createMain u' st r' =>
    simp only [step] at h
    split at h
    · injection h with h; subst h; exact (hne _ hr).elim
    · split at h
      · injection h with h; subst h; simp [St.new] at hr
      · injection h with h; subst h; exact (hne _ hr).elim
  | createSub a' u' st =>
    simp only [step] at h
    split at h
    · injection h with h; subst h; simp [St.new] at hr
    · simp at h
  | destroy a' u' =>
    simp only [step] at h
    repeat' split at h
    all_goals first | (injection h with h; subst h; simp [St.new] at hr) | simp at h
  | step t' =>
    simp only [step] at h
    split at h
    · next k' hk' => exact .inl (hs t' k' true hk' (Option.some.inj h).symm)
    · simp at h
  | createFails t' =>
    simp only [step] at h
    split at h
    · next hk' => exact .inl (hs t' _ false hk' (Option.some.inj h).symm)
    · simp at h
  | destroyFails t' =>
    simp only [step] at h
    split at h
    · next hk' => exact .inl (hs t' _ false hk' (Option.some.inj h).symm)
    · simp at h
  | lost t' =>
    right
    simp only [step] at h
    repeat' split at h
    all_goals first
      | (injection h with h; subst h; simp only [St.reply] at hr; have := eq_of_append hr; simp only [Prod.mk.injEq] at this; obtain ⟨rfl, rfl⟩ := this; exact ⟨rfl, rfl, rfl⟩)
      | simp at h

/-- task ids are new, and a creation in the main pool asked for there is answered without asking anybody -/
structure TI (c : Conf) (s : St) : Prop where
  next : ∀ t k, s.tasks.get? t = some k → t < s.next
  told : ∀ t a u st vm r, s.tasks.get? t = some (.create a u st vm (.told r)) → r ≠ .callFailed ∧ ¬ (vm = true ∧ a = c.main)

theorem ti_new {c : Conf} {s : St} (h : TI c s) (k : Task) (hk : ∀ a u st vm r, k ≠ .create a u st vm (.told r))
    (al : Dict (Addr × Option Uid) Strategy) : TI c ({ s with alloc := al }.new k) := by
  constructor
  · intro t k' ht
    simp only [St.new, Dict.get?_set] at ht
    simp only [St.new]
    split at ht
    · next e => rw [← e]; exact Nat.lt_succ_self _
    · exact Nat.lt_succ_of_lt (h.next _ _ ht)
  · intro t a u st vm r ht
    simp only [St.new, Dict.get?_set] at ht
    split at ht
    · exact absurd (Option.some.inj ht) (hk _ _ _ _ _)
    · exact h.told _ _ _ _ _ _ ht

theorem ti_erase {c : Conf} {s s' : St} (h : TI c s) {t : Tid} (e : s'.tasks = s.tasks.erase t) (en : s'.next = s.next) : TI c s' := by
  constructor
  · intro t k ht
    rw [e] at ht; rw [en]
    by_cases e : t = t <;> simp only [Dict.get?_erase] at ht <;> split at ht <;> first | simp at ht | exact h.next _ _ ht
  · intro t a u st vm r ht
    rw [e] at ht
    simp only [Dict.get?_erase] at ht; split at ht <;> first | simp at ht | exact h.told _ _ _ _ _ _ ht

theorem ti_set {c : Conf} {s s' : St} (h : TI c s) {t : Tid} {k k' : Task} (ht : s.tasks.get? t = some k) (e : s'.tasks = s.tasks.set t k')
    (en : s'.next = s.next) (hk : ∀ a u st vm r, k' = .create a u st vm (.told r) → r ≠ .callFailed ∧ ¬ (vm = true ∧ a = c.main)) : TI c s' := by
  constructor
  · intro t' k'' h'
    rw [e] at h'; rw [en]
    simp only [Dict.get?_set] at h'; split at h'
    · next e => subst e; exact h.next _ _ ht
    · exact h.next _ _ h'
  · intro t' a u st vm r h'
    rw [e] at h'
    simp only [Dict.get?_set] at h'; split at h'
    · exact hk _ _ _ _ _ (Option.some.inj h')
    · exact h.told _ _ _ _ _ _ h'

theorem ti_stepTask {c : Conf} {s : St} (h : TI c s) {t : Tid} {k : Task} (ht : s.tasks.get? t = some k) (ok : Bool) :
    TI c (stepTask c s t ok k) := by
  cases k with
  | create a u st vm ph =>
    cases ph with
    | body =>
      simp only [stepTask]
      split
      · split
        · refine ti_erase h (t := t) ?_ ?_ <;> simp only [St.record, St.reply] <;> split <;> rfl
        · next hn =>
          refine ti_set h ht rfl rfl ?_
          intro a' u' st' vm' r' e; cases e; exact ⟨by simp, hn⟩
      · refine ti_set h ht (k' := .create a u st vm .hook) rfl rfl ?_
        intro a' u' st' vm' r' e; cases e
    | hook =>
      simp only [stepTask]
      split
      · refine ti_erase h (t := t) ?_ ?_ <;> simp only [St.record, St.reply] <;> split <;> (split <;> rfl)
      · next hn =>
        refine ti_set h ht (k' := .create a u st vm (.told (if ok then .ok else .hookFailed))) ?_ ?_ ?_
        · simp only [St.put]; split <;> rfl
        · simp only [St.put]; split <;> rfl
        · intro a' u' st' vm' r' e; cases e; exact ⟨by cases ok <;> simp, hn⟩
    | told r =>
      refine ti_erase h (t := t) ?_ ?_ <;> simp only [stepTask, St.record, St.reply] <;> split <;> rfl
  | find u ref w =>
    simp only [stepTask]
    split
    · exact ti_erase h (t := t) rfl rfl
    · next a _ => split <;> exact ti_set h ht (k' := .destroy a u w false) rfl rfl (by intro _ _ _ _ _ e; cases e)
  | destroy a u w hk =>
    cases hk with
    | false =>
      simp only [stepTask]
      split
      · exact ti_set h ht (k' := .destroy a u w true) rfl rfl (by intro _ _ _ _ _ e; cases e)
      · exact ti_erase h (t := t) rfl rfl
    | true =>
      simp only [stepTask]
      split
      · split
        · split
          · exact ti_set h ht (k' := .find u a .notified) rfl rfl (by intro _ _ _ _ _ e; cases e)
          · split
            · split <;> exact ti_erase h (t := t) rfl rfl
            · exact ti_erase h (t := t) rfl rfl
        · exact ti_erase h (t := t) rfl rfl
      · exact ti_erase h (t := t) rfl rfl

theorem ti_run {c : Conf} {ls : List Label} {s : St} (h : Run c ls s) : TI c s := by
  induction h with
  | init => constructor <;> simp [init]
  | @snoc ls l s s' _ hs ih =>
    have hn : TI c { s with next := s.next + 1 } :=
      ⟨fun t k ht => Nat.lt_succ_of_lt (ih.next t k ht), ih.told⟩
    cases l with
    | createMain u' st r' =>
      simp only [step] at hs
      split at hs
      · injection hs with hs; subst hs; exact ⟨hn.next, hn.told⟩
      · split at hs
        · injection hs with hs; subst hs; exact ti_new ih _ (by intro _ _ _ _ _ e; cases e) _
        · injection hs with hs; subst hs; exact ⟨hn.next, hn.told⟩
    | createSub a' u' st =>
      simp only [step] at hs
      split at hs
      · injection hs with hs; subst hs; exact ti_new ih _ (by intro _ _ _ _ _ e; cases e) s.alloc
      · simp at hs
    | destroy a' u' =>
      simp only [step] at hs
      repeat' split at hs
      all_goals first | (injection hs with hs; subst hs; exact ti_new ih _ (by intro _ _ _ _ _ e; cases e) s.alloc) | simp at hs
    | step t' =>
      simp only [step] at hs
      split at hs
      · next k' hk' => injection hs with hs; subst hs; exact ti_stepTask ih hk' _
      · simp at hs
    | createFails t' =>
      simp only [step] at hs
      split at hs
      · next hk' => injection hs with hs; subst hs; exact ti_stepTask ih hk' _
      · simp at hs
    | destroyFails t' =>
      simp only [step] at hs
      split at hs
      · next hk' => injection hs with hs; subst hs; exact ti_stepTask ih hk' _
      · simp at hs
    | lost t' =>
      simp only [step] at hs
      repeat' split at hs
      all_goals first | (injection hs with hs; subst hs; exact ti_erase ih (t := t') rfl rfl) | simp at hs

/-- **C25** (any interleaving, any failure): a destruction that was asked at the main pool and is answered with success removed the
actor itself: it was there, is there no more, and nothing else went.  Of two that destroy one actor at the same time at most one
succeeds. -/
theorem destroy_ok {c : Conf} {ls : List Label} {l : Label} {s s' : St} (hrun : Run c ls s) (h : step c s l = some s') {t : Tid} {a : Addr}
    {u : Uid} {hk : Bool} (ht : s.tasks.get? t = some (.destroy a u .mainReq hk)) (hr : s'.replies = s.replies ++ [(t, .ok)]) :
    (a, u) ∈ s.live ∧ (a, u) ∉ s'.live ∧ ∀ p ∈ s.live, p ≠ (a, u) → p ∈ s'.live := by
  obtain ⟨ok, rfl⟩ | ⟨h0, _⟩ := answered h ht (ti_run hrun).next hr
  · revert hr
    clear h hrun
    cases hk with
    | false =>
      simp only [stepTask]
      split
      · simp [St.put]
      · simp [St.reply]
    | true =>
      simp only [stepTask]
      split
      · split
        · next hm =>
          intro hr
          refine ⟨hm, ?_⟩
          split
          · split <;> simp [St.reply, St.gone] <;> intro p q h1 h2 <;> exact ⟨h1, h2⟩
          · simp [St.reply, St.gone]; intro p q h1 h2; exact ⟨h1, h2⟩
        · simp [St.reply]
      · simp [St.reply]
  · simp at h0

/-- **C25** (any interleaving): a request fails for a lost message only if another pool had to be asked or told; what the main pool
is asked about its own actors does not fail for that -/
theorem callFailed_remote {c : Conf} {ls : List Label} {l : Label} {s s' : St} (hrun : Run c ls s) (h : step c s l = some s') {t : Tid}
    (hr : s'.replies = s.replies ++ [(t, .callFailed)]) :
    (∀ u st ph, s.tasks.get? t ≠ some (.create c.main u st true ph)) ∧ ∀ u hk, s.tasks.get? t ≠ some (.destroy c.main u .mainReq hk) := by
  have ti := ti_run hrun
  have no : ∀ k ok, s.tasks.get? t = some k → (stepTask c s t ok k).replies ≠ s.replies ++ [(t, .callFailed)] := by
    intro k ok hk hr
    rcases stepTask_replies c s t ok k with h0 | ⟨r, h0, h1⟩
    · rw [h0] at hr; simp at hr
    · rw [h0] at hr
      have := eq_of_append hr
      simp only [Prod.mk.injEq, true_and] at this
      obtain ⟨a, u, st, vm, rfl⟩ := h1 this
      exact (ti.told _ _ _ _ _ _ hk).1 rfl
  constructor
  · intro u st ph ht
    obtain ⟨ok, rfl⟩ | ⟨_, _, rfl⟩ := answered h ht ti.next hr
    · exact no _ ok ht hr
    · simp only [step, ht] at h
      cases ph with
      | body => simp at h
      | hook => simp at h
      | told r => exact (ti.told _ _ _ _ _ _ ht).2 ⟨rfl, rfl⟩
  · intro u hk ht
    obtain ⟨ok, rfl⟩ | ⟨_, _, rfl⟩ := answered h ht ti.next hr
    · exact no _ ok ht hr
    · simp only [step, ht] at h
      cases hk <;> simp at h

/-- the hypotheses are met: a destruction asked at the main pool that succeeds, and one whose message is lost -/
example : ∃ ls s s1 s2, Run conf ls s ∧ s.tasks.get? 1 = some (.destroy "a:1" 7 .mainReq true) ∧ step conf s (.step 1) = some s1 ∧
    s1.replies = s.replies ++ [(1, .ok)] ∧ s.tasks.get? 2 = some (.create "b:2" 8 (.addressSpecified "b:2") true .body) ∧
    step conf s (.lost 2) = some s2 ∧ s2.replies = s.replies ++ [(2, .callFailed)] :=
  ⟨_, _, _, _, run_of [.createMain 7 (.addressSpecified "a:1") 0, .step 0, .step 0, .step 0, .destroy "m:0" 7, .step 1, .step 1,
    .createMain 8 (.addressSpecified "b:2") 0] _ rfl, rfl, rfl, rfl, rfl, rfl, rfl⟩

/-! ## C26 -/

/-- **C26** (one request at a time): two actors in one process were never created with the same idle-label strategy -/
theorem idle_exclusive_seq_partial {c : Conf} {s : St} (h : Seq c s) {a : Addr} {u v : Uid} {l : Option String} {m : String}
    (h1 : s.born.get? (a, u) = some (.idleLabel l m)) (h2 : s.born.get? (a, v) = some (.idleLabel l m)) : u = v :=
  (si_seq h).1.excl a u v _ rfl h1 h2

/-- **C26** (one request at a time): a creation with an idle-label strategy fails with NoIdleSlot exactly when every process
with the label has an actor created with that strategy; otherwise it is started in one that has none -/
theorem idle_found_seq_partial {c : Conf} (hc : Config.Hist c.config) {s : St} (h : Seq c s) (hq : s.tasks = []) (u : Uid)
    (r : Nat) (l m : String) :
    (∃ s', step c s (.createMain u (.idleLabel (some l) m) r) = some s' ∧
      (s'.replies = s.replies ++ [(s.next, .noAddress .noIdleSlot)] ↔
        ∀ idx p a, c.config.pools.get? idx = some p → p.label = some l → p.external.head? = some a →
          ∃ v, s.born.get? (a, v) = some (.idleLabel (some l) m)) ∧
      (s'.replies ≠ s.replies ++ [(s.next, .noAddress .noIdleSlot)] →
        ∃ a, s'.tasks = [(s.next, .create a u (.idleLabel (some l) m) true .body)] ∧
          (∃ idx p, c.config.pools.get? idx = some p ∧ p.label = some l ∧ p.external.head? = some a) ∧
          ∀ v, s.born.get? (a, v) ≠ some (.idleLabel (some l) m))) := by
  obtain ⟨hi, hu, hw⟩ := si_seq h
  obtain ⟨hsame, hmark⟩ : Same s ∧ NoMark s := by
    rcases hi.doing with ⟨_, h2⟩ | ⟨t, k, h1, _⟩
    · exact h2
    · rw [hq] at h1; simp at h1
  have hidle : ∀ a, Config.Idle (strategiesAt s.alloc) (some l) m a ↔ ∀ v, s.born.get? (a, v) ≠ some (.idleLabel (some l) m) := by
    intro a
    constructor
    · intro hid v hb
      rw [← hsame] at hb
      exact hid (mem_strategiesAt hb)
    · intro hb hm
      obtain ⟨k, hk⟩ := of_mem_strategiesAt hw hm
      cases k with
      | none => rw [hmark] at hk; simp at hk
      | some v => rw [hsame] at hk; exact hb v hk
  have hal := Config.alloc_idle hc (strategiesAt s.alloc) r l m
  rcases hx : Config.allocate (.idleLabel (some l) m) c.config (strategiesAt s.alloc) r with e | a
  · have := (hal.2 e).mp hx
    obtain ⟨rfl, hall⟩ := this
    refine ⟨{ s with next := s.next + 1, replies := s.replies ++ [(s.next, .noAddress .noIdleSlot)] },
      by simp only [step, hx], ⟨fun _ idx p a hp hl ha => ?_, fun _ => rfl⟩, fun hne => absurd rfl hne⟩
    have := hall idx p a hp hl ha
    rw [hidle] at this
    simpa using this
  · obtain ⟨⟨idx, p, hp, hl, ha⟩, hfree⟩ := hal.1 a hx
    rw [hidle] at hfree
    have hm : a ∈ c.addrs := (Config.mem_addresses hc).mpr ⟨idx, p, hp, ha⟩
    refine ⟨{ s with alloc := s.alloc.set (a, none) (.idleLabel (some l) m) }.new (.create a u (.idleLabel (some l) m) true .body),
      by simp only [step, hx, if_pos hm], ⟨fun he => ?_, fun hall => ?_⟩, fun _ => ⟨a, ?_, ⟨idx, p, hp, hl, ha⟩, hfree⟩⟩
    · have := congrArg List.length he; simp [St.new] at this
    · obtain ⟨v, hv⟩ := hall idx p a hp hl ha
      exact absurd hv (hfree v)
    · simp [St.new, hq, Dict.set]

/-- **C26** (any interleaving): when creations are made through the main pool with one idle-label strategy only, two actors
in one process are never both alive unless one of them is being destroyed -/
theorem idle_exclusive_partial {c : Conf} {ls : List Label} {s : St} {l : Option String} {m : String} (h : Run c ls s)
    (hl : ∀ x ∈ ls, Mild x) (ho : ∀ x ∈ ls, OnlyIdle (.idleLabel l m) x) {a : Addr} {u v : Uid} {x y : Strategy}
    (hu : s.born.get? (a, u) = some x) (hv : s.born.get? (a, v) = some y)
    (hdu : ¬ BeingDestroyed s a u) (hdv : ¬ BeingDestroyed s a v) : u = v := by
  have hn := nf_run h hl
  have hc := ci_run h hl ho
  have key : ∀ {u x}, s.born.get? (a, u) = some x → ¬ BeingDestroyed s a u →
      (∃ st, s.alloc.get? (a, some u) = some st) ∨ ∃ t st vm, s.tasks.get? t = some (.create a u st vm (.told .ok)) := by
    intro u x hb hd
    rcases hn.kept a u x hb with h | h | ⟨t, w, hk, _, _, h⟩
    · exact .inl h
    · exact .inr h
    · exact absurd ⟨t, w, hk, h⟩ hd
  rcases key hu hdu with ⟨p, hp⟩ | ⟨t, p, vm, hp⟩ <;> rcases key hv hdv with ⟨q, hq⟩ | ⟨t', q, vm', hq⟩
  · exact Option.some.inj (hc.one _ _ _ _ _ hp hq)
  · obtain ⟨_, _, z, hz⟩ := hc.slot _ _ _ _ _ _ hq
    exact absurd (hc.one _ _ _ _ _ hp hz) (by simp)
  · obtain ⟨_, _, z, hz⟩ := hc.slot _ _ _ _ _ _ hp
    exact absurd (hc.one _ _ _ _ _ hq hz) (by simp)
  · have := hc.uniq _ _ _ _ _ _ _ _ _ _ _ hp hq
    subst this
    rw [hp] at hq; cases hq; rfl

/-- the hypotheses are met: two creations at the same time go to two processes, a third finds none -/
example : ∃ s, Run conf [.createMain 7 (.idleLabel (some "w") "x") 0, .createMain 8 (.idleLabel (some "w") "x") 0, .step 1, .step 0,
      .step 0, .step 1, .createMain 9 (.idleLabel (some "w") "x") 0] s ∧
    s.born = [(("a:1", 7), .idleLabel (some "w") "x"), (("b:2", 8), .idleLabel (some "w") "x")] ∧
    s.replies = [(2, .noAddress .noIdleSlot)] :=
  ⟨_, run_of _ _ rfl, rfl, rfl⟩

/-- **C26 refuted** (another creation at the same time): there is one placeholder per process; a creation with any other strategy in
the same process takes it over, and the next creation with the idle-label strategy doubles up -/
theorem placeholder_lost_refuted : ∃ ls s, Run conf ls s ∧ (∀ l ∈ ls, Mild l) ∧ s.tasks = [] ∧
    s.replies = [(0, .ok), (1, .ok), (2, .ok)] ∧
    s.born.get? ("a:1", 7) = some (.idleLabel (some "w") "x") ∧ s.born.get? ("a:1", 9) = some (.idleLabel (some "w") "x") := by
  refine ⟨_, _, run_of [.createMain 7 (.idleLabel (some "w") "x") 0, .createMain 8 (.addressSpecified "a:1") 0,
    .createMain 9 (.idleLabel (some "w") "x") 0, .step 0, .step 0, .step 0, .step 1, .step 1, .step 1, .step 2, .step 2, .step 2] _ rfl, ?_,
    rfl, rfl, rfl, rfl⟩
  simp [Mild]

/-- **C26 refuted** (lost call): the placeholder of a creation whose call to the sub pool failed is never taken away: the
process counts as taken for good although no actor is there -/
theorem placeholder_leaked_refuted : ∃ ls s, Run conf ls s ∧ s.tasks = [] ∧ s.live = [("b:2", 8)] ∧
    s.replies = [(0, .callFailed), (1, .ok), (2, .noAddress .noIdleSlot)] :=
  ⟨_, _, run_of [.createMain 7 (.idleLabel (some "w") "x") 0, .lost 0, .createMain 8 (.idleLabel (some "w") "x") 0, .step 1, .step 1, .step 1,
    .createMain 9 (.idleLabel (some "w") "x") 0] _ rfl, rfl, rfl, rfl⟩

/-- **C26 refuted** (strategy overwritten, one request at a time): a failed creation of an existing actor at its sub pool replaces the
strategy on record, and the process counts as idle again -/
theorem strategy_overwritten_refuted : ∃ ls s, Run conf ls s ∧ s.tasks = [] ∧
    s.replies = [(0, .ok), (1, .already), (2, .ok)] ∧
    s.born.get? ("a:1", 7) = some (.idleLabel (some "w") "x") ∧ s.born.get? ("a:1", 9) = some (.idleLabel (some "w") "x") :=
  ⟨_, _, run_of [.createMain 7 (.idleLabel (some "w") "x") 0, .step 0, .step 0, .step 0, .createSub "a:1" 7 (.addressSpecified "a:1"), .step 1, .step 1,
    .createMain 9 (.idleLabel (some "w") "x") 0, .step 2, .step 2, .step 2] _ rfl, rfl, rfl, rfl, rfl⟩

/-- **C26 refuted** (failed destruction): the main pool forgets the actor before the sub pool refuses to destroy it -/
theorem double_after_failed_destroy_refuted : ∃ ls s, Run conf ls s ∧ s.tasks = [] ∧
    s.replies = [(0, .ok), (1, .hookFailed), (2, .ok)] ∧
    s.born.get? ("a:1", 7) = some (.idleLabel (some "w") "x") ∧ s.born.get? ("a:1", 9) = some (.idleLabel (some "w") "x") :=
  ⟨_, _, run_of [.createMain 7 (.idleLabel (some "w") "x") 0, .step 0, .step 0, .step 0, .destroy "m:0" 7, .step 1, .step 1, .destroyFails 1,
    .createMain 9 (.idleLabel (some "w") "x") 0, .step 2, .step 2, .step 2] _ rfl, rfl, rfl, rfl, rfl⟩

end Xoscar.Directory
