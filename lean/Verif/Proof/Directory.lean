import Verif.Spec.Directory
import Verif.Proof.Base
import Verif.Props.Config
/-! # Invariants of the directory -/
namespace Xoscar.Directory
open Config (Addr Strategy)

attribute [local grind =] Dict.get?_set Dict.get?_erase

/-- nothing created successfully is forgotten -/
structure NF (c : Conf) (s : St) : Prop where
  born_live : ∀ a u st, s.born.get? (a, u) = some st → (a, u) ∈ s.live
  born_addr : ∀ a u st, s.born.get? (a, u) = some st → a ∈ c.addrs
  task_addr : ∀ t a u st vm ph, s.tasks.get? t = some (.create a u st vm ph) → a ∈ c.addrs
  find_why : ∀ t u ref w, s.tasks.get? t = some (.find u ref w) → w ≠ .direct
  fresh : ∀ t k, s.tasks.get? t = some k → t < s.next
  kept : ∀ a u st, s.born.get? (a, u) = some st →
    (∃ st', s.alloc.get? (a, some u) = some st') ∨
    (∃ t st' vm, s.tasks.get? t = some (.create a u st' vm (.told .ok))) ∨
    (∃ t w h, w ≠ .direct ∧ a ≠ c.main ∧ s.tasks.get? t = some (.destroy a u w h))

theorem nf_init (c : Conf) : NF c init := by
  constructor <;> simp [init]

theorem fresh_new {s : St} (h : ∀ t k, s.tasks.get? t = some k → t < s.next) : s.tasks.get? s.next = none := by
  rcases hx : s.tasks.get? s.next with _ | k
  · rfl
  · exact absurd (h _ _ hx) (Nat.lt_irrefl _)

theorem nf_new {c : Conf} {s : St} (h : NF c s) (k : Task) (al : Dict (Addr × Option Uid) Strategy)
    (hal : ∀ a u, s.alloc.get? (a, some u) = al.get? (a, some u))
    (hk : ∀ a u st vm ph, k = .create a u st vm ph → a ∈ c.addrs) (hw : ∀ u ref, k ≠ .find u ref .direct) :
    NF c ({ s with alloc := al }.new k) := by
  have hf := fresh_new h.fresh
  refine ⟨h.born_live, h.born_addr, ?_, ?_, ?_, ?_⟩
  · intro t a u st vm ph ht
    simp only [St.new, Dict.get?_set] at ht
    split at ht
    · cases ht; exact hk _ _ _ _ _ rfl
    · exact h.task_addr _ _ _ _ _ _ ht
  · rintro t u ref w ht rfl
    simp only [St.new, Dict.get?_set] at ht
    split at ht
    · cases ht; exact hw _ _ rfl
    · exact h.find_why _ _ _ _ ht rfl
  · intro t k' ht
    simp only [St.new, Dict.get?_set] at ht ⊢
    split at ht
    · next e => subst e; exact Nat.lt_succ_self _
    · exact Nat.lt_succ_of_lt (h.fresh _ _ ht)
  · intro a u st hb
    have hne : ∀ t x, s.tasks.get? t = some x → (s.tasks.set s.next k).get? t = some x := by
      intro t x ht
      rw [Dict.get?_set, if_neg]
      · exact ht
      · rintro rfl; rw [hf] at ht; simp at ht
    rcases h.kept a u st hb with ⟨st', h1⟩ | ⟨t, st', vm, h1⟩ | ⟨t, w, hk, h1, h2, h3⟩
    · exact .inl ⟨st', by simpa [St.new, ← hal] using h1⟩
    · exact .inr (.inl ⟨t, st', vm, hne _ _ h1⟩)
    · exact .inr (.inr ⟨t, w, hk, h1, h2, hne _ _ h3⟩)

/-- `k` is a reason why the created actor `(a, u)` need not be in the directory: its creation is being reported, or it
is being destroyed by the main pool -/
def Reason (c : Conf) (a : Addr) (u : Uid) : Task → Prop
  | .create a' u' _ _ (.told .ok) => a' = a ∧ u' = u
  | .destroy a' u' w _ => a' = a ∧ u' = u ∧ w ≠ .direct ∧ a ≠ c.main
  | _ => False

theorem nf_kept_iff (c : Conf) (s : St) (a : Addr) (u : Uid) :
    ((∃ t st' vm, s.tasks.get? t = some (.create a u st' vm (.told .ok))) ∨
    (∃ t w h, w ≠ .direct ∧ a ≠ c.main ∧ s.tasks.get? t = some (.destroy a u w h))) ↔
    ∃ t k, s.tasks.get? t = some k ∧ Reason c a u k := by
  constructor
  · rintro (⟨t, st', vm, h⟩ | ⟨t, w, h, h1, h2, h3⟩)
    · exact ⟨t, _, h, rfl, rfl⟩
    · exact ⟨t, _, h3, rfl, rfl, h1, h2⟩
  · rintro ⟨t, k, h, hr⟩
    cases k with
    | create a' u' st vm ph =>
      cases ph with
      | told r =>
        cases r <;> simp only [Reason] at hr
        obtain ⟨rfl, rfl⟩ := hr
        exact .inl ⟨t, _, _, h⟩
      | _ => simp [Reason] at hr
    | find => simp [Reason] at hr
    | destroy a' u' w hk =>
      obtain ⟨rfl, rfl, h1, h2⟩ := hr
      exact .inr ⟨t, _, _, h1, h2, h⟩

theorem nf_upd {c : Conf} {s s' : St} (h : NF c s) {t : Tid} {k : Task} (ht : s.tasks.get? t = some k)
    (hn : s'.next = s.next) (hts : ∀ t', t' ≠ t → s'.tasks.get? t' = s.tasks.get? t')
    (hb : ∀ a u st, s'.born.get? (a, u) = some st → (a, u) ∈ s'.live ∧ a ∈ c.addrs)
    (hta : ∀ a u st vm ph, s'.tasks.get? t = some (.create a u st vm ph) → a ∈ c.addrs)
    (hwh : ∀ u ref, s'.tasks.get? t ≠ some (.find u ref .direct))
    (hk : ∀ a u st, s'.born.get? (a, u) = some st →
      (∃ x, s'.alloc.get? (a, some u) = some x) ∨ (∃ k', s'.tasks.get? t = some k' ∧ Reason c a u k') ∨
      ((∃ st0, s.born.get? (a, u) = some st0) ∧ (∀ x, s.alloc.get? (a, some u) = some x → ∃ y, s'.alloc.get? (a, some u) = some y) ∧
        ¬ Reason c a u k)) : NF c s' := by
  refine ⟨fun a u st hx => (hb a u st hx).1, fun a u st hx => (hb a u st hx).2, ?_, ?_, ?_, ?_⟩
  · intro t' a u st vm ph hx
    by_cases e : t' = t
    · subst e; exact hta _ _ _ _ _ hx
    · rw [hts _ e] at hx; exact h.task_addr _ _ _ _ _ _ hx
  · rintro t' u ref w hx rfl
    by_cases e : t' = t
    · subst e; exact hwh _ _ hx
    · rw [hts _ e] at hx; exact h.find_why _ _ _ _ hx rfl
  · intro t' k' hx
    rw [hn]
    by_cases e : t' = t
    · subst e; exact h.fresh _ _ ht
    · rw [hts _ e] at hx; exact h.fresh _ _ hx
  · intro a u st hx
    rw [nf_kept_iff]
    rcases hk a u st hx with h1 | ⟨k', h1, h2⟩ | ⟨⟨st0, h1⟩, h2, h3⟩
    · exact .inl h1
    · exact .inr ⟨t, k', h1, h2⟩
    · have := h.kept a u st0 h1
      rw [nf_kept_iff] at this
      rcases this with ⟨x, hx⟩ | ⟨t', k', h4, h5⟩
      · exact .inl (h2 x hx)
      · refine .inr ⟨t', k', ?_, h5⟩
        have : t' ≠ t := by rintro rfl; rw [ht] at h4; cases h4; exact h3 h5
        rw [hts _ this]; exact h4

theorem find?_mem {c : Conf} {s : St} {ref : Addr} {u : Uid} {a : Addr} (h : actorRefMain c s ref u = some a) :
    a = c.main ∨ a ∈ c.addrs := by
  simp only [actorRefMain, lookupAlloc] at h
  split at h
  · cases h; exact .inl rfl
  · exact .inr (List.mem_of_find?_eq_some h)

/-- a step that may fail a creation, but no destruction -/
theorem nf_stepTask {c : Conf} {s : St} (h : NF c s) {t : Tid} {k : Task} (ht : s.tasks.get? t = some k) (ok : Bool)
    (hok : ∀ a u w, k = .destroy a u w true → ok = true) : NF c (stepTask c s t ok k) := by
  have hb0 : ∀ a u st, s.born.get? (a, u) = some st → (a, u) ∈ s.live ∧ a ∈ c.addrs :=
    fun a u st hx => ⟨h.born_live a u st hx, h.born_addr a u st hx⟩
  cases k with
  | create a u st vm ph =>
    have ha := h.task_addr _ _ _ _ _ _ ht
    cases ph with
    | body =>
      simp only [stepTask]
      split
      · split
        · apply nf_upd h ht <;> simp only [St.record, St.reply, St.put] <;> grind [Reason]
        · apply nf_upd h ht <;> simp only [St.record, St.reply, St.put] <;> grind [Reason]
      · apply nf_upd h ht <;> simp only [St.record, St.reply, St.put] <;> grind [Reason]
    | hook =>
      simp only [stepTask]
      by_cases hl : (a, u) ∈ s.live <;> cases ok <;> cases vm <;> simp only [hl, true_and, and_true, false_and, and_false, if_true, if_false,
        Bool.false_eq_true]
      all_goals try split
      all_goals apply nf_upd h ht <;> simp only [St.record, St.reply, St.put] <;> grind [Reason]
    | told r =>
      simp only [stepTask]
      cases vm <;> cases r <;>
      (apply nf_upd h ht <;> simp only [St.record, St.reply, St.put] <;> grind [Reason])
  | find u ref w =>
    have hw := h.find_why _ _ _ _ ht
    simp only [stepTask]
    split
    · apply nf_upd h ht <;> simp only [St.reply, St.put] <;> grind [Reason]
    · next a hr =>
      split
      · apply nf_upd h ht <;> simp only [St.reply, St.put] <;> grind [Reason]
      · apply nf_upd h ht <;> simp only [St.reply, St.put] <;> grind [Reason]
  | destroy a u w hk =>
    cases hk with
    | false =>
      simp only [stepTask]
      split <;> apply nf_upd h ht <;> simp only [St.reply, St.put] <;> grind [Reason]
    | true =>
      have hok' := hok a u w rfl
      subst hok'
      simp only [stepTask, if_true]
      split
      · split
        · apply nf_upd h ht <;> simp only [St.reply, St.put, St.gone] <;> grind [Reason]
        · split
          · split <;> apply nf_upd h ht <;> simp only [St.reply, St.put, St.gone] <;> grind [Reason]
          · apply nf_upd h ht <;> simp only [St.reply, St.put, St.gone] <;> grind [Reason]
      · apply nf_upd h ht <;> simp only [St.reply, St.put] <;> grind [Reason]

theorem allocate_new {c : Conf} {s : St} {u : Uid} {st : Strategy} {r : Nat} {s' : St}
    (h : step c s (.createMain u st r) = some s') :
    (∃ a, Config.allocate st c.config (strategiesAt s.alloc) r = .ok a ∧ a ∈ c.addrs ∧
      s' = { s with alloc := s.alloc.set (a, none) st }.new (.create a u st true .body)) ∨
    (∃ rp, s' = { s with next := s.next + 1, replies := s.replies ++ [(s.next, rp)] } ∧
      ((∃ e, Config.allocate st c.config (strategiesAt s.alloc) r = .error e ∧ rp = .noAddress e) ∨
       ∃ a, Config.allocate st c.config (strategiesAt s.alloc) r = .ok a ∧ a ∉ c.addrs ∧ rp = .keyError)) := by
  simp only [step] at h
  split at h
  · next e he => cases h; exact .inr ⟨_, rfl, .inl ⟨e, he, rfl⟩⟩
  · next a ha =>
    split at h <;> cases h
    · next hm => exact .inl ⟨a, ha, hm, rfl⟩
    · next hm => exact .inr ⟨_, rfl, .inr ⟨a, ha, hm, rfl⟩⟩

theorem nf_step {c : Conf} {s s' : St} {l : Label} (h : NF c s) (hl : Mild l) (hs : step c s l = some s') : NF c s' := by
  cases l with
  | createMain u st r =>
    rcases allocate_new hs with ⟨a, _, ha, rfl⟩ | ⟨rp, rfl, _⟩
    · refine nf_new h _ _ (fun a' u' => ?_) ?_ (by simp)
      · simp
      · intro a' u' st' vm ph e; cases e; exact ha
    · exact ⟨h.born_live, h.born_addr, h.task_addr, h.find_why, fun t k ht => Nat.lt_succ_of_lt (h.fresh t k ht), h.kept⟩
  | createSub a u st =>
    simp only [step] at hs
    split at hs <;> cases hs
    next ha => exact nf_new h _ s.alloc (fun _ _ => rfl) (fun a' u' st' vm ph e => by cases e; exact ha.1) (by simp)
  | destroy a u =>
    simp only [step] at hs
    split at hs
    · cases hs; exact nf_new h _ s.alloc (fun _ _ => rfl) (fun a' u' st' vm ph e => by cases e) (by simp)
    · split at hs <;> cases hs
      exact nf_new h _ s.alloc (fun _ _ => rfl) (fun a' u' st' vm ph e => by cases e) (by simp)
  | step t =>
    simp only [step] at hs
    split at hs <;> cases hs
    next k hk => exact nf_stepTask h hk true (fun _ _ _ _ => rfl)
  | createFails t =>
    simp only [step] at hs
    split at hs <;> cases hs
    next hk => exact nf_stepTask h hk false (fun _ _ _ e => by cases e)
  | destroyFails t => exact absurd hl (by simp [Mild])
  | lost t => exact absurd hl (by simp [Mild])

theorem nf_run {c : Conf} {ls : List Label} {s : St} (h : Run c ls s) (hl : ∀ l ∈ ls, Mild l) : NF c s := by
  induction h with
  | init => exact nf_init c
  | snoc _ hs ih => exact nf_step (ih (fun l hm => hl l (by simp [hm]))) (hl _ (by simp)) hs

/-! ## One idle-label strategy only -/

structure CI (c : Conf) (sx : Strategy) (s : St) : Prop where
  all : ∀ k st, s.alloc.get? k = some st → st = sx
  one : ∀ a k k' x y, s.alloc.get? (a, k) = some x → s.alloc.get? (a, k') = some y → k = k'
  slot : ∀ t a u st vm ph, s.tasks.get? t = some (.create a u st vm ph) → vm = true ∧ st = sx ∧ ∃ x, s.alloc.get? (a, none) = some x
  uniq : ∀ t t' a u u' st st' vm vm' ph ph', s.tasks.get? t = some (.create a u st vm ph) →
    s.tasks.get? t' = some (.create a u' st' vm' ph') → t = t'

theorem ci_stepTask {c : Conf} {s : St} {sx : Strategy} (h : CI c sx s) {t : Tid} {k : Task}
    (ht : s.tasks.get? t = some k) (ok : Bool) : CI c sx (stepTask c s t ok k) := by
  obtain ⟨h1, h2, h3, h4⟩ := h
  cases k with
  | create a u st vm ph =>
    obtain ⟨rfl, rfl, x, hx⟩ := h3 _ _ _ _ _ _ ht
    cases ph with
    | body =>
      simp only [stepTask]
      split
      · split
        · constructor <;> simp only [St.record, St.reply, St.put, if_true] <;> grind
        · constructor <;> simp only [St.record, St.reply, St.put] <;> grind
      · constructor <;> simp only [St.record, St.reply, St.put] <;> grind
    | hook =>
      simp only [stepTask]
      by_cases hl : (a, u) ∈ s.live <;> cases ok <;> simp only [hl, true_and, and_true, false_and, and_false, if_true, if_false,
        Bool.false_eq_true]
      all_goals try split
      all_goals constructor <;> simp only [St.record, St.reply, St.put, if_true] <;> grind
    | told r =>
      simp only [stepTask]
      cases r <;>
      (constructor <;> simp only [St.record, St.reply, St.put, if_true] <;> grind)
  | find u ref w =>
    simp only [stepTask]
    split
    · constructor <;> simp only [St.reply, St.put] <;> grind
    · split
      · constructor <;> simp only [St.reply, St.put] <;> grind
      · constructor <;> simp only [St.reply, St.put] <;> grind
  | destroy a u w hk =>
    cases hk with
    | false =>
      simp only [stepTask]
      split <;> constructor <;> simp only [St.reply, St.put] <;> grind
    | true =>
      simp only [stepTask]
      split
      · split
        · split
          · constructor <;> simp only [St.reply, St.put, St.gone] <;> grind
          · split
            · split <;> constructor <;> simp only [St.reply, St.put, St.gone] <;> grind
            · constructor <;> simp only [St.reply, St.put, St.gone] <;> grind
        · constructor <;> simp only [St.reply, St.put] <;> grind
      · constructor <;> simp only [St.reply, St.put] <;> grind

theorem mem_strategiesAt {al : Dict (Addr × Option Uid) Strategy} {a : Addr} {k : Option Uid} {st : Strategy}
    (h : al.get? (a, k) = some st) : st ∈ strategiesAt al a := by
  have := Dict.mem_of_get? h
  exact List.mem_map.mpr ⟨((a, k), st), by simp [this], rfl⟩

theorem of_mem_strategiesAt {al : Dict (Addr × Option Uid) Strategy} (hw : al.WF) {a : Addr} {st : Strategy}
    (h : st ∈ strategiesAt al a) : ∃ k, al.get? (a, k) = some st := by
  obtain ⟨⟨⟨a', k⟩, st'⟩, h1, rfl⟩ := List.mem_map.mp h
  obtain ⟨h3, h2⟩ := List.mem_filter.mp h1
  simp only [decide_eq_true_eq] at h2; subst h2
  exact ⟨k, Dict.get?_of_mem hw h3⟩

theorem ci_init (c : Conf) (sx : Strategy) : CI c sx init := by constructor <;> simp [init]

theorem idle_free {c : Conf} {al : Dict (Addr × Option Uid) Strategy} {l : Option String} {m : String} {r : Nat} {a : Addr}
    (h : Config.allocate (.idleLabel l m) c.config (strategiesAt al) r = .ok a) (k : Option Uid) :
    al.get? (a, k) ≠ some (.idleLabel l m) := by
  intro hk
  exact ((Config.firstIdle_spec (strategiesAt al) l m _).1 a h).2 (mem_strategiesAt hk)

theorem ci_step {c : Conf} {s s' : St} {l : Label} {lb : Option String} {m : String} (h : CI c (.idleLabel lb m) s)
    (hn : NF c s) (hl : OnlyIdle (.idleLabel lb m) l) (hs : step c s l = some s') : CI c (.idleLabel lb m) s' := by
  have hf := fresh_new hn.fresh
  obtain ⟨h1, h2, h3, h4⟩ := h
  cases l with
  | createMain u st r =>
    simp only [OnlyIdle] at hl
    subst hl
    rcases allocate_new hs with ⟨a, ha, _, rfl⟩ | ⟨rp, rfl, _⟩
    · have hfree : ∀ k, s.alloc.get? (a, k) = none := by
        intro k
        rcases hx : s.alloc.get? (a, k) with _ | x
        · rfl
        · have := h1 _ _ hx; subst this
          exact absurd hx (idle_free ha k)
      have hnc : ∀ t u st vm ph, s.tasks.get? t ≠ some (.create a u st vm ph) := by
        intro t u st vm ph hx
        obtain ⟨_, _, x, hx⟩ := h3 _ _ _ _ _ _ hx
        rw [hfree] at hx; simp at hx
      refine ⟨?_, ?_, ?_, ?_⟩ <;> simp only [St.new]
      · grind
      · grind
      · intro t a' u' st vm ph ht
        rw [Dict.get?_set] at ht
        split at ht
        · cases ht; exact ⟨rfl, rfl, _, by rw [Dict.get?_set, if_pos rfl]⟩
        · obtain ⟨e1, e2, x, hx⟩ := h3 _ _ _ _ _ _ ht
          refine ⟨e1, e2, x, ?_⟩
          rw [Dict.get?_set, if_neg]
          · exact hx
          · rintro e; cases e; rw [hfree] at hx; simp at hx
      · grind
    · exact ⟨h1, h2, h3, h4⟩
  | createSub a u st => exact absurd hl (by simp [OnlyIdle])
  | destroy a u =>
    simp only [step] at hs
    split at hs
    · cases hs; constructor <;> simp only [St.new] <;> grind
    · split at hs <;> cases hs
      constructor <;> simp only [St.new] <;> grind
  | step t =>
    simp only [step] at hs
    split at hs <;> cases hs
    next k hk => exact ci_stepTask ⟨h1, h2, h3, h4⟩ hk true
  | createFails t =>
    simp only [step] at hs
    split at hs <;> cases hs
    next hk => exact ci_stepTask ⟨h1, h2, h3, h4⟩ hk false
  | destroyFails t =>
    simp only [step] at hs
    split at hs <;> cases hs
    next hk => exact ci_stepTask ⟨h1, h2, h3, h4⟩ hk false
  | lost t =>
    have key : CI c (.idleLabel lb m) (s.reply t .callFailed) := by
      constructor <;> simp only [St.reply] <;> grind
    simp only [step] at hs
    split at hs
    · split at hs <;> cases hs; exact key
    · cases hs; exact key
    · split at hs <;> cases hs; exact key
    · cases hs; exact key
    · cases hs

theorem ci_run {c : Conf} {ls : List Label} {s : St} {lb : Option String} {m : String} (h : Run c ls s)
    (hl : ∀ l ∈ ls, Mild l) (ho : ∀ l ∈ ls, OnlyIdle (.idleLabel lb m) l) : CI c (.idleLabel lb m) s := by
  induction h with
  | init => exact ci_init c _
  | snoc hr hs ih =>
    exact ci_step (ih (fun l hm => hl l (by simp [hm])) (fun l hm => ho l (by simp [hm])))
      (nf_run hr (fun l hm => hl l (by simp [hm]))) (ho _ (by simp)) hs

/-! ## The allocations stay a dict -/

theorem allocWF_stepTask {c : Conf} {s : St} (h : s.alloc.WF) (t : Tid) (ok : Bool) (k : Task) :
    (stepTask c s t ok k).alloc.WF := by
  have hr : ∀ (s : St) a u st vm r, s.alloc.WF → (s.record a u st vm r).alloc.WF := by
    intro s a u st vm r h
    simp only [St.record]
    split
    · apply Dict.WF.erase; split
      · exact h.set _ _
      · exact h
    · exact h.set _ _
  cases k with
  | create a u st vm ph =>
    cases ph with
    | body =>
      simp only [stepTask]
      split
      · split
        · exact hr _ _ _ _ _ _ h
        · exact h
      · exact h
    | hook =>
      simp only [stepTask]
      have h' : (if ok ∧ (a, u) ∈ s.live then { s with born := s.born.set (a, u) st } else s).alloc.WF := by
        split <;> exact h
      split
      · exact hr _ _ _ _ _ _ h'
      · exact h'
    | told r => exact hr _ _ _ _ _ _ h
  | find u ref w =>
    simp only [stepTask]
    split
    · exact h
    · split
      · exact h
      · exact h.erase _
  | destroy a u w hk =>
    cases hk with
    | false => simp only [stepTask]; split <;> exact h
    | true =>
      simp only [stepTask]
      split
      · split
        · split
          · exact h
          · split
            · split
              · exact h.erase _
              · exact h
            · exact h
        · exact h
      · exact h

theorem allocWF_step {c : Conf} {s s' : St} {l : Label} (h : s.alloc.WF) (hs : step c s l = some s') : s'.alloc.WF := by
  cases l with
  | createMain u st r =>
    rcases allocate_new hs with ⟨a, _, _, rfl⟩ | ⟨rp, rfl, _⟩
    · exact h.set _ _
    · exact h
  | createSub a u st => simp only [step] at hs; split at hs <;> cases hs; exact h
  | destroy a u =>
    simp only [step] at hs
    split at hs
    · cases hs; exact h
    · split at hs <;> cases hs; exact h
  | step t => simp only [step] at hs; split at hs <;> cases hs; exact allocWF_stepTask h _ _ _
  | createFails t => simp only [step] at hs; split at hs <;> cases hs; exact allocWF_stepTask h _ _ _
  | destroyFails t => simp only [step] at hs; split at hs <;> cases hs; exact allocWF_stepTask h _ _ _
  | lost t =>
    simp only [step] at hs
    split at hs
    · split at hs <;> cases hs; exact h
    · cases hs; exact h
    · split at hs <;> cases hs; exact h
    · cases hs; exact h
    · cases hs

end Xoscar.Directory
