import Verif.Proof.Directory
/-! # The directory with one request at a time -/
namespace Xoscar.Directory
open Config (Addr Strategy)

/-! ## One request at a time -/

def Off (s : St) (a : Addr) (u : Uid) : Prop := ∀ b v, (b, v) ≠ (a, u) → s.alloc.get? (b, some v) = s.born.get? (b, v)
def Same (s : St) : Prop := ∀ b v, s.alloc.get? (b, some v) = s.born.get? (b, v)
def NoMark (s : St) : Prop := ∀ b, s.alloc.get? (b, none) = none
def MarkAt (s : St) (vm : Bool) (a : Addr) : Prop := ∀ b, b ≠ a ∨ vm = false → s.alloc.get? (b, none) = none
def FreeFor (s : St) (a : Addr) (st : Strategy) : Prop := isIdle st = true → ∀ v, s.born.get? (a, v) ≠ some st

/-- what holds while the only request being handled is at `k` -/
def Doing (c : Conf) (s : St) : Task → Prop
  | .create a u st vm .body => a ∈ c.addrs ∧ Same s ∧ MarkAt s vm a ∧ FreeFor s a st ∧ (vm = false → (a, u) ∉ s.live)
  | .create a u st vm .hook => a ∈ c.addrs ∧ Same s ∧ MarkAt s vm a ∧ FreeFor s a st ∧ (a, u) ∈ s.live ∧ s.born.get? (a, u) = none
  | .create a u st vm (.told r) =>
    if r = .ok then a ∈ c.addrs ∧ Off s a u ∧ MarkAt s vm a ∧ s.born.get? (a, u) = some st
    else vm = true ∧ Same s ∧ MarkAt s vm a
  | .find u ref w => if w = .notified then ref ∈ c.addrs ∧ ref ≠ c.main ∧ Off s ref u ∧ NoMark s ∧ (ref, u) ∉ s.live ∧
      (∀ b x, s.alloc.get? (b, some u) = some x → b = ref) else Same s ∧ NoMark s ∧ w = .mainReq
  | .destroy a u w _ => NoMark s ∧ (match w with
    | .direct => Same s ∧ a ≠ c.main ∧ a ∈ c.addrs
    | .mainReq => if a = c.main then Same s else Off s a u ∧ s.alloc.get? (a, some u) = none
    | .notified => Same s ∧ a ≠ c.main ∧ (a, u) ∉ s.live)

structure SI (c : Conf) (s : St) : Prop where
  born_live : ∀ a u st, s.born.get? (a, u) = some st → (a, u) ∈ s.live
  born_addr : ∀ a u st, s.born.get? (a, u) = some st → a ∈ c.addrs
  excl : ∀ a u v st, isIdle st = true → s.born.get? (a, u) = some st → s.born.get? (a, v) = some st → u = v
  doing : (s.tasks = [] ∧ Same s ∧ NoMark s) ∨ ∃ t k, s.tasks = [(t, k)] ∧ Doing c s k

theorem si_init (c : Conf) : SI c init := by
  constructor <;> simp [init, Same, NoMark]

theorem set_single (t : Tid) (k k' : Task) : Dict.set [(t, k)] t k' = [(t, k')] := by simp [Dict.set]
theorem erase_single (t : Tid) (k : Task) : Dict.erase [(t, k)] t = [] := by simp [Dict.erase]

theorem lookup_some {c : Conf} {s : St} {u : Uid} {a : Addr} (h : lookupAlloc c s u = some a) :
    a ∈ c.addrs ∧ ∃ x, s.alloc.get? (a, some u) = some x := by
  refine ⟨List.mem_of_find?_eq_some h, ?_⟩
  have := List.find?_some h
  simpa [Dict.has, Option.isSome_iff_exists] using this

theorem lookup_none {c : Conf} {s : St} {u : Uid} (h : lookupAlloc c s u = none) {a : Addr} (ha : a ∈ c.addrs) :
    s.alloc.get? (a, some u) = none := by
  have := List.find?_eq_none.mp h a ha
  simpa [Dict.has] using this

theorem si_upd {c : Conf} {s s' : St} (h : SI c s)
    (hb : ∀ a u st, s'.born.get? (a, u) = some st → (a, u) ∈ s'.live ∧ a ∈ c.addrs)
    (he : ∀ a u v st, isIdle st = true → s'.born.get? (a, u) = some st → s'.born.get? (a, v) = some st → u = v)
    (hd : (s'.tasks = [] ∧ Same s' ∧ NoMark s') ∨ ∃ t k, s'.tasks = [(t, k)] ∧ Doing c s' k) : SI c s' :=
  ⟨fun a u st hx => (hb a u st hx).1, fun a u st hx => (hb a u st hx).2, he, hd⟩

attribute [local grind =] Dict.get?_set Dict.get?_erase

theorem doing_of {c : Conf} {s : St} (h : SI c s) {t : Tid} {k : Task} (ht : s.tasks = [(t, k)]) : Doing c s k := by
  rcases h.doing with ⟨h1, _⟩ | ⟨t', k', h1, h2⟩
  · rw [ht] at h1; simp at h1
  · rw [ht] at h1; cases h1; exact h2

theorem si_create {c : Conf} {s : St} (h : SI c s) {t : Tid} {a : Addr} {u : Uid} {st : Strategy} {vm : Bool} {ph : CPhase}
    (ht : s.tasks = [(t, .create a u st vm ph)])
    (ok : Bool) (hc : ph = .hook → ok = false → vm = true) : SI c (stepTask c s t ok (.create a u st vm ph)) := by
  have hdo := doing_of h ht
  have hbl := h.born_live
  have hba := h.born_addr
  have hex := h.excl
  cases ph with
  | body =>
    obtain ⟨h1, h2, h3, h4, h5⟩ := hdo
    simp only [stepTask]
    split
    · next hl =>
      have hvm : vm = true := by cases vm <;> simp_all
      subst hvm
      split
      · refine si_upd h (fun a u st hx => ⟨hbl a u st hx, hba a u st hx⟩) hex (.inl ⟨?_, ?_, ?_⟩)
        · simp [St.record, St.reply, ht, erase_single]
        · simp only [Same, St.record, St.reply, if_true] at h2 ⊢; grind
        · simp only [NoMark, MarkAt, St.record, St.reply, if_true] at h3 ⊢; grind
      · refine si_upd h (fun a u st hx => ⟨hbl a u st hx, hba a u st hx⟩) hex (.inr ⟨t, .create a u st true (.told .already), ?_, ?_⟩)
        · simp [St.put, ht, set_single]
        · exact ⟨rfl, h2, h3⟩
    · next hl =>
      refine si_upd h (fun a' u' st' hx => ⟨?_, hba a' u' st' hx⟩) hex (.inr ⟨t, .create a u st vm .hook, ?_, ?_⟩)
      · exact List.mem_append_left _ (hbl _ _ _ hx)
      · simp [St.put, ht, set_single]
      · refine ⟨h1, h2, h3, h4, List.mem_append_right _ (List.mem_singleton.mpr rfl), ?_⟩
        rcases hx : s.born.get? (a, u) with _ | x
        · exact hx
        · exact absurd (hbl _ _ _ hx) hl
  | hook =>
    obtain ⟨h1, h2, h3, h4, h5, h6⟩ := hdo
    have hb' : ∀ a' u' st', (s.born.set (a, u) st).get? (a', u') = some st' → (a', u') ∈ s.live ∧ a' ∈ c.addrs := by
      intro a' u' st' hx
      rw [Dict.get?_set] at hx
      split at hx
      · next e => cases e; exact ⟨h5, h1⟩
      · exact ⟨hbl _ _ _ hx, hba _ _ _ hx⟩
    have he' : ∀ a' u' v' st', isIdle st' = true → (s.born.set (a, u) st).get? (a', u') = some st' →
        (s.born.set (a, u) st).get? (a', v') = some st' → u' = v' := by
      intro a' u' v' st' hi hx hy
      rw [Dict.get?_set] at hx hy
      split at hx
      · next e =>
        cases e; cases hx
        split at hy
        · next e => cases e; rfl
        · exact absurd hy (h4 hi v')
      · split at hy
        · next e => cases e; cases hy; exact absurd hx (h4 hi u')
        · exact hex _ _ _ _ hi hx hy
    have hoff : ∀ b v, (b, v) ≠ (a, u) → s.alloc.get? (b, some v) = (s.born.set (a, u) st).get? (b, v) := by
      intro b v hne
      rw [Dict.get?_set, if_neg (fun e => hne e.symm)]; exact h2 b v
    simp only [stepTask, h5, and_true]
    cases ok with
    | true =>
      simp only [if_true]
      split
      · next hv =>
        obtain ⟨rfl, rfl⟩ := hv
        refine si_upd h hb' he' (.inl ⟨?_, ?_, ?_⟩)
        · simp [St.record, St.reply, ht, erase_single]
        · intro b v
          simp only [St.record, St.reply, if_true]
          have := h2 b v
          grind
        · intro b
          simp only [St.record, St.reply, if_true]
          have := h3 b
          grind
      · refine si_upd h hb' he' (.inr ⟨t, .create a u st vm (.told .ok), ?_, ?_⟩)
        · simp [St.put, ht, set_single]
        · exact ⟨h1, hoff, h3, by simp [St.put]⟩
    | false =>
      have hvm := hc rfl rfl
      subst hvm
      simp only [Bool.false_eq_true, if_false]
      split
      · refine si_upd h (fun a u st hx => ⟨hbl a u st hx, hba a u st hx⟩) hex (.inl ⟨?_, ?_, ?_⟩)
        · simp [St.record, St.reply, ht, erase_single]
        · intro b v
          simp only [St.record, St.reply, if_true]
          have := h2 b v
          grind
        · intro b
          simp only [St.record, St.reply, if_true]
          have := h3 b
          grind
      · refine si_upd h (fun a u st hx => ⟨hbl a u st hx, hba a u st hx⟩) hex (.inr ⟨t, .create a u st true (.told .hookFailed), ?_, ?_⟩)
        · simp [St.put, ht, set_single]
        · exact ⟨rfl, h2, h3⟩
  | told r =>
    simp only [stepTask]
    have hnb : (St.record s a u st vm r).born = s.born := by simp only [St.record]; split <;> rfl
    have hnl : (St.record s a u st vm r).live = s.live := by simp only [St.record]; split <;> rfl
    refine si_upd h (fun a u st hx => ?_) (fun a' u' v' st' => ?_) (.inl ⟨?_, ?_, ?_⟩)
    · simp only [St.reply, hnb, hnl] at hx ⊢; exact ⟨hbl _ _ _ hx, hba _ _ _ hx⟩
    · simp only [St.reply, hnb]; exact hex _ _ _ _
    · simp only [St.record, St.reply]; split <;> simp [ht, erase_single]
    · simp only [Doing] at hdo
      intro b v
      simp only [St.reply, hnb, St.record]
      split at hdo
      · next hr =>
        subst hr
        obtain ⟨h1, h2, h3, h4⟩ := hdo
        have := h2 b v
        cases vm <;> simp only [if_true, Bool.false_eq_true, if_false] <;> grind
      · next hr =>
        obtain ⟨h1, h2, h3⟩ := hdo
        have := h2 b v
        subst h1; simp only [if_true, hr, if_false]; grind
    · intro b
      simp only [Doing] at hdo
      have h3 : MarkAt s vm a := by split at hdo; exact hdo.2.2.1; exact hdo.2.2
      have := h3 b
      simp only [St.reply, St.record]
      cases vm
      · simp only [Bool.false_eq_true, if_false]; grind
      · simp only [if_true]; split <;> grind

theorem si_find {c : Conf} {s : St} (h : SI c s) {t : Tid} {u : Uid} {ref : Addr} {w : Why}
    (ht : s.tasks = [(t, .find u ref w)]) (ok : Bool) : SI c (stepTask c s t ok (.find u ref w)) := by
  have hdo := doing_of h ht
  have hbl := h.born_live
  have hba := h.born_addr
  have hex := h.excl
  have hb : ∀ a u st, s.born.get? (a, u) = some st → (a, u) ∈ s.live ∧ a ∈ c.addrs :=
    fun a u st hx => ⟨hbl a u st hx, hba a u st hx⟩
  simp only [Doing] at hdo
  split at hdo
  · next hw =>
    subst hw
    obtain ⟨h1, h2, h3, h4, h5, h6⟩ := hdo
    have hnb : s.born.get? (ref, u) = none := by
      rcases hx : s.born.get? (ref, u) with _ | x
      · rfl
      · exact absurd (hbl _ _ _ hx) h5
    have hlk : actorRefMain c s ref u = lookupAlloc c s u := by simp [actorRefMain, h2]
    simp only [stepTask, hlk]
    split
    · next hn =>
      refine si_upd h hb hex (.inl ⟨by simp [St.reply, ht, erase_single], ?_, h4⟩)
      intro b v
      simp only [St.reply]
      by_cases e : (b, v) = (ref, u)
      · cases e; rw [lookup_none hn h1, hnb]
      · exact h3 b v e
    · next a hs =>
      obtain ⟨hm, x, hx⟩ := lookup_some hs
      have := h6 a x hx
      subst this
      rw [if_neg h2]
      refine si_upd h hb hex (.inr ⟨t, .destroy a u .notified false, by simp [St.put, ht, set_single], ?_, ?_, h2, h5⟩)
      · intro b; simp only [St.put]; rw [Dict.get?_erase, if_neg (by simp)]; exact h4 b
      · intro b v
        simp only [St.put]
        rw [Dict.get?_erase]
        split
        · next e => cases e; exact hnb.symm
        · next e => exact h3 b v (fun e' => e (by cases e'; rfl))
  · next hw =>
    obtain ⟨h1, h2, rfl⟩ := hdo
    simp only [stepTask]
    split
    · exact si_upd h hb hex (.inl ⟨by simp [St.reply, ht, erase_single], h1, h2⟩)
    · next a hs =>
      split
      · next ha =>
        exact si_upd h hb hex (.inr ⟨t, .destroy a u .mainReq false, by simp [St.put, ht, set_single], h2, by simp only [if_pos ha]; exact h1⟩)
      · next ha =>
        refine si_upd h hb hex (.inr ⟨t, .destroy a u .mainReq false, by simp [St.put, ht, set_single], ?_, ?_⟩)
        · intro b; simp only [St.put]; rw [Dict.get?_erase, if_neg (by simp)]; exact h2 b
        · simp only [if_neg ha]
          refine ⟨fun b v e => ?_, by simp [St.put]⟩
          simp only [St.put]
          rw [Dict.get?_erase, if_neg (fun e' => e (by cases e'; rfl))]
          exact h1 b v

theorem si_destroy {c : Conf} {s : St} (h : SI c s) (hu : Unique s) {t : Tid} {a : Addr} {u : Uid} {w : Why} {hk : Bool}
    (ht : s.tasks = [(t, .destroy a u w hk)]) (ok : Bool)
    (hdf : hk = true → w = .mainReq → ok = false → a = c.main) : SI c (stepTask c s t ok (.destroy a u w hk)) := by
  obtain ⟨hnm, hdo⟩ := doing_of h ht
  have hbl := h.born_live
  have hba := h.born_addr
  have hex := h.excl
  have hb : ∀ a u st, s.born.get? (a, u) = some st → (a, u) ∈ s.live ∧ a ∈ c.addrs :=
    fun a u st hx => ⟨hbl a u st hx, hba a u st hx⟩
  have hbg : ∀ a' u' st, (s.gone a u).born.get? (a', u') = some st → (a', u') ∈ (s.gone a u).live ∧ a' ∈ c.addrs := by
    intro a' u' st hx
    simp only [St.gone, Dict.get?_erase] at hx ⊢
    split at hx
    · simp at hx
    · next e => exact ⟨List.mem_filter.mpr ⟨(hb _ _ _ hx).1, decide_eq_true (fun e' => e e'.symm)⟩, (hb _ _ _ hx).2⟩
  have heg : ∀ a' u' v' st', isIdle st' = true → (s.gone a u).born.get? (a', u') = some st' →
      (s.gone a u).born.get? (a', v') = some st' → u' = v' := by
    intro a' u' v' st' hi hx hy
    simp only [St.gone, Dict.get?_erase] at hx hy
    split at hx
    · simp at hx
    · split at hy
      · simp at hy
      · exact hex _ _ _ _ hi hx hy
  have hnl : (a, u) ∉ s.live → s.born.get? (a, u) = none := by
    intro hl
    rcases hx : s.born.get? (a, u) with _ | x
    · rfl
    · exact absurd (hbl _ _ _ hx) hl
  -- the actor is not there: the request ends and the directory agrees
  have hend : (a, u) ∉ s.live → ∀ r, SI c (s.reply t r) := by
    intro hl r
    refine si_upd h hb hex (.inl ⟨by simp [St.reply, ht, erase_single], ?_, hnm⟩)
    cases w with
    | direct => exact hdo.1
    | notified => exact hdo.1
    | mainReq =>
      simp only at hdo
      split at hdo
      · exact hdo
      · intro b v
        by_cases e : (b, v) = (a, u)
        · cases e; exact hdo.2.trans (hnl hl).symm
        · exact hdo.1 b v e
  cases hk with
  | false =>
    simp only [stepTask]
    split
    · exact si_upd h hb hex (.inr ⟨t, .destroy a u w true, by simp [St.put, ht, set_single], hnm, hdo⟩)
    · next hl => exact hend hl _
  | true =>
    cases ok with
    | false =>
      simp only [stepTask, Bool.false_eq_true, if_false]
      refine si_upd h hb hex (.inl ⟨by simp [St.reply, ht, erase_single], ?_, hnm⟩)
      cases w with
      | direct => exact hdo.1
      | notified => exact hdo.1
      | mainReq =>
        have := hdf rfl rfl rfl
        simp only [if_pos this] at hdo; exact hdo
    | true =>
      simp only [stepTask, if_true]
      split
      · next hl =>
        split
        · obtain ⟨h1, h2, h3⟩ := hdo
          refine si_upd h hbg heg (.inr ⟨t, .find u a .notified, by simp [St.put, St.gone, ht, set_single], ?_⟩)
          simp only [Doing, if_true]
          refine ⟨h3, h2, ?_, hnm, ?_, ?_⟩
          · intro b v e
            simp only [St.put, St.gone, Dict.get?_erase]
            rw [if_neg (fun e' => e e'.symm)]
            exact h1 b v
          · simp [St.put, St.gone]
          · intro b x hx
            simp only [St.put, St.gone] at hx
            rw [h1 b u] at hx
            exact hu _ _ _ (hbl _ _ _ hx) hl
        · next hw =>
          cases w with
          | direct => exact absurd rfl hw
          | notified => exact absurd hl hdo.2.2
          | mainReq =>
            simp only at hdo
            split
            · next ha =>
              rw [if_pos ha] at hdo
              split
              · refine si_upd h hbg heg (.inl ⟨by simp [St.reply, St.gone, ht, erase_single], ?_, ?_⟩)
                · intro b v
                  simp only [St.reply, St.gone, Dict.get?_erase]
                  have := hdo b v
                  grind
                · intro b; simp only [St.reply, St.gone, Dict.get?_erase]; have := hnm b; grind
              · next hh =>
                refine si_upd h hbg heg (.inl ⟨by simp [St.reply, St.gone, ht, erase_single], ?_, hnm⟩)
                intro b v
                simp only [St.reply, St.gone, Dict.get?_erase]
                have := hdo b v
                split
                · next e =>
                  cases e
                  simpa [Dict.has, St.gone] using hh
                · exact this
            · next ha =>
              rw [if_neg ha] at hdo
              refine si_upd h hbg heg (.inl ⟨by simp [St.reply, St.gone, ht, erase_single], ?_, hnm⟩)
              intro b v
              simp only [St.reply, St.gone, Dict.get?_erase]
              split
              · next e => cases e; exact hdo.2
              · next e => exact hdo.1 b v (fun e' => e e'.symm)
      · next hl => exact hend hl _

theorem si_get {c : Conf} {s : St} (h : SI c s) {t : Tid} {k : Task} (ht : s.tasks.get? t = some k) : s.tasks = [(t, k)] := by
  rcases h.doing with ⟨h1, _⟩ | ⟨t', k', h1, _⟩
  · rw [h1] at ht; simp at ht
  · rw [h1] at ht ⊢
    simp only [Dict.get?_cons, Dict.get?_nil] at ht
    split at ht
    · next e => cases ht; rw [e]
    · simp at ht

theorem si_new {c : Conf} {s : St} (h : SI c s) (he : s.tasks = []) {k : Task} {al : Dict (Addr × Option Uid) Strategy}
    (hd : Doing c ({ s with alloc := al }.new k) k) : SI c ({ s with alloc := al }.new k) :=
  si_upd h (fun a u st hx => ⟨h.born_live a u st hx, h.born_addr a u st hx⟩) h.excl
    (.inr ⟨s.next, k, by simp [St.new, he, Dict.set], hd⟩)

theorem si_step {c : Conf} {s s' : St} {l : Label} (h : SI c s) (hu : Unique s) (ha : Allowed c s l)
    (hs : step c s l = some s') : SI c s' := by
  have idle (he : s.tasks = []) : Same s ∧ NoMark s := by
    rcases h.doing with ⟨_, h2⟩ | ⟨t, k, h1, _⟩
    · exact h2
    · rw [he] at h1; simp at h1
  have hsteps : ∀ {t k} (ok : Bool), s.tasks.get? t = some k → (∀ a u st vm, k = .create a u st vm .hook → ok = false → vm = true) →
      (∀ a u, k = .destroy a u .mainReq true → ok = false → a = c.main) → SI c (stepTask c s t ok k) := by
    intro t k ok hk h1 h2
    have ht := si_get h hk
    cases k with
    | create a u st vm ph => exact si_create h ht ok (fun e => by subst e; exact h1 _ _ _ _ rfl)
    | find u ref w => exact si_find h ht ok
    | destroy a u w hk => exact si_destroy h hu ht ok (fun e1 e2 => by subst e1 e2; exact h2 _ _ rfl)
  cases l with
  | createMain u st r =>
    obtain ⟨i1, i2⟩ := idle ha
    rcases allocate_new hs with ⟨a, hal, hm, rfl⟩ | ⟨rp, rfl, _⟩
    · refine si_new h ha ⟨hm, ?_, ?_, ?_, by simp⟩
      · intro b v; simp only [St.new]; rw [Dict.get?_set, if_neg (by simp)]; exact i1 b v
      · intro b hb
        simp only [St.new]
        have : b ≠ a := by simpa using hb
        rw [Dict.get?_set, if_neg (by simpa using fun e : a = b => this e.symm)]; exact i2 b
      · intro hi v hx
        cases st with
        | idleLabel l m =>
          refine idle_free hal (some v) ?_
          rw [i1 a v]; exact hx
        | _ => simp [isIdle] at hi
    · exact ⟨h.born_live, h.born_addr, h.excl, .inl ⟨ha, i1, i2⟩⟩
  | createSub a u st =>
    obtain ⟨he, hnl, hni⟩ := ha
    obtain ⟨i1, i2⟩ := idle he
    simp only [step] at hs
    split at hs <;> cases hs
    next hm =>
      exact si_new (al := s.alloc) h he ⟨hm.1, i1, fun b _ => i2 b, fun hi => by simp [hni] at hi, fun _ => hnl⟩
  | destroy a u =>
    obtain ⟨i1, i2⟩ := idle ha
    simp only [step] at hs
    split at hs
    · cases hs; exact si_new (al := s.alloc) h ha (by simp only [Doing]; exact ⟨i1, i2, trivial⟩)
    · next hnm =>
      split at hs <;> cases hs
      next hm => exact si_new (al := s.alloc) h ha ⟨i2, i1, hnm, hm⟩
  | step t =>
    simp only [step] at hs
    split at hs <;> cases hs
    next k hk => exact hsteps true hk (by simp) (by simp)
  | createFails t =>
    obtain ⟨a, u, st, ht⟩ := ha
    simp only [step, ht] at hs
    cases hs
    exact hsteps false ht (fun _ _ _ _ e => by cases e; simp) (by simp)
  | destroyFails t =>
    simp only [step] at hs
    split at hs <;> cases hs
    next hk => exact hsteps false hk (by simp) (fun a u e _ => ha a u (by rw [hk, e]))
  | lost t => exact absurd ha (by simp [Allowed])

theorem si_seq {c : Conf} {s : St} (h : Seq c s) : SI c s ∧ Unique s ∧ s.alloc.WF := by
  induction h with
  | init => exact ⟨si_init c, by simp [Unique, init], Dict.WF.nil⟩
  | step _ ha hs hu ih => exact ⟨si_step ih.1 ih.2.1 ha hs, hu, allocWF_step ih.2.2 hs⟩

end Xoscar.Directory
