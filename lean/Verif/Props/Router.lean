import Verif.Model.Router
import Verif.Props.Config
/-!
# C29, C30, C31: routing
-/
namespace Xoscar.Router
open Config (Addr)

/-! ## C29: resolution -/

/-- **C29** (resolution): the local mapping decides if it has the address, else the router's mapping, else nothing -/
theorem internal_spec (r : Router) (a : Addr) :
    (∀ i, r.localMap.get? a = some i → r.internal a = i) ∧
    (r.localMap.get? a = none → ∀ i, r.mapping.get? a = some i → r.internal a = i) ∧
    (r.localMap.get? a = none → r.mapping.get? a = none → r.internal a = none) := by
  refine ⟨fun i h => ?_, fun h i h' => ?_, fun h h' => ?_⟩ <;> simp [Router.internal, *]

theorem popAll_get? {β} (d : Dict Addr β) (ks : List Addr) (a : Addr) :
    (popAll d ks).get? a = if a ∈ ks then none else d.get? a := by
  induction ks generalizing d with
  | nil => simp [popAll]
  | cons k ks ih =>
    have : popAll d (k :: ks) = popAll (d.erase k) ks := rfl
    rw [this, ih]
    by_cases h : a ∈ ks
    · simp [h]
    · by_cases hk : k = a
      · simp [hk]
      · have : ¬ a = k := fun e => hk e.symm
        simp [h, hk, this]

theorem removeEach_append (l o : List Addr) (h : ∀ a ∈ o, a ∉ l) : removeEach (l ++ o) o = l := by
  induction o generalizing l with
  | nil => simp [removeEach]
  | cons x xs ih =>
    have h1 : removeEach (l ++ x :: xs) (x :: xs) = removeEach ((l ++ x :: xs).erase x) xs := rfl
    rw [h1, List.erase_append, if_neg (h x (by simp)), List.erase_cons_head]
    exact ih l (fun a ha => h a (by simp [ha]))

/-- **C29** (add then remove): with keys the router did not have, adding a router and removing it again restores
every resolution and the list of own addresses -/
theorem add_remove_restores (r o : Router) (hw1 : o.localMap.WF) (hw2 : o.mapping.WF)
    (h1 : ∀ a ∈ o.localMap.keys, a ∉ r.localMap.keys) (h2 : ∀ a ∈ o.mapping.keys, a ∉ r.mapping.keys)
    (h3 : ∀ a ∈ o.curr, a ∉ r.curr) :
    (∀ a, ((r.add o).remove o).internal a = r.internal a) ∧ ((r.add o).remove o).curr = r.curr ∧
      ((r.add o).remove o).externalAddress = r.externalAddress := by
  have e1 : ∀ a, ((r.add o).remove o).localMap.get? a = r.localMap.get? a := by
    intro a
    simp only [Router.add, Router.remove, popAll_get?, Dict.get?_update _ _ hw1]
    split
    · next hm => exact ((Dict.get?_eq_none_iff _ _).mpr (h1 a hm)).symm
    · next hm => rw [(Dict.get?_eq_none_iff _ _).mpr hm]; rfl
  have e2 : ∀ a, ((r.add o).remove o).mapping.get? a = r.mapping.get? a := by
    intro a
    simp only [Router.add, Router.remove, popAll_get?, Dict.get?_update _ _ hw2]
    split
    · next hm => exact ((Dict.get?_eq_none_iff _ _).mpr (h2 a hm)).symm
    · next hm => rw [(Dict.get?_eq_none_iff _ _).mpr hm]; rfl
  have e3 : ((r.add o).remove o).curr = r.curr := removeEach_append _ _ h3
  exact ⟨fun a => by simp only [Router.internal, e1, e2], e3, by simp only [Router.externalAddress, e3]⟩

/-- while it is added, its resolutions are found (its own local ones before the others) -/
theorem add_resolves (r o : Router) (hw1 : o.localMap.WF) (hw2 : o.mapping.WF) (a : Addr) :
    (∀ i, o.localMap.get? a = some i → (r.add o).internal a = i) ∧
    (r.localMap.get? a = none → o.localMap.get? a = none → ∀ i, o.mapping.get? a = some i → (r.add o).internal a = i) := by
  constructor
  · intro i h
    simp [Router.internal, Router.add, Dict.get?_update _ _ hw1, h]
  · intro h0 h1 i h2
    simp [Router.internal, Router.add, Dict.get?_update _ _ hw1, Dict.get?_update _ _ hw2, h0, h1, h2]

/-- the hypotheses are met: two pools in one process -/
example : let r := new ["h:1"] (some "dummy://1") [("h:1", some "u1"), ("h:2", some "u2")] []
    let o := new ["g:1"] (some "dummy://9") [("g:1", some "v1")] []
    (r.add o).internal "g:1" = some "dummy://9" ∧ ((r.add o).remove o).internal "g:1" = none ∧
      ((r.add o).remove o).internal "h:2" = some "u2" := by decide

/-- **C29 refuted** without fresh keys: removing one of two routers that know an address makes it unresolvable -/
theorem shared_key_lost_refuted :
    let r := new [] none [("h:1", some "u1")] []
    let o := new [] none [("h:1", some "u1")] []
    ((r.add o).remove o).internal "h:1" = none := by decide

/-- **C29 refuted** for proxies: the proxy configuration of a removed router stays and changes where clients
connect to -/
theorem removed_proxy_stays_refuted :
    let r := new ["h:1"] (some "dummy://1") [] []
    let o := new ["g:1"] (some "dummy://2") [] [("k:1", "p:1")]
    r.dest "k:1" [] = "k:1" ∧ ((r.add o).remove o).dest "k:1" [] = "p:1" := by decide

/-! ## C29: the client cache -/

theorem isOpen_iff (s : St) (c : Cid) : isOpen s c = true ↔ ∃ k, s.clients[c]? = some k ∧ k.closed = false := by
  simp only [isOpen]
  split <;> simp_all

/-- **C29** (never a closed client): whatever happened before, the client handed out by a step is open -/
theorem given_open {s s' : St} {l : Label} (h : step s l = some s') {x : Thread × Key × Cid}
    (hg : s'.given = s.given ++ [x]) : isOpen s' x.2.2 = true := by
  have hne : ∀ {α} (l : List α) (a : α), l ≠ l ++ [a] := by intro α l a h; have := congrArg List.length h; simp at this
  cases l with
  | setMapping m => cases h; exact absurd hg (hne _ _)
  | add o => cases h; exact absurd hg (hne _ _)
  | remove o => cases h; exact absurd hg (hne _ _)
  | close c => cases h; exact absurd hg (hne _ _)
  | failed n =>
    simp only [step] at h; split at h <;> cases h; exact absurd hg (hne _ _)
  | connected n =>
    simp only [step] at h
    split at h
    · simp at h
    · cases h
      have := List.append_cancel_left hg
      simp at this
      subst this
      simp [isOpen]
  | get t k cached =>
    simp only [step] at h
    split at h
    · simp at h
    · split at h
      · split at h
        · split at h
          · next ho =>
            cases h
            have := List.append_cancel_left hg
            simp at this
            subst this
            exact ho
          · cases h; exact absurd hg (hne _ _)
        · cases h; exact absurd hg (hne _ _)
      · cases h; exact absurd hg (hne _ _)

/-- for what each client was made: thread, key, address -/
structure Made where
  thread : Thread
  key : Key
  deriving DecidableEq

/-- ghost run: remembers for whom each client was made -/
structure CacheInv (s : St) (made : List Made) : Prop where
  len : made.length = s.clients.length
  cache : ∀ t k c, s.cache.get? (t, k) = some c → made[c]? = some ⟨t, k⟩
  given : ∀ t k c, (t, k, c) ∈ s.given → made[c]? = some ⟨t, k⟩

theorem mem_append_get {α} {l : List α} {x : α} {c : Nat} {y : α} (h : l[c]? = some y) : (l ++ [x])[c]? = some y := by
  rw [List.getElem?_append_left (List.getElem?_eq_some_iff.mp h).1]; exact h

theorem cacheInv_step {s s' : St} {l : Label} {made : List Made} (hi : CacheInv s made) (h : step s l = some s') :
    ∃ made', CacheInv s' made' ∧ made <+: made' := by
  cases l with
  | setMapping m => cases h; exact ⟨made, ⟨hi.len, by simp [St.reset], hi.given⟩, List.prefix_refl _⟩
  | add m => cases h; exact ⟨made, ⟨hi.len, by simp [St.reset], hi.given⟩, List.prefix_refl _⟩
  | remove m => cases h; exact ⟨made, ⟨hi.len, by simp [St.reset], hi.given⟩, List.prefix_refl _⟩
  | close c => cases h; exact ⟨made, ⟨by simp [hi.len], hi.cache, hi.given⟩, List.prefix_refl _⟩
  | failed n =>
    simp only [step] at h; split at h <;> cases h
    exact ⟨made, ⟨hi.len, hi.cache, hi.given⟩, List.prefix_refl _⟩
  | connected n =>
    simp only [step] at h
    split at h
    · simp at h
    · next p hp =>
      cases h
      refine ⟨made ++ [⟨p.thread, p.key⟩], ⟨by simp [hi.len], fun t k c hc => ?_, fun t k c hc => ?_⟩, List.prefix_append _ _⟩
      · simp only at hc
        split at hc
        · rw [Dict.get?_set] at hc
          split at hc
          · next he =>
            cases hc; cases he
            rw [← hi.len]; simp
          · exact mem_append_get (hi.cache t k c hc)
        · exact mem_append_get (hi.cache t k c hc)
      · rcases List.mem_append.mp hc with hc | hc
        · exact mem_append_get (hi.given t k c hc)
        · simp at hc
          obtain ⟨rfl, rfl, rfl⟩ := hc
          rw [← hi.len]; simp
  | get t k cached =>
    simp only [step] at h
    split at h
    · simp at h
    · split at h
      · split at h
        · next c0 hc0 =>
          split at h
          · cases h
            refine ⟨made, ⟨hi.len, hi.cache, fun t' k' c hc => ?_⟩, List.prefix_refl _⟩
            rcases List.mem_append.mp hc with hc | hc
            · exact hi.given t' k' c hc
            · simp at hc
              obtain ⟨rfl, rfl, rfl⟩ := hc
              exact hi.cache _ _ _ hc0
          · cases h
            refine ⟨made, ⟨hi.len, fun t' k' c hc => ?_, hi.given⟩, List.prefix_refl _⟩
            simp only [St.connect, Dict.get?_erase] at hc
            split at hc
            · simp at hc
            · exact hi.cache _ _ _ hc
        · cases h; exact ⟨made, ⟨hi.len, hi.cache, hi.given⟩, List.prefix_refl _⟩
      · cases h; exact ⟨made, ⟨hi.len, hi.cache, hi.given⟩, List.prefix_refl _⟩

theorem cacheInv_of_run {r : Router} {ls : List Label} {s : St} (h : Run r ls s) : ∃ made, CacheInv s made := by
  induction h with
  | init => exact ⟨[], ⟨rfl, by simp, by simp⟩⟩
  | snoc _ hs ih => obtain ⟨m, hm⟩ := ih; obtain ⟨m', hm', _⟩ := cacheInv_step hm hs; exact ⟨m', hm'⟩

/-- **C29** (keys): a client is handed out for one thread and one key (requested address, caller, proxies) only -/
theorem client_one_key {r : Router} {ls : List Label} {s : St} (h : Run r ls s) {t t' : Thread} {k k' : Key} {c : Cid}
    (h1 : (t, k, c) ∈ s.given) (h2 : (t', k', c) ∈ s.given) : t = t' ∧ k = k' := by
  obtain ⟨m, hm⟩ := cacheInv_of_run h
  have e1 := hm.given _ _ _ h1
  have e2 := hm.given _ _ _ h2
  rw [e1] at e2; cases e2; exact ⟨rfl, rfl⟩

/-- **C29** (added and removed while in use): after a router is added, what the process resolves — and, a thread that is not connecting and
has not asked since, where its next client goes — is its own local addresses first; after it is removed again, as before -/
theorem add_remove_live {s s1 s2 : St} {o : Router} (h1 : step s (.add o) = some s1) (h2 : step s1 (.remove o) = some s2)
    (hw1 : o.localMap.WF) (hw2 : o.mapping.WF)
    (k1 : ∀ a ∈ o.localMap.keys, a ∉ s.router.localMap.keys) (k2 : ∀ a ∈ o.mapping.keys, a ∉ s.router.mapping.keys)
    (k3 : ∀ a ∈ o.curr, a ∉ s.router.curr) :
    (∀ a, s2.router.internal a = s.router.internal a) ∧ s2.router.curr = s.router.curr ∧
    (∀ a i, o.localMap.get? a = some i → s1.router.internal a = i) ∧
    (∀ a i, o.localMap.get? a = some (some i) → ∀ t who, ∃ s3, (∀ p ∈ s1.pending, p.thread ≠ t) →
      step s1 (.get t ⟨a, who, []⟩ true) = some s3 ∧ ∃ p, s3.pending = s1.pending ++ [p] ∧ p.thread = t ∧ p.dest = i) := by
  cases h1; cases h2
  obtain ⟨e1, e2, _⟩ := add_remove_restores s.router o hw1 hw2 k1 k2 k3
  refine ⟨e1, e2, fun a i ha => (add_resolves s.router o hw1 hw2 a).1 i ha, fun a i ha t who => ?_⟩
  refine ⟨(s.reset (s.router.add o)).connect t ⟨a, who, []⟩ true, fun hp => ?_⟩
  have hi : (s.router.add o).internal a = some i := (add_resolves s.router o hw1 hw2 a).1 _ ha
  constructor
  · have hany : (s.reset (s.router.add o)).pending.any (fun p => p.thread = t ∧ p.epoch = (s.reset (s.router.add o)).epoch) = false := by
      rw [List.any_eq_false]
      intro p hm; simp [hp p hm]
    simp only [step, hany, Bool.false_eq_true, if_false, if_true]
    rfl
  · refine ⟨_, rfl, rfl, ?_⟩
    simp only [Router.dest, St.reset, hi]

/-- **C29** (the lock): a thread asking for a client waits only for its own connection being made, -/
theorem lock_per_thread {s : St} {t : Thread} (h : ∀ p ∈ s.pending, p.thread ≠ t) (k : Key) (cached : Bool) :
    step s (.get t k cached) ≠ none := by
  have hany : s.pending.any (fun p => p.thread = t ∧ p.epoch = s.epoch) = false := by
    rw [List.any_eq_false]
    intro p hm; simp [h p hm]
  simp only [step, hany, Bool.false_eq_true, if_false]
  split
  · split
    · split <;> simp
    · simp
  · simp

/-- … for that it does wait (else two requests for one address would make two connections), -/
theorem lock_taken {s s' : St} {t : Thread} {k : Key} {cached : Bool} (h : step s (.get t k cached) = some s')
    (hc : s'.given = s.given) (k' : Key) (cached' : Bool) : step s' (.get t k' cached') = none := by
  have con : ∀ x : St, x.epoch = s.epoch → step (x.connect t k cached) (.get t k' cached') = none := by
    intro x hx
    have hany : (x.connect t k cached).pending.any (fun p => p.thread = t ∧ p.epoch = (x.connect t k cached).epoch) = true := by
      rw [List.any_eq_true]
      exact ⟨⟨t, k, cached, x.router.dest k.ext k.proxies, x.epoch⟩, by simp [St.connect], by simp [St.connect]⟩
    simp only [step, hany, if_true]
  simp only [step] at h
  split at h
  · cases h
  · split at h
    · split at h
      · split at h
        · cases h
          exfalso
          have := congrArg List.length hc
          simp at this
        · cases h; exact con _ rfl
      · cases h; exact con _ rfl
    · cases h; exact con _ rfl

/-- … and not for one begun before the routes changed -/
theorem lock_fresh {r : Router} {ls : List Label} {s s' : St} (h : Run r ls s) {l : Label}
    (hl : (∃ o, l = .add o) ∨ (∃ o, l = .remove o) ∨ ∃ m, l = .setMapping m) (hs : step s l = some s')
    (t : Thread) (k : Key) (cached : Bool) : step s' (.get t k cached) ≠ none := by
  have old : ∀ p ∈ s.pending, p.epoch ≤ s.epoch := by
    clear hs hl
    induction h with
    | init => simp
    | @snoc ls l s s' _ hs ih =>
      have con : ∀ (x : St) t k cached, x.pending = s.pending → x.epoch = s.epoch → ∀ p ∈ (x.connect t k cached).pending, p.epoch ≤ (x.connect t k cached).epoch := by
        intro x t k cached h1 h2 p hp
        simp only [St.connect, List.mem_append, List.mem_singleton] at hp ⊢
        rcases hp with hp | rfl
        · rw [h2]; rw [h1] at hp; exact ih p hp
        · exact Nat.le_refl _
      cases l with
      | setMapping m => cases hs; exact fun p hp => Nat.le_succ_of_le (ih p hp)
      | add m => cases hs; exact fun p hp => Nat.le_succ_of_le (ih p hp)
      | remove m => cases hs; exact fun p hp => Nat.le_succ_of_le (ih p hp)
      | close c => cases hs; exact ih
      | failed n =>
        simp only [step] at hs; split at hs <;> cases hs
        exact fun p hp => ih p (List.mem_of_mem_eraseIdx hp)
      | connected n =>
        simp only [step] at hs; split at hs <;> cases hs
        exact fun p hp => ih p (List.mem_of_mem_eraseIdx hp)
      | get t k cached =>
        simp only [step] at hs
        split at hs
        · cases hs
        · split at hs
          · split at hs
            · split at hs
              · cases hs; exact ih
              · cases hs; exact con _ _ _ _ rfl rfl
            · cases hs; exact con _ _ _ _ rfl rfl
          · cases hs; exact con _ _ _ _ rfl rfl
  have key : ∀ r', step (s.reset r') (.get t k cached) ≠ none := by
    intro r'
    have hany : (s.reset r').pending.any (fun p => p.thread = t ∧ p.epoch = (s.reset r').epoch) = false := by
      rw [List.any_eq_false]
      intro p hm
      have := old p hm
      intro hd
      have h2 : p.epoch = s.epoch + 1 := (of_decide_eq_true hd).2
      omega
    simp only [step, hany, Bool.false_eq_true, if_false]
    split
    · split
      · split <;> simp
      · simp
    · simp
  rcases hl with ⟨o, rfl⟩ | ⟨o, rfl⟩ | ⟨m, rfl⟩ <;> cases hs <;> exact key _

/-- the hypotheses are met: thread 1 connects, another router is added, and thread 1 may ask again -/
example : ∃ s s', Run (new ["h:1"] (some "dummy://1") [] []) [.get 1 ⟨"k:1", 0, []⟩ true] s ∧ s.pending.length = 1 ∧
    step s (.get 1 ⟨"k:1", 0, []⟩ true) = none ∧ step s (.get 2 ⟨"k:1", 0, []⟩ true) ≠ none ∧
    step s (.add (new ["g:1"] (some "dummy://9") [("g:1", some "v1")] [])) = some s' ∧ step s' (.get 1 ⟨"k:1", 0, []⟩ true) ≠ none :=
  ⟨_, _, .snoc (ls := []) .init rfl, rfl, rfl, lock_per_thread (by simp [St.connect]) _ _, rfl,
    lock_fresh (r := new ["h:1"] (some "dummy://1") [] []) (.snoc (ls := []) (l := .get 1 ⟨"k:1", 0, []⟩ true) .init rfl) (.inl ⟨_, rfl⟩) rfl _ _ _⟩

/-- no router change happens while a client is being connected -/
def Quiet (ls : List Label) (r : Router) : Prop :=
  ∀ (n : Nat) s, Run r (ls.take n) s → s.pending ≠ [] →
    ∀ l, ls[n]? = some l → (∀ m, l ≠ .setMapping m) ∧ (∀ o, l ≠ .add o) ∧ (∀ o, l ≠ .remove o)

structure Current (s : St) : Prop where
  pend : ∀ p ∈ s.pending, p.dest = s.router.dest p.key.ext p.key.proxies
  cache : ∀ t k c, s.cache.get? (t, k) = some c → ∃ cl, s.clients[c]? = some cl ∧ cl.dest = s.router.dest k.ext k.proxies

theorem current_of_run {r : Router} {ls : List Label} {s : St} (h : Run r ls s) (hq : Quiet ls r) : Current s := by
  induction h with
  | init => exact ⟨by simp, by simp⟩
  | @snoc ls l s s' hr hs ih =>
    have hq' : Quiet ls r := fun n s0 h0 hp l0 hl => by
      have hlt : n < ls.length := (List.getElem?_eq_some_iff.mp hl).1
      exact hq n s0 (by rw [List.take_append_of_le_length (Nat.le_of_lt hlt)]; exact h0) hp l0 (by rw [List.getElem?_append_left hlt]; exact hl)
    have hi := ih hq'
    have hlast := hq ls.length s (by simpa using hr)
    have hempty : ((∃ m, l = .setMapping m) ∨ (∃ o, l = .add o) ∨ (∃ o, l = .remove o)) → s.pending = [] := by
      intro hl
      rcases hp : s.pending with _ | ⟨p, ps⟩
      · rfl
      · have := hlast (by rw [hp]; simp) l (by simp)
        rcases hl with ⟨m, hl⟩ | ⟨m, hl⟩ | ⟨m, hl⟩
        · exact absurd hl (this.1 m)
        · exact absurd hl (this.2.1 m)
        · exact absurd hl (this.2.2 m)
    cases l with
    | setMapping m =>
      have := hempty (.inl ⟨m, rfl⟩)
      cases hs; exact ⟨by simp [St.reset, this], by simp [St.reset]⟩
    | add m =>
      have := hempty (.inr (.inl ⟨m, rfl⟩))
      cases hs; exact ⟨by simp [St.reset, this], by simp [St.reset]⟩
    | remove m =>
      have := hempty (.inr (.inr ⟨m, rfl⟩))
      cases hs; exact ⟨by simp [St.reset, this], by simp [St.reset]⟩
    | close c =>
      cases hs
      refine ⟨hi.pend, fun t k c' hc => ?_⟩
      obtain ⟨cl, h1, h2⟩ := hi.cache t k c' hc
      by_cases he : c = c'
      · subst he; exact ⟨{ cl with closed := true }, by simp [List.getElem?_modify, h1], h2⟩
      · exact ⟨cl, by simp [List.getElem?_modify, he, h1], h2⟩
    | failed n =>
      simp only [step] at hs; split at hs <;> cases hs
      exact ⟨fun p hp => hi.pend p (List.mem_of_mem_eraseIdx hp), hi.cache⟩
    | connected n =>
      simp only [step] at hs
      split at hs
      · simp at hs
      · next p hp =>
        cases hs
        have hpd := hi.pend p (List.mem_of_getElem? hp)
        refine ⟨fun p hp => hi.pend p (List.mem_of_mem_eraseIdx hp), fun t k c hc => ?_⟩
        have hold : s.cache.get? (t, k) = some c → ∃ cl, (s.clients ++ [(⟨p.dest, false⟩ : Client)])[c]? = some cl ∧ cl.dest = s.router.dest k.ext k.proxies := by
          intro hc
          obtain ⟨cl, h1, h2⟩ := hi.cache t k c hc
          exact ⟨cl, mem_append_get h1, h2⟩
        simp only at hc
        split at hc
        · rw [Dict.get?_set] at hc
          split at hc
          · next he =>
            cases hc; cases he
            exact ⟨⟨p.dest, false⟩, by simp, hpd⟩
          · exact hold hc
        · exact hold hc
    | get t k cached =>
      have hconn : ∀ (s0 : St), s0.router = s.router → s0.pending = s.pending → s0.clients = s.clients →
          (∀ t k c, s0.cache.get? (t, k) = some c → s.cache.get? (t, k) = some c) → Current (s0.connect t k cached) := by
        intro s0 h1 h2 h3 h4
        refine ⟨fun p hp => ?_, fun t k c hc => ?_⟩
        · simp only [St.connect] at hp ⊢
          rcases List.mem_append.mp hp with hp | hp
          · rw [h1]; rw [h2] at hp; exact hi.pend p hp
          · simp at hp; subst hp; rfl
        · simp only [St.connect] at hc ⊢
          rw [h1, h3]; exact hi.cache t k c (h4 t k c hc)
      simp only [step] at hs
      split at hs
      · simp at hs
      · split at hs
        · split at hs
          · next c0 hc0 =>
            split at hs <;> cases hs
            · exact ⟨hi.pend, hi.cache⟩
            · exact hconn _ rfl rfl rfl (fun t' k' c hc => by simp only [Dict.get?_erase] at hc; split at hc <;> simp_all)
          · cases hs; exact hconn s rfl rfl rfl (fun _ _ _ h => h)
        · cases hs; exact hconn s rfl rfl rfl (fun _ _ _ h => h)

/-- **C29** (the cache is up to date), the part that holds: when the router is not changed while clients are being
connected, every cached client is connected to the address the router resolves its key to now -/
theorem cached_client_current_partial {r : Router} {ls : List Label} {s : St} (h : Run r ls s) (hq : Quiet ls r)
    {t : Thread} {k : Key} {c : Cid} (hc : s.cache.get? (t, k) = some c) :
    ∃ cl, s.clients[c]? = some cl ∧ cl.dest = s.router.dest k.ext k.proxies :=
  (current_of_run h hq).cache t k c hc

theorem run_iff (r : Router) (ls : List Label) (s : St) :
    Run r ls s ↔ ls.foldlM step ⟨r, [], 0, [], [], []⟩ = some s := by
  induction ls using List.reverseRecOn' generalizing s with
  | nil =>
    constructor
    · intro h
      generalize hl : ([] : List Label) = l at h
      cases h with
      | init => rfl
      | snoc => simp at hl
    · intro h; cases h; exact .init
  | append_singleton l a ih =>
    rw [List.foldlM_append]
    constructor
    · intro h
      generalize hl : l ++ [a] = l' at h
      cases h with
      | init => simp at hl
      | snoc h hs =>
        obtain ⟨rfl, rfl⟩ := List.append_singleton_inj.mp hl
        rw [(ih _).mp h]
        simp [List.foldlM, hs]
    · intro h
      rcases hx : l.foldlM step ⟨r, [], 0, [], [], []⟩ with _ | s0
      · rw [hx] at h; simp at h
      · rw [hx] at h
        simp only [List.foldlM, Option.bind_eq_bind, Option.bind_some] at h
        exact .snoc ((ih s0).mpr hx) (by rcases hy : step s0 a with _ | y <;> simp_all)

/-- the hypothesis is met: connect, change the mapping, ask again and connect to the new place -/
example : Quiet [.get 0 ⟨"h:2", 0, []⟩ true, .connected 0, .setMapping [("h:2", some "u3")], .get 0 ⟨"h:2", 0, []⟩ true]
      (new [] none [("h:2", some "u2")] []) ∧
    ∃ s, Run (new [] none [("h:2", some "u2")] []) [.get 0 ⟨"h:2", 0, []⟩ true, .connected 0,
      .setMapping [("h:2", some "u3")], .get 0 ⟨"h:2", 0, []⟩ true] s ∧ s.pending.map (·.dest) = ["u3"] := by
  constructor
  · intro n s hr hp l hl
    rw [run_iff] at hr
    match n with
    | 0 => cases hr; exact absurd rfl hp
    | 1 => cases hl; simp
    | 2 => cases hr; exact absurd rfl hp
    | 3 => cases hl; simp
    | n + 4 => simp at hl
  · exact ⟨_, .snoc (.snoc (.snoc (.snoc .init rfl) rfl) rfl) rfl, by decide⟩

/-- **C29 refuted** otherwise: the mapping is changed while connecting; the client connected to the old place goes
into the new cache and is handed out from then on -/
theorem stale_client_cached_refuted :
    ∃ ls s, Run (new [] none [("h:2", some "u2")] []) ls s ∧ s.router.dest "h:2" [] = "u3" ∧
      s.clients[0]? = some ⟨"u2", false⟩ ∧ s.given = [(0, ⟨"h:2", 0, []⟩, 0), (0, ⟨"h:2", 0, []⟩, 0)] := by
  refine ⟨_, _, .snoc (.snoc (.snoc (.snoc .init (l := .get 0 ⟨"h:2", 0, []⟩ true) rfl)
    (l := .setMapping [("h:2", some "u3")]) rfl) (l := .connected 0) rfl) (l := .get 0 ⟨"h:2", 0, []⟩ true) rfl, ?_, ?_, ?_⟩ <;> decide

/-! ## C30 -/

/-- **C30** (the pool's own router): after removing a sub pool, in the main process and in the other sub pools,
the pool's router no longer resolves the removed address -/
theorem removed_not_routable_partial {glob pool : Router} {c : Config.Config} {idx : Nat} {a : Addr} {res : Router × Router}
    (ha : Config.externalAddress c idx = some a) (hloc : pool.localMap.get? a = none)
    (h : removeSubPoolMain glob pool c idx = some res ∨ removeSubPoolOther glob pool c idx = some res) :
    res.2.internal a = none := by
  have key : ∀ c', Config.removePool c idx = some c' → c'.mapping.get? a = none := by
    intro c' hc
    simp only [Config.removePool, ha] at hc
    split at hc
    · cases hc; simp
    · simp at hc
  rcases h with h | h <;> simp only [removeSubPoolMain, removeSubPoolOther] at h <;> split at h <;> cases h
  · next c' hc => simp [syncConfig, Router.internal, Router.setMapping, hloc, key c' hc]
  · next c' hc => simp [syncConfig, Router.internal, Router.setMapping, hloc, key c' hc]

/-- **C30** (the process's router, sub pools): the router of a sub pool's process forgets the address, too, if the
sub pool knew it from its old configuration -/
theorem removed_not_routable_sub {glob pool : Router} {c : Config.Config} {idx : Nat} {a : Addr} {res : Router × Router}
    (ha : Config.externalAddress c idx = some a) (hw : c.mapping.WF) (hwl : pool.localMap.WF)
    (hloc : pool.localMap.get? a = none) (hgl : glob.localMap.get? a = none)
    (hknown : a ∈ pool.mapping.keys)
    (h : removeSubPoolOther glob pool c idx = some res) : res.1.internal a = none := by
  simp only [removeSubPoolOther] at h
  split at h
  · simp at h
  · next c' hc =>
    cases h
    have hc' : c'.mapping = c.mapping.erase a := by
      simp only [Config.removePool, ha] at hc
      split at hc
      · cases hc; rfl
      · simp at hc
    have hw' : c'.mapping.WF := by rw [hc']; exact hw.erase a
    have hn : c'.mapping.get? a = none := by rw [hc']; simp
    simp only [syncConfig, Router.internal, Router.add, Router.remove, Router.setMapping, Dict.get?_update _ _ hwl,
      Dict.get?_update _ _ hw', popAll_get?, hloc, hgl, hn, if_pos hknown]
    simp

/-- **C30 refuted** for the router of the main process (the one contexts use): the configuration is changed before
the old routes are withdrawn, so it goes on resolving the address exactly as before -/
theorem removed_still_routable_main_refuted {glob pool : Router} {c : Config.Config} {idx : Nat} {a : Addr} {res : Router × Router}
    (ha : Config.externalAddress c idx = some a) (hw : c.mapping.WF) (hwl : pool.localMap.WF)
    (hloc : pool.localMap.get? a = none)
    (h : removeSubPoolMain glob pool c idx = some res) : res.1.internal a = glob.internal a := by
  simp only [removeSubPoolMain] at h
  split at h
  · simp at h
  · next c' hc =>
    cases h
    have hc' : c'.mapping = c.mapping.erase a := by
      simp only [Config.removePool, ha] at hc
      split at hc
      · cases hc; rfl
      · simp at hc
    have hw' : c'.mapping.WF := by rw [hc']; exact hw.erase a
    have hn : c'.mapping.get? a = none := by rw [hc']; simp
    have hk : a ∉ c'.mapping.keys := (Dict.get?_eq_none_iff _ _).mp hn
    have hkl : a ∉ pool.localMap.keys := (Dict.get?_eq_none_iff _ _).mp hloc
    simp only [syncConfig, Router.internal, Router.add, Router.remove, Router.setMapping, Dict.get?_update _ _ hwl,
      Dict.get?_update _ _ hw', popAll_get?, hloc, hn, if_neg hk, if_neg hkl]
    simp only [Option.none_or]

/-- a main pool and a sub pool; both hypotheses are met, and the process's router still has the address -/
example :
    let c : Config.Config := ⟨[(0, ⟨none, some "u0", ["h:1"]⟩), (1, ⟨none, some "u1", ["h:2"]⟩)], [("h:1", some "u0"), ("h:2", some "u1")]⟩
    let pool := new ["h:1"] (some "dummy://0") c.mapping []
    let glob := (new [] none [] []).add pool
    (removeSubPoolMain glob pool c 1).map (fun r => (r.1.internal "h:2", r.2.internal "h:2")) = some (some "u1", none) ∧
    (removeSubPoolOther glob pool c 1).map (fun r => (r.1.internal "h:2", r.2.internal "h:2")) = some (none, none) := by
  decide

/-! ## C31 -/

/-- what the host of an address is: of `host:port` the part before the first colon, of an address without a colon
the whole address -/
theorem host_of (h p : String) (hc : ':' ∉ h.toList) : host (h ++ ":" ++ p) = h ∧ host h = h := by
  have key : ∀ (l r : List Char), ':' ∉ l → (l ++ ':' :: r).takeWhile (· ≠ ':') = l := by
    intro l r hl
    induction l with
    | nil => simp
    | cons c l ih =>
      have hne : c ≠ ':' := fun e => hl (by simp [e])
      have hl' : ':' ∉ l := fun e => hl (by simp [e])
      rw [List.cons_append, List.takeWhile_cons_of_pos (by simpa using hne), ih hl']
  have key2 : ∀ (l : List Char), ':' ∉ l → l.takeWhile (· ≠ ':') = l := by
    intro l hl
    induction l with
    | nil => rfl
    | cons c l ih =>
      have hne : c ≠ ':' := fun e => hl (by simp [e])
      have hl' : ':' ∉ l := fun e => hl (by simp [e])
      rw [List.takeWhile_cons_of_pos (by simpa using hne), ih hl']
  constructor
  · have e : (h ++ ":" ++ p).toList = h.toList ++ ':' :: p.toList := by
      rw [String.toList_append, String.toList_append, List.append_assoc]; rfl
    rw [host, e, key _ _ hc, String.ofList_toList]
  · rw [host, key2 _ hc, String.ofList_toList]

/-- a proxy entry that can be used for `a` -/
def Entry (r : Router) (k a p : Addr) : Prop := r.proxy.get? k = some p ∧ p ≠ "" ∧ p ≠ a

/-- **C31** (choice): the exact entry, else the host's, else the wildcard; entries that are empty or point to the
address itself are passed over -/
theorem getProxy_spec (r : Router) (a p : Addr) :
    r.getProxy a = some p ↔
      Entry r a a p ∨
      ((∀ q, ¬ Entry r a a q) ∧ Entry r (host a) a p) ∨
      ((∀ q, ¬ Entry r a a q) ∧ (∀ q, ¬ Entry r (host a) a q) ∧ Entry r "*" a p) := by
  have hu : ∀ k q, usable a (r.proxy.get? k) = some q ↔ Entry r k a q := by
    intro k q
    simp only [Entry]
    rcases r.proxy.get? k with _ | x
    · simp [usable]
    · simp only [usable, Option.some.injEq]
      split
      · next h => simp only [Option.some.injEq]; constructor
                  · rintro rfl; exact ⟨rfl, h⟩
                  · exact fun h => h.1
      · next h => simp only [reduceCtorEq, false_iff]; rintro ⟨rfl, h'⟩; exact h h'
  have hn : ∀ k, usable a (r.proxy.get? k) = none ↔ ∀ q, ¬ Entry r k a q := by
    intro k
    constructor
    · intro h q hq; rw [(hu k q).mpr hq] at h; simp at h
    · intro h
      rcases hx : usable a (r.proxy.get? k) with _ | x
      · rfl
      · exact absurd ((hu k x).mp hx) (h x)
  simp only [Router.getProxy]
  rcases h1 : usable a (r.proxy.get? a) with _ | x
  · have h1' := (hn a).mp h1
    rcases h2 : usable a (r.proxy.get? (host a)) with _ | y
    · have h2' := (hn (host a)).mp h2
      simp only [hu]
      constructor
      · intro h; exact .inr (.inr ⟨h1', h2', h⟩)
      · rintro (h | ⟨_, h⟩ | ⟨_, _, h⟩)
        · exact absurd h (h1' p)
        · exact absurd h (h2' p)
        · exact h
    · have h2' := (hu (host a) y).mp h2
      simp only [Option.some.injEq]
      constructor
      · rintro rfl; exact .inr (.inl ⟨h1', h2'⟩)
      · rintro (h | ⟨_, h⟩ | ⟨_, h, _⟩)
        · exact absurd h (h1' p)
        · have := h2'.1.symm.trans h.1; exact Option.some.inj this
        · exact absurd h2' (h y)
  · have h1' := (hu a x).mp h1
    simp only [Option.some.injEq]
    constructor
    · rintro rfl; exact .inl h1'
    · rintro (h | ⟨h, _⟩ | ⟨h, _⟩)
      · exact Option.some.inj (h1'.1.symm.trans h.1)
      · exact absurd h1' (h x)
      · exact absurd h1' (h x)

/-- **C31** never the address itself -/
theorem getProxy_ne (r : Router) (a p : Addr) (h : r.getProxy a = some p) : p ≠ a := by
  rcases (getProxy_spec r a p).mp h with h | ⟨_, h⟩ | ⟨_, _, h⟩ <;> exact h.2.2

/-- `ps` is the chain of proxies from `a`: each the proxy of the one before, the last having none -/
inductive Chain (r : Router) : Addr → List Addr → Prop
  | nil {a} : r.getProxy a = none → Chain r a []
  | cons {a p ps} : r.getProxy a = some p → Chain r p ps → Chain r a (p :: ps)

theorem proxyLoop_iff (r : Router) (fuel : Nat) : ∀ (a : Addr) (acc res : List Addr),
    r.proxyLoop fuel a acc = some res ↔ ∃ ps, res = acc ++ ps ∧ Chain r a ps ∧ ps.length < fuel := by
  induction fuel with
  | zero => simp [Router.proxyLoop]
  | succ n ih =>
    intro a acc res
    simp only [Router.proxyLoop]
    rcases hp : r.getProxy a with _ | p
    · simp only [Option.some.injEq]
      constructor
      · rintro rfl; exact ⟨[], by simp, .nil hp, by simp⟩
      · rintro ⟨ps, rfl, hc, _⟩
        cases hc with
        | nil => simp
        | cons h => rw [hp] at h; simp at h
    · simp only [ih]
      constructor
      · rintro ⟨ps, rfl, hc, hl⟩; exact ⟨p :: ps, by simp, .cons hp hc, by simp; omega⟩
      · rintro ⟨ps, rfl, hc, hl⟩
        cases hc with
        | nil h => rw [hp] at h; simp at h
        | cons h hc =>
          rw [hp] at h; cases h
          exact ⟨_, by simp, hc, by simp at hl; omega⟩

/-- **C31** (chain): what `get_proxies` returns is the chain of proxies; it returns iff the chain ends -/
theorem getProxies_chain (r : Router) (a : Addr) (ps : List Addr) :
    (∃ fuel, r.getProxies fuel a = some ps) ↔ Chain r a ps := by
  simp only [Router.getProxies, proxyLoop_iff, List.nil_append]
  constructor
  · rintro ⟨_, _, rfl, h, _⟩; exact h
  · intro h; exact ⟨ps.length + 1, ps, rfl, h, by simp⟩

theorem chain_unique {r : Router} {a : Addr} {ps qs : List Addr} (h : Chain r a ps) (h' : Chain r a qs) : ps = qs := by
  induction h generalizing qs with
  | nil h =>
    cases h' with
    | nil => rfl
    | cons h1 => rw [h] at h1; simp at h1
  | cons h _ ih =>
    cases h' with
    | nil h1 => rw [h] at h1; simp at h1
    | cons h1 h2 => rw [h] at h1; cases h1; rw [ih h2]

/-- proxies get nearer to the end: some measure of addresses decreases along the configured entries -/
def Acyclic (r : Router) : Prop := ∃ rank : Addr → Nat, ∀ a p, r.getProxy a = some p → rank p < rank a

/-- **C31** (termination), the part that holds: with an acyclic configuration `get_proxies` always ends -/
theorem getProxies_terminates_partial {r : Router} (h : Acyclic r) (a : Addr) : ∃ fuel ps, r.getProxies fuel a = some ps := by
  obtain ⟨rank, hr⟩ := h
  have : ∀ n a, rank a ≤ n → ∃ ps, Chain r a ps := by
    intro n
    induction n with
    | zero =>
      intro a ha
      rcases hp : r.getProxy a with _ | p
      · exact ⟨[], .nil hp⟩
      · have := hr a p hp; omega
    | succ n ih =>
      intro a ha
      rcases hp : r.getProxy a with _ | p
      · exact ⟨[], .nil hp⟩
      · obtain ⟨ps, hps⟩ := ih p (by have := hr a p hp; omega)
        exact ⟨p :: ps, .cons hp hps⟩
  obtain ⟨ps, hps⟩ := this (rank a) a (Nat.le_refl _)
  obtain ⟨fuel, hf⟩ := (getProxies_chain r a ps).mpr hps
  exact ⟨fuel, ps, hf⟩

theorem chain_no_repeat {r : Router} {a : Addr} {ps : List Addr} (h : Chain r a ps) : a ∉ ps := by
  have suffix : ∀ {a ps b}, Chain r a ps → b ∈ ps → ∃ qs, Chain r b qs ∧ qs.length < ps.length := by
    intro a ps b hc
    induction hc with
    | nil => simp
    | @cons a p ps _ hc ih =>
      intro hb
      rcases List.mem_cons.mp hb with rfl | hb
      · exact ⟨ps, hc, by simp⟩
      · obtain ⟨qs, h1, h2⟩ := ih hb; exact ⟨qs, h1, by simp; omega⟩
  intro hm
  obtain ⟨qs, h1, h2⟩ := suffix h hm
  rw [chain_unique h h1] at h2
  omega

/-- **C31 refuted**: two addresses that are each other's proxy: `get_proxies` never ends, whatever the time given -/
theorem getProxies_diverges_refuted (fuel : Nat) :
    (new [] none [] [("a:1", "b:1"), ("b:1", "a:1")]).getProxies fuel "a:1" = none := by
  generalize hr : new [] none [] [("a:1", "b:1"), ("b:1", "a:1")] = r
  have h1 : r.getProxy "a:1" = some "b:1" := by subst hr; decide
  have h2 : r.getProxy "b:1" = some "a:1" := by subst hr; decide
  rcases hf : r.getProxies fuel "a:1" with _ | ps
  · rfl
  · exfalso
    have hc := (getProxies_chain r "a:1" ps).mp ⟨fuel, hf⟩
    have hno := chain_no_repeat hc
    cases hc with
    | nil h => rw [h1] at h; simp at h
    | cons h hc =>
      rw [h1] at h; cases h
      cases hc with
      | nil h => rw [h2] at h; simp at h
      | cons h hc => rw [h2] at h; cases h; simp at hno

/-- even a single wildcard entry is enough: from the proxy's own host entry … a wildcard and an exact entry -/
theorem wildcard_diverges_refuted (fuel : Nat) :
    (new [] none [] [("*", "p:1"), ("p:1", "q:1")]).getProxies fuel "x:1" = none := by
  generalize hr : new [] none [] [("*", "p:1"), ("p:1", "q:1")] = r
  have h1 : r.getProxy "p:1" = some "q:1" := by subst hr; decide
  have h2 : r.getProxy "q:1" = some "p:1" := by subst hr; decide
  have h0 : r.getProxy "x:1" = some "p:1" := by subst hr; decide
  rcases hf : r.getProxies fuel "x:1" with _ | ps
  · rfl
  · exfalso
    have hc := (getProxies_chain r "x:1" ps).mp ⟨fuel, hf⟩
    cases hc with
    | nil h => rw [h0] at h; simp at h
    | cons h hc =>
      rw [h0] at h; cases h
      have hno := chain_no_repeat hc
      cases hc with
      | nil h => rw [h1] at h; simp at h
      | cons h hc =>
        rw [h1] at h; cases h
        cases hc with
        | nil h => rw [h2] at h; simp at h
        | cons h hc => rw [h2] at h; cases h; simp at hno

/-- an acyclic configuration with all three kinds of entries (the wildcard's proxy is reached from everywhere and
has no other entry) -/
example : (new [] none [] [("a:1", "b:1"), ("b", "c:1"), ("*", "z:1")]).getProxies 9 "a:1" = some ["b:1", "c:1", "z:1"] := by decide

/-- **C29** where a client connects to: the internal address if there is one; else, without proxies given, the configured proxy (unless that
is this pool itself) or the address; else the proxy of the last proxy given, or that proxy. -/
theorem dest_exact (r : Router) (ext : Addr) :
    (∀ a ps, r.internal ext = some a → r.dest ext ps = a) ∧
    (r.internal ext = none →
      (r.getProxy ext = none → r.dest ext [] = ext) ∧
      (∀ p, r.getProxy ext = some p → r.externalAddress ≠ some p → r.dest ext [] = p) ∧
      (∀ p, r.getProxy ext = some p → r.externalAddress = some p → r.dest ext [] = ext) ∧
      (∀ ps last p, r.getProxy last = some p → r.dest ext (ps ++ [last]) = p) ∧
      (∀ ps last, r.getProxy last = none → r.dest ext (ps ++ [last]) = last)) := by
  refine ⟨?_, fun h => ⟨?_, ?_, ?_, ?_, ?_⟩⟩ <;> intros <;> simp_all [Router.dest]

/-- a proxy that is this pool itself is not used; another one is -/
example : (new ["me:1"] none [] [("a:1", "me:1")]).dest "a:1" [] = "a:1" ∧ (new ["you:1"] none [] [("a:1", "me:1")]).dest "a:1" [] = "me:1" := by decide

/-- **C29** asked without the cache: a connection is made whatever the cache holds, and the cache stays as it is -/
theorem uncached_connects {s s' : St} {t : Thread} {k : Key} (h : step s (.get t k false) = some s') :
    s'.given = s.given ∧ s'.cache = s.cache ∧ s'.clients = s.clients ∧
    ∃ p, s'.pending = s.pending ++ [p] ∧ p.thread = t ∧ p.key = k ∧ p.cached = false ∧ p.dest = s.router.dest k.ext k.proxies := by
  simp only [step, Bool.false_eq_true, if_false] at h
  split at h
  · cases h
  · cases h; exact ⟨rfl, rfl, rfl, _, rfl, rfl, rfl, rfl, rfl⟩

/-- what keeps a client private: it is in no cache and was handed out once -/
structure Private (c : Cid) (x : Thread × Key × Cid) (s : St) : Prop where
  made : c < s.clients.length
  cache : ∀ k, s.cache.get? k ≠ some c
  given : s.given.filter (fun y => decide (y.2.2 = c)) = [x]

theorem private_step {c : Cid} {x : Thread × Key × Cid} {s s' : St} {l : Label} (hi : Private c x s) (h : step s l = some s') : Private c x s' := by
  have hc := hi.cache
  have hm := hi.made
  cases l with
  | setMapping m => cases h; exact ⟨hm, by simp [St.reset], hi.given⟩
  | add m => cases h; exact ⟨hm, by simp [St.reset], hi.given⟩
  | remove m => cases h; exact ⟨hm, by simp [St.reset], hi.given⟩
  | close c => cases h; exact ⟨by simpa using hm, hc, hi.given⟩
  | failed n =>
    simp only [step] at h; split at h <;> cases h
    exact ⟨hm, hc, hi.given⟩
  | connected n =>
    simp only [step] at h
    split at h
    · cases h
    · next p hp =>
      cases h
      refine ⟨by simp only [List.length_append]; exact Nat.lt_succ_of_lt hm, fun k => ?_, ?_⟩
      · simp only
        split
        · rw [Dict.get?_set]
          split
          · intro e; injection e with e; exact Nat.lt_irrefl _ (e ▸ hm)
          · exact hc k
        · exact hc k
      · have hne : ¬ s.clients.length = c := fun e => Nat.lt_irrefl _ (e ▸ hm)
        simp [List.filter_append, hi.given, hne]
  | get t k cached =>
    simp only [step] at h
    split at h
    · cases h
    · split at h
      · split at h
        · next c0 hc0 =>
          split at h
          · cases h
            refine ⟨hm, hc, ?_⟩
            have hne : ¬ c0 = c := fun e => hc _ (e ▸ hc0)
            simp [List.filter_append, hi.given, hne]
          · cases h
            refine ⟨hm, fun k' => ?_, hi.given⟩
            simp only [St.connect, Dict.get?_erase]
            split
            · simp
            · exact hc k'
        · cases h; exact ⟨hm, hc, hi.given⟩
      · cases h; exact ⟨hm, hc, hi.given⟩

/-- **C29** a client asked for without the cache belongs to the one who asked: it is handed out to nobody else, whatever happens afterwards -/
theorem uncached_private {r : Router} {ls ls' : List Label} {n : Nat} {s s' : St} {p : Pending} (h : Run r ls s) (hp : s.pending[n]? = some p)
    (hu : p.cached = false) (h' : Run r (ls ++ .connected n :: ls') s') :
    s'.given.filter (fun y => decide (y.2.2 = s.clients.length)) = [(p.thread, p.key, s.clients.length)] := by
  refine Private.given (c := s.clients.length) ?_
  induction ls' using List.reverseRecOn' generalizing s' with
  | nil =>
    rw [run_iff, List.foldlM_append, (run_iff _ _ _).mp h] at h'
    simp only [List.foldlM, step, hp, hu, Option.bind_eq_bind, Option.bind_some, Bool.false_eq_true, if_false, Option.pure_def] at h'
    injection h' with h'
    subst h'
    obtain ⟨made, hm⟩ := cacheInv_of_run h
    refine ⟨by simp, fun k e => ?_, ?_⟩
    · have := (List.getElem?_eq_some_iff.mp (hm.cache k.1 k.2 _ e)).1
      rw [hm.len] at this; exact absurd this (Nat.lt_irrefl _)
    · have : s.given.filter (fun y => decide (y.2.2 = s.clients.length)) = [] := by
        rw [List.filter_eq_nil_iff]
        intro y hy
        have := (List.getElem?_eq_some_iff.mp (hm.given y.1 y.2.1 y.2.2 hy)).1
        rw [hm.len] at this
        simp; omega
      simp [List.filter_append, this]
  | append_singleton l a ih =>
    rw [run_iff, show ls ++ .connected n :: (l ++ [a]) = (ls ++ .connected n :: l) ++ [a] by simp, List.foldlM_append] at h'
    rcases hx : (ls ++ .connected n :: l).foldlM step ⟨r, [], 0, [], [], []⟩ with _ | s0
    · rw [hx] at h'; simp at h'
    · rw [hx] at h'
      simp only [List.foldlM, Option.bind_eq_bind, Option.bind_some] at h'
      exact private_step (ih ((run_iff _ _ _).mpr hx)) (l := a) (by rcases hy : step s0 a with _ | y <;> simp_all)

/-- the hypotheses are met, with the same key asked for again through the cache -/
example : ∃ s p, Run (new [] none [] []) [.get 0 ⟨"h:2", 0, []⟩ false] s ∧ s.pending[0]? = some p ∧ p.cached = false ∧
    ∃ s', Run (new [] none [] []) ([.get 0 ⟨"h:2", 0, []⟩ false] ++ .connected 0 :: [.get 0 ⟨"h:2", 0, []⟩ true, .connected 0, .get 0 ⟨"h:2", 0, []⟩ true]) s' ∧
      s'.given.map (·.2.2) = [0, 1, 1] :=
  ⟨_, _, .snoc .init rfl, rfl, rfl, _, .snoc (.snoc (.snoc (.snoc (.snoc .init rfl) rfl) rfl) rfl) rfl, by decide⟩

end Xoscar.Router
