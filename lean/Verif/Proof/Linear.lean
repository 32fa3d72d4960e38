import Verif.Spec.Linear
import Verif.Proof.Base
/-!
# Proofs for C83
-/
namespace Xoscar.Linear
variable {S A L I R : Type}

theorem exec_of_under {code : Code S A L I R} {a : A} {s s1 s' : S} {l : L} {is : List I} {r : R} (h : Under code a s s1 l)
    (e : Ends code l s1 is s' r) : ∃ is', Exec code a s is' s' r := by
  induction h generalizing is with
  | start h => exact ⟨_, .async h e⟩
  | more _ hr ih => exact ih (.more hr e)

structure Inv (code : Code S A L I R) (s : S) (ls : List (Label A I)) (st : St S A L R) (h : List (Done A R)) : Prop where
  called : ∀ c k, st.calls.get? c = some k → .call c k.arg k.locked ∈ ls
  calls : ∀ c a lk, .call c a lk ∈ ls → st.calls.get? c ≠ none
  locked : ∀ c k, st.calls.get? c = some k → k.locked = true
  coro : ∀ c, st.coros.get? c ≠ none → ∃ k, st.calls.get? c = some k ∧ k.phase = .running
  runs : ∀ c k, st.calls.get? c = some k → k.phase = .running → st.holder = some c ∧ st.coros.get? c ≠ none
  hold : ∀ c, st.holder = some c → ∃ k, st.calls.get? c = some k ∧ k.phase = .running
  serial : ∃ s', Serial code s h s' ∧ (st.holder = none ∧ st.actor = s' ∨
    ∃ c k l, st.holder = some c ∧ st.calls.get? c = some k ∧ st.coros.get? c = some l ∧ Under code k.arg s' st.actor l)
  once : (h.map (·.id)).Nodup
  inh : ∀ d ∈ h, ∃ k, st.calls.get? d.id = some k ∧ k.arg = d.arg ∧ (k.phase = .replied (some d.res) ∨ k.phase = .lost)
  ran : ∀ c k r, st.calls.get? c = some k → k.phase = .replied (some r) ∨ k.seen = .got r → ∃ d ∈ h, d.id = c ∧ d.res = r
  retd : ∀ c, .ret c ∈ ls → ∃ k, st.calls.get? c = some k ∧ ((∃ r, k.phase = .replied r) ∨ k.phase = .lost)
  order : ∀ x d y, h = x ++ d :: y → ∀ d' ∈ y, ¬ ReturnedBefore ls d'.id d.id

theorem inv_init (code : Code S A L I R) (s : S) : Inv code s [] (init s) [] := by
  refine ⟨by simp [init], by simp, by simp [init], by simp [init], by simp [init], by simp [init], ⟨s, .nil, .inl ⟨rfl, rfl⟩⟩,
    List.nodup_nil, by simp, by simp [init], by simp, by simp⟩

/-- a label other than a return or a call adds no `ReturnedBefore`; a return adds none either, as no call follows it -/
theorem rb_snoc {ls : List (Label A I)} {l : Label A I} {c d : Nat} (h : ReturnedBefore (ls ++ [l]) c d) :
    ReturnedBefore ls c d ∨ ∃ a lk, l = .call d a lk ∧ .ret c ∈ ls := by
  obtain ⟨x, y, z, a, lk, e⟩ := h
  rcases List.eq_nil_or_concat z with rfl | ⟨z', w, rfl⟩
  · rw [List.append_nil] at e
    obtain ⟨e1, e2⟩ := List.append_inj' e rfl
    refine .inr ⟨a, lk, by simpa using e2, ?_⟩
    rw [e1]; simp
  · rw [List.concat_eq_append, ← List.append_assoc] at e
    obtain ⟨e1, _⟩ := List.append_inj' e rfl
    exact .inl ⟨x, y, z', a, lk, e1⟩

theorem order_same {code : Code S A L I R} {s : S} {ls : List (Label A I)} {st : St S A L R} {h : List (Done A R)} (hi : Inv code s ls st h)
    {l : Label A I} (hl : ∀ c a lk, l = .call c a lk → ∀ d ∈ h, d.id ≠ c) :
    ∀ x d y, h = x ++ d :: y → ∀ d' ∈ y, ¬ ReturnedBefore (ls ++ [l]) d'.id d.id := by
  intro x d y e d' hd' hr
  rcases rb_snoc hr with hr | ⟨a, lk, rfl, _⟩
  · exact hi.order x d y e d' hd' hr
  · exact hl _ _ _ rfl d (by rw [e]; simp) rfl

/-- a change of one call that neither runs before nor after -/
theorem inv_phase {code : Code S A L I R} {s : S} {ls : List (Label A I)} {st : St S A L R} {h : List (Done A R)} (hi : Inv code s ls st h)
    {l : Label A I} (hl : ∀ c a lk, l ≠ .call c a lk) {c : Nat} {k k' : Call A R} (hk : st.calls.get? c = some k) (ha : k'.arg = k.arg)
    (hlk : k'.locked = k.locked) (hp : k.phase ≠ .running) (hp' : k'.phase ≠ .running)
    (hrep : ∀ r, k'.phase = .replied (some r) ∨ k'.seen = .got r → k.phase = .replied (some r) ∨ k.seen = .got r)
    (hfin : ∀ r, k.phase = .replied (some r) ∨ k.phase = .lost → k'.phase = k.phase ∨ k'.phase = .lost)
    (hfin2 : ((∃ r, k.phase = .replied r) ∨ k.phase = .lost) → (∃ r, k'.phase = .replied r) ∨ k'.phase = .lost)
    (hret : ∀ c', l = .ret c' → c' = c ∧ ((∃ r, k'.phase = .replied r) ∨ k'.phase = .lost)) :
    Inv code s (ls ++ [l]) { st with calls := st.calls.set c k' } h := by
  have hc : st.coros.get? c = none := by
    false_or_by_contra
    rename_i hn
    obtain ⟨k0, h1, h2⟩ := hi.coro c hn
    rw [hk] at h1; cases h1; exact hp h2
  have hh : st.holder ≠ some c := by
    intro hn
    obtain ⟨k0, h1, h2⟩ := hi.hold c hn
    rw [hk] at h1; cases h1; exact hp h2
  constructor
  · intro c1 k1 h1
    simp only [Dict.get?_set] at h1
    split at h1
    · next e => subst e; cases h1; rw [ha, hlk]; exact List.mem_append_left _ (hi.called _ _ hk)
    · exact List.mem_append_left _ (hi.called _ _ h1)
  · intro c1 a lk h1
    simp only [Dict.get?_set]
    split
    · simp
    · rcases List.mem_append.mp h1 with h1 | h1
      · exact hi.calls _ _ _ h1
      · simp at h1; exact absurd h1.symm (hl _ _ _)
  · intro c1 k1 h1
    simp only [Dict.get?_set] at h1
    split at h1
    · cases h1; rw [hlk]; exact hi.locked _ _ hk
    · exact hi.locked _ _ h1
  · intro c1 h1
    have h2 := hi.coro c1 h1
    simp only [Dict.get?_set]
    split
    · next e => subst e; exact absurd hc h1
    · exact h2
  · intro c1 k1 h1 h2
    simp only [Dict.get?_set] at h1
    split at h1
    · cases h1; exact absurd h2 hp'
    · exact hi.runs _ _ h1 h2
  · intro c1 h1
    have h2 := hi.hold c1 h1
    simp only [Dict.get?_set]
    split
    · next e => subst e; exact absurd h1 hh
    · exact h2
  · obtain ⟨s', hs, h1 | ⟨c1, k1, l1, h1, h2, h3, h4⟩⟩ := hi.serial
    · exact ⟨s', hs, .inl h1⟩
    · refine ⟨s', hs, .inr ⟨c1, k1, l1, h1, ?_, h3, h4⟩⟩
      simp only [Dict.get?_set]
      rw [if_neg (by rintro rfl; exact hh h1)]; exact h2
  · exact hi.once
  · intro d hd
    obtain ⟨k1, h1, h2, h3⟩ := hi.inh d hd
    simp only [Dict.get?_set]
    split
    · next e =>
      rw [← e, hk] at h1; cases h1
      refine ⟨k', rfl, by rw [ha, h2], ?_⟩
      rcases hfin d.res h3 with e1 | e1
      · rw [e1]; exact h3
      · exact .inr e1
    · exact ⟨k1, h1, h2, h3⟩
  · intro c1 k1 r h1 h2
    simp only [Dict.get?_set] at h1
    split at h1
    · next e => subst e; cases h1; exact hi.ran _ _ _ hk (hrep r h2)
    · exact hi.ran _ _ _ h1 h2
  · intro c1 h1
    simp only [Dict.get?_set]
    rcases List.mem_append.mp h1 with h1 | h1
    · obtain ⟨k1, h2, h3⟩ := hi.retd c1 h1
      split
      · next e => subst e; rw [hk] at h2; cases h2; exact ⟨k', rfl, hfin2 h3⟩
      · exact ⟨k1, h2, h3⟩
    · simp at h1
      obtain ⟨rfl, h2⟩ := hret c1 h1.symm
      rw [if_pos rfl]
      exact ⟨k', rfl, h2⟩
  · exact order_same hi (fun c a lk e => absurd e (hl _ _ _))

/-- the method went on to an await -/
theorem inv_await {code : Code S A L I R} {s : S} {ls : List (Label A I)} {st : St S A L R} {h : List (Done A R)} (hi : Inv code s ls st h)
    {l : Label A I} (hl : ∀ c a lk, l ≠ .call c a lk) (hr : ∀ c, l ≠ .ret c) {c : Nat} {k : Call A R} (hk : st.calls.get? c = some k)
    (hp : k.phase = .running ∨ k.phase = .arrived ∧ st.holder = none) {s' s1 : S} {l1 : L} (hser : Serial code s h s') (hu : Under code k.arg s' s1 l1) :
    Inv code s (ls ++ [l]) { actor := s1, holder := some c, coros := st.coros.set c l1, calls := st.calls.set c { k with phase := .running } } h := by
  have hother : ∀ c1 k1, c1 ≠ c → st.calls.get? c1 = some k1 → k1.phase ≠ .running := by
    intro c1 k1 hne h1 h2
    have h3 := (hi.runs _ _ h1 h2).1
    rcases hp with hp | ⟨_, hp⟩
    · have := (hi.runs _ _ hk hp).1
      rw [this] at h3; exact hne (Option.some.inj h3).symm
    · rw [hp] at h3; cases h3
  constructor
  · intro c1 k1 h1
    simp only [Dict.get?_set] at h1
    split at h1
    · next e => subst e; cases h1; exact List.mem_append_left _ (hi.called c k hk)
    · exact List.mem_append_left _ (hi.called _ _ h1)
  · intro c1 a lk h1
    simp only [Dict.get?_set]
    split
    · simp
    · rcases List.mem_append.mp h1 with h1 | h1
      · exact hi.calls _ _ _ h1
      · simp at h1; exact absurd h1.symm (hl _ _ _)
  · intro c1 k1 h1
    simp only [Dict.get?_set] at h1
    split at h1
    · cases h1; exact hi.locked c k hk
    · exact hi.locked _ _ h1
  · intro c1 h1
    simp only [Dict.get?_set] at h1 ⊢
    split at h1
    · next e => rw [if_pos e]; exact ⟨_, rfl, rfl⟩
    · next e => rw [if_neg e]; exact hi.coro c1 h1
  · intro c1 k1 h1 h2
    simp only [Dict.get?_set] at h1 ⊢
    split at h1
    · next e => subst e; simp
    · next e => exact absurd h2 (hother _ _ (fun e' => e e'.symm) h1)
  · intro c1 h1
    cases h1
    simp
  · exact ⟨s', hser, .inr ⟨c, { k with phase := .running }, l1, rfl, by simp, by simp, hu⟩⟩
  · exact hi.once
  · intro d hd
    obtain ⟨k1, h1, h2, h3⟩ := hi.inh d hd
    simp only [Dict.get?_set]
    rw [if_neg]
    · exact ⟨k1, h1, h2, h3⟩
    · rintro rfl
      rw [hk] at h1; cases h1
      rcases hp with hp | ⟨hp, _⟩ <;> rw [hp] at h3 <;> rcases h3 with h3 | h3 <;> cases h3
  · intro c1 k1 r h1 h2
    simp only [Dict.get?_set] at h1
    split at h1
    · next e =>
      subst e; cases h1
      rcases h2 with h2 | h2
      · simp at h2
      · exact hi.ran c k _ hk (.inr h2)
    · exact hi.ran _ _ _ h1 h2
  · intro c1 h1
    rcases List.mem_append.mp h1 with h1 | h1
    · obtain ⟨k1, h2, h3⟩ := hi.retd c1 h1
      simp only [Dict.get?_set]
      rw [if_neg]
      · exact ⟨k1, h2, h3⟩
      · rintro rfl
        rw [hk] at h2; cases h2
        rcases hp with hp | ⟨hp, _⟩ <;> rw [hp] at h3 <;> rcases h3 with ⟨r, h3⟩ | h3 <;> cases h3
    · simp at h1; exact absurd h1.symm (hr _)
  · exact order_same hi (fun c a lk e => absurd e (hl _ _ _))

/-- the method ended -/
theorem inv_end {code : Code S A L I R} {s : S} {ls : List (Label A I)} {st : St S A L R} {h : List (Done A R)} (hi : Inv code s ls st h)
    {l : Label A I} (hl : ∀ c a lk, l ≠ .call c a lk) (hr : ∀ c, l ≠ .ret c) {c : Nat} {k : Call A R} (hk : st.calls.get? c = some k)
    (hp : k.phase = .running ∨ k.phase = .arrived ∧ st.holder = none) {s' s1 : S} {is : List I} {r : R} (hser : Serial code s h s')
    (he : Exec code k.arg s' is s1 r) :
    Inv code s (ls ++ [l]) { actor := s1, holder := none, coros := st.coros.erase c, calls := st.calls.set c { k with phase := .replied (some r) } }
      (h ++ [⟨c, k.arg, r⟩]) := by
  have hother : ∀ c1 k1, c1 ≠ c → st.calls.get? c1 = some k1 → k1.phase ≠ .running := by
    intro c1 k1 hne h1 h2
    have h3 := (hi.runs _ _ h1 h2).1
    rcases hp with hp | ⟨_, hp⟩
    · have := (hi.runs _ _ hk hp).1
      rw [this] at h3; exact hne (Option.some.inj h3).symm
    · rw [hp] at h3; cases h3
  have hnin : ∀ d ∈ h, d.id ≠ c := by
    rintro d hd rfl
    obtain ⟨k1, h1, h2, h3⟩ := hi.inh d hd
    rw [hk] at h1; cases h1
    rcases hp with hp | ⟨hp, _⟩ <;> rw [hp] at h3 <;> rcases h3 with h3 | h3 <;> cases h3
  have hnret : .ret c ∉ ls := by
    intro h1
    obtain ⟨k1, h2, h3⟩ := hi.retd c h1
    rw [hk] at h2; cases h2
    rcases hp with hp | ⟨hp, _⟩ <;> rw [hp] at h3 <;> rcases h3 with ⟨r, h3⟩ | h3 <;> cases h3
  constructor
  · intro c1 k1 h1
    simp only [Dict.get?_set] at h1
    split at h1
    · next e => subst e; cases h1; exact List.mem_append_left _ (hi.called c k hk)
    · exact List.mem_append_left _ (hi.called _ _ h1)
  · intro c1 a lk h1
    simp only [Dict.get?_set]
    split
    · simp
    · rcases List.mem_append.mp h1 with h1 | h1
      · exact hi.calls _ _ _ h1
      · simp at h1; exact absurd h1.symm (hl _ _ _)
  · intro c1 k1 h1
    simp only [Dict.get?_set] at h1
    split at h1
    · cases h1; exact hi.locked c k hk
    · exact hi.locked _ _ h1
  · intro c1 h1
    simp only [Dict.get?_erase] at h1
    split at h1
    · simp at h1
    · next e =>
      obtain ⟨k1, h2, h3⟩ := hi.coro c1 h1
      exact absurd h3 (hother _ _ (fun e' => e e'.symm) h2)
  · intro c1 k1 h1 h2
    simp only [Dict.get?_set] at h1
    split at h1
    · cases h1; simp at h2
    · next e => exact absurd h2 (hother _ _ (fun e' => e e'.symm) h1)
  · intro c1 h1; simp at h1
  · exact ⟨s1, .snoc hser he, .inl ⟨rfl, rfl⟩⟩
  · rw [List.map_append, List.nodup_append]
    refine ⟨hi.once, by simp, ?_⟩
    intro x hx y hy
    obtain ⟨d, hd, rfl⟩ := List.mem_map.mp hx
    simp at hy; subst hy
    exact hnin d hd
  · intro d hd
    simp only [Dict.get?_set]
    rcases List.mem_append.mp hd with hd | hd
    · rw [if_neg (fun e => hnin d hd e.symm)]
      exact hi.inh d hd
    · simp at hd; subst hd
      rw [if_pos rfl]
      exact ⟨_, rfl, rfl, .inl rfl⟩
  · intro c1 k1 r1 h1 h2
    simp only [Dict.get?_set] at h1
    split at h1
    · next e =>
      subst e; cases h1
      rcases h2 with h2 | h2
      · simp at h2; subst h2; exact ⟨⟨c, k.arg, r⟩, by simp, rfl, rfl⟩
      · obtain ⟨d, hd, h3, _⟩ := hi.ran _ _ _ hk (.inr h2)
        exact absurd h3 (hnin d hd)
    · obtain ⟨d, hd, h3⟩ := hi.ran _ _ _ h1 h2
      exact ⟨d, List.mem_append_left _ hd, h3⟩
  · intro c1 h1
    rcases List.mem_append.mp h1 with h1 | h1
    · obtain ⟨k1, h2, h3⟩ := hi.retd c1 h1
      simp only [Dict.get?_set]
      rw [if_neg (by rintro rfl; exact hnret h1)]
      exact ⟨k1, h2, h3⟩
    · simp at h1; exact absurd h1.symm (hr _)
  · intro x d y e d' hd' hrb
    rcases rb_snoc hrb with hrb | ⟨a, lk, rfl, _⟩
    · rcases List.eq_nil_or_concat y with rfl | ⟨y', w, rfl⟩
      · cases hd'
      · rw [List.concat_eq_append] at e hd'
        have e' : h ++ [⟨c, k.arg, r⟩] = (x ++ d :: y') ++ [w] := by rw [e]; simp
        obtain ⟨e1, e2⟩ := List.append_inj' e' rfl
        rcases List.mem_append.mp hd' with hd' | hd'
        · exact hi.order x d y' e1 d' hd' hrb
        · simp at e2 hd'
          subst hd'; subst e2
          obtain ⟨x1, y1, z1, a, lk, e3⟩ := hrb
          exact hnret (by rw [e3]; simp)
    · exact hl _ _ _ rfl

theorem inv_went {code : Code S A L I R} {s : S} {ls : List (Label A I)} {st st0 : St S A L R} {h : List (Done A R)} (hi : Inv code s ls st h)
    {l : Label A I} (hl : ∀ c a lk, l ≠ .call c a lk) (hr : ∀ c, l ≠ .ret c) {c : Nat} {k : Call A R} (hk : st.calls.get? c = some k)
    (hp : k.phase = .running ∨ k.phase = .arrived ∧ st.holder = none) (h0 : st0 = { st with holder := some c }) {o : S × (L ⊕ R)} {s' : S}
    (hser : Serial code s h s') (hinl : ∀ s1 l1, o = (s1, .inl l1) → Under code k.arg s' s1 l1)
    (hinr : ∀ s1 r, o = (s1, .inr r) → ∃ is, Exec code k.arg s' is s1 r) :
    ∃ e, Inv code s (ls ++ [l]) (st0.went c k o) (h ++ e) := by
  subst h0
  obtain ⟨s1, l1 | r⟩ := o
  · exact ⟨[], by rw [List.append_nil]; exact inv_await hi hl hr hk hp hser (hinl _ _ rfl)⟩
  · obtain ⟨is, he⟩ := hinr _ _ rfl
    refine ⟨[⟨c, k.arg, r⟩], ?_⟩
    have := inv_end hi hl hr hk hp hser he
    simpa only [St.went, if_true] using this

/-- every step extends the explanation -/
theorem inv_step {code : Code S A L I R} {s : S} {ls : List (Label A I)} {st st' : St S A L R} {h : List (Done A R)} (hi : Inv code s ls st h)
    {l : Label A I} (hlk : ∀ c a lk, l = .call c a lk → lk = true) (hs : step code st l = some st') :
    ∃ e, Inv code s (ls ++ [l]) st' (h ++ e) := by
  have same : ∀ {x}, Inv code s (ls ++ [l]) x h → ∃ e, Inv code s (ls ++ [l]) x (h ++ e) := fun hx => ⟨[], by rw [List.append_nil]; exact hx⟩
  have resumed : ∀ {c k l1 i}, st.calls.get? c = some k → st.coros.get? c = some l1 → k.phase = .running → (∀ c a lk, l ≠ .call c a lk) → (∀ c, l ≠ .ret c) →
      ∃ e, Inv code s (ls ++ [l]) (st.went c k (code.resume l1 i st.actor)) (h ++ e) := by
    intro c k l1 i hk hc hp h1 h2
    obtain ⟨hh, _⟩ := hi.runs _ _ hk hp
    obtain ⟨s', hser, hx | ⟨c1, k1, l2, h3, h4, h5, h6⟩⟩ := hi.serial
    · rw [hx.1] at hh; cases hh
    · rw [hh] at h3; cases h3
      rw [hk] at h4; cases h4
      rw [hc] at h5; cases h5
      refine inv_went hi h1 h2 hk (.inl hp) (by rw [← hh]) hser ?_ ?_
      · intro s1 l3 e; exact .more h6 e
      · intro s1 r e; exact exec_of_under h6 (.last e)
  cases l with
  | call c a lk =>
    simp only [step] at hs
    split at hs
    · cases hs
    · next hn =>
      have hnone : st.calls.get? c = none := by
        simpa [Dict.has_iff, ← Dict.get?_isSome_iff] using hn
      injection hs with hs; subst hs
      cases hlk c a lk rfl
      apply same
      have hne : ∀ c1 k1, st.calls.get? c1 = some k1 → ¬ c = c1 := by rintro c1 k1 h1 rfl; rw [hnone] at h1; cases h1
      constructor
      · intro c1 k1 h1
        simp only [Dict.get?_set] at h1
        split at h1
        · next e => subst e; cases h1; simp
        · exact List.mem_append_left _ (hi.called _ _ h1)
      · intro c1 a1 lk1 h1
        simp only [Dict.get?_set]
        split
        · simp
        · next e =>
          rcases List.mem_append.mp h1 with h1 | h1
          · exact hi.calls _ _ _ h1
          · simp at h1; exact absurd h1.1.symm e
      · intro c1 k1 h1
        simp only [Dict.get?_set] at h1
        split at h1
        · cases h1; rfl
        · exact hi.locked _ _ h1
      · intro c1 h1
        obtain ⟨k1, h2, h3⟩ := hi.coro c1 h1
        exact ⟨k1, by simp only [Dict.get?_set]; rw [if_neg (hne _ _ h2)]; exact h2, h3⟩
      · intro c1 k1 h1 h2
        simp only [Dict.get?_set] at h1
        split at h1
        · cases h1; simp at h2
        · exact hi.runs _ _ h1 h2
      · intro c1 h1
        obtain ⟨k1, h2, h3⟩ := hi.hold c1 h1
        exact ⟨k1, by simp only [Dict.get?_set]; rw [if_neg (hne _ _ h2)]; exact h2, h3⟩
      · obtain ⟨s', hser, hx | ⟨c1, k1, l2, h3, h4, h5, h6⟩⟩ := hi.serial
        · exact ⟨s', hser, .inl hx⟩
        · exact ⟨s', hser, .inr ⟨c1, k1, l2, h3, by simp only [Dict.get?_set]; rw [if_neg (hne _ _ h4)]; exact h4, h5, h6⟩⟩
      · exact hi.once
      · intro d hd
        obtain ⟨k1, h2, h3⟩ := hi.inh d hd
        exact ⟨k1, by simp only [Dict.get?_set]; rw [if_neg (hne _ _ h2)]; exact h2, h3⟩
      · intro c1 k1 r h1 h2
        simp only [Dict.get?_set] at h1
        split at h1
        · cases h1; simp at h2
        · exact hi.ran _ _ _ h1 h2
      · intro c1 h1
        rcases List.mem_append.mp h1 with h1 | h1
        · obtain ⟨k1, h2, h3⟩ := hi.retd c1 h1
          exact ⟨k1, by simp only [Dict.get?_set]; rw [if_neg (hne _ _ h2)]; exact h2, h3⟩
        · simp at h1
      · refine order_same hi ?_
        intro c1 a1 lk1 e d hd e1
        cases e
        obtain ⟨k1, h2, _⟩ := hi.inh d hd
        exact hne _ _ h2 e1.symm
  | arrive c =>
    simp only [step] at hs
    split at hs
    · next k hk =>
      split at hs
      · next hp =>
        injection hs with hs; subst hs
        exact same (inv_phase hi (by simp) hk rfl rfl (by rw [hp]; simp) (by simp) (by simp +contextual) (by rw [hp]; simp) (by rw [hp]; simp) (by simp))
      · cases hs
    · cases hs
  | start c =>
    simp only [step] at hs
    split at hs
    · next k hk =>
      split at hs
      · next hp =>
        have hp' : k.phase = .arrived := hp
        have hlk' := hi.locked _ _ hk
        rw [if_pos rfl, if_pos hlk'] at hs
        split at hs
        · next hh =>
          injection hs with hs; subst hs
          obtain ⟨s', hser, hx | ⟨c1, k1, l2, h3, _⟩⟩ := hi.serial
          · refine inv_went hi (by simp) (by simp) hk (.inr ⟨hp', hh⟩) rfl hser ?_ ?_
            · intro s1 l1 e; rw [hx.2] at e; exact .start e
            · intro s1 r e; rw [hx.2] at e; exact ⟨[], .plain e⟩
          · rw [hh] at h3; cases h3
        · cases hs
      · cases hs
    · cases hs
  | resume c i =>
    simp only [step] at hs
    split at hs
    · next k l1 hk hc =>
      split at hs
      · next hp =>
        injection hs with hs; subst hs
        exact resumed hk hc hp (by simp) (by simp)
      · cases hs
    · cases hs
  | cancel c =>
    simp only [step] at hs
    split at hs
    · next k hk hc =>
      split at hs
      · next hp =>
        injection hs with hs; subst hs
        exact same (inv_phase hi (by simp) hk rfl rfl (by rw [hp]; simp) (by simp) (by simp +contextual) (by rw [hp]; simp) (by rw [hp]; simp) (by simp))
      · cases hs
    · next k l1 hk hc =>
      split at hs
      · next hp =>
        injection hs with hs; subst hs
        exact resumed hk hc hp (by simp) (by simp)
      · cases hs
    · cases hs
  | refuse c =>
    simp only [step] at hs
    split at hs
    · next k hk =>
      split at hs
      · next hp =>
        injection hs with hs; subst hs
        exact same (inv_phase hi (by simp) hk rfl rfl (by rw [hp]; simp) (by simp) (by simp +contextual) (by rw [hp]; simp) (by rw [hp]; simp) (by simp))
      · cases hs
    · cases hs
  | lose c =>
    simp only [step] at hs
    split at hs
    · next k hk =>
      split at hs
      · next hp =>
        injection hs with hs; subst hs
        exact same (inv_phase hi (by simp) hk rfl rfl (by rw [hp]; simp) (by simp) (by simp +contextual) (by simp) (by simp) (by simp))
      · next hp =>
        injection hs with hs; subst hs
        exact same (inv_phase hi (by simp) hk rfl rfl (by rw [hp]; simp) (by simp) (by simp +contextual) (by simp) (by simp) (by simp))
      · simp at hs
    · cases hs
  | ret c =>
    simp only [step] at hs
    split at hs
    · next k hk =>
      split at hs
      · next r hp _ =>
        injection hs with hs; subst hs
        exact same (inv_phase hi (by simp) hk rfl rfl (by rw [hp]; simp) (by simp [hp]) (by simp +contextual [hp]) (by simp) (by simp) (by simp [hp]))
      · next hp _ =>
        injection hs with hs; subst hs
        exact same (inv_phase hi (by simp) hk rfl rfl (by rw [hp]; simp) (by simp [hp]) (by simp +contextual [hp]) (by simp) (by simp) (by simp [hp]))
      · cases hs
    · cases hs
  | giveUp c =>
    simp only [step] at hs
    split at hs
    · next k hk =>
      split at hs
      · next hp =>
        injection hs with hs; subst hs
        -- the call may be running
        apply same
        constructor
        · intro c1 k1 h1
          simp only [Dict.get?_set] at h1
          split at h1
          · next e => subst e; cases h1; exact List.mem_append_left _ (hi.called c k hk)
          · exact List.mem_append_left _ (hi.called _ _ h1)
        · intro c1 a1 lk1 h1
          simp only [Dict.get?_set]
          split
          · simp
          · rcases List.mem_append.mp h1 with h1 | h1
            · exact hi.calls _ _ _ h1
            · simp at h1
        · intro c1 k1 h1
          simp only [Dict.get?_set] at h1
          split at h1
          · cases h1; exact hi.locked c k hk
          · exact hi.locked _ _ h1
        · intro c1 h1
          obtain ⟨k1, h2, h3⟩ := hi.coro c1 h1
          simp only [Dict.get?_set]
          split
          · next e => subst e; rw [hk] at h2; cases h2; exact ⟨_, rfl, h3⟩
          · exact ⟨k1, h2, h3⟩
        · intro c1 k1 h1 h2
          simp only [Dict.get?_set] at h1
          split at h1
          · next e => subst e; cases h1; exact hi.runs c k hk h2
          · exact hi.runs _ _ h1 h2
        · intro c1 h1
          obtain ⟨k1, h2, h3⟩ := hi.hold c1 h1
          simp only [Dict.get?_set]
          split
          · next e => subst e; rw [hk] at h2; cases h2; exact ⟨_, rfl, h3⟩
          · exact ⟨k1, h2, h3⟩
        · obtain ⟨s', hser, hx | ⟨c1, k1, l2, h3, h4, h5, h6⟩⟩ := hi.serial
          · exact ⟨s', hser, .inl hx⟩
          · refine ⟨s', hser, .inr ?_⟩
            by_cases e : c = c1
            · subst e; rw [hk] at h4; cases h4
              exact ⟨c, { k with seen := .failed }, l2, h3, by simp, h5, h6⟩
            · exact ⟨c1, k1, l2, h3, by simp only [Dict.get?_set]; rw [if_neg e]; exact h4, h5, h6⟩
        · exact hi.once
        · intro d hd
          obtain ⟨k1, h2, h3⟩ := hi.inh d hd
          simp only [Dict.get?_set]
          split
          · next e => rw [← e, hk] at h2; cases h2; exact ⟨_, rfl, h3⟩
          · exact ⟨k1, h2, h3⟩
        · intro c1 k1 r h1 h2
          simp only [Dict.get?_set] at h1
          split at h1
          · next e =>
            subst e; cases h1
            rcases h2 with h2 | h2
            · exact hi.ran c k _ hk (.inl h2)
            · simp at h2
          · exact hi.ran _ _ _ h1 h2
        · intro c1 h1
          rcases List.mem_append.mp h1 with h1 | h1
          · obtain ⟨k1, h2, h3⟩ := hi.retd c1 h1
            simp only [Dict.get?_set]
            split
            · next e => subst e; rw [hk] at h2; cases h2; exact ⟨_, rfl, h3⟩
            · exact ⟨k1, h2, h3⟩
          · simp at h1
        · exact order_same hi (fun c a lk e => by cases e)
      · cases hs
    · cases hs

theorem inv_run {code : Code S A L I R} {s : S} {ls : List (Label A I)} {st : St S A L R} (h : Run code s ls st) (hl : AllLocked ls) :
    ∃ hist, Inv code s ls st hist := by
  induction h with
  | init => exact ⟨[], inv_init code s⟩
  | snoc h hs ih =>
    obtain ⟨hist, hi⟩ := ih (fun c a lk h => hl c a lk (List.mem_append_left _ h))
    obtain ⟨e, he⟩ := inv_step hi (fun c a lk e => hl c a lk (by subst e; simp)) hs
    exact ⟨_, he⟩

theorem explains_of_inv {code : Code S A L I R} {s : S} {ls : List (Label A I)} {st : St S A L R} {h : List (Done A R)} (hi : Inv code s ls st h) :
    Explains code s ls st h := by
  refine ⟨?_, hi.once, ?_, fun c k r h1 h2 => hi.ran c k r h1 (.inl h2), ?_, fun c k r h1 h2 => hi.ran c k r h1 (.inr h2), hi.order⟩
  · obtain ⟨s', hser, hx | ⟨c1, k1, l2, h3, h4, h5, h6⟩⟩ := hi.serial
    · refine ⟨s', hser, .inl ⟨hx.2, fun c k h1 h2 => ?_⟩⟩
      have := (hi.runs c k h1 h2).1
      rw [hx.1] at this; cases this
    · obtain ⟨k2, h7, h8⟩ := hi.hold _ h3
      rw [h4] at h7; cases h7
      refine ⟨s', hser, .inr ⟨c1, k1, l2, h4, h8, h6, ?_, ?_⟩⟩
      · rintro d hd rfl
        obtain ⟨k3, h9, _, h10⟩ := hi.inh d hd
        rw [h4] at h9; cases h9
        rw [h8] at h10; rcases h10 with h10 | h10 <;> cases h10
      · intro c' k' h9 h10
        have := (hi.runs c' k' h9 h10).1
        rw [h3] at this; exact (Option.some.inj this).symm
  · intro d hd
    obtain ⟨k, h1, h2, _⟩ := hi.inh d hd
    exact ⟨k.locked, h2 ▸ hi.called _ _ h1⟩
  · rintro c k h1 h2 d hd rfl
    obtain ⟨k3, h9, _, h10⟩ := hi.inh d hd
    rw [h1] at h9; cases h9
    rcases h2 with h2 | h2 | h2 <;> rw [h2] at h10 <;> rcases h10 with h10 | h10 <;> cases h10

end Xoscar.Linear
