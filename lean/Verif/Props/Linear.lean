import Verif.Proof.Linear
/-!
# C83: an actor is a linearizable object
-/
namespace Xoscar.Linear
variable {S A L I R : Type}

/-- **C83**: in every history in which only methods that take the lock are called — whatever the methods do, however the messages of the
calls are delayed or lost, whichever tasks are cancelled at whichever of their awaits, whichever callers give up — the calls that ran
can be put in an order, one after the other, that explains every result a caller got and the state of the actor, and that has every call
behind all the calls that had returned when it was made. -/
theorem linearizable {code : Code S A L I R} {s : S} {ls : List (Label A I)} {st : St S A L R} (h : Run code s ls st) (hl : AllLocked ls) :
    ∃ hist, Explains code s ls st hist := by
  obtain ⟨hist, hi⟩ := inv_run h hl
  exact ⟨hist, explains_of_inv hi⟩

/-- further steps from `st` -/
inductive More (code : Code S A L I R) (st : St S A L R) : List (Label A I) → St S A L R → Prop
  | nil : More code st [] st
  | snoc {ls l st1 st2} : More code st ls st1 → step code st1 l = some st2 → More code st (ls ++ [l]) st2

theorem run_more {code : Code S A L I R} {s : S} {ls ls' : List (Label A I)} {st st' : St S A L R} (h : Run code s ls st)
    (m : More code st ls' st') : Run code s (ls ++ ls') st' := by
  induction m with
  | nil => rw [List.append_nil]; exact h
  | snoc _ hs ih => rw [← List.append_assoc]; exact .snoc ih hs

/-- The order of the calls that ended does not depend on what happens afterwards: later calls come behind them. -/
theorem order_stays {code : Code S A L I R} {s : S} {ls : List (Label A I)} {st : St S A L R} (h : Run code s ls st) (hl : AllLocked ls) :
    ∃ hist, Explains code s ls st hist ∧
      ∀ ls' st', More code st ls' st' → AllLocked ls' → ∃ e, Explains code s (ls ++ ls') st' (hist ++ e) := by
  obtain ⟨hist, hi⟩ := inv_run h hl
  refine ⟨hist, explains_of_inv hi, ?_⟩
  have : ∀ ls' st', More code st ls' st' → AllLocked ls' → ∃ e, Inv code s (ls ++ ls') st' (hist ++ e) := by
    intro ls' st' m hl'
    induction m with
    | nil => exact ⟨[], by simpa using hi⟩
    | snoc _ hs ih =>
      obtain ⟨e, he⟩ := ih (fun c a lk h => hl' c a lk (List.mem_append_left _ h))
      obtain ⟨e', he'⟩ := inv_step he (fun c a lk e => hl' c a lk (by subst e; simp)) hs
      exact ⟨e ++ e', by simpa using he'⟩
  intro ls' st' m hl'
  obtain ⟨e, he⟩ := this ls' st' m hl'
  exact ⟨e, explains_of_inv he⟩

/-! ## progress -/

theorem more_append {code : Code S A L I R} {st st1 st2 : St S A L R} {ls ls' : List (Label A I)} (h : More code st ls st1)
    (h' : More code st1 ls' st2) : More code st (ls ++ ls') st2 := by
  induction h' with
  | nil => rw [List.append_nil]; exact h
  | snoc _ hs ih => rw [← List.append_assoc]; exact .snoc ih hs

theorem ends_more {code : Code S A L I R} {c : Nat} {l : L} {s s' : S} {is : List I} {r : R} (he : Ends code l s is s' r) :
    ∀ (st : St S A L R) (k : Call A R), st.actor = s → st.calls.get? c = some k → k.phase = .running →
      st.coros.get? c = some l → st.holder = some c →
      ∃ ls st', More code st ls st' ∧ AllLocked ls ∧ st'.actor = s' ∧ st'.holder = none ∧
        st'.calls.get? c = some { k with phase := .replied (some r) } := by
  induction he with
  | @last l i s s' r h =>
    intro st k h1 h2 h3 h5 h6
    have hs : step code st (.resume c i) = some (st.went c k (s', .inr r)) := by simp only [step, h2, h5, h3, h1, h]; rfl
    refine ⟨[] ++ [.resume c i], _, .snoc .nil hs, ?_, ?_⟩
    · intro c a lk hm; simp at hm
    · simp [St.went, h6]
  | @more l i s s1 l1 is s' r h _ ih =>
    intro st k h1 h2 h3 h5 h6
    have hs : step code st (.resume c i) = some (st.went c k (s1, .inl l1)) := by simp only [step, h2, h5, h3, h1, h]; rfl
    obtain ⟨ls, st', m, h7, h8, h9, h10⟩ := ih (st.went c k (s1, .inl l1)) { k with phase := .running } rfl (by simp [St.went]) rfl
      (by simp [St.went]) (by simp [St.went, h6])
    refine ⟨_, st', more_append (.snoc (ls := []) .nil hs) m, ?_, h8, h9, by rw [h10]⟩
    intro c a lk hm
    rcases List.mem_append.mp hm with hm | hm
    · simp at hm
    · exact h7 _ _ _ hm

/-- The order is not bought with refusing calls: in every such history, when no method is under way, a call whose message is under way or
waits at the pool can be served and return; what it returns and leaves is what its method, alone on the actor's state, returns and
leaves. -/
theorem can_complete {code : Code S A L I R} {s : S} {ls : List (Label A I)} {st : St S A L R} (h : Run code s ls st) (hl : AllLocked ls)
    (idle : ∀ c k, st.calls.get? c = some k → k.phase ≠ .running) {c : Nat} {k : Call A R} (hc : st.calls.get? c = some k)
    (hp : k.phase = .sent ∨ k.phase = .arrived) (hw : k.seen = .waiting) {is : List I} {s' : S} {r : R}
    (he : Exec code k.arg st.actor is s' r) :
    ∃ ls' st', More code st ls' st' ∧ AllLocked ls' ∧ st'.actor = s' ∧ ∃ k', st'.calls.get? c = some k' ∧ k'.seen = .got r := by
  obtain ⟨hist, hi⟩ := inv_run h hl
  have hh : st.holder = none := by
    cases e : st.holder with
    | none => rfl
    | some c1 =>
      obtain ⟨k1, h1, h2⟩ := hi.hold c1 e
      exact absurd h2 (idle _ _ h1)
  have hlk := hi.locked c k hc
  -- it has arrived
  have arr : ∃ ls1 st1 k1, More code st ls1 st1 ∧ AllLocked ls1 ∧ st1.actor = st.actor ∧ st1.holder = none ∧ st1.calls.get? c = some k1 ∧
      k1.phase = .arrived ∧ k1.seen = .waiting ∧ k1.locked = true ∧ k1.arg = k.arg := by
    rcases hp with hp | hp
    · have hs1 : step code st (.arrive c) = some (st.phase c k .arrived) := by simp only [step, hc, hp]; rfl
      refine ⟨[] ++ [.arrive c], st.phase c k .arrived, { k with phase := .arrived }, .snoc .nil hs1, ?_, rfl, hh, by simp [St.phase], rfl, hw, hlk, rfl⟩
      intro c a lk hm; simp at hm
    · exact ⟨[], st, k, .nil, (by intro c a lk hm; cases hm), rfl, hh, hc, hp, hw, hlk, rfl⟩
  obtain ⟨ls1, st1, k1, m1, al1, ha, hh1, hc1, hp1, hw1, hlk1, hk1⟩ := arr
  rw [← ha, ← hk1] at he
  -- it has ended
  have don : ∃ ls2 st2, More code st1 ls2 st2 ∧ AllLocked ls2 ∧ st2.actor = s' ∧ st2.calls.get? c = some { k1 with phase := .replied (some r) } := by
    cases he with
    | plain hst =>
      have hs2 : step code st1 (.start c) = some ({ st1 with holder := some c }.went c k1 (s', .inr r)) := by
        simp only [step, hc1, hp1, hlk1, hh1, if_true, hst]
      refine ⟨[] ++ [.start c], _, .snoc .nil hs2, ?_, rfl, by simp [St.went]⟩
      intro c a lk hm; simp at hm
    | async hst hend =>
      rename_i s1 l
      have hs2 : step code st1 (.start c) = some ({ st1 with holder := some c }.went c k1 (s1, .inl l)) := by
        simp only [step, hc1, hp1, hlk1, hh1, if_true, hst]
      obtain ⟨ls2, st2, m, h1, h2, _, h3⟩ := ends_more (c := c) hend ({ st1 with holder := some c }.went c k1 (s1, .inl l)) { k1 with phase := .running }
        rfl (by simp [St.went]) rfl (by simp [St.went]) (by simp [St.went])
      refine ⟨_, st2, more_append (.snoc (ls := []) .nil hs2) m, ?_, h2, by rw [h3]⟩
      intro c a lk hm
      rcases List.mem_append.mp hm with hm | hm
      · simp at hm
      · exact h1 _ _ _ hm
  obtain ⟨ls2, st2, m2, al2, h1, h2⟩ := don
  have hs3 : step code st2 (.ret c) = some { st2 with calls := st2.calls.set c { k1 with phase := .replied (some r), seen := .got r } } := by
    simp only [step, h2, hw1]
  refine ⟨_, _, .snoc (more_append m1 m2) hs3, ?_, h1, { k1 with phase := .replied (some r), seen := .got r }, by simp, rfl⟩
  intro c a lk hm
  rcases List.mem_append.mp hm with hm | hm
  · rcases List.mem_append.mp hm with hm | hm
    · exact al1 _ _ _ hm
    · exact al2 _ _ _ hm
  · simp at hm

/-! ## also without the lock -/

/-- how far a call is -/
def rank : Phase R → Nat
  | .sent => 0
  | .arrived => 1
  | .running => 2
  | .replied _ => 3
  | .lost => 3

theorem went_calls (st : St S A L R) (c : Nat) (k : Call A R) (o : S × (L ⊕ R)) :
    ∃ p, (st.went c k o).calls = st.calls.set c { k with phase := p } ∧ 2 ≤ rank p := by
  obtain ⟨s, l | r⟩ := o
  · exact ⟨.running, rfl, by simp [rank]⟩
  · exact ⟨.replied (some r), rfl, by simp [rank]⟩

/-- calls only go on; a method is called only for one that has arrived -/
theorem step_rank {code : Code S A L I R} {st st' : St S A L R} {l : Label A I} (hs : step code st l = some st') {c : Nat} {k : Call A R}
    (hk : st.calls.get? c = some k) :
    ∃ k', st'.calls.get? c = some k' ∧ k'.arg = k.arg ∧ rank k.phase ≤ rank k'.phase ∧
      (l = .start c → k.phase = .arrived ∧ 2 ≤ rank k'.phase) := by
  have setc : ∀ {d k0 k1 x}, x.calls = st.calls.set d k1 → st.calls.get? d = some k0 → k1.arg = k0.arg → rank k0.phase ≤ rank k1.phase →
      (l = .start c → d = c ∧ k0.phase = .arrived ∧ 2 ≤ rank k1.phase) →
      ∃ k' : Call A R, (x : St S A L R).calls.get? c = some k' ∧ k'.arg = k.arg ∧ rank k.phase ≤ rank k'.phase ∧
        (l = .start c → k.phase = .arrived ∧ 2 ≤ rank k'.phase) := by
    intro d k0 k1 x h1 h2 h3 h4 h5
    rw [h1, Dict.get?_set]
    by_cases e : d = c
    · subst e; rw [hk] at h2; cases h2
      exact ⟨k1, by simp, h3, h4, fun e => (h5 e).2⟩
    · exact ⟨k, by rw [if_neg e]; exact hk, rfl, Nat.le_refl _, fun e1 => absurd (h5 e1).1 e⟩
  cases l with
  | call d a lk =>
    simp only [step] at hs
    split at hs
    · cases hs
    · next hn =>
      injection hs with hs; subst hs
      have hnone : st.calls.get? d = none := by simpa [Dict.has_iff, ← Dict.get?_isSome_iff] using hn
      refine ⟨k, ?_, rfl, Nat.le_refl _, by simp⟩
      simp only [Dict.get?_set]
      rw [if_neg (by rintro rfl; rw [hnone] at hk; cases hk)]; exact hk
  | arrive d =>
    simp only [step] at hs
    split at hs
    · next k0 hk0 =>
      split at hs
      · next hp => injection hs with hs; subst hs; exact setc rfl hk0 rfl (by rw [hp]; simp [rank]) (by simp)
      · simp at hs
    · cases hs
  | start d =>
    simp only [step] at hs
    split at hs
    · next k0 hk0 =>
      split at hs
      · next hp =>
        have hp' : k0.phase = .arrived := hp
        rw [if_pos rfl] at hs
        have : ∃ (x : St S A L R) (o : S × (L ⊕ R)), x.calls = st.calls ∧ st' = x.went d k0 o := by
          split at hs
          · split at hs
            · injection hs with hs; subst hs; exact ⟨{ st with holder := some d }, _, rfl, rfl⟩
            · cases hs
          · injection hs with hs; subst hs; exact ⟨_, _, rfl, rfl⟩
        obtain ⟨x, o, hx, rfl⟩ := this
        obtain ⟨p, h1, h2⟩ := went_calls x d k0 o
        refine setc (k1 := { k0 with phase := p }) (h1.trans (by rw [hx])) hk0 rfl (by rw [hp']; exact Nat.le_trans (by simp [rank]) h2) ?_
        intro e; cases e; exact ⟨rfl, hp', h2⟩
      · simp at hs
    · cases hs
  | resume d i =>
    simp only [step] at hs
    split at hs
    · next k0 l0 hk0 hc0 =>
      split at hs
      · next hp =>
        injection hs with hs; subst hs
        obtain ⟨p, h1, h2⟩ := went_calls st d k0 (code.resume l0 i st.actor)
        exact setc h1 hk0 rfl (by rw [hp]; exact h2) (by simp)
      · simp at hs
    · cases hs
  | cancel d =>
    simp only [step] at hs
    split at hs
    · next k0 hk0 hc0 =>
      split at hs
      · next hp => injection hs with hs; subst hs; exact setc rfl hk0 rfl (by rw [hp]; simp [rank]) (by simp)
      · simp at hs
    · next k0 l0 hk0 hc0 =>
      split at hs
      · next hp =>
        injection hs with hs; subst hs
        obtain ⟨p, h1, h2⟩ := went_calls st d k0 (code.resume l0 code.cancelled st.actor)
        exact setc h1 hk0 rfl (by rw [hp]; exact h2) (by simp)
      · simp at hs
    · cases hs
  | refuse d =>
    simp only [step] at hs
    split at hs
    · next k0 hk0 =>
      split at hs
      · next hp => injection hs with hs; subst hs; exact setc rfl hk0 rfl (by rw [hp]; simp [rank]) (by simp)
      · simp at hs
    · cases hs
  | lose d =>
    simp only [step] at hs
    split at hs
    · next k0 hk0 =>
      split at hs
      · next hp => injection hs with hs; subst hs; exact setc rfl hk0 rfl (by rw [hp]; simp [rank]) (by simp)
      · next hp => injection hs with hs; subst hs; exact setc rfl hk0 rfl (by rw [hp]; simp [rank]) (by simp)
      · simp at hs
    · cases hs
  | ret d =>
    simp only [step] at hs
    split at hs
    · next k0 hk0 =>
      split at hs
      · next hp _ => injection hs with hs; subst hs; exact setc rfl hk0 rfl (Nat.le_refl _) (by simp)
      · next hp _ => injection hs with hs; subst hs; exact setc rfl hk0 rfl (Nat.le_refl _) (by simp)
      · cases hs
    · cases hs
  | giveUp d =>
    simp only [step] at hs
    split at hs
    · next k0 hk0 =>
      split at hs
      · next hp => injection hs with hs; subst hs; exact setc rfl hk0 rfl (Nat.le_refl _) (by simp)
      · simp at hs
    · cases hs

/-- The method of a call is called at most once — with or without the lock. -/
theorem started_once {code : Code S A L I R} {s : S} {ls : List (Label A I)} {st : St S A L R} (h : Run code s ls st) (x y z : List (Label A I))
    (c : Nat) : ls ≠ x ++ [.start c] ++ y ++ [.start c] ++ z := by
  have key : ∀ {ls st}, Run code s ls st → (.start c ∈ ls → ∃ k, st.calls.get? c = some k ∧ 2 ≤ rank k.phase) ∧
      ∀ x y z, ls ≠ x ++ [.start c] ++ y ++ [.start c] ++ z := by
    intro ls st h
    induction h with
    | init => exact ⟨by simp, by intro x y z e; simp at e⟩
    | @snoc ls l st st' h hs ih =>
      obtain ⟨ih1, ih2⟩ := ih
      constructor
      · intro hm
        rcases List.mem_append.mp hm with hm | hm
        · obtain ⟨k, h1, h2⟩ := ih1 hm
          obtain ⟨k', h3, _, h4, _⟩ := step_rank hs h1
          exact ⟨k', h3, Nat.le_trans h2 h4⟩
        · simp at hm; subst hm
          have : ∃ k, st.calls.get? c = some k := by
            simp only [step] at hs
            split at hs
            · next k hk => exact ⟨k, hk⟩
            · cases hs
          obtain ⟨k, hk⟩ := this
          obtain ⟨k', h3, _, _, h4⟩ := step_rank hs hk
          exact ⟨k', h3, (h4 rfl).2⟩
      · intro x y z e
        rcases List.eq_nil_or_concat z with rfl | ⟨z', w, rfl⟩
        · rw [List.append_nil] at e
          obtain ⟨e1, e2⟩ := List.append_inj' e rfl
          simp at e2; subst e2
          obtain ⟨k, h1, h2⟩ := ih1 (by rw [e1]; simp)
          obtain ⟨_, _, _, _, h4⟩ := step_rank hs h1
          rw [(h4 rfl).1] at h2
          simp [rank] at h2
        · rw [List.concat_eq_append, ← List.append_assoc] at e
          exact ih2 _ _ _ (List.append_inj' e rfl).1
  exact (key h).2 x y z

/-! ## without the lock -/

/-- an actor with a number and a method that reads it, awaits, and writes the number plus one -/
def counter : Code Nat Unit Nat Unit Nat where
  start _ s := (s, .inl s)
  resume l _ _ := (l + 1, .inr (l + 1))
  cancelled := ()

def steps (code : Code S A L I R) (st : St S A L R) (ls : List (Label A I)) : Option (St S A L R) := ls.foldlM (step code) st

theorem run_of {code : Code S A L I R} {s : S} {ls ls' : List (Label A I)} {st st' : St S A L R} (h : Run code s ls st)
    (e : steps code st ls' = some st') : Run code s (ls ++ ls') st' := by
  induction ls' generalizing ls st with
  | nil => simp [steps] at e; subst e; simpa using h
  | cons l ls' ih =>
    simp only [steps, List.foldlM_cons, Option.bind_eq_bind, Option.bind_eq_some_iff] at e
    obtain ⟨st1, h1, h2⟩ := e
    have := ih (.snoc h h1) h2
    simpa using this

theorem counter_serial {s s' : Nat} {h : List (Done Unit Nat)} (hs : Serial counter s h s') : s' = s + h.length := by
  induction hs with
  | nil => simp
  | snoc _ he ih =>
    have ends : ∀ {l s is s' r}, Ends counter l s is s' r → s' = l + 1 := by
      intro l s is s' r e
      cases e with
      | last h => simp only [counter, Prod.mk.injEq] at h; exact h.1.symm
      | more h => simp [counter] at h
    cases he with
    | plain h => simp [counter] at h
    | async h e =>
      simp only [counter, Prod.mk.injEq, Sum.inl.injEq] at h
      rw [ends e, ← h.2, ih]; simp; omega

/-- **C83 needs the lock**: if one of two calls does not take it — a method marked `no_lock`, any method of a stateless actor, or
`__post_create__`, while the other is a call to the actor already in the pool — both may read the same number: both return 1, the number
is 1, and no order explains that. -/
theorem unlocked_refuted (lk lk' : Bool) (h : lk = false ∨ lk' = false) :
    ∃ ls st, Run counter 0 ls st ∧ .call 1 () lk ∈ ls ∧ .call 2 () lk' ∈ ls ∧
      (∀ c ∈ [1, 2], ∃ k, st.calls.get? c = some k ∧ k.seen = .got 1) ∧ st.actor = 1 ∧ ¬ ∃ hist, Explains counter 0 ls st hist := by
  have hrun : ∃ st, steps counter (init 0) [.call 1 () lk, .call 2 () lk', .arrive 1, .arrive 2, .start 1, .start 2, .resume 1 (), .resume 2 (),
      .ret 1, .ret 2] = some st ∧ st.actor = 1 ∧ st.calls.get? 1 = some ⟨(), lk, .replied (some 1), .got 1⟩ ∧
      st.calls.get? 2 = some ⟨(), lk', .replied (some 1), .got 1⟩ ∧ (∀ c k, st.calls.get? c = some k → k.phase ≠ .running) := by
    have fin : ∀ lk lk' c (k : Call Unit Nat), Dict.get? [(1, ⟨(), lk, .replied (some 1), .got 1⟩), (2, ⟨(), lk', .replied (some 1), .got 1⟩)] c = some k →
        k.phase ≠ .running := by
      intro lk lk' c k hk e
      simp only [Dict.get?_cons] at hk
      split at hk
      · cases hk; simp at e
      · split at hk
        · cases hk; simp at e
        · cases hk
    refine ⟨⟨1, none, [], [(1, ⟨(), lk, .replied (some 1), .got 1⟩), (2, ⟨(), lk', .replied (some 1), .got 1⟩)]⟩, ?_, rfl, rfl, rfl, fin lk lk'⟩
    rcases h with rfl | rfl
    · cases lk' <;> rfl
    · cases lk <;> rfl
  obtain ⟨st, h1, h2, h3, h4, h5⟩ := hrun
  refine ⟨_, st, run_of .init h1, by simp, by simp, ?_, h2, ?_⟩
  · intro c hc
    simp at hc
    rcases hc with rfl | rfl
    · exact ⟨_, h3, rfl⟩
    · exact ⟨_, h4, rfl⟩
  · rintro ⟨hist, he⟩
    obtain ⟨s', hs, hx | ⟨c, k, l, hc, hp, _⟩⟩ := he.serial
    · have hlen := counter_serial hs
      rw [← hx.1, h2] at hlen
      obtain ⟨d1, hd1, e1, _⟩ := he.got 1 _ 1 h3 rfl
      obtain ⟨d2, hd2, e2, _⟩ := he.got 2 _ 1 h4 rfl
      match hist, hlen with
      | [d], _ =>
        simp at hd1 hd2
        subst hd1; subst hd2
        rw [e1] at e2; simp at e2
      | [], hlen => cases hd1
      | _ :: _ :: _, hlen => simp at hlen
    · exact h5 _ _ hc hp

/-- when both take it, the second waits: its method is not called while the first is under way -/
theorem locked_waits {code : Code S A L I R} {s : S} {ls : List (Label A I)} {st : St S A L R} (h : Run code s ls st) (hl : AllLocked ls)
    {c d : Nat} {k : Call A R} (hk : st.calls.get? c = some k) (hp : k.phase = .running) : step code st (.start d) = none := by
  obtain ⟨hist, hi⟩ := inv_run h hl
  have hh := (hi.runs _ _ hk hp).1
  simp only [step]
  split
  · next k1 hk1 =>
    split
    · next hp1 =>
      have := hi.locked _ _ hk1
      simp [this, hh]
    · rfl
  · rfl

/-- an error at the caller does not tell whether the method ran: both happen -/
theorem failed_either : ∃ ls st ls' st', Run counter 0 ls st ∧ Run counter 0 ls' st' ∧ AllLocked ls ∧ AllLocked ls' ∧
    (∃ k, st.calls.get? 1 = some k ∧ k.seen = .failed) ∧ (∃ k, st'.calls.get? 1 = some k ∧ k.seen = .failed) ∧
    (∀ hist, Explains counter 0 ls st hist → hist = []) ∧ (∀ hist, Explains counter 0 ls' st' hist → ∃ d ∈ hist, d.id = 1) := by
  refine ⟨[.call 1 () true, .arrive 1, .cancel 1, .ret 1], ⟨0, none, [], [(1, ⟨(), true, .replied none, .failed⟩)]⟩,
    [.call 1 () true, .giveUp 1, .arrive 1, .start 1, .resume 1 ()], ⟨1, none, [], [(1, ⟨(), true, .replied (some 1), .failed⟩)]⟩,
    run_of .init rfl, run_of .init rfl, ?_, ?_, ⟨_, rfl, rfl⟩, ⟨_, rfl, rfl⟩, ?_, ?_⟩
  · intro c a lk h; simp at h; exact h.2
  · intro c a lk h; simp at h; exact h.2
  · intro hist he
    cases hist with
    | nil => rfl
    | cons d hist =>
      obtain ⟨lk, hm⟩ := he.made d (by simp)
      simp at hm
      exact absurd hm.1 (he.notRun 1 _ rfl (.inr (.inr rfl)) d (by simp))
  · intro hist he
    obtain ⟨d, hd, h1, _⟩ := he.ran 1 _ 1 rfl rfl
    exact ⟨d, hd, h1⟩

/-- a history with everything in it: two calls under way at once, a call made after another returned, a cancelled one (its method goes on
to its end with what it was thrown), one that was never called, one whose caller gave up, one lost -/
example : ∃ st, Run counter 0 [.call 1 () true, .call 2 () true, .arrive 2, .arrive 1, .start 2, .giveUp 2, .resume 2 (), .start 1, .cancel 1, .ret 1,
    .call 3 () true, .arrive 3, .call 4 () true, .lose 4, .call 5 () true, .arrive 5, .cancel 5, .ret 5, .start 3] st ∧ st.actor = 2 ∧
    AllLocked [Label.call 1 () true, .call 2 () true, .arrive 2, .arrive 1, .start 2, .giveUp 2, .resume 2 (), .start 1, .cancel 1, .ret 1,
    .call 3 () true, .arrive 3, .call 4 () true, .lose 4, .call 5 () true, .arrive 5, .cancel 5, .ret 5, .start (I := Unit) 3] := by
  refine ⟨_, run_of .init rfl, rfl, ?_⟩
  intro c a lk h; simp at h; grind

end Xoscar.Linear
