import Verif.Spec.Wrap
import Verif.Proof.Base
/-!
# C73: a generator lives as long as its consumer can use it, and dropping its iterator harms nobody
-/
namespace Xoscar.Wrap

theorem get?_filter_some {d : Dict Wid W} {f : Wid × W → Bool} (hwf : d.WF) {i : Wid} {w : W}
    (h : Dict.get? (d.filter f) i = some w) : d.get? i = some w := by
  have := Dict.mem_of_get? h
  exact Dict.get?_of_mem hwf (List.mem_filter.mp this).1

structure Inv (ls : List Label) (s : St) : Prop where
  wf : s.wraps.WF
  pos : 0 < s.next
  known : ∀ i w, s.wraps.get? i = some w → i < s.next
  flag : ∀ i w, s.wraps.get? i = some w → (w.gcDestroy = true ↔ Label.send i ∉ ls)
  sent : ∀ i, Label.send i ∈ ls → i + 1 < s.next

theorem wf_filter {d : Dict Wid W} (f : Wid × W → Bool) (h : d.WF) : Dict.WF (d.filter f) := by
  unfold Dict.WF Dict.keys at *
  exact List.Nodup.sublist (List.Sublist.map _ List.filter_sublist) h

attribute [local grind =] Dict.get?_set Dict.get?_erase

theorem inv_step {ls : List Label} {l : Label} {s s' : St} (hi : Inv ls s) (h : step s l = some s') : Inv (ls ++ [l]) s' := by
  obtain ⟨wf, pos, known, flag, sent⟩ := hi
  cases l with
  | send i =>
    simp only [step] at h
    split at h
    · cases h
    · rename_i w hw
      split at h
      · injection h with h; subst h
        have hin := known i w hw
        have hns : Label.send s.next ∉ ls := fun hc => absurd (sent _ hc) (Nat.not_lt_of_le (Nat.le_succ _))
        refine ⟨(wf.set _ _).set _ _, by simp, ?_, ?_, ?_⟩
        · intro j w' hj; simp only [Dict.get?_set] at hj ⊢; grind
        · intro j w' hj; simp only [Dict.get?_set] at hj; grind
        · intro j hj; simp only [List.mem_append, List.mem_singleton, Label.send.injEq] at hj; grind
      · cases h
  | arrive i p =>
    simp only [step] at h
    split at h
    · cases h
    · rename_i w hw
      split at h
      · cases h
      · injection h with h; subst h
        exact ⟨wf.set _ _, pos, by grind, by grind, by grind⟩
  | lose i =>
    simp only [step] at h
    split at h
    · cases h
    · rename_i w hw
      split at h
      · cases h
      · injection h with h; subst h
        exact ⟨wf.erase _, pos, by grind, by grind, by grind⟩
  | drop i ok =>
    simp only [step] at h
    split at h
    · cases h
    · rename_i w hw
      split at h
      · injection h with h; subst h
        exact ⟨wf.erase _, pos, by grind, by grind, by grind⟩
      · cases h
  | crash p =>
    simp only [step] at h
    injection h with h; subst h
    exact ⟨wf_filter _ wf, pos, fun i w hw => known i w (get?_filter_some wf hw),
      fun i w hw => by have := flag i w (get?_filter_some wf hw); grind, by grind⟩
  | destroy i =>
    simp only [step] at h
    split at h
    · cases h
    · rename_i w hw
      split at h
      · injection h with h; subst h
        exact ⟨wf, pos, known, by grind, by grind⟩
      · cases h
  | over =>
    simp only [step] at h
    injection h with h; subst h
    exact ⟨wf, pos, known, by grind, by grind⟩

theorem inv_run {home : Proc} {ls : List Label} {s : St} (h : Run home ls s) : Inv ls s := by
  induction h with
  | start =>
    refine ⟨by simp [start, Dict.WF, Dict.keys], by simp [start], ?_, ?_, by simp⟩
    · intro i w h; simp only [start, Dict.get?_cons] at h ⊢; split at h
      · rename_i hz; rw [← hz]; exact Nat.zero_lt_one
      · cases h
    · intro i w h; simp only [start, Dict.get?_cons] at h ⊢; split at h
      · injection h with h; subst h; simp
      · cases h
  | snoc _ hs ih => exact inv_step ih hs

/-- A wrapper is responsible for the generator exactly if it was not handed over - in every history. -/
theorem responsible {home : Proc} {ls : List Label} {s : St} (h : Run home ls s) {i : Wid} {w : W} (hw : s.wraps.get? i = some w) :
    w.gcDestroy = true ↔ Label.send i ∉ ls := (inv_run h).flag i w hw

/-- The generator is gone exactly if somebody ended it on purpose (or it came to its end), or a wrapper was collected that had not been
handed over before - in every history. -/
theorem gone_iff {home : Proc} {ls : List Label} {s : St} (h : Run home ls s) :
    s.gen = false ↔ ¬ NotEnded ls ∨ OwnerCollected ls := by
  induction h with
  | start =>
    constructor
    · intro h; cases h
    · rintro (h | ⟨pre, i, post, h, _⟩)
      · exact absurd (fun l hl => by cases hl) h
      · cases pre <;> cases h
  | @snoc ls l s s' hr hs ih =>
    have hi := inv_run hr
    have ended : (¬ NotEnded (ls ++ [l])) ↔ (¬ NotEnded ls ∨ l = .over ∨ ∃ i, l = .destroy i) := by
      unfold NotEnded
      constructor
      · intro hn
        by_cases hl : ∀ x ∈ ls, x ≠ .over ∧ ∀ i, x ≠ .destroy i
        · right
          by_cases ho : l = .over
          · exact .inl ho
          · by_cases hd : ∃ i, l = .destroy i
            · exact .inr hd
            · exfalso; apply hn
              intro x hx
              rcases List.mem_append.mp hx with hx | hx
              · exact hl x hx
              · rw [List.mem_singleton.mp hx]; exact ⟨ho, fun i hc => hd ⟨i, hc⟩⟩
        · exact .inl hl
      · rintro (hn | rfl | ⟨i, rfl⟩) hall
        · exact hn (fun x hx => hall x (List.mem_append.mpr (.inl hx)))
        · exact (hall _ (by simp)).1 rfl
        · exact (hall (.destroy i) (by simp)).2 i rfl
    have coll : OwnerCollected (ls ++ [l]) ↔ (OwnerCollected ls ∨ ∃ i, l = .drop i true ∧ Label.send i ∉ ls) := by
      constructor
      · rintro ⟨pre, i, post, he, hn⟩
        rcases List.eq_nil_or_concat post with rfl | ⟨post', x, rfl⟩
        · right
          have := List.append_inj' he rfl
          refine ⟨i, by simpa using this.2, this.1 ▸ hn⟩
        · left
          have : ls ++ [l] = (pre ++ Label.drop i true :: post') ++ [x] := by simpa using he
          exact ⟨pre, i, post', (List.append_inj' this rfl).1, hn⟩
      · rintro (⟨pre, i, post, he, hn⟩ | ⟨i, rfl, hn⟩)
        · exact ⟨pre, i, post ++ [l], by simp [he], hn⟩
        · exact ⟨ls, i, [], rfl, hn⟩
    rw [ended, coll]
    cases l with
    | send i =>
      simp only [step] at hs
      split at hs
      · cases hs
      · split at hs
        · injection hs with hs; subst hs; simp only [ih]; grind
        · cases hs
    | arrive i p =>
      simp only [step] at hs
      split at hs
      · cases hs
      · split at hs
        · cases hs
        · injection hs with hs; subst hs; simp only [ih]; grind
    | lose i =>
      simp only [step] at hs
      split at hs
      · cases hs
      · split at hs
        · cases hs
        · injection hs with hs; subst hs; simp only [ih]; grind
    | drop i ok =>
      simp only [step] at hs
      split at hs
      · cases hs
      · rename_i w hw
        split at hs
        · injection hs with hs; subst hs
          have := hi.flag i w hw
          simp only [del]
          grind
        · cases hs
    | crash p => simp only [step] at hs; injection hs with hs; subst hs; simp only [ih]; grind
    | destroy i =>
      simp only [step] at hs
      split at hs
      · cases hs
      · split at hs
        · injection hs with hs; subst hs; grind
        · cases hs
    | over => simp only [step] at hs; injection hs with hs; subst hs; grind

/-- histories only grow -/
theorem once_of_snoc {ls : List Label} {l : Label} (h : HandedOverOnce (ls ++ [l])) : HandedOverOnce ls := by
  intro i; have := h i; rw [List.count_append] at this; exact Nat.le_trans (Nat.le_add_right _ _) this

/-- when every wrapper is handed over at most once, all but the newest were handed over -/
theorem newest {home : Proc} {ls : List Label} {s : St} (h : Run home ls s) (ho : HandedOverOnce ls) :
    ∀ i, i + 1 < s.next → Label.send i ∈ ls := by
  induction h with
  | start => intro i hi; exact absurd hi (by simp [start])
  | @snoc ls l s s' hr hs ih =>
    have ih := ih (once_of_snoc ho)
    have hi := inv_run hr
    cases l with
    | send i =>
      simp only [step] at hs
      split at hs
      · cases hs
      · rename_i w hw
        split at hs
        · injection hs with hs; subst hs
          have hn : Label.send i ∉ ls := by
            intro hc
            have := ho i
            rw [List.count_append, List.count_singleton_self] at this
            have := List.count_pos_iff.mpr hc
            omega
          have hin := hi.known i w hw
          intro j hj
          grind
        · cases hs
    | arrive i p =>
      simp only [step] at hs
      split at hs
      · cases hs
      · split at hs
        · cases hs
        · injection hs with hs; subst hs; grind
    | lose i =>
      simp only [step] at hs
      split at hs
      · cases hs
      · split at hs
        · cases hs
        · injection hs with hs; subst hs; grind
    | drop i ok =>
      simp only [step] at hs
      split at hs
      · cases hs
      · split at hs
        · injection hs with hs; subst hs; grind
        · cases hs
    | crash p => simp only [step] at hs; injection hs with hs; subst hs; grind
    | destroy i =>
      simp only [step] at hs
      split at hs
      · cases hs
      · split at hs
        · injection hs with hs; subst hs; grind
        · cases hs
    | over => simp only [step] at hs; injection hs with hs; subst hs; grind

/-- A generator whose wrapper is handed over at most once by each holder is there as long as the newest wrapper is, in a process or under
way, unless it was ended on purpose. -/
theorem kept_partial {home : Proc} {ls : List Label} {s : St} (h : Run home ls s) (ho : HandedOverOnce ls) (he : NotEnded ls)
    (hu : InUse ls s) : s.gen = true := by
  suffices hh : s.gen = false → s.wraps.get? (s.next - 1) = none by
    cases hg : s.gen with
    | true => rfl
    | false =>
      obtain ⟨i, w, hw, hn⟩ := hu
      have h1 := (inv_run h).known i w hw
      have h2 := newest h ho i
      have : i = s.next - 1 := by
        by_cases hlt : i + 1 < s.next
        · exact absurd (h2 hlt) hn
        · exact (Nat.le_antisymm (Nat.le_sub_one_of_lt h1) (Nat.sub_le_of_le_add (Nat.le_of_not_lt hlt)))
      rw [this, hh hg] at hw; cases hw
  clear hu
  induction h with
  | start => intro h; cases h
  | @snoc ls l s s' hr hs ih =>
    have ih := ih (once_of_snoc ho) (fun x hx => he x (List.mem_append.mpr (.inl hx)))
    have hi := inv_run hr
    have hne := newest hr (once_of_snoc ho)
    have hl := he l (by simp)
    cases l with
    | send i =>
      simp only [step] at hs
      split at hs
      · cases hs
      · rename_i w hw
        split at hs
        · injection hs with hs; subst hs
          intro hg
          have hn : Label.send i ∉ ls := by
            intro hc
            have := ho i
            rw [List.count_append, List.count_singleton_self] at this
            have := List.count_pos_iff.mpr hc
            omega
          have h1 := hi.known i w hw
          have : i = s.next - 1 := by
            by_cases hlt : i + 1 < s.next
            · exact absurd (hne i hlt) hn
            · exact (Nat.le_antisymm (Nat.le_sub_one_of_lt h1) (Nat.sub_le_of_le_add (Nat.le_of_not_lt hlt)))
          rw [this, ih hg] at hw; cases hw
        · cases hs
    | arrive i p =>
      simp only [step] at hs
      split at hs
      · cases hs
      · split at hs
        · cases hs
        · injection hs with hs; subst hs
          intro hg; have := ih hg
          simp only [Dict.get?_set]
          split
          · rename_i hx hw hat heq; rw [heq, this] at hw; cases hw
          · exact this
    | lose i =>
      simp only [step] at hs
      split at hs
      · cases hs
      · split at hs
        · cases hs
        · injection hs with hs; subst hs
          intro hg; have := ih hg
          simp only [Dict.get?_erase, this]; split <;> rfl
    | drop i ok =>
      simp only [step] at hs
      split at hs
      · cases hs
      · rename_i w hw
        split at hs
        · injection hs with hs; subst hs
          intro hg
          simp only [del] at hg
          simp only [Dict.get?_erase]
          split
          · rfl
          · rename_i hat hneq
            split at hg
            · rename_i hfl
              exfalso
              have hf : w.gcDestroy = true := by
                rw [Bool.and_eq_true] at hfl; exact hfl.1
              have hn := (hi.flag i w hw).mp hf
              have h1 := hi.known i w hw
              apply hneq
              by_cases hlt : i + 1 < s.next
              · exact absurd (hne i hlt) hn
              · exact (Nat.le_antisymm (Nat.le_sub_one_of_lt h1) (Nat.sub_le_of_le_add (Nat.le_of_not_lt hlt)))
            · exact ih hg
        · cases hs
    | crash p =>
      simp only [step] at hs; injection hs with hs; subst hs
      intro hg
      rcases hx : Dict.get? (s.wraps.filter (fun x => x.2.place ≠ .at p)) (s.next - 1) with _ | w
      · rfl
      · have := get?_filter_some hi.wf hx
        rw [ih hg] at this; cases this
    | destroy i => exact absurd rfl (hl.2 i)
    | over => exact absurd rfl hl.1

/-- … and as soon as no wrapper is left anywhere the generator is gone, if nothing was lost. -/
theorem released_partial {home : Proc} {ls : List Label} {s : St} (h : Run home ls s) (hl : NothingLost ls) (hg : s.gen = true) :
    InUse ls s := by
  suffices hh : ∃ i w, s.wraps.get? i = some w ∧ w.gcDestroy = true by
    obtain ⟨i, w, hw, hf⟩ := hh
    exact ⟨i, w, hw, ((inv_run h).flag i w hw).mp hf⟩
  induction h with
  | start => exact ⟨0, ⟨true, .at home⟩, by simp [start, Dict.get?_cons], rfl⟩
  | @snoc ls l s s' hr hs ih =>
    have ih := ih (fun x hx => hl x (List.mem_append.mpr (.inl hx)))
    have hll := hl l (by simp)
    cases l with
    | send i =>
      simp only [step] at hs
      split at hs
      · cases hs
      · split at hs
        · injection hs with hs; subst hs
          exact ⟨s.next, ⟨true, .transit⟩, by simp [Dict.get?_set], rfl⟩
        · cases hs
    | arrive i p =>
      simp only [step] at hs
      split at hs
      · cases hs
      · rename_i w hw
        split at hs
        · cases hs
        · injection hs with hs; subst hs
          obtain ⟨j, w', hj, hf⟩ := ih hg
          by_cases hij : i = j
          · subst hij
            rw [hw] at hj; injection hj with hj; subst hj
            exact ⟨i, { w with place := .at p }, by simp [Dict.get?_set], hf⟩
          · exact ⟨j, w', by simp only [Dict.get?_set, hij, if_false]; exact hj, hf⟩
    | lose i => exact absurd rfl (hll.1 i)
    | drop i ok =>
      simp only [step] at hs
      split at hs
      · cases hs
      · rename_i w hw
        split at hs
        · injection hs with hs; subst hs
          cases ok with
          | false => exact absurd rfl (hll.2.1 i)
          | true =>
            simp only [del, Bool.and_true] at hg
            split at hg
            · cases hg
            · rename_i hat hnf
              obtain ⟨j, w', hj, hf⟩ := ih hg
              refine ⟨j, w', ?_, hf⟩
              simp only [Dict.get?_erase]
              split
              · rename_i hij; subst hij
                rw [hw] at hj; injection hj with hj; subst hj; exact absurd hf hnf
              · exact hj
        · cases hs
    | crash p => exact absurd rfl (hll.2.2 p)
    | destroy i =>
      simp only [step] at hs
      split at hs
      · cases hs
      · split at hs
        · injection hs with hs; subst hs; cases hg
        · cases hs
    | over => simp only [step] at hs; injection hs with hs; subst hs; cases hg

/-- Together: handed over at most once by each holder, with nothing lost and nobody ending it, a generator exists exactly as long as its
newest wrapper does. -/
theorem exactly_in_use_partial {home : Proc} {ls : List Label} {s : St} (h : Run home ls s) (ho : HandedOverOnce ls) (hl : NothingLost ls)
    (he : NotEnded ls) : s.gen = true ↔ InUse ls s :=
  ⟨released_partial h hl, kept_partial h ho he⟩

theorem run_of {home : Proc} (ls0 ls : List Label) (s0 s : St) (h0 : Run home ls0 s0) (h : ls.foldlM step s0 = some s) :
    Run home (ls0 ++ ls) s := by
  induction ls generalizing ls0 s0 with
  | nil => simp only [List.foldlM_nil] at h; injection h with h; subst h; simpa using h0
  | cons l ls ih =>
    simp only [List.foldlM_cons] at h
    rcases hl : step s0 l with _ | s1
    · rw [hl] at h; cases h
    · rw [hl] at h
      have := ih (ls0 ++ [l]) s1 (Run.snoc h0 hl) h
      simpa using this

/-- the events determine what there is -/
theorem run_det {home : Proc} {ls : List Label} {s s' : St} (h : Run home ls s) (h' : Run home ls s') : s = s' := by
  induction h generalizing s' with
  | start =>
    generalize hl : ([] : List Label) = l' at h'
    cases h' with
    | start => rfl
    | snoc _ _ => simp at hl
  | @snoc ls l s0 s1 _ hs ih =>
    generalize hl : ls ++ [l] = l' at h'
    cases h' with
    | start => simp at hl
    | @snoc ls1 l1 s2 _ h1 hs1 =>
      obtain ⟨rfl, hl1⟩ := List.append_inj' hl rfl
      simp only [List.cons.injEq, and_true] at hl1
      subst hl1
      rw [← ih h1] at hs1
      rw [hs] at hs1
      exact Option.some.inj hs1

/-- Whoever holds a wrapper in a process, handed over or not, can end the generator at once: it is gone for everybody and nothing else
changes.  A wrapper under way, or one that is gone, ends nothing. -/
theorem destroy_works {home : Proc} {ls : List Label} {s : St} (h : Run home ls s) (i : Wid) :
    (∀ w p, s.wraps.get? i = some w → w.place = .at p →
      ∃ s', Run home (ls ++ [.destroy i]) s' ∧ s'.gen = false ∧ s'.wraps = s.wraps) ∧
    ((∀ w p, s.wraps.get? i = some w → w.place ≠ .at p) → ¬ ∃ s', Run home (ls ++ [.destroy i]) s') := by
  refine ⟨fun w p hw hp => ⟨{ s with gen := false }, Run.snoc h (by simp [step, hw, isAt, hp]), rfl, rfl⟩, ?_⟩
  rintro hno ⟨s', hr⟩
  generalize hl : ls ++ [Label.destroy i] = l' at hr
  cases hr with
  | start => simp at hl
  | @snoc ls1 l1 s1 _ h1 hs1 =>
    obtain ⟨rfl, hl1⟩ := List.append_inj' hl rfl
    simp only [List.cons.injEq, and_true] at hl1
    subst hl1
    rw [← run_det h h1] at hs1
    rcases hw : s.wraps.get? i with _ | ⟨g, pl⟩
    · simp [step, hw] at hs1
    · rcases pl with p | _
      · exact hno _ p hw rfl
      · simp [step, hw, isAt] at hs1

/-- **Refuted**: "a generator is there as long as somebody uses it": a wrapper handed over to two processes is destroyed by the first of
them that drops it. -/
theorem two_holders_refuted (home p q : Proc) : ∃ s, Run home [.send 0, .send 0, .arrive 1 p, .arrive 2 q, .drop 1 true] s ∧
    s.gen = false ∧ s.wraps.get? 2 = some ⟨true, .at q⟩ :=
  ⟨_, run_of [] _ _ _ Run.start rfl, rfl, rfl⟩

/-- **Refuted**: "a generator is released when nobody can use it": if the message with the wrapper is lost nobody is responsible for it,
and nothing but the end of the actor releases it. -/
theorem lost_message_leaks_refuted (home : Proc) : ∃ s, Run home [.send 0, .lose 1, .drop 0 true] s ∧ s.gen = true ∧ s.wraps = [] ∧
    ∀ (ls : List Label) (s' : St), ls.foldlM step s = some s' → Label.over ∉ ls → s'.gen = true := by
  refine ⟨⟨true, [], 2⟩, run_of [] _ _ _ Run.start rfl, rfl, rfl, ?_⟩
  suffices hh : ∀ (ls : List Label) (s s' : St), s.gen = true → s.wraps = [] → ls.foldlM step s = some s' → Label.over ∉ ls → s'.gen = true from
    fun ls s' h => hh ls _ s' rfl rfl h
  intro ls
  induction ls with
  | nil => intro s s' hg _ h _; simp only [List.foldlM_nil] at h; injection h with h; exact h ▸ hg
  | cons l ls ih =>
    intro s s' hg hw h hn
    simp only [List.foldlM_cons] at h
    rcases hl : step s l with _ | s1
    · rw [hl] at h; cases h
    · rw [hl] at h
      have hn' : Label.over ∉ ls := fun hc => hn (List.mem_cons_of_mem _ hc)
      cases l with
      | over => exact absurd (List.mem_cons_self) hn
      | crash p => simp only [step, hw] at hl; injection hl with hl; rw [← hl] at h; exact ih ⟨s.gen, [], s.next⟩ s' hg rfl h hn'
      | send i => simp only [step, hw, Dict.get?] at hl; cases hl
      | arrive i p => simp only [step, hw, Dict.get?] at hl; cases hl
      | lose i => simp only [step, hw, Dict.get?] at hl; cases hl
      | drop i ok => simp only [step, hw, Dict.get?] at hl; cases hl
      | destroy i => simp only [step, hw, Dict.get?] at hl; cases hl

/-- **Refuted**, the same: the consumer's process ends. -/
theorem crash_leaks_refuted (home p : Proc) : ∃ s, Run home [.send 0, .arrive 1 p, .drop 0 true, .crash p] s ∧
    s.gen = true ∧ s.wraps = [] := by
  refine ⟨⟨true, [], 2⟩, run_of [] _ _ _ Run.start ?_, rfl, rfl⟩
  simp [List.foldlM, step, start, Dict.get?, isAt, Dict.set, Dict.erase, del]

/-! ## Waiting for the destruction -/

theorem after_snoc (w : World) (ts : List Turn) (t : Turn) : after w (ts ++ [t]) = turn (after w ts) t := by
  simp [after]

/-- where the holder of the lock is: after `calls`, unless it waits for `p` -/
theorem collect_inv (p home : Proc) (calls : List Proc) (hp : p ∈ calls ∨ p = home) (ts : List Turn) :
    ∃ rest, p ∈ rest ∧ after (collect p home calls) ts = ⟨some rest, some p, true⟩ := by
  induction ts using List.reverseRecOn' with
  | nil => exact ⟨calls ++ [home], by rcases hp with h | h <;> simp [h], rfl⟩
  | append_singleton ts t ih =>
    obtain ⟨rest, hr, he⟩ := ih
    rw [after_snoc, he]
    cases t with
    | collection => exact ⟨rest, hr, rfl⟩
    | holder =>
      rcases rest with _ | ⟨q, rest⟩
      · cases hr
      · simp only [turn, holderStep]
        by_cases hq : some p = some q
        · rw [if_pos hq]; exact ⟨q :: rest, hr, rfl⟩
        · rw [if_neg hq]
          refine ⟨rest, ?_, rfl⟩
          rcases List.mem_cons.mp hr with h | h
          · exact absurd (congrArg some h) hq
          · exact h

/-- **Refuted**: "dropping an iterator never hangs a process": collecting a wrapper in a process that the method holding the actor's lock
still needs - always so in the actor's own process - blocks that process, the actor and the generator for ever. -/
theorem collection_hangs_refuted (p home : Proc) (calls : List Proc) (hp : p ∈ calls ∨ p = home) (ts : List Turn) :
    (after (collect p home calls) ts).blocked = some p ∧ (after (collect p home calls) ts).holder ≠ none ∧
    (after (collect p home calls) ts).gen = true := by
  obtain ⟨rest, _, he⟩ := collect_inv p home calls hp ts
  rw [he]; exact ⟨rfl, by simp, rfl⟩

theorem reach_free (p : Proc) (rest : List Proc) (hp : p ∉ rest) :
    ∃ ts, after ⟨some rest, some p, true⟩ ts = ⟨none, none, false⟩ := by
  induction rest with
  | nil => exact ⟨[.holder, .collection], rfl⟩
  | cons q rest ih =>
    obtain ⟨ts, h⟩ := ih (fun hc => hp (List.mem_cons_of_mem _ hc))
    refine ⟨.holder :: ts, ?_⟩
    have hq : ¬ some p = some q := fun hc => hp (by injection hc with hc; rw [hc]; exact List.mem_cons_self)
    simp only [after, List.foldl_cons, turn, holderStep, if_neg hq]
    exact h

/-- Otherwise, whatever happened so far, the collection can still end, and then the generator is gone and nobody is blocked. -/
theorem collection_ends (p home : Proc) (calls : List Proc) (hp : p ∉ calls) (hh : p ≠ home) (ts : List Turn) :
    ∃ more, after (collect p home calls) (ts ++ more) = ⟨none, none, false⟩ := by
  suffices h : (∃ rest, p ∉ rest ∧ after (collect p home calls) ts = ⟨some rest, some p, true⟩) ∨
      after (collect p home calls) ts = ⟨none, some p, true⟩ ∨ after (collect p home calls) ts = ⟨none, none, false⟩ by
    have app : ∀ more, after (collect p home calls) (ts ++ more) = after (after (collect p home calls) ts) more := by
      intro more; simp [after]
    rcases h with ⟨rest, hr, he⟩ | he | he
    · obtain ⟨more, hm⟩ := reach_free p rest hr
      exact ⟨more, by rw [app, he, hm]⟩
    · exact ⟨[.collection], by rw [app, he]; rfl⟩
    · exact ⟨[], by rw [app, he]; rfl⟩
  induction ts using List.reverseRecOn' with
  | nil => exact .inl ⟨calls ++ [home], by simp [hp, hh], rfl⟩
  | append_singleton ts t ih =>
    rw [after_snoc]
    rcases ih with ⟨rest, hr, he⟩ | he | he
    · rw [he]
      cases t with
      | collection => exact .inl ⟨rest, hr, rfl⟩
      | holder =>
        rcases rest with _ | ⟨q, rest⟩
        · exact .inr (.inl rfl)
        · have hq : ¬ some p = some q := fun hc => hr (by injection hc with hc; rw [hc]; exact List.mem_cons_self)
          simp only [turn, holderStep, if_neg hq]
          exact .inl ⟨rest, fun hc => hr (List.mem_cons_of_mem _ hc), rfl⟩
    · rw [he]
      cases t with
      | collection => exact .inr (.inr rfl)
      | holder => exact .inr (.inl rfl)
    · rw [he]; cases t <;> exact .inr (.inr rfl)

/-- With the lock free (or a stateless actor) the collection ends at its first turn, in every process. -/
theorem collection_free (p : Proc) : after (collectFree p) [.collection] = ⟨none, none, false⟩ := rfl

/-! ## Messages with wrappers -/

structure MInv (ls : List Label) (s : St) : Prop where
  once : ∀ i, ls.countP (taken i) ≤ 1
  fresh : ∀ i, s.next ≤ i → ls.countP (taken i) = 0
  first : ls.countP (taken 0) = 0
  moving : ∀ i w, s.wraps.get? i = some w → w.place = .transit → ls.countP (taken i) = 0 ∧ i ≠ 0
  there : ∀ i w p, s.wraps.get? i = some w → w.place = .at p → i = 0 ∨ ∃ q, Label.arrive i q ∈ ls

theorem place_cases (w : W) : (isAt w = true ∧ ∃ p, w.place = .at p) ∨ (isAt w = false ∧ w.place = .transit) := by
  obtain ⟨g, p⟩ := w
  cases p <;> simp [isAt]

theorem minv_run {home : Proc} {ls : List Label} {s : St} (h : Run home ls s) : MInv ls s := by
  induction h with
  | start =>
    refine ⟨by simp, by simp, by simp, ?_, ?_⟩
    · intro i w h ht; simp only [start, Dict.get?_cons] at h; split at h
      · injection h with h; subst h; cases ht
      · cases h
    · intro i w p h hp; simp only [start, Dict.get?_cons] at h; split at h
      · next hz => exact .inl hz.symm
      · cases h
  | @snoc ls l s s' hr hs ih =>
    have hi := inv_run hr
    obtain ⟨once, fresh, first, moving, there⟩ := ih
    have known := hi.known
    have pos := hi.pos
    have wf := hi.wf
    have same : ∀ i, taken i l = false → (ls ++ [l]).countP (taken i) = ls.countP (taken i) := by
      intro i hi; simp [List.countP_append, hi]
    have plus : ∀ i, taken i l = true → (ls ++ [l]).countP (taken i) = ls.countP (taken i) + 1 := by
      intro i hi; simp [List.countP_append, hi]
    cases l with
    | send i =>
      have same' : ∀ j, (ls ++ [Label.send i]).countP (taken j) = ls.countP (taken j) := fun j => same j rfl
      simp only [step] at hs
      split at hs
      · cases hs
      · rename_i w hw
        have hin := known i w hw
        have hpl := place_cases w
        split at hs
        · next hat =>
          injection hs with hs; subst hs
          have hat' : ∃ p, w.place = .at p := by rcases hpl with h | h; exact h.2; rw [h.1] at hat; cases hat
          obtain ⟨p0, hp0⟩ := hat'
          refine ⟨by simpa [same'] using once, ?_, by rw [same']; exact first, ?_, ?_⟩
          · intro j hj; rw [same']; exact fresh j (Nat.le_trans (Nat.le_succ _) hj)
          · intro j w' hj ht; rw [same']
            simp only [Dict.get?_set] at hj
            have hf := fresh j; have hm := moving j
            grind
          · intro j w' p hj hp
            simp only [Dict.get?_set] at hj
            have h1 := there j; have h2 := there i w p0 hw hp0
            by_cases hjn : s.next = j
            · rw [if_pos hjn] at hj; injection hj with hj; subst hj; cases hp
            · rw [if_neg hjn] at hj
              by_cases hij : i = j
              · subst hij
                rcases h2 with h2 | ⟨q, h2⟩
                · exact .inl h2
                · exact .inr ⟨q, List.mem_append_left _ h2⟩
              · rw [if_neg hij] at hj
                rcases h1 w' p hj hp with h1 | ⟨q, h1⟩
                · exact .inl h1
                · exact .inr ⟨q, List.mem_append_left _ h1⟩
        · cases hs
    | arrive i p =>
      simp only [step] at hs
      split at hs
      · cases hs
      · rename_i w hw
        have hin := known i w hw
        have hpl := place_cases w
        split at hs
        · cases hs
        · next hat =>
          injection hs with hs; subst hs
          have ht : w.place = .transit := by rcases hpl with h | h; exact absurd h.1 hat; exact h.2
          obtain ⟨hm0, hm1⟩ := moving i w hw ht
          have hx : ∀ j, (ls ++ [Label.arrive i p]).countP (taken j) = if i = j then 1 else ls.countP (taken j) := by
            intro j; by_cases hij : i = j
            · subst hij; rw [plus i (by simp [taken]), hm0, if_pos rfl]
            · rw [same j (by simp [taken, hij]), if_neg hij]
          refine ⟨?_, ?_, ?_, ?_, ?_⟩
          · intro j; rw [hx]; split
            · exact Nat.le_refl _
            · exact once j
          · intro j hj; rw [hx, if_neg (by intro hh; subst hh; exact absurd hin (Nat.not_lt_of_le hj))]; exact fresh j hj
          · rw [hx, if_neg hm1]; exact first
          · intro j w' hj ht'
            simp only [Dict.get?_set] at hj
            split at hj
            · injection hj with hj; subst hj; cases ht'
            · next hij => rw [hx, if_neg hij]; exact moving j w' hj ht'
          · intro j w' p' hj hp'
            simp only [Dict.get?_set] at hj
            split at hj
            · next hij => subst hij; exact .inr ⟨p, by simp⟩
            · rcases there j w' p' hj hp' with h1 | ⟨q, h1⟩
              · exact .inl h1
              · exact .inr ⟨q, List.mem_append_left _ h1⟩
    | lose i =>
      simp only [step] at hs
      split at hs
      · cases hs
      · rename_i w hw
        have hin := known i w hw
        have hpl := place_cases w
        split at hs
        · cases hs
        · next hat =>
          injection hs with hs; subst hs
          have ht : w.place = .transit := by rcases hpl with h | h; exact absurd h.1 hat; exact h.2
          obtain ⟨hm0, hm1⟩ := moving i w hw ht
          have hx : ∀ j, (ls ++ [Label.lose i]).countP (taken j) = if i = j then 1 else ls.countP (taken j) := by
            intro j; by_cases hij : i = j
            · subst hij; rw [plus i (by simp [taken]), hm0, if_pos rfl]
            · rw [same j (by simp [taken, hij]), if_neg hij]
          refine ⟨?_, ?_, ?_, ?_, ?_⟩
          · intro j; rw [hx]; split
            · exact Nat.le_refl _
            · exact once j
          · intro j hj; rw [hx, if_neg (by intro hh; subst hh; exact absurd hin (Nat.not_lt_of_le hj))]; exact fresh j hj
          · rw [hx, if_neg hm1]; exact first
          · intro j w' hj ht'
            simp only [Dict.get?_erase] at hj
            split at hj
            · cases hj
            · next hij => rw [hx, if_neg hij]; exact moving j w' hj ht'
          · intro j w' p' hj hp'
            simp only [Dict.get?_erase] at hj
            split at hj
            · cases hj
            · rcases there j w' p' hj hp' with h1 | ⟨q, h1⟩
              · exact .inl h1
              · exact .inr ⟨q, List.mem_append_left _ h1⟩
    | drop i ok =>
      have same' : ∀ j, (ls ++ [Label.drop i ok]).countP (taken j) = ls.countP (taken j) := fun j => same j rfl
      simp only [step] at hs
      split at hs
      · cases hs
      · split at hs
        · injection hs with hs; subst hs
          refine ⟨by simpa [same'] using once, by simpa [same'] using fresh, by rw [same']; exact first, ?_, ?_⟩
          · intro j w' hj ht; rw [same']; simp only [Dict.get?_erase] at hj
            split at hj
            · cases hj
            · exact moving j w' hj ht
          · intro j w' p' hj hp'
            simp only [Dict.get?_erase] at hj
            split at hj
            · cases hj
            · rcases there j w' p' hj hp' with h1 | ⟨q, h1⟩
              · exact .inl h1
              · exact .inr ⟨q, List.mem_append_left _ h1⟩
        · cases hs
    | crash p =>
      have same' : ∀ j, (ls ++ [Label.crash p]).countP (taken j) = ls.countP (taken j) := fun j => same j rfl
      simp only [step] at hs
      injection hs with hs; subst hs
      refine ⟨by simpa [same'] using once, by simpa [same'] using fresh, by rw [same']; exact first, ?_, ?_⟩
      · intro j w' hj ht; rw [same']; exact moving j w' (get?_filter_some wf hj) ht
      · intro j w' p' hj hp'
        rcases there j w' p' (get?_filter_some wf hj) hp' with h1 | ⟨q, h1⟩
        · exact .inl h1
        · exact .inr ⟨q, List.mem_append_left _ h1⟩
    | destroy i =>
      have same' : ∀ j, (ls ++ [Label.destroy i]).countP (taken j) = ls.countP (taken j) := fun j => same j rfl
      simp only [step] at hs
      split at hs
      · cases hs
      · split at hs
        · injection hs with hs; subst hs
          refine ⟨by simpa [same'] using once, by simpa [same'] using fresh, by rw [same']; exact first, ?_, ?_⟩
          · intro j w' hj ht; rw [same']; exact moving j w' hj ht
          · intro j w' p' hj hp'
            rcases there j w' p' hj hp' with h1 | ⟨q, h1⟩
            · exact .inl h1
            · exact .inr ⟨q, List.mem_append_left _ h1⟩
        · cases hs
    | over =>
      have same' : ∀ j, (ls ++ [Label.over]).countP (taken j) = ls.countP (taken j) := fun j => same j rfl
      simp only [step] at hs
      injection hs with hs; subst hs
      refine ⟨by simpa [same'] using once, by simpa [same'] using fresh, by rw [same']; exact first, ?_, ?_⟩
      · intro j w' hj ht; rw [same']; exact moving j w' hj ht
      · intro j w' p' hj hp'
        rcases there j w' p' hj hp' with h1 | ⟨q, h1⟩
        · exact .inl h1
        · exact .inr ⟨q, List.mem_append_left _ h1⟩

/-- A wrapper handed over arrives at most once, and not after its message was lost; the first one, made by the actor, never travels itself. -/
theorem arrives_once {home : Proc} {ls : List Label} {s : St} (h : Run home ls s) (i : Wid) :
    ls.countP (taken i) ≤ 1 ∧ (i = 0 → ls.countP (taken i) = 0) :=
  ⟨(minv_run h).once i, fun hi => by subst hi; exact (minv_run h).first⟩

/-- A wrapper handed over is used - iterated to destruction, collected, handed on - only after it has arrived somewhere. -/
theorem used_after_arrival {home : Proc} {ls : List Label} {l : Label} {s s' : St} (h : Run home ls s) (hs : step s l = some s') {i : Wid}
    (hu : Uses i l) : i = 0 ∨ ∃ p, Label.arrive i p ∈ ls := by
  have hm := minv_run h
  rcases hu with rfl | rfl | ⟨ok, rfl⟩ <;> simp only [step] at hs <;> split at hs <;> try (cases hs; done)
  all_goals
    rename_i w hw
    split at hs <;> try (cases hs; done)
    next hat =>
    rcases place_cases w with ⟨_, p, hp⟩ | ⟨h1, _⟩
    · exact hm.there i w p hw hp
    · rw [h1] at hat; cases hat

example : ∃ s, Run 0 [.send 0, .arrive 1 1, .send 1, .lose 2] s ∧ (step s (.drop 1 true)).isSome = true ∧ Uses 1 (.drop 1 true) ∧
    (step s (.arrive 2 1)).isNone = true := ⟨_, run_of [] _ _ _ Run.start rfl, rfl, .inr (.inr ⟨true, rfl⟩), rfl⟩

/-! ## Concrete cases -/

/-- handed from the actor (0) to a client (1), on to process 2, iterated there and dropped -/
example : ∃ s, Run 0 [.send 0, .arrive 1 1, .drop 0 true, .send 1, .arrive 2 2, .drop 1 true] s ∧ s.gen = true ∧
    HandedOverOnce [.send 0, .arrive 1 1, .drop 0 true, .send 1, .arrive 2 2, .drop 1 true] ∧
    NothingLost [.send 0, .arrive 1 1, .drop 0 true, .send 1, .arrive 2 2, .drop 1 true] ∧
    NotEnded [.send 0, .arrive 1 1, .drop 0 true, .send 1, .arrive 2 2, .drop 1 true] ∧
    InUse [.send 0, .arrive 1 1, .drop 0 true, .send 1, .arrive 2 2, .drop 1 true] s := by
  refine ⟨_, run_of [] _ _ _ Run.start rfl, rfl, ?_, ?_, ?_, ⟨2, ⟨true, .at 2⟩, rfl, by decide⟩⟩
  · intro i; simp only [List.count_cons, List.count_nil, beq_iff_eq, Label.send.injEq]
    grind
  · intro l hl; simp only [List.mem_cons, List.not_mem_nil, or_false] at hl
    rcases hl with rfl | rfl | rfl | rfl | rfl | rfl <;> simp
  · intro l hl; simp only [List.mem_cons, List.not_mem_nil, or_false] at hl
    rcases hl with rfl | rfl | rfl | rfl | rfl | rfl <;> simp
example : ∃ s, Run 0 [.send 0, .arrive 1 1, .drop 0 true, .drop 1 true] s ∧ s.gen = false ∧ s.wraps = [] :=
  ⟨_, run_of [] _ _ _ Run.start rfl, rfl, rfl⟩
example : (2 : Nat) ∉ [1, 3] ∧ after (collect 2 0 [1, 3]) [.holder, .collection, .holder, .holder, .holder, .collection] = ⟨none, none, false⟩ := by
  decide
example : (after (collect 1 0 [1, 3]) [.holder, .collection, .holder, .holder, .holder, .collection]).blocked = some 1 := by decide

end Xoscar.Wrap
