import Verif.Proof.Order
/-! C80: calls reach their actor in the order they were made. -/
namespace Xoscar.Order
open scoped List

variable {big : Nat → Bool} {ks : List Nat} {ls : List Label} {st : St}

theorem pair_snoc {α : Type} {a b c : α} {l : List α} : [a, b] <+ l ++ [c] ↔ [a, b] <+ l ∨ (a ∈ l ∧ b = c) := by
  rw [pair_append]
  constructor
  · rintro (h | ⟨h1, h2⟩ | h)
    · exact Or.inl h
    · exact Or.inr ⟨h1, by simpa using h2⟩
    · have := h.length_le; simp at this
  · rintro (h | ⟨h1, h2⟩)
    · exact Or.inl h
    · exact Or.inr (Or.inl ⟨h1, by simp [h2]⟩)

theorem issued_keep {lb : Label} {st st' : St} (hs : step big st lb = some st') : st'.issued = st.issued ∨ ∃ p, st'.issued = st.issued ++ [p] := by
  cases lb <;> simp only [step] at hs <;> repeat' split at hs
  all_goals first
    | cases hs; done
    | (injection hs with hs; subst hs
       first
        | exact Or.inl rfl
        | exact Or.inr ⟨_, rfl⟩
        | exact Or.inl (ask_issued _ _ _)
        | exact Or.inr ⟨_, ask_issued _ _ _⟩
        | exact Or.inl (handOn_issued _))

theorem issued_mono {lb : Label} {st st' : St} {p : Nat × Nat} (hs : step big st lb = some st') (h : p ∈ st.issued) : p ∈ st'.issued := by
  rcases issued_keep hs with e | ⟨q, e⟩ <;> rw [e]
  · exact h
  · exact List.mem_append_left _ h

/-- A call that was made is on record. -/
theorem made_issued (h : Run big ks ls st) {l c : Nat} (hm : Label.issue l c ∈ ls ∨ Label.inline l c ∈ ls) : (l, c) ∈ st.issued := by
  induction h with
  | init => simp at hm
  | @snoc ls lb st st' hr hs ih =>
    have old : (Label.issue l c ∈ ls ∨ Label.inline l c ∈ ls) → (l, c) ∈ st'.issued := fun h0 => issued_mono hs (ih h0)
    simp only [List.mem_append, List.mem_singleton] at hm
    rcases hm with (hm | hm) | (hm | hm)
    · exact old (Or.inl hm)
    · subst hm
      simp only [step] at hs
      repeat' split at hs
      all_goals first
        | cases hs; done
        | (injection hs with hs; subst hs; simp [St.setLane])
    · exact old (Or.inr hm)
    · subst hm
      simp only [step] at hs
      repeat' split at hs
      all_goals first
        | cases hs; done
        | (injection hs with hs; subst hs; rw [ask_issued]; simp)

/-- Nothing is started twice, and nothing that was not called. -/
theorem started_once (h : Run big ks ls st) : st.started.Nodup ∧ ∀ c ∈ st.started, ∃ l, (l, c) ∈ st.issued := by
  have hI := inv_run h
  have hsub : st.started <+ st.asked.map (·.2) := by
    have : (st.started ++ st.waiting) <+ st.asked.map (·.2) := by rw [← hI.fifo]; exact List.filter_sublist
    exact (List.sublist_append_left _ _).trans this
  refine ⟨hsub.nodup hI.askedNodup, ?_⟩
  intro c hc
  obtain ⟨⟨l, c'⟩, hp, rfl⟩ := List.mem_map.1 (hsub.subset hc)
  exact ⟨l, hI.askedIn _ hp⟩

theorem lanes_length {lb : Label} {st' : St} (hs : step big st lb = some st') : st'.lanes.length = st.lanes.length := by
  cases lb <;> simp only [step] at hs <;> repeat' split at hs
  all_goals first
    | cases hs; done
    | (injection hs with hs; subst hs
       first
        | rfl
        | (rw [ask_lanes]; simp only [St.setLane, List.length_set]; done)
        | (rw [ask_lanes]; done)
        | (rw [handOn_lanes]; done)
        | simp only [St.setLane, List.length_set])

theorem small_line (h : Run big ks ls st) {l c1 c2 : Nat} (hb : big c1 = false)
    (hm : [Label.issue l c1, Label.issue l c2] <+ ls ∨ [Label.inline l c1, Label.issue l c2] <+ ls) {x : Lane} (hx : st.lanes[l]? = some x) :
    [c1, c2] <+ line st l x := by
  induction h generalizing x with
  | init => rcases hm with hm | hm <;> cases hm
  | @snoc ls lb st st' hr hs ih =>
    have hI := inv_run hr
    obtain ⟨y, hy, _, _, hc⟩ := step_line hs hx
    have hnt : c1 ∉ inThreads y.hops := fun h0 => by rw [hI.big l y hy c1 h0] at hb; cases hb
    have old : [c1, c2] <+ line st l y → [c1, c2] <+ line st' l x := by
      intro h0
      cases hc with
      | jump hj _ => exact hj.pair hnt h0
      | issue c _ he _ => rw [he]; exact h0.trans (List.sublist_append_left _ _)
      | inline c _ he hh _ =>
        rw [he]
        rw [line, hh] at h0
        simp only [lineHops, List.append_nil] at h0
        refine h0.trans ?_
        exact List.Sublist.append (List.Sublist.refl _) (List.sublist_cons_self _ _)
    have new : (Label.issue l c1 ∈ ls ∨ Label.inline l c1 ∈ ls) → lb = .issue l c2 → [c1, c2] <+ line st' l x := by
      intro h0 e
      subst e
      have hi := (line_issued hI hy).2 (made_issued hr h0)
      cases hc with
      | jump hj hi' =>
        exfalso
        have h3 := made_issued (hr.snoc hs) (l := l) (c := c2) (by simp)
        rcases hi' with hi' | ⟨l', c, hne, hlab, _⟩
        · rw [hi'] at h3
          simp only [step] at hs
          split at hs
          · cases hs
          · split at hs
            · cases hs
            · rename_i hn; exact hn (List.mem_map.2 ⟨_, h3, rfl⟩)
        · rcases hlab with e | e <;> cases e <;> exact hne rfl
      | issue c hl he _ =>
        injection hl with _ e2; subst e2
        rw [he, pair_snoc]; exact Or.inr ⟨hi, rfl⟩
      | inline c hl he _ => cases hl
    rcases hm with hm | hm
    · rcases pair_snoc.1 hm with h0 | ⟨h0, e⟩
      · exact old (ih (Or.inl h0) hy)
      · exact new (Or.inl h0) e.symm
    · rcases pair_snoc.1 hm with h0 | ⟨h0, e⟩
      · exact old (ih (Or.inr h0) hy)
      · exact new (Or.inr h0) e.symm

theorem lane_of_started (h : Run big ks ls st) {l c : Nat} (hm : Label.issue l c ∈ ls ∨ Label.inline l c ∈ ls) : ∃ x, st.lanes[l]? = some x := by
  induction h with
  | init => simp at hm
  | @snoc ls lb st st' hr hs ih =>
    have hlen := lanes_length hs
    have conv : (∃ x, st.lanes[l]? = some x) → ∃ x, st'.lanes[l]? = some x := by
      rintro ⟨x, hx⟩
      have : l < st.lanes.length := by
        rcases Nat.lt_or_ge l st.lanes.length with h | h
        · exact h
        · rw [List.getElem?_eq_none h] at hx; cases hx
      exact ⟨_, List.getElem?_eq_getElem (by omega)⟩
    apply conv
    simp only [List.mem_append, List.mem_singleton] at hm
    rcases hm with (hm | hm) | (hm | hm)
    · exact ih (Or.inl hm)
    · subst hm
      rcases hh : st.lanes[l]? with _ | x
      · simp only [step, hh] at hs; cases hs
      · exact ⟨x, rfl⟩
    · exact ih (Or.inr hm)
    · subst hm
      rcases hh : st.lanes[l]? with _ | x
      · simp only [step, hh] at hs; cases hs
      · exact ⟨x, rfl⟩

/-- A call whose message is not serialized in the thread pool is never overtaken by a later call on the same lane: through any number of
proxies, with any number of other calls under way, awaited or not. (`issue` for the later call: an `await` on a local reference is
`awaited_in_order_partial`.) -/
theorem small_never_overtaken_partial (h : Run big ks ls st) {l c1 c2 : Nat} (hb : big c1 = false)
    (hm : Before ls (.issue l c1) (.issue l c2) ∨ Before ls (.inline l c1) (.issue l c2)) (h2 : c2 ∈ st.started) :
    c1 ∈ st.dropped ∨ Before st.started c1 c2 := by
  rw [before_iff, before_iff] at hm
  rw [before_iff]
  obtain ⟨x, hx⟩ := lane_of_started h (l := l) (c := c2) (by
    rcases hm with hm | hm
    · exact Or.inl (hm.subset (by simp))
    · exact Or.inl (hm.subset (by simp)))
  exact starts_of_line (inv_run h) hx (small_line h hb hm hx) h2

theorem ready_sub {hs hs' : List Hop} {i : Nat} (h : startAt big hs i = some hs') : ∀ c ∈ hs'.flatMap (·.ready), c ∈ hs.flatMap (·.ready) := by
  induction hs generalizing i hs' with
  | nil => simp [startAt] at h
  | cons x hs ih =>
    cases i with
    | zero =>
      simp only [startAt] at h
      split at h
      · cases h
      · rename_i c r hr
        split at h <;> (injection h with h; subst h; intro d hd; simp only [List.flatMap_cons, List.mem_append, hr, List.mem_cons] at hd ⊢; grind)
    | succ i =>
      simp only [startAt] at h
      rcases hh : startAt big hs i with _ | t
      · rw [hh] at h; cases h
      · rw [hh] at h; injection h with h; subst h
        intro d hd
        simp only [List.flatMap_cons, List.mem_append] at hd ⊢
        rcases hd with hd | hd
        · exact Or.inl hd
        · exact Or.inr (ih hh d hd)

theorem ready_finish {hs hs' : List Hop} {i c : Nat} (h : finishAt hs i c = some hs') : hs'.flatMap (·.ready) = hs.flatMap (·.ready) := by
  induction hs generalizing i hs' with
  | nil => simp [finishAt] at h
  | cons x hs ih =>
    cases i with
    | zero =>
      simp only [finishAt] at h
      split at h
      · injection h with h; subst h; simp
      · cases h
    | succ i =>
      simp only [finishAt] at h
      rcases hh : finishAt hs i c with _ | t
      · rw [hh] at h; cases h
      · rw [hh] at h; injection h with h; subst h; simp [ih hh]

/-- In a lane with at most one hop, a call other than a new one does not come back into the tasks of the client. -/
theorem ready_step {lb : Label} {st' : St} (hs : step big st lb = some st') {l c : Nat} {x x' : Lane} (hx : st.lanes[l]? = some x)
    (hx' : st'.lanes[l]? = some x') (h1 : x.hops.length ≤ 1) (hc : c ∉ x.hops.flatMap (·.ready)) (hn : lb ≠ .issue l c) :
    c ∉ x'.hops.flatMap (·.ready) := by
  have hlt : ∀ {k : Nat} {y : Lane}, st.lanes[k]? = some y → k < st.lanes.length := by
    intro k y hy
    rcases Nat.lt_or_ge k st.lanes.length with h | h
    · exact h
    · rw [List.getElem?_eq_none h] at hy; cases hy
  have put : ∀ (st1 : St) (k : Nat) (y y1 : Lane), st.lanes[k]? = some y → st1.lanes = st.lanes.set k y1 →
      (k = l → c ∉ y.hops.flatMap (·.ready) → y.hops.length ≤ 1 → c ∉ y1.hops.flatMap (·.ready)) → st1.lanes[l]? = some x' → c ∉ x'.hops.flatMap (·.ready) := by
    intro st1 k y y1 hy e hk h
    rw [e, List.getElem?_set] at h
    by_cases hkl : k = l
    · rw [if_pos hkl, if_pos (hlt hy)] at h
      injection h with h; subst h
      subst hkl
      rw [hy] at hx; injection hx with hx; subst hx
      exact hk rfl hc h1
    · rw [if_neg hkl, hx] at h; injection h with h; subst h; exact hc
  cases lb with
  | issue k d =>
    simp only [step] at hs
    split at hs
    · cases hs
    · rename_i y hy
      split at hs
      · cases hs
      · injection hs with hs; subst hs
        refine put _ k y (push y d) hy rfl ?_ hx'
        intro hk hc' _
        have hdc : d ≠ c := by rintro rfl; subst hk; exact hn rfl
        unfold push
        split
        · exact hc'
        · next hh =>
          rw [hh] at hc'
          simp only [List.flatMap_cons, List.mem_append, List.mem_singleton, not_or] at hc' ⊢
          exact ⟨⟨hc'.1, fun e => hdc e.symm⟩, hc'.2⟩
  | inline k d =>
    simp only [step] at hs
    repeat' split at hs
    all_goals first
      | cases hs; done
      | (injection hs with hs; subst hs; rw [ask_lanes] at hx'; simp only at hx'; rw [hx] at hx'; injection hx' with hx'; subst hx'; exact hc)
  | start k i =>
    simp only [step] at hs
    split at hs
    · cases hs
    · rename_i y hy
      split at hs
      · cases hs
      · rename_i t ht
        injection hs with hs; subst hs
        exact put _ k y { y with hops := t } hy rfl (fun _ h0 _ h2 => h0 (ready_sub ht c h2)) hx'
  | finish k i d =>
    simp only [step] at hs
    split at hs
    · cases hs
    · rename_i y hy
      split at hs
      · cases hs
      · rename_i t ht
        injection hs with hs; subst hs
        exact put _ k y { y with hops := t } hy rfl (fun _ h0 _ h2 => h0 (by rw [ready_finish ht] at h2; exact h2)) hx'
  | recv k i =>
    simp only [step] at hs
    split at hs
    · cases hs
    · rename_i y hy
      split at hs
      · cases hs
      · rename_i t ht
        injection hs with hs; subst hs
        refine put _ k y { y with hops := t.1, last := t.2 } hy rfl ?_ hx'
        intro _ h0 hlen
        rcases hyy : y.hops with _ | ⟨z, zs⟩
        · rw [hyy] at ht; simp [recvAt] at ht
        · rw [hyy] at ht h0 hlen
          have : zs = [] := by cases zs with | nil => rfl | cons _ _ => simp at hlen
          subst this
          cases i with
          | zero =>
            simp only [recvAt] at ht
            split at ht
            · cases ht
            · injection ht with ht; subst ht; simpa using h0
          | succ i => simp [recvAt] at ht
  | arrive k =>
    simp only [step] at hs
    split at hs
    · cases hs
    · rename_i y hy
      split at hs
      · cases hs
      · injection hs with hs; subst hs
        rw [ask_lanes] at hx'
        rename_i d r _
        exact put (st.setLane k { y with last := r }) k y { y with last := r } hy rfl (fun _ h0 _ => h0) hx'
  | done =>
    simp only [step] at hs
    split at hs
    · cases hs
    · injection hs with hs; subst hs
      rw [handOn_lanes, hx] at hx'; injection hx' with hx'; subst hx'; exact hc
  | cancel d =>
    simp only [step] at hs
    split at hs
    · injection hs with hs; subst hs
      simp only at hx'; rw [hx] at hx'; injection hx' with hx'; subst hx'; exact hc
    · cases hs

theorem run_append {ls' : List Label} {st' : St} (h : Run big ks ls st) (h' : ls'.foldlM (step big) st = some st') : Run big ks (ls ++ ls') st' := by
  induction ls' generalizing ls st with
  | nil => simp only [List.foldlM_nil] at h'; injection h' with h'; subst h'; simpa using h
  | cons l ls' ih =>
    simp only [List.foldlM_cons] at h'
    rcases hl : step big st l with _ | s1
    · rw [hl] at h'; cases h'
    · rw [hl] at h'
      have := ih (h.snoc hl) h'
      simpa using this

/-- A task that awaits its tells and calls one after the other, over a direct connection or with a local reference: the actor starts them in
this order, whatever their sizes and whatever else is under way. -/
theorem awaited_in_order_partial (h : Run big ks ls st) {l c1 c2 : Nat} {x : Lane} (hx : st.lanes[l]? = some x) (hlen : x.hops.length ≤ 1)
    (hm : (l, c1) ∈ st.issued) (hret : Returned x c1) {lb : Label} (hlb : lb = .issue l c2 ∨ lb = .inline l c2)
    {ls' : List Label} {st' : St} (hrest : (lb :: ls').foldlM (step big) st = some st') (h2 : c2 ∈ st'.started) :
    c1 ∈ st'.dropped ∨ Before st'.started c1 c2 := by
  rw [before_iff]
  have hI := inv_run h
  -- the invariant of what follows
  have follow : ∀ (ls' : List Label) (st1 st' : St) (ls1 : List Label), Run big ks ls1 st1 → ls'.foldlM (step big) st1 = some st' →
      (∀ x, st1.lanes[l]? = some x → x.hops.length ≤ 1 ∧ c1 ∉ x.hops.flatMap (·.ready) ∧ c1 ∉ inThreads x.hops ∧ [c1, c2] <+ line st1 l x) →
      (l, c1) ∈ st1.issued →
      ∀ x, st'.lanes[l]? = some x → [c1, c2] <+ line st' l x := by
    intro ls'
    induction ls' with
    | nil =>
      intro st1 st' ls1 _ hf hq _ x hx
      simp only [List.foldlM_nil] at hf; injection hf with hf; subst hf
      exact (hq x hx).2.2.2
    | cons lb ls' ih =>
      intro st1 st' ls1 hr hf hq hiss
      simp only [List.foldlM_cons] at hf
      rcases hl : step big st1 lb with _ | st2
      · rw [hl] at hf; cases hf
      · rw [hl] at hf
        refine ih st2 st' (ls1 ++ [lb]) (hr.snoc hl) hf ?_ ?_
        · intro x' hx'
          obtain ⟨x, hx, g1, g2, g3⟩ := step_line hl hx'
          obtain ⟨q1, q2, q3, q4⟩ := hq x hx
          have hne : lb ≠ .issue l c1 := by
            rintro rfl
            simp only [step] at hl
            split at hl
            · cases hl
            · split at hl
              · cases hl
              · rename_i hn; exact hn (List.mem_map.2 ⟨_, hiss, rfl⟩)
          refine ⟨by omega, ready_step hl hx hx' q1 q2 hne, ?_, ?_⟩
          · intro h0
            rcases g2 c1 h0 with h0 | h0
            · exact q3 h0
            · exact q2 h0.2
          · cases g3 with
            | jump hj _ => exact hj.pair q3 q4
            | issue c _ he _ => rw [he]; exact q4.trans (List.sublist_append_left _ _)
            | inline c _ he hh _ =>
              rw [he]
              rw [line, hh] at q4
              simp only [lineHops, List.append_nil] at q4
              exact q4.trans (List.Sublist.append (List.Sublist.refl _) (List.sublist_cons_self _ _))
        · exact issued_mono hl hiss
  simp only [List.foldlM_cons] at hrest
  rcases hl : step big st lb with _ | st1
  · rw [hl] at hrest; cases hrest
  · rw [hl] at hrest
    have hr1 := h.snoc hl
    have hr' : Run big ks (ls ++ [lb] ++ ls') st' := run_append hr1 hrest
    obtain ⟨x', hx'⟩ := lane_of_started hr' (l := l) (c := c2) (by rcases hlb with rfl | rfl <;> simp)
    refine starts_of_line (inv_run hr') hx' (follow ls' st1 st' _ hr1 hrest ?_ (issued_mono hl hm) x' hx') h2
    intro y hy
    obtain ⟨x0, hx0, g1, g2, g3⟩ := step_line hl hy
    rw [hx] at hx0; injection hx0 with hx0; subst hx0
    have hcl : c1 ∈ line st l x := (line_issued hI hx).2 hm
    have hrd : c1 ∉ x.hops.flatMap (·.ready) ∧ c1 ∉ inThreads x.hops := by
      unfold Returned at hret
      rcases hh : x.hops with _ | ⟨z, zs⟩
      · simp [inThreads]
      · rw [hh] at hret hlen
        have : zs = [] := by cases zs with | nil => rfl | cons _ _ => simp at hlen
        subst this
        simpa [inThreads] using hret
    have hne : lb ≠ .issue l c1 := by
      rintro rfl
      simp only [step] at hl
      split at hl
      · cases hl
      · split at hl
        · cases hl
        · rename_i hn; exact hn (List.mem_map.2 ⟨_, hm, rfl⟩)
    refine ⟨by omega, ready_step hl hx hy hlen hrd.1 hne, ?_, ?_⟩
    · intro h0
      rcases g2 c1 h0 with h0 | h0
      · exact hrd.2 h0
      · exact hrd.1 h0.2
    · cases g3 with
      | jump hj hi =>
        exfalso
        have h3 := made_issued hr1 (l := l) (c := c2) (by rcases hlb with rfl | rfl <;> simp)
        rcases hi with hi | ⟨l', c, hne', hlab, _⟩
        · rw [hi] at h3
          have h4 : c2 ∈ st.issued.map (·.2) := List.mem_map.2 ⟨_, h3, rfl⟩
          rcases hlb with rfl | rfl
          · simp only [step] at hl
            split at hl
            · cases hl
            · rw [if_pos h4] at hl; cases hl
          · simp only [step] at hl
            split at hl
            · cases hl
            · rw [if_pos (Or.inl h4)] at hl; cases hl
        · rcases hlb with rfl | rfl <;> rcases hlab with e | e <;> cases e <;> exact hne' rfl
      | issue c hlc he _ =>
        have : c = c2 := by rcases hlb with rfl | rfl <;> cases hlc <;> rfl
        subst this
        rw [he, pair_snoc]; exact Or.inr ⟨hcl, rfl⟩
      | inline c hlc he hh _ =>
        have : c = c2 := by rcases hlb with rfl | rfl <;> cases hlc <;> rfl
        subst this
        rw [he, pair_append]
        right; left
        refine ⟨?_, by simp⟩
        unfold Returned at hret
        rw [hh] at hret
        rw [line, hh] at hcl
        simp only [lineHops, List.append_nil, List.mem_append] at hcl
        exact hcl.resolve_right hret

theorem issued_lane (h : Run big ks ls st) {l c : Nat} (hi : (l, c) ∈ st.issued) : Label.issue l c ∈ ls ∨ Label.inline l c ∈ ls := by
  induction h with
  | init => simp [init] at hi
  | @snoc ls lb st st' hr hs ih =>
    have old : (l, c) ∈ st.issued → Label.issue l c ∈ ls ++ [lb] ∨ Label.inline l c ∈ ls ++ [lb] := fun h0 =>
      (ih h0).elim (fun h1 => Or.inl (List.mem_append_left _ h1)) (fun h1 => Or.inr (List.mem_append_left _ h1))
    cases lb with
    | issue k d =>
      simp only [step] at hs
      repeat' split at hs
      all_goals first
        | cases hs; done
        | (injection hs with hs; subst hs
           simp only [St.setLane, List.mem_append, List.mem_singleton] at hi
           rcases hi with hi | hi
           · exact old hi
           · cases hi; exact Or.inl (by simp))
    | inline k d =>
      simp only [step] at hs
      repeat' split at hs
      all_goals first
        | cases hs; done
        | (injection hs with hs; subst hs
           rw [ask_issued] at hi
           simp only [List.mem_append, List.mem_singleton] at hi
           rcases hi with hi | hi
           · exact old hi
           · cases hi; exact Or.inr (by simp))
    | _ =>
      simp only [step] at hs
      repeat' split at hs
      all_goals first
        | cases hs; done
        | (injection hs with hs; subst hs
           first
            | exact old hi
            | (rw [ask_issued] at hi; exact old hi)
            | (rw [handOn_issued] at hi; exact old hi))

theorem hops_move (hs : List Hop) (last : List Nat) {c : Nat} (hc : c ∈ lineHops hs) :
    (∃ i hs', startAt big hs i = some hs') ∨ (∃ i d hs', finishAt hs i d = some hs') ∨ ∃ i r, recvAt hs last i = some r := by
  induction hs with
  | nil => simp [lineHops] at hc
  | cons h hs ih =>
    simp only [lineHops, List.mem_append] at hc
    rcases hc with hc | (hc | hc) | hc
    · rcases ih hc with ⟨i, t, ht⟩ | ⟨i, d, t, ht⟩ | ⟨i, t, ht⟩
      · exact Or.inl ⟨i + 1, _, by simp only [startAt, ht]; rfl⟩
      · exact Or.inr (Or.inl ⟨i + 1, d, _, by simp only [finishAt, ht]; rfl⟩)
      · exact Or.inr (Or.inr ⟨i + 1, _, by simp only [recvAt, ht]; rfl⟩)
    · right; right
      rcases hw : h.wire with _ | ⟨d, w⟩
      · rw [hw] at hc; cases hc
      · cases hs with
        | nil => exact ⟨0, _, by simp only [recvAt, hw]; rfl⟩
        | cons h' hs => exact ⟨0, _, by simp only [recvAt, hw]; rfl⟩
    · right; left
      exact ⟨0, c, _, by simp only [finishAt, hc, if_true]; rfl⟩
    · left
      rcases hw : h.ready with _ | ⟨d, w⟩
      · rw [hw] at hc; cases hc
      · refine ⟨0, ?_⟩
        simp only [startAt, hw]
        split <;> exact ⟨_, rfl⟩

/-- No call is lost: as long as a call that was made has neither started nor been cancelled, something goes on without a new call. -/
theorem none_lost (h : Run big ks ls st) {l c : Nat} (hm : Label.issue l c ∈ ls ∨ Label.inline l c ∈ ls) (hs : c ∉ st.started) (hd : c ∉ st.dropped) :
    ∃ lb st', (∀ l c, lb ≠ .issue l c) ∧ (∀ l c, lb ≠ .inline l c) ∧ (∀ c, lb ≠ .cancel c) ∧ step big st lb = some st' := by
  have hI := inv_run h
  obtain ⟨x, hx⟩ := lane_of_started h hm
  have hc := (line_issued hI hx).2 (made_issued h hm)
  simp only [line, List.mem_append] at hc
  rcases hc with hc | hc | hc
  · have hw : c ∈ st.started ++ st.waiting := by
      rw [← hI.fifo]
      obtain ⟨p, hp, rfl⟩ := List.mem_map.1 hc
      exact List.mem_filter.2 ⟨List.mem_map.2 ⟨p, (List.mem_filter.1 hp).1, rfl⟩, by simpa using hd⟩
    have hr : st.running ≠ none := by
      intro h0
      rw [hI.idle h0] at hw
      simp at hw; exact hs hw
    exact ⟨.done, _, by simp, by simp, by simp, by simp only [step, if_neg hr]; rfl⟩
  · rcases hl : x.last with _ | ⟨d, r⟩
    · rw [hl] at hc; cases hc
    · exact ⟨.arrive l, _, by simp, by simp, by simp, by simp only [step, hx, hl]; rfl⟩
  · rcases hops_move (big := big) x.hops x.last hc with ⟨i, t, ht⟩ | ⟨i, d, t, ht⟩ | ⟨i, t, ht⟩
    · exact ⟨.start l i, _, by simp, by simp, by simp, by simp only [step, hx, ht]; rfl⟩
    · exact ⟨.finish l i d, _, by simp, by simp, by simp, by simp only [step, hx, ht]; rfl⟩
    · exact ⟨.recv l i, _, by simp, by simp, by simp, by simp only [step, hx, ht]; rfl⟩

/-- What is started was called; `started_once` in terms of the calls. -/
theorem started_called (h : Run big ks ls st) {c : Nat} (hc : c ∈ st.started) : ∃ l, Label.issue l c ∈ ls ∨ Label.inline l c ∈ ls := by
  obtain ⟨l, hl⟩ := (started_once h).2 c hc
  exact ⟨l, issued_lane h hl⟩

/-- One method at a time: all calls that were started have ended, but for the one that holds the lock, which is the last one started. -/
theorem one_at_a_time (h : Run big ks ls st) : ls.count .done + st.running.toList.length = st.started.length ∧
    (st.running ≠ none → st.started.getLast? = st.running) := by
  induction h with
  | init => simp [init]
  | @snoc ls lb st st' hr hs ih =>
    have ask_ok : ∀ (s0 : St) (l c : Nat), s0.running = st.running → s0.started = st.started →
        ls.count .done + (ask s0 l c).running.toList.length = (ask s0 l c).started.length ∧
        ((ask s0 l c).running ≠ none → (ask s0 l c).started.getLast? = (ask s0 l c).running) := by
      intro s0 l c h1 h2
      unfold ask
      rcases hrun : s0.running with _ | d
      · rw [h1] at hrun
        simp only [hrun, h2] at ih ⊢
        simp at ih ⊢; omega
      · rw [h1] at hrun
        simp only [hrun, h2] at ih ⊢
        exact ih
    rw [List.count_append]
    cases lb with
    | done =>
      simp only [step] at hs
      split at hs
      · cases hs
      · rename_i hn
        injection hs with hs; subst hs
        have : st.running.toList.length = 1 := by
          rcases hrun : st.running with _ | d
          · exact absurd hrun hn
          · rfl
        unfold handOn
        split <;> simp <;> omega
    | arrive l =>
      simp only [step] at hs
      repeat' split at hs
      all_goals first
        | cases hs; done
        | (injection hs with hs; subst hs; exact ask_ok _ _ _ rfl rfl)
    | inline l c =>
      simp only [step] at hs
      repeat' split at hs
      all_goals first
        | cases hs; done
        | (injection hs with hs; subst hs; exact ask_ok _ _ _ rfl rfl)
    | _ =>
      simp only [step] at hs
      repeat' split at hs
      all_goals first
        | cases hs; done
        | (injection hs with hs; subst hs; simpa [St.setLane] using ih)

instance (x : Lane) (c : Nat) : Decidable (Returned x c) := by
  unfold Returned
  cases x.hops <;> infer_instance

theorem run_of {st' : St} (h : ls.foldlM (step big) (init ks) = some st') : Run big ks ls st' := by
  have := run_append (Run.init (big := big) (ks := ks)) h
  simpa using this

/-- A tell through a proxy has returned before the next one is made, and the next one starts first: the proxy serializes the first, larger
message in its thread pool. -/
theorem proxy_reorders : ∃ (big : Nat → Bool) (ls ls' : List Label) (st st' : St) (x : Lane), Run big [2] ls st ∧ st.lanes[0]? = some x ∧
    (0, 1) ∈ st.issued ∧ Returned x 1 ∧ (Label.issue 0 2 :: ls').foldlM (step big) st = some st' ∧ st'.dropped = [] ∧ st'.started = [2, 1] := by
  refine ⟨(· == 1), [.issue 0 1, .start 0 0, .finish 0 0 1],
    [.start 0 0, .recv 0 0, .start 0 1, .recv 0 0, .start 0 1, .recv 0 1, .arrive 0, .finish 0 1 1, .recv 0 1, .arrive 0, .done],
    _, _, _, run_of rfl, rfl, by decide, by decide, rfl, rfl, rfl⟩

/-- Not awaited (`asyncio.gather`, `create_task`), over a direct connection: a larger message is overtaken by a later one. -/
theorem large_overtaken : ∃ (big : Nat → Bool) (ls : List Label) (st : St), Run big [1] ls st ∧
    Before ls (.issue 0 1) (.issue 0 2) ∧ st.dropped = [] ∧ st.started = [2, 1] := by
  refine ⟨(· == 1), [.issue 0 1, .issue 0 2, .start 0 0, .start 0 0, .recv 0 0, .finish 0 0 1, .arrive 0, .recv 0 0, .arrive 0, .done],
    _, run_of rfl, ?_, rfl, rfl⟩
  exact ⟨[], [], _, rfl⟩

/-- Two connections (two threads, or a connection opened again): a tell has returned before the next one is made on the other connection, and
the next one starts first. Nothing is large. -/
theorem two_lanes_reorder : ∃ (ls ls' : List Label) (st st' : St) (x : Lane), Run (fun _ => false) [1, 1] ls st ∧ st.lanes[0]? = some x ∧
    (0, 1) ∈ st.issued ∧ Returned x 1 ∧ (Label.issue 1 2 :: ls').foldlM (step fun _ => false) st = some st' ∧ st'.dropped = [] ∧
    st'.started = [2, 1] := by
  refine ⟨[.issue 0 1, .start 0 0], [.start 1 0, .recv 1 0, .arrive 1, .recv 0 0, .arrive 0, .done], _, _, _, run_of rfl, rfl, by decide, by decide,
    rfl, rfl, rfl⟩

/-- A local reference: an awaited call overtakes a tell that was made before and not awaited. Nothing is large. -/
theorem local_call_overtakes_tell : ∃ (ls : List Label) (st : St), Run (fun _ => false) [0] ls st ∧
    Before ls (.issue 0 1) (.inline 0 2) ∧ st.dropped = [] ∧ st.started = [2, 1] := by
  refine ⟨[.issue 0 1, .inline 0 2, .arrive 0, .done], _, run_of rfl, ?_, rfl, rfl⟩
  exact ⟨[], [], _, rfl⟩

/-- The hypotheses of `small_never_overtaken_partial` are met: three calls through a proxy, the second one large. -/
example : ∃ (ls : List Label) (st : St), Run (· == 2) [2] ls st ∧ Before ls (.issue 0 1) (.issue 0 2) ∧ Before ls (.issue 0 1) (.issue 0 3) ∧
    3 ∈ st.started ∧ st.started = [1, 3, 2] := by
  refine ⟨[.issue 0 1, .issue 0 2, .issue 0 3, .start 0 0, .start 0 0, .start 0 0, .recv 0 0, .recv 0 0, .finish 0 0 2, .recv 0 0, .start 0 1, .start 0 1,
    .start 0 1, .recv 0 1, .recv 0 1, .arrive 0, .arrive 0, .finish 0 1 2, .recv 0 1, .arrive 0, .done, .done], _, run_of rfl, ⟨[], [], _, rfl⟩, ⟨[], [.issue 0 2], _, rfl⟩,
    by decide, rfl⟩

/-- The hypotheses of `awaited_in_order_partial` are met: a large tell, awaited, then a small one. -/
example : ∃ (ls ls' : List Label) (st st' : St) (x : Lane), Run (· == 1) [1] ls st ∧ st.lanes[0]? = some x ∧ x.hops.length ≤ 1 ∧
    (0, 1) ∈ st.issued ∧ Returned x 1 ∧ (Label.issue 0 2 :: ls').foldlM (step (· == 1)) st = some st' ∧ 2 ∈ st'.started := by
  refine ⟨[.issue 0 1, .start 0 0, .finish 0 0 1], [.start 0 0, .recv 0 0, .recv 0 0, .arrive 0, .arrive 0, .done], _, _, _, run_of rfl, rfl, by decide,
    by decide, by decide, rfl, by decide⟩

/-- … and with a local reference: a tell whose task has started, then an awaited call. -/
example : ∃ (ls ls' : List Label) (st st' : St) (x : Lane), Run (· == 1) [0] ls st ∧ st.lanes[0]? = some x ∧ x.hops.length ≤ 1 ∧
    (0, 1) ∈ st.issued ∧ Returned x 1 ∧ (Label.inline 0 2 :: ls').foldlM (step (· == 1)) st = some st' ∧ 2 ∈ st'.started := by
  refine ⟨[.issue 0 1, .arrive 0], [.done], _, _, _, run_of rfl, rfl, by decide, by decide, by decide, rfl, by decide⟩

end Xoscar.Order
