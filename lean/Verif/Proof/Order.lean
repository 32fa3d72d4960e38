import Verif.Spec.Order
import Verif.Proof.Base
/-! Lemmas for C80. -/
namespace Xoscar.Order
open scoped List

/-! ### two elements in order -/

theorem pair_append {α : Type} {a b : α} {l m : List α} : [a, b] <+ l ++ m ↔ [a, b] <+ l ∨ (a ∈ l ∧ b ∈ m) ∨ [a, b] <+ m := by
  constructor
  · intro h
    obtain ⟨r1, r2, e, h1, h2⟩ := List.sublist_append_iff.1 h
    cases r1 with
    | nil => simp only [List.nil_append] at e; subst e; exact Or.inr (Or.inr h2)
    | cons x r1 =>
      simp only [List.cons_append, List.cons.injEq] at e
      obtain ⟨rfl, e⟩ := e
      cases r1 with
      | nil =>
        simp only [List.nil_append] at e; subst e
        exact Or.inr (Or.inl ⟨List.singleton_sublist.1 h1, List.singleton_sublist.1 h2⟩)
      | cons y r1 =>
        simp only [List.cons_append, List.cons.injEq] at e
        obtain ⟨rfl, e⟩ := e
        have e := List.append_eq_nil_iff.1 e.symm
        rw [e.1] at h1; exact Or.inl h1
  · rintro (h | ⟨h1, h2⟩ | h)
    · exact h.trans (List.sublist_append_left _ _)
    · exact List.Sublist.append (List.singleton_sublist.2 h1) (List.singleton_sublist.2 h2)
    · exact h.trans (List.sublist_append_right _ _)

theorem pair_cons {α : Type} {a b c : α} {l : List α} : [a, b] <+ c :: l ↔ (a = c ∧ b ∈ l) ∨ [a, b] <+ l := by
  have := pair_append (a := a) (b := b) (l := [c]) (m := l)
  simp only [List.cons_append, List.nil_append] at this
  rw [this]
  constructor
  · rintro (h | ⟨h1, h2⟩ | h)
    · have := h.length_le; simp at this
    · exact Or.inl ⟨by simpa using h1, h2⟩
    · exact Or.inr h
  · rintro (⟨h1, h2⟩ | h)
    · exact Or.inr (Or.inl ⟨by simp [h1], h2⟩)
    · exact Or.inr (Or.inr h)

theorem before_iff {α : Type} {a b : α} {l : List α} : Before l a b ↔ [a, b] <+ l := by
  constructor
  · rintro ⟨x, y, z, rfl⟩
    rw [pair_append]; right; right
    rw [pair_cons]; left; exact ⟨rfl, by simp⟩
  · intro h
    induction l with
    | nil => cases h
    | cons c l ih =>
      rcases pair_cons.1 h with ⟨rfl, hb⟩ | h
      · obtain ⟨y, z, rfl⟩ := List.append_of_mem hb
        exact ⟨[], y, z, rfl⟩
      · obtain ⟨x, y, z, rfl⟩ := ih h
        exact ⟨c :: x, y, z, rfl⟩

/-! ### lines -/

/-- One element moves forward over elements of `T`. -/
def Jump (T a b : List Nat) : Prop := a = b ∨ ∃ A B c C, a = A ++ (B ++ c :: C) ∧ b = A ++ c :: (B ++ C) ∧ ∀ y ∈ B, y ∈ T

theorem Jump.pair {T a b : List Nat} {c1 c2 : Nat} (h : Jump T a b) (hc : c1 ∉ T) (hp : [c1, c2] <+ a) : [c1, c2] <+ b := by
  rcases h with rfl | ⟨A, B, c, C, rfl, rfl, hB⟩
  · exact hp
  · have : c1 ∉ B := fun h => hc (hB _ h)
    simp only [pair_append, pair_cons, List.mem_append, List.mem_cons] at hp ⊢
    grind

theorem Jump.perm {T a b : List Nat} (h : Jump T a b) : a ~ b := by
  rcases h with rfl | ⟨A, B, c, C, rfl, rfl, _⟩
  · exact .refl _
  · exact List.Perm.append_left A List.perm_middle

theorem Jump.left {T a b : List Nat} (h : Jump T a b) (P : List Nat) : Jump T (P ++ a) (P ++ b) := by
  rcases h with rfl | ⟨A, B, c, C, rfl, rfl, h⟩
  · exact Or.inl rfl
  · exact Or.inr ⟨P ++ A, B, c, C, by simp, by simp, h⟩

theorem Jump.right {T a b : List Nat} (h : Jump T a b) (P : List Nat) : Jump T (a ++ P) (b ++ P) := by
  rcases h with rfl | ⟨A, B, c, C, rfl, rfl, h⟩
  · exact Or.inl rfl
  · exact Or.inr ⟨A, B, c, C ++ P, by simp, by simp, h⟩

theorem Jump.mono {T T' a b : List Nat} (h : Jump T a b) (ht : ∀ y ∈ T, y ∈ T') : Jump T' a b := by
  rcases h with rfl | ⟨A, B, c, C, rfl, rfl, h⟩
  · exact Or.inl rfl
  · exact Or.inr ⟨A, B, c, C, rfl, rfl, fun y hy => ht y (h y hy)⟩

/-- The calls on the way, the foremost first. -/
def lineHops : List Hop → List Nat
  | [] => []
  | h :: hs => lineHops hs ++ (h.wire ++ h.threads ++ h.ready)

def inThreads (hs : List Hop) : List Nat := hs.flatMap (·.threads)

theorem start_jump {big : Nat → Bool} {hs hs' : List Hop} {i : Nat} (h : startAt big hs i = some hs') :
    Jump (inThreads hs) (lineHops hs) (lineHops hs') := by
  induction hs generalizing i hs' with
  | nil => simp [startAt] at h
  | cons x hs ih =>
    cases i with
    | zero =>
      simp only [startAt] at h
      split at h
      · cases h
      · rename_i c r hr
        split at h
        · injection h with h; subst h
          left; simp [lineHops, hr]
        · injection h with h; subst h
          right
          refine ⟨lineHops hs ++ x.wire, x.threads, c, r, by simp [lineHops, hr], by simp [lineHops], ?_⟩
          intro y hy; simp [inThreads, hy]
    | succ i =>
      simp only [startAt] at h
      rcases hh : startAt big hs i with _ | t
      · rw [hh] at h; cases h
      · rw [hh] at h; injection h with h; subst h
        exact ((ih hh).right _).mono (by intro y hy; simp only [inThreads, List.flatMap_cons, List.mem_append]; exact Or.inr hy)

theorem finish_jump {hs hs' : List Hop} {i c : Nat} (h : finishAt hs i c = some hs') : Jump (inThreads hs) (lineHops hs) (lineHops hs') := by
  induction hs generalizing i hs' with
  | nil => simp [finishAt] at h
  | cons x hs ih =>
    cases i with
    | zero =>
      simp only [finishAt] at h
      split at h
      · rename_i hc
        injection h with h; subst h
        obtain ⟨B1, B2, hn, e1, e2⟩ := List.exists_erase_eq hc
        right
        refine ⟨lineHops hs ++ x.wire, B1, c, B2 ++ x.ready, by simp [lineHops, e1], by simp [lineHops, e2], ?_⟩
        intro y hy; simp [inThreads, e1, hy]
      · cases h
    | succ i =>
      simp only [finishAt] at h
      rcases hh : finishAt hs i c with _ | t
      · rw [hh] at h; cases h
      · rw [hh] at h; injection h with h; subst h
        exact ((ih hh).right _).mono (by intro y hy; simp only [inThreads, List.flatMap_cons, List.mem_append]; exact Or.inr hy)

theorem recv_line {hs : List Hop} {last : List Nat} {i : Nat} {r : List Hop × List Nat} (h : recvAt hs last i = some r) :
    r.2 ++ lineHops r.1 = last ++ lineHops hs ∧ r.1.length = hs.length ∧ inThreads r.1 = inThreads hs := by
  induction hs generalizing i r with
  | nil => simp [recvAt] at h
  | cons x hs ih =>
    cases i with
    | zero =>
      cases hs with
      | nil =>
        simp only [recvAt] at h
        split at h
        · cases h
        · rename_i c w hw
          injection h with h; subst h
          simp [lineHops, hw, inThreads]
      | cons x' hs =>
        simp only [recvAt] at h
        split at h
        · cases h
        · rename_i c w hw
          injection h with h; subst h
          simp [lineHops, hw, inThreads]
    | succ i =>
      rw [recvAt] at h
      · rcases hh : recvAt hs last i with _ | t
        · rw [hh] at h; cases h
        · rw [hh] at h; injection h with h; subst h
          obtain ⟨h1, h2, h3⟩ := ih hh
          refine ⟨?_, by simp [h2], by simp only [inThreads, List.flatMap_cons] at h3 ⊢; rw [h3]⟩
          simp only [lineHops]
          rw [← List.append_assoc, h1, List.append_assoc]

theorem start_shape {big : Nat → Bool} {hs hs' : List Hop} {i : Nat} (h : startAt big hs i = some hs') :
    hs'.length = hs.length ∧ ∀ c ∈ inThreads hs', c ∈ inThreads hs ∨ (big c = true ∧ c ∈ hs.flatMap (·.ready)) := by
  induction hs generalizing i hs' with
  | nil => simp [startAt] at h
  | cons x hs ih =>
    cases i with
    | zero =>
      simp only [startAt] at h
      split at h
      · cases h
      · rename_i c r hr
        split at h
        · rename_i hb
          injection h with h; subst h
          refine ⟨by simp, ?_⟩
          intro y hy
          simp only [inThreads, List.flatMap_cons, List.mem_append, List.mem_singleton] at hy ⊢
          rcases hy with (hy | rfl) | hy
          · exact Or.inl (Or.inl hy)
          · exact Or.inr ⟨hb, Or.inl (by simp [hr])⟩
          · exact Or.inl (Or.inr hy)
        · injection h with h; subst h
          exact ⟨by simp, fun y hy => Or.inl hy⟩
    | succ i =>
      simp only [startAt] at h
      rcases hh : startAt big hs i with _ | t
      · rw [hh] at h; cases h
      · rw [hh] at h; injection h with h; subst h
        obtain ⟨h1, h2⟩ := ih hh
        refine ⟨by simp [h1], ?_⟩
        intro y hy
        simp only [inThreads, List.flatMap_cons, List.mem_append] at hy h2 ⊢
        rcases hy with hy | hy
        · exact Or.inl (Or.inl hy)
        · rcases h2 y hy with h | h
          · exact Or.inl (Or.inr h)
          · exact Or.inr ⟨h.1, Or.inr h.2⟩

theorem finish_shape {hs hs' : List Hop} {i c : Nat} (h : finishAt hs i c = some hs') :
    hs'.length = hs.length ∧ ∀ c ∈ inThreads hs', c ∈ inThreads hs := by
  induction hs generalizing i hs' with
  | nil => simp [finishAt] at h
  | cons x hs ih =>
    cases i with
    | zero =>
      simp only [finishAt] at h
      split at h
      · injection h with h; subst h
        refine ⟨by simp, ?_⟩
        intro y hy
        simp only [inThreads, List.flatMap_cons, List.mem_append] at hy ⊢
        rcases hy with hy | hy
        · exact Or.inl (List.mem_of_mem_erase hy)
        · exact Or.inr hy
      · cases h
    | succ i =>
      simp only [finishAt] at h
      rcases hh : finishAt hs i c with _ | t
      · rw [hh] at h; cases h
      · rw [hh] at h; injection h with h; subst h
        obtain ⟨h1, h2⟩ := ih hh
        refine ⟨by simp [h1], ?_⟩
        intro y hy
        simp only [inThreads, List.flatMap_cons, List.mem_append] at hy h2 ⊢
        rcases hy with hy | hy
        · exact Or.inl hy
        · exact Or.inr (h2 y hy)

/-- The calls of lane `l`: those that asked for the lock, and those on the way. -/
def askedOn (st : St) (l : Nat) : List Nat := (st.asked.filter (·.1 == l)).map (·.2)

def line (st : St) (l : Nat) (x : Lane) : List Nat := askedOn st l ++ (x.last ++ lineHops x.hops)

theorem askedOn_snoc (st : St) (l l' c : Nat) (a : List (Nat × Nat)) (h : a = st.asked ++ [(l', c)]) :
    (a.filter (·.1 == l)).map (·.2) = askedOn st l ++ (if l' = l then [c] else []) := by
  subst h
  by_cases hl : l' = l <;> simp [askedOn, hl, List.filter_cons]

theorem ask_asked (st : St) (l c : Nat) : (ask st l c).asked = st.asked ++ [(l, c)] := by unfold ask; split <;> rfl
theorem ask_lanes (st : St) (l c : Nat) : (ask st l c).lanes = st.lanes := by unfold ask; split <;> rfl
theorem ask_issued (st : St) (l c : Nat) : (ask st l c).issued = st.issued := by unfold ask; split <;> rfl
theorem ask_dropped (st : St) (l c : Nat) : (ask st l c).dropped = st.dropped := by unfold ask; split <;> rfl
theorem handOn_asked (st : St) : (handOn st).asked = st.asked := by unfold handOn; split <;> rfl
theorem handOn_lanes (st : St) : (handOn st).lanes = st.lanes := by unfold handOn; split <;> rfl
theorem handOn_issued (st : St) : (handOn st).issued = st.issued := by unfold handOn; split <;> rfl
theorem handOn_dropped (st : St) : (handOn st).dropped = st.dropped := by unfold handOn; split <;> rfl

theorem askedOn_ask (st : St) (l l' c : Nat) : askedOn (ask st l' c) l = askedOn st l ++ (if l' = l then [c] else []) :=
  askedOn_snoc st l l' c _ (ask_asked st l' c)

theorem push_line (st : St) (l : Nat) (x : Lane) (c : Nat) : line st l (push x c) = line st l x ++ [c] := by
  unfold line push
  split
  · next h => simp [h, lineHops]
  · next h => simp [h, lineHops]

theorem push_shape (x : Lane) (c : Nat) : (push x c).hops.length = x.hops.length ∧ inThreads (push x c).hops = inThreads x.hops := by
  unfold push
  split
  · next h => simp
  · next h => simp [h, inThreads]

theorem push_big (x : Lane) (c : Nat) : inThreads (push x c).hops = inThreads x.hops := (push_shape x c).2

/-- What a step does to a lane. -/
inductive Change (big : Nat → Bool) (st : St) (lb : Label) (st' : St) (l : Nat) (x x' : Lane) : Prop where
  | jump (h : Jump (inThreads x.hops) (line st l x) (line st' l x')) (hi : st'.issued = st.issued ∨
      ∃ l' c, l' ≠ l ∧ (lb = .issue l' c ∨ lb = .inline l' c) ∧ st'.issued = st.issued ++ [(l', c)])
  | issue (c : Nat) (hl : lb = .issue l c) (he : line st' l x' = line st l x ++ [c]) (hi : st'.issued = st.issued ++ [(l, c)])
  | inline (c : Nat) (hl : lb = .inline l c) (he : line st' l x' = askedOn st l ++ c :: x.last) (hx : x.hops = []) (hi : st'.issued = st.issued ++ [(l, c)])

theorem step_line {big : Nat → Bool} {st st' : St} {lb : Label} (hs : step big st lb = some st') {l : Nat} {x' : Lane}
    (hx' : st'.lanes[l]? = some x') :
    ∃ x, st.lanes[l]? = some x ∧ x'.hops.length = x.hops.length ∧
      (∀ c ∈ inThreads x'.hops, c ∈ inThreads x.hops ∨ (big c = true ∧ c ∈ x.hops.flatMap (·.ready))) ∧
      Change big st lb st' l x x' := by
  -- a lane that is replaced
  have put : ∀ (st1 : St) (k : Nat) (y y1 : Lane), st.lanes[k]? = some y → st1.lanes = st.lanes.set k y1 → st1.asked = st.asked →
      st1.issued = st.issued → y1.hops.length = y.hops.length →
      (∀ c ∈ inThreads y1.hops, c ∈ inThreads y.hops ∨ (big c = true ∧ c ∈ y.hops.flatMap (·.ready))) →
      Jump (inThreads y.hops) (y.last ++ lineHops y.hops) (y1.last ++ lineHops y1.hops) → st1.lanes[l]? = some x' →
      ∃ x, st.lanes[l]? = some x ∧ x'.hops.length = x.hops.length ∧
      (∀ c ∈ inThreads x'.hops, c ∈ inThreads x.hops ∨ (big c = true ∧ c ∈ x.hops.flatMap (·.ready))) ∧
      Change big st lb st1 l x x' := by
    intro st1 k y y1 hy h1 h2 h3 h4 h5 h6 h7
    have ha : ∀ l, askedOn st1 l = askedOn st l := fun l => by simp only [askedOn, h2]
    rw [h1, List.getElem?_set] at h7
    by_cases hk : k = l
    · subst hk
      have hlt : k < st.lanes.length := by
        rcases Nat.lt_or_ge k st.lanes.length with h | h
        · exact h
        · rw [List.getElem?_eq_none h] at hy; cases hy
      rw [if_pos rfl, if_pos hlt] at h7
      injection h7 with h7; subst h7
      exact ⟨y, hy, h4, h5, .jump (by unfold line; rw [ha]; exact h6.left _) (Or.inl h3)⟩
    · rw [if_neg hk] at h7
      exact ⟨x', h7, rfl, fun c hc => Or.inl hc, .jump (by unfold line; rw [ha]; exact Or.inl rfl) (Or.inl h3)⟩
  have same : ∀ (st1 : St), st1.lanes = st.lanes → st1.asked = st.asked → st1.issued = st.issued → st1.lanes[l]? = some x' →
      ∃ x, st.lanes[l]? = some x ∧ x'.hops.length = x.hops.length ∧
      (∀ c ∈ inThreads x'.hops, c ∈ inThreads x.hops ∨ (big c = true ∧ c ∈ x.hops.flatMap (·.ready))) ∧
      Change big st lb st1 l x x' := by
    intro st1 h1 h2 h3 h4
    rw [h1] at h4
    exact ⟨x', h4, rfl, fun c hc => Or.inl hc, .jump (by unfold line askedOn; rw [h2]; exact Or.inl rfl) (Or.inl h3)⟩
  cases lb with
  | issue k c =>
    simp only [step] at hs
    split at hs
    · cases hs
    · rename_i y hy
      split at hs
      · cases hs
      · injection hs with hs; subst hs
        simp only [St.setLane, List.getElem?_set] at hx'
        have hlt : k < st.lanes.length := by
          rcases Nat.lt_or_ge k st.lanes.length with h | h
          · exact h
          · rw [List.getElem?_eq_none h] at hy; cases hy
        by_cases hk : k = l
        · subst hk
          rw [if_pos rfl, if_pos hlt] at hx'
          injection hx' with hx'; subst hx'
          refine ⟨y, hy, (push_shape y c).1, fun d hd => Or.inl (by rw [push_big] at hd; exact hd), ?_⟩
          exact .issue c rfl (push_line st k y c) rfl
        · rw [if_neg hk] at hx'
          exact ⟨x', hx', rfl, fun d hd => Or.inl hd, .jump (Or.inl rfl) (Or.inr ⟨k, c, hk, Or.inl rfl, rfl⟩)⟩
  | inline k c =>
    simp only [step] at hs
    split at hs
    · cases hs
    · rename_i y hy
      split at hs
      · cases hs
      · rename_i hc
        injection hs with hs; subst hs
        rw [ask_lanes] at hx'
        refine ⟨x', hx', rfl, fun d hd => Or.inl hd, ?_⟩
        have hx'' : st.lanes[l]? = some x' := hx'
        have ha : askedOn (ask { st with issued := st.issued ++ [(k, c)] } k c) l = askedOn st l ++ (if k = l then [c] else []) :=
          askedOn_ask { st with issued := st.issued ++ [(k, c)] } l k c
        by_cases hk : k = l
        · subst hk
          rw [hy] at hx''; injection hx'' with hx''; subst hx''
          have hh : y.hops = [] := by
            apply Classical.byContradiction; intro h; exact hc (Or.inr h)
          refine .inline c rfl ?_ hh (ask_issued _ _ _)
          unfold line; rw [ha, if_pos rfl, hh]; simp [lineHops]
        · refine .jump ?_ (Or.inr ⟨k, c, hk, Or.inr rfl, ask_issued _ _ _⟩)
          unfold line; rw [ha, if_neg hk]; left; simp
  | start k i =>
    simp only [step] at hs
    split at hs
    · cases hs
    · rename_i y hy
      split at hs
      · cases hs
      · rename_i t ht
        injection hs with hs; subst hs
        exact put _ k y { y with hops := t } hy rfl rfl rfl (start_shape ht).1 (start_shape ht).2 ((start_jump ht).left _) hx'
  | finish k i c =>
    simp only [step] at hs
    split at hs
    · cases hs
    · rename_i y hy
      split at hs
      · cases hs
      · rename_i t ht
        injection hs with hs; subst hs
        exact put _ k y { y with hops := t } hy rfl rfl rfl (finish_shape ht).1 (fun d hd => Or.inl ((finish_shape ht).2 d hd))
          ((finish_jump ht).left _) hx'
  | recv k i =>
    simp only [step] at hs
    split at hs
    · cases hs
    · rename_i y hy
      split at hs
      · cases hs
      · rename_i t ht
        injection hs with hs; subst hs
        obtain ⟨h1, h2, h3⟩ := recv_line ht
        exact put _ k y { y with hops := t.1, last := t.2 } hy rfl rfl rfl h2 (fun d hd => Or.inl (by rw [← h3]; exact hd)) (Or.inl h1.symm) hx'
  | arrive k =>
    simp only [step] at hs
    split at hs
    · cases hs
    · rename_i y hy
      split at hs
      · cases hs
      · rename_i c r hr
        injection hs with hs; subst hs
        rw [ask_lanes] at hx'
        have hlt : k < st.lanes.length := by
          rcases Nat.lt_or_ge k st.lanes.length with h | h
          · exact h
          · rw [List.getElem?_eq_none h] at hy; cases hy
        simp only [St.setLane, List.getElem?_set] at hx'
        have ha : askedOn (ask (st.setLane k { y with last := r }) k c) l = askedOn st l ++ (if k = l then [c] else []) :=
          askedOn_ask (st.setLane k { y with last := r }) l k c
        by_cases hk : k = l
        · subst hk
          rw [if_pos rfl, if_pos hlt] at hx'
          injection hx' with hx'; subst hx'
          refine ⟨y, hy, rfl, fun d hd => Or.inl hd, .jump ?_ (Or.inl (ask_issued _ _ _))⟩
          left; unfold line; rw [ha, if_pos rfl]; simp [hr]
        · rw [if_neg hk] at hx'
          refine ⟨x', hx', rfl, fun d hd => Or.inl hd, .jump ?_ (Or.inl (ask_issued _ _ _))⟩
          left; unfold line; rw [ha, if_neg hk]; simp
  | done =>
    simp only [step] at hs
    split at hs
    · cases hs
    · injection hs with hs; subst hs
      exact same _ (handOn_lanes st) (handOn_asked st) (handOn_issued st) hx'
  | cancel c =>
    simp only [step] at hs
    split at hs
    · injection hs with hs; subst hs
      exact same _ rfl rfl rfl hx'
    · cases hs

/-! ### the invariant -/

structure Inv (big : Nat → Bool) (st : St) : Prop where
  big : ∀ (l : Nat) (x : Lane), st.lanes[l]? = some x → ∀ c ∈ inThreads x.hops, big c = true
  perm : ∀ (l : Nat) (x : Lane), st.lanes[l]? = some x → line st l x ~ (st.issued.filter (·.1 == l)).map (·.2)
  nodup : (st.issued.map (·.2)).Nodup
  askedIn : ∀ p ∈ st.asked, p ∈ st.issued
  askedNodup : (st.asked.map (·.2)).Nodup
  fifo : (st.asked.map (·.2)).filter (fun c => decide (c ∉ st.dropped)) = st.started ++ st.waiting
  drop : ∀ c ∈ st.dropped, c ∈ st.asked.map (·.2)
  idle : st.running = none → st.waiting = []

theorem inv_init (big : Nat → Bool) (ks : List Nat) : Inv big (init ks) := by
  have hl : ∀ (l : Nat) (x : Lane), (init ks).lanes[l]? = some x → ∃ k, x = { hops := List.replicate k {} } := by
    intro l x h
    simp only [init, List.getElem?_map, Option.map_eq_some_iff] at h
    obtain ⟨k, _, rfl⟩ := h; exact ⟨k, rfl⟩
  have hz : ∀ k, lineHops (List.replicate k ({} : Hop)) = [] ∧ inThreads (List.replicate k ({} : Hop)) = [] := by
    intro k
    induction k with
    | zero => exact ⟨rfl, rfl⟩
    | succ k ih => simp [List.replicate_succ, lineHops, inThreads, ih.1]
  refine ⟨?_, ?_, by simp [init], by simp [init], by simp [init], by simp [init], by simp [init], by simp [init]⟩
  · intro l x h c hc
    obtain ⟨k, rfl⟩ := hl l x h
    rw [(hz k).2] at hc; cases hc
  · intro l x h
    obtain ⟨k, rfl⟩ := hl l x h
    simp [line, askedOn, (hz k).1, init]

/-- A call that asks for the lock for the first time. -/
theorem inv_ask {big : Nat → Bool} {st : St} {l c : Nat} (hf : (st.asked.map (·.2)).filter (fun c => decide (c ∉ st.dropped)) = st.started ++ st.waiting)
    (hd : ∀ c ∈ st.dropped, c ∈ st.asked.map (·.2)) (hi : st.running = none → st.waiting = []) (hc : c ∉ st.asked.map (·.2)) :
    ((ask st l c).asked.map (·.2)).filter (fun d => decide (d ∉ (ask st l c).dropped)) = (ask st l c).started ++ (ask st l c).waiting ∧
      ((ask st l c).running = none → (ask st l c).waiting = []) := by
  have hcd : c ∉ st.dropped := fun h => hc (hd c h)
  unfold ask
  split
  · next hr =>
    refine ⟨?_, by simp⟩
    simp only [List.map_append, List.map_cons, List.map_nil, List.filter_append, hf]
    rw [hi hr]; simp [hcd]
  · next hr =>
    refine ⟨?_, fun h => ?_⟩
    · simp only [List.map_append, List.map_cons, List.map_nil, List.filter_append, hf]
      simp [hcd]
    · rename_i w
      simp only at h; rw [hr] at h; cases h

theorem line_issued {big : Nat → Bool} {st : St} (h : Inv big st) {l c : Nat} {x : Lane} (hx : st.lanes[l]? = some x) :
    c ∈ line st l x ↔ (l, c) ∈ st.issued := by
  rw [(h.perm l x hx).mem_iff]
  simp only [List.mem_map, List.mem_filter, beq_iff_eq]
  constructor
  · rintro ⟨⟨a, b⟩, ⟨h1, rfl⟩, rfl⟩; exact h1
  · intro h; exact ⟨(l, c), ⟨h, rfl⟩, rfl⟩

theorem line_nodup {big : Nat → Bool} {st : St} (h : Inv big st) {l : Nat} {x : Lane} (hx : st.lanes[l]? = some x) : (line st l x).Nodup := by
  rw [(h.perm l x hx).nodup_iff]
  exact ((List.filter_sublist (p := fun p : Nat × Nat => p.1 == l) (l := st.issued)).map _).nodup h.nodup

theorem lane_unique {big : Nat → Bool} {st : St} (h : Inv big st) {l l' c : Nat} (h1 : (l, c) ∈ st.issued) (h2 : (l', c) ∈ st.issued) : l = l' := by
  have := h.nodup
  generalize st.issued = ps at *
  induction ps with
  | nil => cases h1
  | cons p ps ih =>
    simp only [List.map_cons, List.nodup_cons, List.mem_map, not_exists, not_and] at this
    rcases List.mem_cons.1 h1 with e1 | h1' <;> rcases List.mem_cons.1 h2 with e2 | h2'
    · exact congrArg Prod.fst (e1.trans e2.symm)
    · exact absurd (by rw [← e1]) (this.1 _ h2')
    · exact absurd (by rw [← e2]) (this.1 _ h1')
    · exact ih h1' h2' this.2

theorem inv_step {big : Nat → Bool} {st st' : St} {lb : Label} (h : Inv big st) (hs : step big st lb = some st') : Inv big st' := by
  have hbig : ∀ (l : Nat) (x : Lane), st'.lanes[l]? = some x → ∀ c ∈ inThreads x.hops, big c = true := by
    intro l x' hx' c hc
    obtain ⟨x, hx, _, h2, _⟩ := step_line hs hx'
    rcases h2 c hc with h3 | h3
    · exact h.big l x hx c h3
    · exact h3.1
  have hperm : ∀ (l : Nat) (x : Lane), st'.lanes[l]? = some x → line st' l x ~ (st'.issued.filter (·.1 == l)).map (·.2) := by
    intro l x' hx'
    obtain ⟨x, hx, _, _, h3⟩ := step_line hs hx'
    have hp := h.perm l x hx
    cases h3 with
    | jump hj hi =>
      refine hj.perm.symm.trans (hp.trans ?_)
      rcases hi with hi | ⟨l', c, hne, _, hi⟩
      · rw [hi]
      · rw [hi]; simp [hne]
    | issue c hl he hi =>
      rw [he, hi]; simp only [List.filter_append, List.map_append]
      refine List.Perm.append hp ?_
      simp
    | inline c hl he hh hi =>
      rw [he, hi]; simp only [List.filter_append, List.map_append]
      refine List.perm_middle.trans ?_
      simp only [line, hh, lineHops, List.append_nil] at hp
      refine (List.Perm.cons c hp).trans ?_
      simp only [beq_self_eq_true, List.filter_cons_of_pos, List.filter_nil, List.map_cons, List.map_nil]
      exact (List.perm_append_singleton _ _).symm
  have fresh : ∀ (c : Nat), c ∉ st.issued.map (·.2) → c ∉ st.asked.map (·.2) := by
    intro c hc h'
    obtain ⟨p, hp, rfl⟩ := List.mem_map.1 h'
    exact hc (List.mem_map.2 ⟨p, h.askedIn p hp, rfl⟩)
  cases lb with
  | issue k c =>
    simp only [step] at hs
    split at hs
    · cases hs
    · split at hs
      · cases hs
      · rename_i hc
        injection hs with hs; subst hs
        refine ⟨hbig, hperm, ?_, ?_, h.askedNodup, h.fifo, h.drop, h.idle⟩
        · simp only [St.setLane, List.map_append, List.map_cons, List.map_nil, List.nodup_append]
          refine ⟨h.nodup, by simp, ?_⟩
          rintro a ha b hb rfl
          simp only [List.mem_singleton] at hb
          subst hb; exact hc ha
        · intro p hp; exact List.mem_append_left _ (h.askedIn p hp)
  | inline k c =>
    simp only [step] at hs
    split at hs
    · cases hs
    · split at hs
      · cases hs
      · rename_i hc
        injection hs with hs; subst hs
        have hc1 : c ∉ st.issued.map (·.2) := fun h' => hc (Or.inl h')
        have hc2 := fresh c hc1
        obtain ⟨g1, g2⟩ := inv_ask (big := big) (st := { st with issued := st.issued ++ [(k, c)] }) (l := k) (c := c) h.fifo h.drop h.idle hc2
        refine ⟨hbig, hperm, ?_, ?_, ?_, g1, ?_, g2⟩
        · rw [ask_issued]
          simp only [List.map_append, List.map_cons, List.map_nil, List.nodup_append]
          refine ⟨h.nodup, by simp, ?_⟩
          rintro a ha b hb rfl
          simp only [List.mem_singleton] at hb
          subst hb; exact hc1 ha
        · rw [ask_issued, ask_asked]
          intro p hp
          rcases List.mem_append.1 hp with hp | hp
          · exact List.mem_append_left _ (h.askedIn p hp)
          · exact List.mem_append_right _ hp
        · rw [ask_asked]
          simp only [List.map_append, List.map_cons, List.map_nil, List.nodup_append]
          refine ⟨h.askedNodup, by simp, ?_⟩
          rintro a ha b hb rfl
          simp only [List.mem_singleton] at hb
          subst hb; exact hc2 ha
        · rw [ask_asked, ask_dropped]
          intro d hd
          simp only [List.map_append, List.mem_append]
          exact Or.inl (h.drop d hd)
  | arrive k =>
    simp only [step] at hs
    split at hs
    · cases hs
    · rename_i y hy
      split at hs
      · cases hs
      · rename_i c r hr
        injection hs with hs; subst hs
        have hiss : (k, c) ∈ st.issued := (line_issued h hy).1 (by simp [line, hr])
        have hc2 : c ∉ st.asked.map (·.2) := by
          intro h'
          obtain ⟨⟨k', c'⟩, hp, rfl⟩ := List.mem_map.1 h'
          have hkk := lane_unique h (h.askedIn _ hp) hiss
          subst hkk
          have hn := line_nodup h hy
          rw [line, List.nodup_append] at hn
          exact hn.2.2 c' (List.mem_map.2 ⟨(k', c'), List.mem_filter.2 ⟨hp, by simp⟩, rfl⟩) c' (by simp [hr]) rfl
        obtain ⟨g1, g2⟩ := inv_ask (big := big) (st := st.setLane k { y with last := r }) (l := k) (c := c) h.fifo h.drop h.idle hc2
        refine ⟨hbig, hperm, ?_, ?_, ?_, g1, ?_, g2⟩
        · rw [ask_issued]; exact h.nodup
        · rw [ask_issued, ask_asked]
          intro p hp
          rcases List.mem_append.1 hp with hp | hp
          · exact h.askedIn p hp
          · simp only [List.mem_singleton] at hp; subst hp; exact hiss
        · rw [ask_asked]
          simp only [List.map_append, List.map_cons, List.map_nil, List.nodup_append]
          refine ⟨h.askedNodup, by simp, ?_⟩
          rintro a ha b hb rfl
          simp only [List.mem_singleton] at hb
          subst hb; exact hc2 ha
        · rw [ask_asked, ask_dropped]
          intro d hd
          simp only [List.map_append, List.mem_append]
          exact Or.inl (h.drop d hd)
  | start k i =>
    simp only [step] at hs
    split at hs
    · cases hs
    · split at hs
      · cases hs
      · injection hs with hs; subst hs
        exact ⟨hbig, hperm, h.nodup, h.askedIn, h.askedNodup, h.fifo, h.drop, h.idle⟩
  | finish k i c =>
    simp only [step] at hs
    split at hs
    · cases hs
    · split at hs
      · cases hs
      · injection hs with hs; subst hs
        exact ⟨hbig, hperm, h.nodup, h.askedIn, h.askedNodup, h.fifo, h.drop, h.idle⟩
  | recv k i =>
    simp only [step] at hs
    split at hs
    · cases hs
    · split at hs
      · cases hs
      · injection hs with hs; subst hs
        exact ⟨hbig, hperm, h.nodup, h.askedIn, h.askedNodup, h.fifo, h.drop, h.idle⟩
  | done =>
    simp only [step] at hs
    split at hs
    · cases hs
    · injection hs with hs; subst hs
      refine ⟨hbig, hperm, by rw [handOn_issued]; exact h.nodup, by rw [handOn_issued, handOn_asked]; exact h.askedIn,
        by rw [handOn_asked]; exact h.askedNodup, ?_, by rw [handOn_asked, handOn_dropped]; exact h.drop, ?_⟩
      · rw [handOn_asked, handOn_dropped, h.fifo]
        unfold handOn; split
        · next hw => simp [hw]
        · next hw => simp [hw]
      · unfold handOn; split
        · next hw => intro _; exact hw
        · intro h'; cases h'
  | cancel c =>
    simp only [step] at hs
    split at hs
    · rename_i hc
      injection hs with hs; subst hs
      have hsub : (st.started ++ st.waiting) <+ st.asked.map (·.2) := by rw [← h.fifo]; exact List.filter_sublist
      have hn : (st.started ++ st.waiting).Nodup := hsub.nodup h.askedNodup
      have hcs : c ∉ st.started := by
        intro h'
        exact (List.nodup_append.1 hn).2.2 c h' c hc rfl
      refine ⟨hbig, hperm, h.nodup, h.askedIn, h.askedNodup, ?_, ?_, ?_⟩
      · have e1 : (st.asked.map (·.2)).filter (fun d => decide (d ∉ st.dropped ++ [c])) =
            ((st.asked.map (·.2)).filter (fun d => decide (d ∉ st.dropped))).filter (fun d => d != c) := by
          rw [List.filter_filter]
          congr 1; funext d
          by_cases hd : d = c <;> by_cases hd' : d ∈ st.dropped <;> simp [hd, hd']
        simp only
        rw [e1, h.fifo, List.filter_append, (List.nodup_append.1 hn).2.1.erase_eq_filter]
        congr 1
        rw [List.filter_eq_self]
        intro a ha
        simp only [bne_iff_ne, ne_eq]
        rintro rfl; exact hcs ha
      · intro d hd
        rcases List.mem_append.1 hd with hd | hd
        · exact h.drop d hd
        · simp only [List.mem_singleton] at hd; subst hd
          exact hsub.subset (List.mem_append_right _ hc)
      · intro hr
        have := h.idle hr
        simp only [this, List.not_mem_nil] at hc
    · cases hs

theorem inv_run {big : Nat → Bool} {ks : List Nat} {ls : List Label} {st : St} (h : Run big ks ls st) : Inv big st := by
  induction h with
  | init => exact inv_init _ _
  | snoc _ hs ih => exact inv_step ih hs

/-- Order on the line is order of the starts. -/
theorem starts_of_line {big : Nat → Bool} {st : St} (h : Inv big st) {l c1 c2 : Nat} {x : Lane} (hx : st.lanes[l]? = some x)
    (hp : [c1, c2] <+ line st l x) (h2 : c2 ∈ st.started) : c1 ∈ st.dropped ∨ [c1, c2] <+ st.started := by
  have hn := line_nodup h hx
  have hsub : (st.started ++ st.waiting) <+ st.asked.map (·.2) := by rw [← h.fifo]; exact List.filter_sublist
  have hc2 : c2 ∈ askedOn st l := by
    have h2a := hsub.subset (List.mem_append_left st.waiting h2)
    obtain ⟨⟨l', c⟩, hp', rfl⟩ := List.mem_map.1 h2a
    have h3 : (l, c) ∈ st.issued := (line_issued h hx).1 (hp.subset (by simp))
    have := lane_unique h (h.askedIn _ hp') h3
    subst this
    exact List.mem_map.2 ⟨(l', c), List.mem_filter.2 ⟨hp', by simp⟩, rfl⟩
  rw [line, List.nodup_append] at hn
  have hA : [c1, c2] <+ askedOn st l := by
    rw [line, pair_append] at hp
    rcases hp with hp | ⟨_, hp⟩ | hp
    · exact hp
    · exact absurd rfl (hn.2.2 c2 hc2 c2 hp)
    · exact absurd rfl (hn.2.2 c2 hc2 c2 (hp.subset (by simp)))
  have hB : [c1, c2] <+ st.asked.map (·.2) := hA.trans (List.filter_sublist.map _)
  by_cases hd : c1 ∈ st.dropped
  · exact Or.inl hd
  · right
    have hnn : (st.started ++ st.waiting).Nodup := hsub.nodup h.askedNodup
    have h2d : c2 ∉ st.dropped := by
      have : c2 ∈ (st.asked.map (·.2)).filter (fun c => decide (c ∉ st.dropped)) := by rw [h.fifo]; exact List.mem_append_left _ h2
      simpa using (List.mem_filter.1 this).2
    have hC : [c1, c2] <+ st.started ++ st.waiting := by
      have := hB.filter (fun c => decide (c ∉ st.dropped))
      rw [h.fifo] at this
      simpa [hd, h2d] using this
    rw [List.nodup_append] at hnn
    rw [pair_append] at hC
    rcases hC with hC | ⟨_, hC⟩ | hC
    · exact hC
    · exact absurd rfl (hnn.2.2 c2 h2 c2 hC)
    · exact absurd rfl (hnn.2.2 c2 h2 c2 (hC.subset (by simp)))

end Xoscar.Order
