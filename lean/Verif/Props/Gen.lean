import Verif.Model.Gen
import Verif.Proof.Base
/-!
# C40: iterating over a generator of an actor
-/
namespace Xoscar.Gen
attribute [local grind =] Dict.get?_set Dict.get?_erase

/-! ## Specification -/

/-- what the consumer should see as the `n`-th answer (from 0): the items in order, then the end of the producer, then the
refusal of every further request -/
def expected (items : List Item) (fin : End) (g : Gid) (n : Nat) : Out :=
  if h : n < items.length then .item items[n]
  else if n = items.length then (match fin with | .done => .stop | .raises e => .raised e)
  else .raised ⟨"RuntimeError", "No iterator with id: " ++ toString g⟩

def logged (g : Gid) (x : Gid × Out) : Option Out := if x.1 = g then some x.2 else none

/-- the answers the consumers of generator `g` got, in order -/
def outs (s : St) (g : Gid) : List Out := s.log.filterMap (logged g)

/-- the producer's own error, if it ends with one, does not talk about `StopIteration` -/
def Plain : End → Prop
  | .done => True
  | .raises e => occurs "StopIteration".toList e.text.toList = false

/-! ## Texts -/

theorem isPrefixOf_head {c : Char} {s t : List Char} (h : (c :: s).isPrefixOf t = true) : c ∈ t := by
  cases t with
  | nil => simp at h
  | cons a t => simp [List.isPrefixOf] at h; simp [h.1]

theorem occurs_head {c : Char} {s t : List Char} (h : occurs (c :: s) t = true) : c ∈ t := by
  induction t with
  | nil => simp [occurs] at h
  | cons a t ih =>
    simp only [occurs, Bool.or_eq_true] at h
    rcases h with h | h
    · exact isPrefixOf_head h
    · exact List.mem_cons_of_mem _ (ih h)

theorem consume_noIterator (g : Gid) : consume (noIterator g) = .raised (noIterator g) := by
  have : occurs "StopIteration".toList (noIterator g).text.toList = false := by
    rcases h : occurs "StopIteration".toList (noIterator g).text.toList
    · rfl
    · exfalso
      have h1 : "StopIteration".toList = 'S' :: "topIteration".toList := by decide
      rw [h1] at h
      have h2 := occurs_head h
      simp only [noIterator, String.toList_append, List.mem_append] at h2
      rcases h2 with h2 | h2
      · exact absurd h2 (by decide)
      · have h3 : (toString g).toList = Nat.toDigits 10 g := Nat.toList_repr
        rw [h3] at h2
        exact absurd (Nat.isDigit_of_mem_toDigits (by omega) (by omega) h2) (by decide)
  unfold consume; rw [this]; rfl

theorem consume_stop : consume ⟨"Exception", "StopIteration"⟩ = .stop := by decide

/-! ## Invariant -/

structure Track (items : List Item) (fin : End) (g : Gid) (s : St) : Prop where
  known : g < s.next
  answers : ∀ n o, (outs s g)[n]? = some o → o = expected items fin g n
  state : (g ∈ s.table ∧ (outs s g).length ≤ items.length ∧
        ∃ p, s.objs.get? g = some p ∧ p.items = items.drop (outs s g).length ∧ p.fin = fin ∧ (p.busy = true ↔ g ∈ s.waiting)) ∨
      (g ∉ s.table ∧ items.length < (outs s g).length ∧ g ∉ s.waiting ∧ ∀ p, s.objs.get? g = some p → p.busy = false)

theorem outs_snoc (s : St) (g g' : Gid) (o : Out) (s' : St) (h : s'.log = s.log ++ [(g', o)]) :
    outs s' g = if g' = g then outs s g ++ [o] else outs s g := by
  by_cases hh : g' = g <;> simp [outs, logged, h, hh]

theorem answers_snoc {items : List Item} {fin : End} {g : Gid} {l : List Out} {o : Out}
    (h : ∀ n o, l[n]? = some o → o = expected items fin g n) (ho : o = expected items fin g l.length) :
    ∀ n o', (l ++ [o])[n]? = some o' → o' = expected items fin g n := by
  intro n o' hn
  rcases Nat.lt_trichotomy n l.length with hl | hl | hl
  · rw [List.getElem?_append_left hl] at hn; exact h _ _ hn
  · subst hl; simp at hn; rw [← hn]; exact ho
  · simp [List.getElem?_append_right (Nat.le_of_lt hl)] at hn
    have : n - l.length ≠ 0 := by omega
    simp [List.getElem?_cons, this] at hn

/-- steps that say nothing about `g` -/
theorem track_other {items : List Item} {fin : End} {g : Gid} {s s' : St} (h : Track items fin g s) (hn : s.next ≤ s'.next)
    (ho : outs s' g = outs s g) (ht : g ∈ s'.table ↔ g ∈ s.table) (hw : g ∈ s'.waiting ↔ g ∈ s.waiting)
    (hob : s'.objs.get? g = s.objs.get? g) : Track items fin g s' := by
  obtain ⟨h1, h2, h3⟩ := h
  refine ⟨by omega, by rw [ho]; exact h2, ?_⟩
  rw [ho, hob, ht, hw]; exact h3

theorem track_step {st : Bool} {items : List Item} {fin : End} {g : Gid} {s s' : St} {l : Label} (hp : Plain fin)
    (h : Track items fin g s) (hs : step st s l = some s') (hd : l ≠ .destroy g) (hc : l ≠ .cancel g)
    (hover : l = .next g → g ∉ s.waiting) : Track items fin g s' := by
  have hlt := h.known
  cases l with
  | create items' fin' a =>
    simp only [step] at hs
    split at hs <;> cases hs
    refine track_other h (by simp) rfl ?_ Iff.rfl ?_
    · simp; intro hh; omega
    · have : ¬ s.next = g := by omega
      simp [Dict.get?_set, this]
  | next g' =>
    simp only [step] at hs
    split at hs
    case isFalse => cases hs
    split at hs
    · next hmem =>
      rcases hob : s.objs.get? g' with _ | p
      · simp [hob] at hs
      · simp only [hob] at hs
        by_cases hgg : g' = g
        · subst hgg
          obtain ⟨h1, h2, h3⟩ := h
          rcases h3 with ⟨ht, hlen, p', hp', hitems, hfin, hb⟩ | ⟨ht, _⟩
          · rw [hob] at hp'; cases hp'
            have hnw := hover rfl
            have hbf : p.busy = false := by
              rcases hpb : p.busy
              · rfl
              · exact absurd (hb.mp hpb) hnw
            simp only [hbf, Bool.false_eq_true, if_false] at hs
            cases hs
            refine ⟨h1, h2, .inl ⟨ht, hlen, { p with busy := true }, by simp [Dict.get?_set], hitems, hfin, by simp⟩⟩
          · exact absurd hmem ht
        · have hgg' : ¬ g = g' := fun hh => hgg hh.symm
          split at hs <;> cases hs
          · refine track_other h (Nat.le_refl _) ?_ ?_ Iff.rfl rfl
            · rw [outs_snoc s g g' _ _ rfl, if_neg hgg]
            · simp [hgg']
          · refine track_other h (Nat.le_refl _) rfl Iff.rfl ?_ ?_
            · simp [hgg']
            · simp [Dict.get?_set, hgg]
    · next hmem =>
      cases hs
      by_cases hgg : g' = g
      · subst hgg
        obtain ⟨h1, h2, h3⟩ := h
        rcases h3 with ⟨ht, _⟩ | ⟨ht, hlen, hw, hb⟩
        · exact absurd ht hmem
        · have ho : outs { s with log := s.log ++ [(g', consume (noIterator g'))] } g' = outs s g' ++ [consume (noIterator g')] := by
            rw [outs_snoc s g' g' _ _ rfl, if_pos rfl]
          refine ⟨h1, ?_, .inr ⟨ht, ?_, hw, hb⟩⟩
          · rw [ho]
            refine answers_snoc h2 ?_
            rw [consume_noIterator]; unfold expected; rw [dif_neg (by omega), if_neg (by omega)]; rfl
          · rw [ho]; simp; omega
      · refine track_other h (Nat.le_refl _) ?_ Iff.rfl Iff.rfl rfl
        rw [outs_snoc s g g' _ _ rfl, if_neg hgg]
  | ready g' =>
    simp only [step] at hs
    rcases hob : s.objs.get? g' with _ | p
    · simp [hob] at hs
    simp only [hob] at hs
    split at hs
    case isFalse => cases hs
    next hbusy =>
    by_cases hgg : g' = g
    · subst hgg
      obtain ⟨h1, h2, h3⟩ := h
      rcases h3 with ⟨ht, hlen, p', hp', hitems, hfin, hb⟩ | ⟨ht, hlen, hw, hb⟩
      · rw [hob] at hp'; cases hp'
        rw [if_pos (hb.mp hbusy)] at hs
        cases hs
        obtain ⟨pi, pf, pb, pa⟩ := p
        simp only at hitems hfin hbusy
        subst hfin
        by_cases hlast : (outs s g').length = items.length
        · have hnil : pi = [] := by rw [hitems, hlast]; simp
          subst hnil
          have hadv : ((advance ⟨[], pf, pb, pa⟩).2) = expected items pf g' (outs s g').length ∧
              (advance ⟨[], pf, pb, pa⟩).1.busy = false := by
            unfold expected; rw [dif_neg (by omega), if_pos hlast]
            cases pf with
            | done => exact ⟨consume_stop, rfl⟩
            | raises e => exact ⟨by show consume e = .raised e; unfold consume; rw [show occurs "StopIteration".toList e.text.toList = false from hp]; rfl, rfl⟩
          generalize hadve : (advance ⟨[], pf, pb, pa⟩) = ad at hadv
          have ho : ∀ t o w, outs { s with objs := o, waiting := w, table := t, log := s.log ++ [(g', ad.2)] } g' = outs s g' ++ [ad.2] := by
            intro t o w; rw [outs_snoc s g' g' _ _ rfl, if_pos rfl]
          refine ⟨h1, ?_, .inr ⟨?_, ?_, by simp, ?_⟩⟩
          · rw [ho]; exact answers_snoc h2 hadv.1
          · simp [over]
          · rw [ho]; simp; omega
          · intro q hq; simp only [Dict.get?_set, if_true] at hq; cases hq; exact hadv.2
        · have hlt' : (outs s g').length < items.length := by omega
          rw [List.drop_eq_getElem_cons hlt'] at hitems
          subst hitems
          have ho : ∀ t o w, outs { s with objs := o, waiting := w, table := t, log := s.log ++ [(g', .item items[(outs s g').length])] } g' = outs s g' ++ [.item items[(outs s g').length]] := by
            intro t o w; rw [outs_snoc s g' g' _ _ rfl, if_pos rfl]
          simp only [advance]
          refine ⟨h1, ?_, .inl ⟨?_, ?_, ⟨_, by simp [Dict.get?_set]; rfl, ?_, rfl, by simp⟩⟩⟩
          · rw [ho]; exact answers_snoc h2 (by unfold expected; rw [dif_pos hlt'])
          · have hov : ∀ x l f b a, over ⟨x :: l, f, b, a⟩ = false := fun _ _ _ _ _ => rfl
            simp only [hov, Bool.false_eq_true, if_false]; exact ht
          · rw [ho]; simp; omega
          · rw [ho]; simp
      · exact absurd hbusy (by simp [hb _ hob])
    · have hgg' : ¬ g = g' := fun hh => hgg hh.symm
      split at hs <;> cases hs
      · refine track_other h (Nat.le_refl _) ?_ ?_ ?_ ?_
        · rw [outs_snoc s g g' _ _ rfl, if_neg hgg]
        · simp only; split <;> simp [hgg']
        · simp [hgg']
        · simp [Dict.get?_set, hgg]
      · refine track_other h (Nat.le_refl _) rfl Iff.rfl Iff.rfl ?_
        simp [Dict.get?_set, hgg]
  | cancel g' =>
    have hgg : ¬ g' = g := fun hh => hc (by rw [hh])
    have hgg' : ¬ g = g' := fun hh => hgg hh.symm
    simp only [step] at hs
    rcases hob : s.objs.get? g' with _ | p
    · simp [hob] at hs
    simp only [hob] at hs
    split at hs <;> cases hs
    refine track_other h (Nat.le_refl _) ?_ Iff.rfl ?_ ?_
    · rw [outs_snoc s g g' _ _ rfl, if_neg hgg]
    · simp [hgg']
    · simp [Dict.get?_set, hgg]
  | destroy g' =>
    have hgg' : ¬ g = g' := fun hh => hd (by rw [hh])
    simp only [step] at hs
    split at hs <;> cases hs
    refine track_other h (Nat.le_refl _) rfl ?_ Iff.rfl rfl
    simp [hgg']

/-! ## Reachable states -/

structure Inv (st : Bool) (s : St) : Prop where
  logLt : ∀ x ∈ s.log, x.1 < s.next
  waitLt : ∀ x ∈ s.waiting, x < s.next
  objLt : ∀ k p, s.objs.get? k = some p → k < s.next
  single : st = false → s.waiting.length ≤ 1

theorem filter_length_le_one {l : List Gid} (h : l.length ≤ 1) (q : Gid → Bool) : (l.filter q).length ≤ 1 :=
  Nat.le_trans (List.length_filter_le q l) h

theorem inv_run {st : Bool} {ls : List Label} {s : St} (h : Run st ls s) : Inv st s := by
  induction h with
  | init => exact ⟨by simp [init], by simp [init], by simp [init], by simp [init]⟩
  | snoc _ hs ih =>
    rename_i l s s' _
    obtain ⟨h1, h2, h3, h4⟩ := ih
    cases l with
    | create items fin a =>
      simp only [step] at hs
      split at hs <;> cases hs
      refine ⟨fun x hx => Nat.lt_succ_of_lt (h1 x hx), fun x hx => Nat.lt_succ_of_lt (h2 x hx), ?_, h4⟩
      intro k p hk
      simp only [Dict.get?_set] at hk
      split at hk
      · simp only; omega
      · exact Nat.lt_succ_of_lt (h3 _ _ hk)
    | next g =>
      simp only [step] at hs
      split at hs
      case isFalse => cases hs
      next hfree =>
      simp only [Bool.and_eq_true, decide_eq_true_eq] at hfree
      have hlog : ∀ o, ∀ x ∈ s.log ++ [(g, o)], x.1 < s.next := by
        intro o x hx; simp at hx; rcases hx with hx | rfl
        · exact h1 x hx
        · exact hfree.2
      split at hs
      · rcases hob : s.objs.get? g with _ | p
        · simp [hob] at hs
        · simp only [hob] at hs
          split at hs <;> cases hs
          · exact ⟨hlog _, h2, h3, h4⟩
          · refine ⟨h1, ?_, ?_, ?_⟩
            · intro x hx; simp at hx; rcases hx with hx | rfl
              · exact h2 x hx
              · exact hfree.2
            · intro k p' hk
              simp only [Dict.get?_set] at hk
              split at hk
              · next hh => subst hh; exact hfree.2
              · exact h3 _ _ hk
            · intro hst
              have hf := hfree.1
              simp only [free, hst, Bool.false_or, List.isEmpty_iff] at hf
              simp [hf]
      · cases hs; exact ⟨hlog _, h2, h3, h4⟩
    | ready g =>
      simp only [step] at hs
      rcases hob : s.objs.get? g with _ | p
      · simp [hob] at hs
      have hg := h3 _ _ hob
      have hobj : ∀ q k p, (s.objs.set g q).get? k = some p → k < s.next := by
        intro q k p' hk
        simp only [Dict.get?_set] at hk
        split at hk
        · next hh => subst hh; exact hg
        · exact h3 _ _ hk
      simp only [hob] at hs
      split at hs
      case isFalse => cases hs
      split at hs <;> cases hs
      · refine ⟨?_, fun x hx => h2 x (List.mem_filter.mp hx).1, hobj _, fun hst => filter_length_le_one (h4 hst) _⟩
        intro x hx; simp at hx; rcases hx with hx | rfl
        · exact h1 x hx
        · exact hg
      · exact ⟨h1, h2, hobj _, h4⟩
    | cancel g =>
      simp only [step] at hs
      rcases hob : s.objs.get? g with _ | p
      · simp [hob] at hs
      have hg := h3 _ _ hob
      simp only [hob] at hs
      split at hs <;> cases hs
      refine ⟨?_, fun x hx => h2 x (List.mem_filter.mp hx).1, ?_, fun hst => filter_length_le_one (h4 hst) _⟩
      · intro x hx; simp at hx; rcases hx with hx | rfl
        · exact h1 x hx
        · exact hg
      · intro k p' hk
        simp only [Dict.get?_set] at hk
        split at hk
        · next hh => subst hh; exact hg
        · exact h3 _ _ hk
    | destroy g =>
      simp only [step] at hs
      split at hs <;> cases hs
      exact ⟨h1, h2, h3, h4⟩

theorem run_append {st : Bool} {ls1 ls2 : List Label} {s : St} (h : Run st (ls1 ++ ls2) s) : ∃ s1, Run st ls1 s1 := by
  induction ls2 using List.reverseRecOn' generalizing s with
  | nil => exact ⟨s, by simpa using h⟩
  | append_singleton l a ih =>
    rw [← List.append_assoc] at h
    generalize hl : ls1 ++ l ++ [a] = L at h
    cases h with
    | init => simp at hl
    | snoc hr _ =>
      obtain ⟨h1, _⟩ := List.append_inj' hl (by simp)
      subst h1; exact ih hr

theorem run_snoc_inv {st : Bool} {ls : List Label} {l : Label} {s : St} (h : Run st (ls ++ [l]) s) :
    ∃ s1, Run st ls s1 ∧ step st s1 l = some s := by
  generalize hl : ls ++ [l] = L at h
  cases h with
  | init => simp at hl
  | snoc hr hs =>
    obtain ⟨h1, h2⟩ := List.append_inj' hl (by simp)
    cases h2; subst h1; exact ⟨_, hr, hs⟩

theorem run_unique {st : Bool} {ls : List Label} {s s' : St} (h : Run st ls s) (h' : Run st ls s') : s = s' := by
  induction h generalizing s' with
  | init =>
    generalize hl : ([] : List Label) = L at h'
    cases h' with
    | init => rfl
    | snoc _ _ => simp at hl
  | snoc _ hs ih =>
    obtain ⟨s1, hr, hs'⟩ := run_snoc_inv h'
    have := ih hr; subst this
    rw [hs] at hs'; exact Option.some.inj hs'

theorem track {st : Bool} {ls1 ls2 : List Label} {s1 s : St} {items : List Item} {fin : End} {a : Bool} (hp : Plain fin)
    (h1 : Run st ls1 s1) (h : Run st (ls1 ++ .create items fin a :: ls2) s)
    (hd : .destroy s1.next ∉ ls2) (hc : .cancel s1.next ∉ ls2)
    (hover : ∀ pre post t, ls2 = pre ++ .next s1.next :: post → Run st (ls1 ++ .create items fin a :: pre) t → s1.next ∉ t.waiting) :
    Track items fin s1.next s := by
  induction ls2 using List.reverseRecOn' generalizing s with
  | nil =>
    obtain ⟨s0, hr, hs⟩ := run_snoc_inv h
    have := run_unique hr h1; subst this
    have hi := inv_run h1
    simp only [step] at hs
    split at hs <;> cases hs
    have ho : outs { s0 with objs := s0.objs.set s0.next ⟨items, fin, false, a⟩, table := s0.table ++ [s0.next], next := s0.next + 1 } s0.next = [] := by
      simp only [outs, List.filterMap_eq_nil_iff]
      intro x hx
      have := hi.logLt x hx
      rw [logged, if_neg (by omega)]
    refine ⟨by simp, by rw [ho]; simp, .inl ⟨by simp, by rw [ho]; simp, ⟨items, fin, false, a⟩, by simp [Dict.get?_set], by rw [ho]; simp, rfl, ?_⟩⟩
    simp only [Bool.false_eq_true, false_iff]
    intro hw; have := hi.waitLt _ hw; omega
  | append_singleton l x ih =>
    have h' : Run st ((ls1 ++ .create items fin a :: l) ++ [x]) s := by simpa using h
    obtain ⟨s0, hr, hs⟩ := run_snoc_inv h'
    refine track_step hp (ih hr (fun hh => hd (by simp [hh])) (fun hh => hc (by simp [hh])) ?_) hs
      (fun hh => hd (by simp [hh])) (fun hh => hc (by simp [hh])) ?_
    · intro pre post t hl ht
      exact hover pre (post ++ [x]) t (by simp [hl]) ht
    · intro hx; exact hover l [] s0 (by simp [hx]) hr

/-- requests to an `Actor` never overlap: it has a lock -/
theorem no_overlap {ls1 ls2 : List Label} {s : St} {g : Gid} {x : Label}
    (h : Run false (ls1 ++ x :: ls2) s) : ∀ pre post t, ls2 = pre ++ .next g :: post → Run false (ls1 ++ x :: pre) t → g ∉ t.waiting := by
  intro pre post t hl ht
  subst hl
  have h' : Run false ((ls1 ++ x :: pre ++ [.next g]) ++ post) s := by simpa using h
  obtain ⟨s2, hr2⟩ := run_append h'
  obtain ⟨s3, hr3, hs3⟩ := run_snoc_inv hr2
  have := run_unique hr3 ht; subst this
  simp only [step] at hs3
  split at hs3
  case isFalse => cases hs3
  next hf =>
  simp only [free, Bool.false_or, Bool.and_eq_true, List.isEmpty_iff] at hf
  simp [hf.1]

/-! ## C40 -/

/-- **C40**: whatever else the actor does in between (other generators, other requests), the consumer of a generator of an
`Actor` gets its items in order, then its end: a clean stop or the producer's error; nothing is skipped or repeated.  Missing from
the full claim: errors whose text contains "StopIteration" (see below), and iteration after a cancelled request.  After
the generator was destroyed there are no more answers to speak of. -/
theorem iterate_partial {ls1 ls2 : List Label} {s1 s : St} {items : List Item} {fin : End} {a : Bool} (hp : Plain fin)
    (h1 : Run false ls1 s1) (h : Run false (ls1 ++ .create items fin a :: ls2) s)
    (hd : .destroy s1.next ∉ ls2) (hc : .cancel s1.next ∉ ls2) (n : Nat) (o : Out) (ho : (outs s s1.next)[n]? = some o) :
    o = expected items fin s1.next n := (track hp h1 h hd hc (no_overlap h)).answers n o ho

/-- **C40** (release): the producer is held exactly until its end was delivered -/
theorem released_partial {ls1 ls2 : List Label} {s1 s : St} {items : List Item} {fin : End} {a : Bool} (hp : Plain fin)
    (h1 : Run false ls1 s1) (h : Run false (ls1 ++ .create items fin a :: ls2) s)
    (hd : .destroy s1.next ∉ ls2) (hc : .cancel s1.next ∉ ls2) :
    s1.next ∈ s.table ↔ (outs s s1.next).length ≤ items.length := by
  rcases (track hp h1 h hd hc (no_overlap h)).state with ⟨h1, h2, _⟩ | ⟨h1, h2, _⟩
  · exact ⟨fun _ => h2, fun _ => h1⟩
  · exact ⟨fun hh => absurd hh h1, fun hh => by omega⟩

/-- **C40**, generators of a `StatelessActor`, which has no lock: the same as long as the consumer asks for one item at a time -/
theorem iterate_stateless_partial {ls1 ls2 : List Label} {s1 s : St} {items : List Item} {fin : End} {a : Bool} (hp : Plain fin)
    (h1 : Run true ls1 s1) (h : Run true (ls1 ++ .create items fin a :: ls2) s)
    (hd : .destroy s1.next ∉ ls2) (hc : .cancel s1.next ∉ ls2)
    (hone : ∀ pre post t, ls2 = pre ++ .next s1.next :: post → Run true (ls1 ++ .create items fin a :: pre) t → s1.next ∉ t.waiting)
    (n : Nat) (o : Out) (ho : (outs s s1.next)[n]? = some o) :
    o = expected items fin s1.next n := (track hp h1 h hd hc hone).answers n o ho

/-- **C40** (progress): a request for an item of a live generator is answered as soon as the producer is ready: with the next
item or the end, and exactly one answer -/
theorem answered {ls1 ls2 : List Label} {s1 s : St} {items : List Item} {fin : End} {a : Bool} (hp : Plain fin)
    (h1 : Run false ls1 s1) (h : Run false (ls1 ++ .create items fin a :: ls2) s)
    (hd : .destroy s1.next ∉ ls2) (hc : .cancel s1.next ∉ ls2) (hw : s1.next ∈ s.waiting) :
    ∃ s', step false s (.ready s1.next) = some s' ∧ s1.next ∉ s'.waiting ∧
      outs s' s1.next = outs s s1.next ++ [expected items fin s1.next (outs s s1.next).length] := by
  have ht := track hp h1 h hd hc (no_overlap h)
  rcases ht.state with ⟨ht1, hlen, p, hob, hitems, hfin, hb⟩ | ⟨_, _, hn, _⟩
  · have hb' := hb.mpr hw
    refine ⟨_, by simp only [step, hob, hb', hw, if_true]; rfl, by simp, ?_⟩
    have hs : step false s (.ready s1.next) = some { s with objs := s.objs.set s1.next (advance p).1, waiting := s.waiting.filter (· ≠ s1.next), table := if over p then s.table.filter (· ≠ s1.next) else s.table, log := s.log ++ [(s1.next, (advance p).2)] } := by
      simp only [step, hob, hb', hw, if_true]
    have ht' := track_step hp ht hs (by simp) (by simp) (by simp)
    have ho := outs_snoc s s1.next s1.next (advance p).2 { s with objs := s.objs.set s1.next (advance p).1, waiting := s.waiting.filter (· ≠ s1.next), table := if over p then s.table.filter (· ≠ s1.next) else s.table, log := s.log ++ [(s1.next, (advance p).2)] } rfl
    rw [if_pos rfl] at ho
    have := ht'.answers (outs s s1.next).length (advance p).2 (by rw [ho]; simp)
    rw [ho, ← this]
  · exact absurd hw hn

/-! ## Examples and counterexamples -/

theorem run_of (st : Bool) (ls : List Label) (s : St) (h : ls.foldlM (step st) init = some s) : Run st ls s := by
  induction ls using List.reverseRecOn' generalizing s with
  | nil => cases h; exact .init
  | append_singleton l x ih =>
    rw [List.foldlM_append] at h
    rcases hh : l.foldlM (step st) init with _ | t
    · simp [hh] at h
    · simp [hh] at h
      exact .snoc (ih t hh) h

/-- two generators consumed alternately -/
example : ∃ s, Run false [.create [1, 2] .done false, .create [7] (.raises ⟨"ValueError", "x"⟩) true, .next 0, .ready 0, .next 1, .ready 1,
    .next 0, .ready 0, .next 1, .ready 1, .next 0, .ready 0, .next 0, .next 1] s ∧
    outs s 0 = [.item 1, .item 2, .stop, .raised (noIterator 0)] ∧
    outs s 1 = [.item 7, .raised ⟨"ValueError", "x"⟩, .raised (noIterator 1)] ∧ s.table = [] :=
  ⟨_, run_of _ _ _ rfl, by decide, by decide, by decide⟩

/-- an error of the producer whose text contains "StopIteration" is swallowed: the consumer sees a clean end after the items
got so far.  Python itself makes such an error when `StopIteration` is raised inside a generator. -/
theorem error_swallowed_refuted : ∃ s, Run false [.create [1] (.raises ⟨"RuntimeError", "generator raised StopIteration"⟩) false,
    .next 0, .ready 0, .next 0, .ready 0] s ∧ outs s 0 = [.item 1, .stop] :=
  ⟨_, run_of _ _ _ rfl, by decide⟩

/-- every error with such a text is swallowed -/
theorem error_swallowed (e : Exc) (h : occurs "StopIteration".toList e.text.toList = true) : consume e = .stop := by
  unfold consume; rw [h]; rfl

/-- two consumers of one generator of a `StatelessActor` (or one asking twice at once): the second request fails and the
generator is destroyed, the remaining items are lost for everybody -/
theorem concurrent_next_destroys_refuted : ∃ s, Run true [.create [1, 2, 3] .done false, .next 0, .next 0, .ready 0, .next 0] s ∧
    outs s 0 = [.raised ⟨"ValueError", "generator already executing"⟩, .item 1, .raised (noIterator 0)] :=
  ⟨_, run_of _ _ _ rfl, by decide⟩

/-- cancelling one request for an item loses the item of a plain generator: the following request gets the next one -/
theorem cancelled_next_loses_item_refuted : ∃ s, Run false [.create [1, 2, 3] .done false, .next 0, .cancel 0, .ready 0, .next 0, .ready 0] s ∧
    outs s 0 = [.cancelled, .item 2] :=
  ⟨_, run_of _ _ _ rfl, by decide⟩

/-- … or destroys it, if the thread has not finished when the following request comes -/
theorem cancelled_next_destroys_refuted : ∃ s, Run false [.create [1, 2, 3] .done false, .next 0, .cancel 0, .next 0, .next 0] s ∧
    outs s 0 = [.cancelled, .raised ⟨"ValueError", "generator already executing"⟩, .raised (noIterator 0)] :=
  ⟨_, run_of _ _ _ rfl, by decide⟩

/-- … and ends an async generator: the consumer sees a clean end although items were left -/
theorem cancelled_next_ends_refuted : ∃ s, Run false [.create [1, 2, 3] .done true, .next 0, .cancel 0, .next 0, .ready 0] s ∧
    outs s 0 = [.cancelled, .stop] :=
  ⟨_, run_of _ _ _ rfl, by decide⟩

/-! ## The wrapper -/

theorem wrap_inv {ls : List WLabel} {w : Wraps} (h : WRun ls w) :
    w.length = ls.length + 1 ∧ (∀ i, .send i ∈ ls → i < w.length) ∧ ∀ (i : Nat), w[i]? = some true ↔ i < w.length ∧ .send i ∉ ls := by
  induction h with
  | init => refine ⟨rfl, by simp, fun i => ?_⟩; cases i <;> simp
  | snoc _ hs ih =>
    rename_i ls l s s' _
    obtain ⟨h1, h2, h3⟩ := ih
    cases l with
    | send j =>
      simp only [wstep] at hs
      split at hs <;> cases hs
      next hj =>
      refine ⟨by simp [h1], ?_, fun i => ?_⟩
      · intro i hi; simp at hi ⊢
        rcases hi with hi | hi
        · have := h2 i hi; omega
        · omega
      · have hnew : .send s.length ∉ ls := fun hh => Nat.lt_irrefl _ (h2 _ hh)
        rcases Nat.lt_trichotomy i s.length with hi | hi | hi
        · rw [List.getElem?_append_left (by simpa using hi), List.getElem?_set]
          have := h3 i
          by_cases hij : j = i
          · subst hij; simp [hi]
          · have hij' : ¬ i = j := fun hh => hij hh.symm
            simp only [hij, if_false, this, List.length_append, List.length_set, List.length_singleton, List.mem_append, List.mem_singleton,
              WLabel.send.injEq, hij', or_false]
            constructor
            · rintro ⟨a, b⟩; exact ⟨by omega, b⟩
            · rintro ⟨a, b⟩; exact ⟨hi, b⟩
        · subst hi
          have : ¬ s.length = j := by omega
          simp [hnew, this]
        · have : ¬ i < (s.set j false ++ [true]).length := by simp; omega
          rw [List.getElem?_eq_none (by omega)]
          constructor
          · intro hh; cases hh
          · intro hh; exact absurd hh.1 this

/-- **C40** (release by collection): the wrappers whose collection destroys the generator are exactly those never sent on; if every
wrapper is sent on at most once there is exactly one of them, the end of the chain -/
theorem owner {ls : List WLabel} {w : Wraps} (h : WRun ls w) (i : Nat) :
    destroysOnGc w i = true ↔ i < w.length ∧ .send i ∉ ls := by
  have := (wrap_inv h).2.2 i
  rw [← this, destroysOnGc]
  rcases w[i]? with _ | b <;> simp

/-- a wrapper sent on to two places: both copies destroy the generator when they are collected, so that one of the two
consumers loses its items when the other one is done -/
theorem two_owners_refuted : ∃ w, WRun [.send 0, .send 0] w ∧ destroysOnGc w 1 = true ∧ destroysOnGc w 2 = true :=
  ⟨_, .snoc (.snoc .init rfl) rfl, rfl, rfl⟩

example : ∃ w, WRun [.send 0, .send 1] w ∧ destroysOnGc w 0 = false ∧ destroysOnGc w 1 = false ∧ destroysOnGc w 2 = true :=
  ⟨_, .snoc (.snoc .init rfl) rfl, rfl, rfl, rfl⟩

/-- **C40** (destroy): once a generator was destroyed it never gives an item again: every later request is refused -/
theorem destroyed_refused {st : Bool} {ls1 ls2 : List Label} {s1 s : St} {g : Gid} (h1 : Run st (ls1 ++ [.destroy g]) s1)
    (hg : g < s1.next) (h2 : Run st (ls1 ++ [.destroy g] ++ ls2) s) :
    g ∉ s.table ∧ ∀ s', step st s (.next g) = some s' → s'.log = s.log ++ [(g, .raised (noIterator g))] := by
  have key : g ∉ s.table ∧ g < s.next := by
    induction ls2 using List.reverseRecOn' generalizing s with
    | nil =>
      rw [List.append_nil] at h2
      cases run_unique h1 h2
      obtain ⟨s0, hr0, hs0⟩ := run_snoc_inv h1
      simp only [step] at hs0
      split at hs0 <;> cases hs0
      exact ⟨by simp, hg⟩
    | append_singleton l a ih =>
      rw [← List.append_assoc] at h2
      obtain ⟨s0, hr0, hs0⟩ := run_snoc_inv h2
      obtain ⟨i1, i2⟩ := ih hr0
      cases a <;> simp only [step] at hs0 <;> grind
  refine ⟨key.1, fun s' hs => ?_⟩
  simp only [step, if_neg key.1] at hs
  split at hs
  · cases hs; rw [consume_noIterator]
  · simp at hs

/-- **C40** (release): the consumer can drop a generator whenever the actor handles no request (at any time if it is stateless), and
then it is gone; the others stay -/
theorem can_destroy {st : Bool} {s : St} (g : Gid) (h : st = true ∨ s.waiting = []) :
    ∃ s', step st s (.destroy g) = some s' ∧ g ∉ s'.table ∧ ∀ g' ∈ s.table, g' ≠ g → g' ∈ s'.table := by
  have : free st s = true := by rcases h with rfl | h <;> simp [free, *]
  refine ⟨_, by simp only [step, this, if_true]; rfl, by simp, ?_⟩
  intro g' h1 h2
  simpa [h2] using h1

/-- the hypotheses are met: the consumer drops the generator after one of three items -/
example : ∃ s, Run false ([.create [1, 2, 3] .done false, .next 0, .ready 0] ++ [.destroy 0] ++ [.next 0]) s ∧
    s.log = [(0, .item 1), (0, .raised (noIterator 0))] := ⟨_, run_of _ _ _ rfl, by decide⟩

/-! ## Requests and answers, in every history -/

structure WInv (s : St) : Prop where
  nodup : s.waiting.Nodup
  busy : ∀ g ∈ s.waiting, ∃ p, s.objs.get? g = some p ∧ p.busy = true

theorem count_filter_ne {l : List Gid} (g g' : Gid) : (l.filter (· ≠ g')).count g = if g = g' then 0 else l.count g := by
  induction l with
  | nil => simp
  | cons a l ih => by_cases h : a = g' <;> by_cases h2 : a = g <;> simp_all [List.filter_cons, List.count_cons]

theorem winv_run {st : Bool} {ls : List Label} {s : St} (h : Run st ls s) : WInv s := by
  induction h with
  | init => exact ⟨by simp [init], by simp [init]⟩
  | @snoc ls l s s' hr hs ih =>
    have hi := inv_run hr
    obtain ⟨h1, h2⟩ := ih
    cases l with
    | create items fin a =>
      simp only [step] at hs
      split at hs <;> cases hs
      refine ⟨h1, fun g hg => ?_⟩
      obtain ⟨p, hp, hb⟩ := h2 g hg
      have hne : ¬ s.next = g := by have := hi.waitLt g hg; omega
      exact ⟨p, by simp only [Dict.get?_set, if_neg hne]; exact hp, hb⟩
    | next g =>
      simp only [step] at hs
      split at hs
      case isFalse => cases hs
      split at hs
      · rcases hob : s.objs.get? g with _ | p
        · simp [hob] at hs
        · simp only [hob] at hs
          split at hs <;> cases hs
          · exact ⟨h1, h2⟩
          · next hb =>
            have hg : g ∉ s.waiting := by
              intro hg
              obtain ⟨q, hq, hqb⟩ := h2 g hg
              rw [hob] at hq; cases hq; exact hb hqb
            refine ⟨?_, ?_⟩
            · rw [List.nodup_append]; exact ⟨h1, by simp, fun a ha b hb' => by simp at hb'; subst hb'; intro hh; subst hh; exact hg ha⟩
            · intro x hx
              simp only [Dict.get?_set]
              by_cases hxg : g = x
              · exact ⟨_, if_pos hxg, rfl⟩
              · rw [if_neg hxg]; simp at hx; rcases hx with hx | hx
                · exact h2 x hx
                · exact absurd hx.symm hxg
      · cases hs; exact ⟨h1, h2⟩
    | ready g =>
      simp only [step] at hs
      rcases hob : s.objs.get? g with _ | p
      · simp [hob] at hs
      simp only [hob] at hs
      split at hs
      case isFalse => cases hs
      split at hs <;> cases hs
      · refine ⟨List.Nodup.sublist List.filter_sublist h1, fun x hx => ?_⟩
        simp only [List.mem_filter, decide_eq_true_eq] at hx
        have hne : ¬ g = x := fun hh => hx.2 hh.symm
        simp only [Dict.get?_set, if_neg hne]; exact h2 x hx.1
      · next hg =>
        refine ⟨h1, fun x hx => ?_⟩
        have hne : ¬ g = x := fun hh => hg (hh ▸ hx)
        simp only [Dict.get?_set, if_neg hne]; exact h2 x hx
    | cancel g =>
      simp only [step] at hs
      rcases hob : s.objs.get? g with _ | p
      · simp [hob] at hs
      simp only [hob] at hs
      split at hs <;> cases hs
      refine ⟨List.Nodup.sublist List.filter_sublist h1, fun x hx => ?_⟩
      simp only [List.mem_filter, decide_eq_true_eq] at hx
      have hne : ¬ g = x := fun hh => hx.2 hh.symm
      simp only [Dict.get?_set, if_neg hne]; exact h2 x hx.1
    | destroy g =>
      simp only [step] at hs
      split at hs <;> cases hs
      exact ⟨h1, h2⟩

theorem consume_ne (e : Exc) : consume e ≠ .cancelled := by unfold consume; split <;> simp

theorem advance_ne (p : Producer) : (advance p).2 ≠ .cancelled := by
  obtain ⟨items, fin, b, a⟩ := p
  rcases items with _ | ⟨i, rest⟩
  · cases fin <;> simp only [advance] <;> exact consume_ne _
  · simp [advance]

/-- **C40** (answers): every request for an item has got exactly one answer, or its handler still waits for the item - whatever else happens,
with or without a lock.  And only requests that were cancelled are answered by a cancellation. -/
theorem one_answer {st : Bool} {ls : List Label} {s : St} (h : Run st ls s) (g : Gid) :
    ls.count (.next g) = (outs s g).length + s.waiting.count g ∧ (outs s g).count .cancelled = ls.count (.cancel g) := by
  induction h with
  | init => simp [init, outs]
  | @snoc ls l s s' hr hs ih =>
    have hw := winv_run hr
    obtain ⟨ih1, ih2⟩ := ih
    simp only [List.count_append, List.count_cons, List.count_nil, beq_iff_eq, Nat.zero_add]
    cases l with
    | create items fin a =>
      simp only [step] at hs
      split at hs <;> cases hs
      simp only [reduceCtorEq, if_false, Nat.add_zero]
      exact ⟨ih1, ih2⟩
    | next g' =>
      simp only [Label.next.injEq, reduceCtorEq, if_false, Nat.add_zero]
      simp only [step] at hs
      split at hs
      case isFalse => cases hs
      split at hs
      · rcases hob : s.objs.get? g' with _ | p
        · simp [hob] at hs
        · simp only [hob] at hs
          split at hs <;> cases hs
          · rw [outs_snoc s g g' _ _ rfl]
            have := consume_ne (running p.isAsync)
            by_cases hg : g' = g
            · simp only [hg, if_true, List.length_append, List.length_singleton, List.count_append, List.count_singleton, beq_iff_eq]
              rw [if_neg this]; omega
            · simp only [hg, if_false]; omega
          · have ho : outs { s with objs := s.objs.set g' { p with busy := true }, waiting := s.waiting ++ [g'] } g = outs s g := rfl
            rw [ho]
            simp only [List.count_append, List.count_singleton, beq_iff_eq]
            split <;> omega
      · cases hs
        rw [outs_snoc s g g' _ _ rfl]
        have := consume_ne (noIterator g')
        by_cases hg : g' = g
        · subst hg
          simp only [if_true, List.length_append, List.length_singleton, List.count_append, List.count_singleton, beq_iff_eq]
          rw [if_neg this]; omega
        · simp only [hg, if_false]; omega
    | ready g' =>
      simp only [reduceCtorEq, if_false, Nat.add_zero]
      simp only [step] at hs
      rcases hob : s.objs.get? g' with _ | p
      · simp [hob] at hs
      simp only [hob] at hs
      split at hs
      case isFalse => cases hs
      split at hs <;> cases hs
      · next hg' =>
        rw [outs_snoc s g g' (advance p).2 _ rfl]
        simp only [count_filter_ne]
        have := advance_ne p
        by_cases hg : g' = g
        · subst hg
          have h1 : s.waiting.count g' = 1 := by rw [hw.nodup.count, if_pos hg']
          simp only [if_true, List.length_append, List.length_singleton, List.count_append, List.count_singleton, beq_iff_eq]
          rw [if_neg this]; omega
        · have hg2 : ¬ g = g' := fun hh => hg hh.symm
          simp only [hg, hg2, if_false]; omega
      · exact ⟨ih1, ih2⟩
    | cancel g' =>
      simp only [Label.cancel.injEq, reduceCtorEq, if_false, Nat.add_zero]
      simp only [step] at hs
      rcases hob : s.objs.get? g' with _ | p
      · simp [hob] at hs
      simp only [hob] at hs
      split at hs <;> cases hs
      next hg' =>
      rw [outs_snoc s g g' .cancelled _ rfl]
      simp only [count_filter_ne]
      by_cases hg : g' = g
      · subst hg
        have h1 : s.waiting.count g' = 1 := by rw [hw.nodup.count, if_pos hg']
        simp only [if_true, List.length_append, List.length_singleton, List.count_append, List.count_singleton, beq_iff_eq]
        omega
      · have hg2 : ¬ g = g' := fun hh => hg hh.symm
        simp only [hg, hg2, if_false]; omega
    | destroy g' =>
      simp only [reduceCtorEq, if_false, Nat.add_zero]
      simp only [step] at hs
      split at hs <;> cases hs
      exact ⟨ih1, ih2⟩

/-- **C40** (lock): while an `Actor` waits for the next item of one of its generators it starts no request about generators: the next thing that
happens is that an item is ready, or that this request is cancelled -/
theorem one_at_a_time {ls : List Label} {s s' : St} {g : Gid} {l : Label} (h : Run false ls s) (hw : g ∈ s.waiting)
    (hs : step false s l = some s') : l = .cancel g ∨ ∃ g', l = .ready g' := by
  have h1 := (inv_run h).single rfl
  have hf : free false s = false := by
    rcases hwl : s.waiting with _ | ⟨a, t⟩
    · rw [hwl] at hw; cases hw
    · simp [free, hwl]
  cases l with
  | create items fin a => simp [step, hf] at hs
  | next g' => simp [step, hf] at hs
  | destroy g' => simp [step, hf] at hs
  | ready g' => exact .inr ⟨g', rfl⟩
  | cancel g' =>
    simp only [step] at hs
    rcases hob : s.objs.get? g' with _ | p
    · simp [hob] at hs
    simp only [hob] at hs
    split at hs
    case isFalse => cases hs
    next hg' =>
    rcases hwl : s.waiting with _ | ⟨a, t⟩
    · rw [hwl] at hw; cases hw
    · rw [hwl] at h1 hw hg'
      rcases t with _ | ⟨b, t⟩
      · simp only [List.mem_singleton] at hw hg'; subst hw; subst hg'; exact .inl rfl
      · simp at h1

/-- **C40 refuted** (concurrent requests, in every history of a `StatelessActor`): a request for an item that comes while another one of the same
generator is being computed fails, and the generator is no longer known afterwards -/
theorem concurrent_next {ls : List Label} {s : St} {g : Gid} (h : Run true ls s) (hw : g ∈ s.waiting) (ht : g ∈ s.table) :
    ∃ s', step true s (.next g) = some s' ∧ g ∉ s'.table ∧
      (outs s' g = outs s g ++ [.raised ⟨"RuntimeError", "anext(): asynchronous generator is already running"⟩] ∨
       outs s' g = outs s g ++ [.raised ⟨"ValueError", "generator already executing"⟩]) ∧
      (∀ p, s.objs.get? g = some p → (p.isAsync = true ↔
        outs s' g = outs s g ++ [.raised ⟨"RuntimeError", "anext(): asynchronous generator is already running"⟩])) := by
  obtain ⟨p, hp, hb⟩ := (winv_run h).busy g hw
  have hlt := (inv_run h).waitLt g hw
  refine ⟨{ s with table := s.table.filter (· ≠ g), log := s.log ++ [(g, consume (running p.isAsync))] }, ?_, by simp, ?_, ?_⟩
  · simp [step, free, hlt, ht, hp, hb]
  · rw [outs_snoc s g g _ _ rfl, if_pos rfl]
    cases p.isAsync with
    | true => exact .inl (by rw [show consume (running true) = .raised ⟨"RuntimeError", "anext(): asynchronous generator is already running"⟩ by decide])
    | false => exact .inr (by rw [show consume (running false) = .raised ⟨"ValueError", "generator already executing"⟩ by decide])
  · intro q hq
    rw [hp] at hq; cases hq
    rw [outs_snoc s g g _ _ rfl, if_pos rfl]
    cases p.isAsync with
    | true => simp only [true_iff]; rw [show consume (running true) = .raised ⟨"RuntimeError", "anext(): asynchronous generator is already running"⟩ by decide]
    | false => rw [show consume (running false) = .raised ⟨"ValueError", "generator already executing"⟩ by decide]; simp

example : ∃ s, Run true [.create [1, 2, 3] .done true, .next 0] s ∧ 0 ∈ s.waiting ∧ 0 ∈ s.table :=
  ⟨_, run_of _ _ _ rfl, by decide, by decide⟩
example : ∃ s, Run false [.create [1, 2, 3] .done true, .next 0, .cancel 0, .next 0] s ∧ 0 ∈ s.waiting ∧ outs s 0 = [.cancelled] :=
  ⟨_, run_of _ _ _ rfl, by decide, by decide⟩

end Xoscar.Gen
