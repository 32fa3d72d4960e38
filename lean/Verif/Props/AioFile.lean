import Verif.Spec.AioFile
import Verif.Proof.Base
namespace Xoscar.AioFile

attribute [local grind =] Dict.get?_set Dict.get?_erase

theorem sync_snoc {f f1 f2 : File} {l : List (Op × Res)} {op : Op} {r : Res} (h : Sync f l f1) (ha : apply f1 op = (f2, r)) :
    Sync f (l ++ [(op, r)]) f2 := by
  induction h with
  | nil => exact .cons ha .nil
  | cons h1 _ ih => exact .cons h1 (ih ha)

/-- Whatever tasks use the file at the same time: the file is as if the operations had been done one after the other, and every result given to
a task is that of its operation in this order. -/
theorem one_after_the_other {f : File} {ls : List Label} {s : St} (h : Run f ls s) :
    Sync f s.log s.file ∧ ∀ t op r, (t, op, r) ∈ s.results → (op, r) ∈ s.log ∨ r = .noFile := by
  have key : Sync f s.log s.file ∧ (∀ t op r, s.jobs.get? t = some ⟨op, .done r⟩ → (op, r) ∈ s.log) ∧
      ∀ t op r, (t, op, r) ∈ s.results → (op, r) ∈ s.log ∨ r = .noFile := by
    induction h with
    | init => exact ⟨.nil, by simp [init, Dict.get?], by simp [init]⟩
    | @snoc ls l s s' hr hs ih =>
      obtain ⟨h1, h2, h3⟩ := ih
      cases l with
      | call t op =>
        simp only [step] at hs
        rcases hj : s.jobs.get? t with _ | j
        · simp only [hj] at hs
          split at hs
          · injection hs with hs; subst hs
            refine ⟨h1, ?_, h3⟩; simp only; grind
          · injection hs with hs; subst hs
            refine ⟨h1, h2, ?_⟩; simp only; grind
        · simp only [hj] at hs; cases hs
      | start t =>
        simp only [step] at hs; split at hs
        · injection hs with hs; subst hs
          refine ⟨h1, ?_, h3⟩; simp only; grind
        · cases hs
      | exec t =>
        simp only [step] at hs; split at hs
        · injection hs with hs; subst hs
          refine ⟨sync_snoc h1 rfl, ?_, ?_⟩ <;> simp only <;> grind
        · cases hs
      | deliver t =>
        simp only [step] at hs; split at hs
        · injection hs with hs; subst hs
          refine ⟨h1, ?_, ?_⟩ <;> simp only <;> grind
        · cases hs
      | cancel t =>
        simp only [step] at hs; split at hs
        · injection hs with hs; subst hs
          refine ⟨h1, ?_, ?_⟩ <;> simp only <;> grind
        · injection hs with hs; subst hs
          refine ⟨h1, ?_, ?_⟩ <;> simp only <;> grind
        · injection hs with hs; subst hs
          refine ⟨h1, ?_, ?_⟩ <;> simp only <;> grind
        · cases hs
      | execLost =>
        simp only [step] at hs; split at hs
        · cases hs
        · injection hs with hs; subst hs
          refine ⟨sync_snoc h1 rfl, ?_, ?_⟩ <;> simp only <;> grind
      | forget => simp only [step] at hs; injection hs with hs; subst hs; exact ⟨h1, h2, h3⟩
  exact ⟨key.1, key.2.2⟩

theorem run_append {f : File} {ls : List Label} {s s' : St} {ls' : List Label} (h : Run f ls s) (h' : ls'.foldlM step s = some s') : Run f (ls ++ ls') s' := by
  induction ls' generalizing ls s with
  | nil => simp only [List.foldlM_nil] at h'; injection h' with h'; subst h'; simpa using h
  | cons l ls' ih =>
    simp only [List.foldlM_cons] at h'
    rcases hl : step s l with _ | s1
    · rw [hl] at h'; cases h'
    · rw [hl] at h'
      have := ih (h.snoc hl) h'
      simpa using this

theorem run_init {f : File} {ls : List Label} {s : St} (h : ls.foldlM step (init f) = some s) : Run f ls s := by
  simpa using run_append Run.init h

/-- A task that uses the file alone gets exactly what it would get from the ordinary file. -/
theorem alone_like_sync {f : File} (t : Task) (ops : List Op) :
    ∃ s, Run f (ops.flatMap (alone t)) s ∧ Sync f (s.results.map (·.2)) s.file ∧ s.results.map (·.2.1) = ops ∧ s.jobs = [] := by
  have key : ∀ (ops : List Op) (ls : List Label) (s : St), Run f ls s → s.hasFile = true → s.jobs = [] → Sync f (s.results.map (·.2)) s.file →
      ∃ s', Run f (ls ++ ops.flatMap (alone t)) s' ∧ Sync f (s'.results.map (·.2)) s'.file ∧ s'.results.map (·.2.1) = s.results.map (·.2.1) ++ ops ∧
        s'.jobs = [] := by
    intro ops
    induction ops with
    | nil => intro ls s h _ hj hs; exact ⟨s, by simpa using h, hs, by simp, hj⟩
    | cons op ops ih =>
      intro ls s h hf hj hs
      have h1 : (alone t op).foldlM step s = some { s with file := (apply s.file op).1, results := s.results ++ [(t, op, (apply s.file op).2)],
                                                           log := s.log ++ [(op, (apply s.file op).2)] } := by
        simp [alone, List.foldlM, step, hj, hf, Dict.get?, Dict.set, Dict.erase]
      have := ih _ _ (run_append h h1) hf hj (by rw [List.map_append]; exact sync_snoc hs rfl)
      simpa using this
  obtain ⟨s, h1, h2, h3, h4⟩ := key ops [] (init f) .init rfl rfl .nil
  exact ⟨s, by simpa using h1, h2, by simpa [init] using h3, h4⟩

/-! ## Iteration -/

theorem line_prefix (bs : List Byte) : ∃ r, bs = line bs ++ r := by
  induction bs with
  | nil => exact ⟨[], rfl⟩
  | cons b bs ih =>
    unfold line; split
    · exact ⟨bs, rfl⟩
    · obtain ⟨r, h⟩ := ih; exact ⟨r, by rw [List.cons_append, ← h]⟩

theorem drop_line (d : List Byte) (p : Nat) : ∃ r, d.drop p = line (d.drop p) ++ r ∧ d.drop (p + (line (d.drop p)).length) = r := by
  obtain ⟨r, h⟩ := line_prefix (d.drop p)
  refine ⟨r, h, ?_⟩
  rw [← List.drop_drop]
  generalize d.drop p = x at h
  have e : List.drop (line x).length x = List.drop (line x).length (line x ++ r) := by rw [← h]
  rw [e, List.drop_left]

theorem line_nil_iff (bs : List Byte) : line bs = [] ↔ bs = [] := by
  cases bs with
  | nil => simp [line]
  | cons b bs => unfold line; split <;> simp

theorem line_inner (bs : List Byte) : ∀ b ∈ (line bs).dropLast, b ≠ 10 := by
  induction bs with
  | nil => simp [line]
  | cons b bs ih =>
    unfold line; split
    · simp
    · rename_i hb
      intro c hc
      rcases hl : line bs with _ | ⟨x, xs⟩
      · rw [hl] at hc; simp at hc
      · rw [hl] at hc ih
        rw [List.dropLast_cons_of_ne_nil (by simp)] at hc
        rcases List.mem_cons.1 hc with rfl | hc
        · exact hb
        · exact ih c hc

theorem line_end (bs r : List Byte) (h : bs = line bs ++ r) (hr : r ≠ []) : (line bs).getLast? = some 10 := by
  induction bs with
  | nil => simp [line] at h; exact absurd h hr
  | cons b bs ih =>
    unfold line at h ⊢
    split at h
    · rename_i hb; rw [if_pos hb]; simp [hb, newline]
    · rename_i hb; rw [if_neg hb]
      rw [List.cons_append] at h
      have h := (List.cons.inj h).2
      have := ih h
      rcases hl : line bs with _ | ⟨x, xs⟩
      · rw [hl] at this; simp at this
      · rw [hl] at this; rw [List.getLast?_cons_cons]; exact this

theorem lines_cons {bs r : List Byte} {ls : List (List Byte)} (h : bs = line bs ++ r) (hne : bs ≠ []) (hl : Lines r ls) : Lines bs (line bs :: ls) := by
  refine ⟨?_, ?_, ?_, ?_⟩
  · rw [List.flatten_cons, hl.all]; exact h.symm
  · intro l hm
    rcases List.mem_cons.1 hm with rfl | hm
    · exact fun h' => hne ((line_nil_iff _).1 h')
    · exact hl.nonempty l hm
  · intro l hm
    rcases List.mem_cons.1 hm with rfl | hm
    · exact line_inner _
    · exact hl.inner l hm
  · intro l hm
    rcases ls with _ | ⟨m, ms⟩
    · simp at hm
    · rw [List.dropLast_cons_of_ne_nil (by simp)] at hm
      rcases List.mem_cons.1 hm with rfl | hm
      · refine line_end _ r h ?_
        rw [← hl.all]
        have := hl.nonempty m (by simp)
        intro h'; simp [List.flatten_cons] at h'; exact this h'.1
      · exact hl.ends l hm

theorem lines_exist (n : Nat) : ∀ bs : List Byte, bs.length ≤ n → ∃ ls, Lines bs ls := by
  induction n with
  | zero => intro bs h; exact ⟨[], by rw [List.eq_nil_of_length_eq_zero (Nat.le_zero.1 h)]; exact ⟨rfl, by simp, by simp, by simp⟩⟩
  | succ n ih =>
    intro bs h
    by_cases hb : bs = []
    · exact ⟨[], by rw [hb]; exact ⟨rfl, by simp, by simp, by simp⟩⟩
    · obtain ⟨r, hr⟩ := line_prefix bs
      have hlen : r.length ≤ n := by
        have h1 := congrArg List.length hr
        rw [List.length_append] at h1
        have h2 : (line bs).length ≠ 0 := fun h' => hb ((line_nil_iff _).1 (List.eq_nil_of_length_eq_zero h'))
        omega
      obtain ⟨ls, hl⟩ := ih r hlen
      exact ⟨_, lines_cons hr hb hl⟩

theorem line_of {l r : List Byte} (hne : l ≠ []) (hi : ∀ b ∈ l.dropLast, b ≠ 10) (he : r ≠ [] → l.getLast? = some 10) : line (l ++ r) = l := by
  induction l with
  | nil => exact absurd rfl hne
  | cons b l ih =>
    rcases l with _ | ⟨c, l⟩
    · by_cases hb : b = newline
      · simp [line, hb]
      · by_cases hr : r = []
        · simp [line, hb, hr]
        · have := he hr; simp at this; exact absurd this hb
    · rw [List.dropLast_cons_of_ne_nil (by simp)] at hi
      have hb : b ≠ newline := hi b (by simp)
      rw [List.cons_append]
      unfold line
      rw [if_neg hb, ih (by simp) (fun x hx => hi x (by simp [hx])) (fun hr => by rw [← he hr, List.getLast?_cons_cons])]

/-- the specification has only one solution -/
theorem lines_unique {bs : List Byte} {ls ls' : List (List Byte)} (h : Lines bs ls) (h' : Lines bs ls') : ls = ls' := by
  induction ls generalizing bs ls' with
  | nil =>
    rcases ls' with _ | ⟨l, ls'⟩
    · rfl
    · have e := h.all; have e' := h'.all
      rw [← e] at e'; simp at e'; exact absurd e'.1 (h'.nonempty l (by simp))
  | cons l ls ih =>
    rcases ls' with _ | ⟨l', ls'⟩
    · have e := h.all; have e' := h'.all
      rw [← e'] at e; simp at e; exact absurd e.1 (h.nonempty l (by simp))
    · have first : ∀ {l : List Byte} {ls : List (List Byte)}, Lines bs (l :: ls) → line bs = l := by
        intro l ls h
        rw [← h.all, List.flatten_cons]
        refine line_of (h.nonempty l (by simp)) (h.inner l (by simp)) (fun hr => h.ends l ?_)
        rcases ls with _ | ⟨m, ms⟩
        · simp at hr
        · rw [List.dropLast_cons_of_ne_nil (by simp)]; simp
      have tl : ∀ {l : List Byte} {ls : List (List Byte)}, Lines bs (l :: ls) → Lines (ls.flatten) ls := by
        intro l ls h
        refine ⟨rfl, fun x hx => h.nonempty x (by simp [hx]), fun x hx => h.inner x (by simp [hx]), fun x hx => h.ends x ?_⟩
        rcases ls with _ | ⟨m, ms⟩
        · simp at hx
        · rw [List.dropLast_cons_of_ne_nil (by simp)]; exact List.mem_cons_of_mem _ hx
      have e : l = l' := by rw [← first h, ← first h']
      subst e
      have e2 : ls.flatten = ls'.flatten := by
        have e := h.all; rw [← h'.all, List.flatten_cons, List.flatten_cons] at e
        exact List.append_cancel_left e
      rw [ih (tl h) (by rw [e2]; exact tl h')]

/-- `readline` again and again gives the lines from the position on, then nothing any more -/
theorem sync_lines {f f' : File} (hc : f.closed = false) {log : List (Op × Res)} (h : Sync f log f') (hr : ∀ x ∈ log, x.1 = .readline) :
    ∃ more, Lines (f.data.drop f.pos) (log.filterMap (fun x => anext x.2) ++ more) ∧ (∀ x ∈ log, ∃ bs, x.2 = .bytes bs) ∧
      ((∃ x ∈ log, anext x.2 = none) → more = []) := by
  induction h with
  | nil => obtain ⟨ls, h⟩ := lines_exist _ _ (Nat.le_refl (List.length _)); exact ⟨ls, h, by simp, by simp⟩
  | @cons f f1 f2 op r rest ha hs ih =>
    obtain rfl := hr (op, r) (by simp)
    simp only [apply, hc, Bool.false_eq_true, if_false, Prod.mk.injEq] at ha
    obtain ⟨rfl, rfl⟩ := ha
    obtain ⟨more, h1, h2, h3⟩ := ih rfl (fun x hx => hr x (by simp [hx]))
    obtain ⟨r, hp, hdrop⟩ := drop_line f.data f.pos
    simp only [hdrop] at h1
    have h2' : ∀ x ∈ (Op.readline, Res.bytes (line (f.data.drop f.pos))) :: rest, ∃ bs, x.2 = .bytes bs := by
      intro x hx
      rcases List.mem_cons.1 hx with rfl | hx
      · exact ⟨_, rfl⟩
      · exact h2 x hx
    by_cases hn : f.data.drop f.pos = []
    · have hl : line (f.data.drop f.pos) = [] := (line_nil_iff _).2 hn
      have hrn : r = [] := by rw [hl] at hp; simpa [hn] using hp.symm
      rw [hrn] at h1
      refine ⟨more, ?_, h2', fun _ => ?_⟩
      · rw [List.filterMap_cons]; simp only [hl, anext, hn]; exact h1
      · have e := h1.all
        rcases more with _ | ⟨m, ms⟩
        · rfl
        · exfalso
          rw [List.flatten_append] at e
          simp at e
          exact h1.nonempty m (by simp) e.2.1
    · have hl : line (f.data.drop f.pos) ≠ [] := fun h => hn ((line_nil_iff _).1 h)
      have ha : anext (.bytes (line (f.data.drop f.pos))) = some (line (f.data.drop f.pos)) := by
        rcases hq : line (f.data.drop f.pos) with _ | ⟨x, xs⟩
        · exact absurd hq hl
        · rfl
      refine ⟨more, ?_, h2', ?_⟩
      · rw [List.filterMap_cons]; simp only [ha, List.cons_append]; exact lines_cons hp hn h1
      · rintro ⟨x, hx, hxn⟩
        rcases List.mem_cons.1 hx with rfl | hx
        · rw [ha] at hxn; cases hxn
        · exact h3 ⟨x, hx, hxn⟩

/-- `async for` over the file, by any number of tasks at once: the lines read so far, in the order in which they were read, are the first lines
of the rest of the file, each read once and whole; and when one task has come to the end, all lines have been read. -/
theorem iteration {f : File} {ls : List Label} {s : St} (h : Run f ls s) (hc : f.closed = false) (hr : ∀ x ∈ s.log, x.1 = .readline) :
    ∃ more, Lines (f.data.drop f.pos) (s.log.filterMap (fun x => anext x.2) ++ more) ∧
      ((∃ t op r, (t, op, r) ∈ s.results ∧ r ≠ .noFile ∧ anext r = none) → more = []) := by
  obtain ⟨h1, h2⟩ := one_after_the_other h
  obtain ⟨more, h3, _, h5⟩ := sync_lines hc h1 hr
  refine ⟨more, h3, ?_⟩
  rintro ⟨t, op, r, g1, g2, g3⟩
  rcases h2 t op r g1 with g | g
  · exact h5 ⟨_, g, g3⟩
  · exact absurd g g2

/-- A task alone that iterates over the file gets exactly its lines. -/
theorem iteration_alone {f : File} (hc : f.closed = false) (t : Task) {ls : List (List Byte)} (hl : Lines (f.data.drop f.pos) ls) :
    ∃ s, Run f ((List.replicate (ls.length + 1) Op.readline).flatMap (alone t)) s ∧ s.results.map (fun x => anext x.2.2) = ls.map some ++ [none] := by
  obtain ⟨s, h1, h2, h3, _⟩ := alone_like_sync (f := f) t (List.replicate (ls.length + 1) .readline)
  refine ⟨s, h1, ?_⟩
  have hr : ∀ x ∈ s.results.map (·.2), x.1 = .readline := by
    intro x hx
    obtain ⟨y, hy, rfl⟩ := List.mem_map.1 hx
    have : y.2.1 ∈ s.results.map (·.2.1) := List.mem_map.2 ⟨y, hy, rfl⟩
    rw [h3] at this; exact (List.mem_replicate.1 this).2
  -- by induction over the lines, on the ordinary file
  have key : ∀ (ls : List (List Byte)) (f f' : File) (log : List (Op × Res)), f.closed = false → Lines (f.data.drop f.pos) ls → Sync f log f' →
      log.map (·.1) = List.replicate (ls.length + 1) Op.readline → log.map (fun x => anext x.2) = ls.map some ++ [none] := by
    intro ls
    induction ls with
    | nil =>
      intro f f' log hc hl hs hm
      cases hs with
      | nil => simp at hm
      | @cons _ f1 _ op r rest ha hs =>
        simp at hm
        obtain ⟨rfl, rfl⟩ := hm
        simp only [apply, hc, Bool.false_eq_true, if_false, Prod.mk.injEq] at ha
        obtain ⟨_, rfl⟩ := ha
        have : f.data.drop f.pos = [] := by rw [← hl.all]; rfl
        simp [this, line, anext]
    | cons l ls ih =>
      intro f f' log hc hl hs hm
      cases hs with
      | nil => simp at hm
      | @cons _ f1 _ op r rest ha hs =>
        simp only [List.map_cons, List.length_cons, List.replicate_succ, List.cons.injEq] at hm
        obtain ⟨rfl, hm⟩ := hm
        simp only [apply, hc, Bool.false_eq_true, if_false, Prod.mk.injEq] at ha
        obtain ⟨rfl, rfl⟩ := ha
        obtain ⟨r, hp, hdrop⟩ := drop_line f.data f.pos
        have hne : f.data.drop f.pos ≠ [] := by
          rw [← hl.all]; intro h'; simp at h'; exact hl.nonempty l (by simp) h'.1
        obtain ⟨ls', hl'⟩ := lines_exist _ r (Nat.le_refl _)
        have := lines_unique hl (lines_cons hp hne hl')
        simp only [List.cons.injEq] at this
        obtain ⟨e1, rfl⟩ := this
        have := ih _ _ rest rfl (by simp only [hdrop]; exact hl') hs (by simpa [List.replicate_succ] using hm)
        rw [List.map_cons, this, ← e1]
        rcases hq : l with _ | ⟨x, xs⟩
        · exact absurd hq (hl.nonempty l (by simp))
        · rfl
  have := key ls f s.file _ hc hl h2 (by rw [List.map_map]; exact h3)
  rwa [List.map_map] at this

/-! ## Closing, leaving, cancelling -/

/-- After `close` nothing changes the file any more and every other operation raises. -/
theorem closed_stays {f : File} {log : List (Op × Res)} {f' : File} (hc : f.closed = true) (h : Sync f log f') :
    f' = f ∧ ∀ op r, (op, r) ∈ log → r = if op = .close then .none else .closedFile := by
  induction h with
  | nil => exact ⟨rfl, by simp⟩
  | @cons f f1 f2 op r rest ha hs ih =>
    simp only [apply, hc, if_true, Prod.mk.injEq] at ha
    obtain ⟨rfl, rfl⟩ := ha
    obtain ⟨h1, h2⟩ := ih hc
    refine ⟨h1, fun op' r' hm => ?_⟩
    rcases List.mem_cons.1 hm with h | hm
    · obtain ⟨rfl, rfl⟩ := Prod.mk.inj h; cases op' <;> rfl
    · exact h2 op' r' hm

/-- Once a call has been taken back before a thread took it, the file never sees it. -/
theorem cancel_partial {s s' : St} {t : Task} {op : Op} (hj : s.jobs.get? t = some ⟨op, .queued⟩) (hs : step s (.cancel t) = some s') :
    s'.file = s.file ∧ s'.log = s.log ∧ s'.lost = s.lost ∧ s'.jobs.get? t = none := by
  simp only [step, hj] at hs
  injection hs with hs; subst hs
  exact ⟨rfl, rfl, rfl, by simp⟩

/-- **Refuted**: "a cancelled call has no effect": cancelling a task in `readline` (a timeout, say) when a thread has taken the call loses a
line; the next call gets the line after. -/
theorem cancel_loses_refuted (f : File) (hc : f.closed = false) (t : Task) (l : List Byte) (ls : List (List Byte))
    (hl : Lines (f.data.drop f.pos) (l :: ls)) :
    ∃ s, Run f ([.call t .readline, .start t, .cancel t, .execLost] ++ alone t .readline) s ∧
      s.results.map (fun x => anext x.2.2) = [ls.head?] := by
  obtain ⟨r, hp, hdrop⟩ := drop_line f.data f.pos
  have hne : f.data.drop f.pos ≠ [] := by
    rw [← hl.all]; intro h'; simp at h'; exact hl.nonempty l (by simp) h'.1
  obtain ⟨ls', hl'⟩ := lines_exist _ r (Nat.le_refl _)
  have := lines_unique hl (lines_cons hp hne hl')
  simp only [List.cons.injEq] at this
  obtain ⟨e1, rfl⟩ := this
  have h1 : Run f [.call t .readline, .start t, .cancel t, .execLost] ⟨{ f with pos := f.pos + (line (f.data.drop f.pos)).length }, true, [], [], [],
      [(.readline, .bytes (line (f.data.drop f.pos)))]⟩ := by
    refine run_init ?_
    simp [List.foldlM, step, init, Dict.get?, Dict.set, Dict.erase, apply, hc]
  refine ⟨⟨{ f with pos := f.pos + (line (f.data.drop f.pos)).length + (line r).length }, true, [], [],
      [(t, .readline, .bytes (line r))], [(.readline, .bytes (line (f.data.drop f.pos))), (.readline, .bytes (line r))]⟩,
    run_append h1 ?_, ?_⟩
  · simp [alone, List.foldlM, step, Dict.get?, Dict.set, Dict.erase, apply, hc, hdrop]
  · rcases ls with _ | ⟨m, ms⟩
    · have : r = [] := by rw [← hl'.all]; rfl
      simp [this, line, anext]
    · have hrn : r ≠ [] := by rw [← hl'.all]; intro h'; simp at h'; exact hl'.nonempty m (by simp) h'.1
      obtain ⟨r2, hp2⟩ := line_prefix r
      obtain ⟨ls2, hl2⟩ := lines_exist _ r2 (Nat.le_refl _)
      have := lines_unique hl' (lines_cons hp2 hrn hl2)
      simp only [List.cons.injEq] at this
      rcases hm : m with _ | ⟨x, xs⟩
      · exact absurd hm (hl'.nonempty m (by simp))
      · rw [hm] at this; simp [← this.1, anext]

/-- **Refuted**: "calls take effect in the order in which they are made": two writes made one after the other without waiting (`gather`) may be
done in the other order. -/
theorem order_refuted (f : File) (hc : f.closed = false) (h0 : f.data = []) (hp : f.pos = 0) (a b : List Byte) (ha : a ≠ []) (hb : b ≠ []) :
    ∃ s, Run f [.call 1 (.write a), .call 2 (.write b), .start 1, .start 2, .exec 2, .exec 1, .deliver 1, .deliver 2] s ∧ s.file.data = b ++ a := by
  have e : ∀ (ls : List Label) (s : St), ls.foldlM step (init f) = some s → Run f ls s := fun ls s h => by simpa using run_append Run.init h
  refine ⟨⟨⟨b ++ a, b.length + a.length, false⟩, true, [], [], [(1, .write a, .num a.length), (2, .write b, .num b.length)],
    [(.write b, .num b.length), (.write a, .num a.length)]⟩, e _ _ ?_, rfl⟩
  obtain ⟨d, p, c⟩ := f
  simp only at hc h0 hp
  subst hc h0 hp
  simp [List.foldlM, step, init, Dict.get?, Dict.set, Dict.erase, apply, ha, hb]

/-- **Refuted**: "after `async with` the object is a closed file": every call raises AttributeError instead of the ValueError of a closed file,
`close` included. -/
theorem after_exit_refuted {s : St} {t : Task} (ht : s.jobs.get? t = none) (op : Op) :
    ∃ s1 s2, step s .forget = some s1 ∧ step s1 (.call t op) = some s2 ∧ s2.results = s.results ++ [(t, op, .noFile)] := by
  refine ⟨_, _, rfl, by simp only [step, ht]; rfl, rfl⟩

/-- what a write does to the bytes of the file -/
theorem written (f : File) (hc : f.closed = false) (bs : List Byte) (hb : bs ≠ []) (i : Nat) :
    (apply f (.write bs)).1.data[i]? =
      if f.pos ≤ i ∧ i < f.pos + bs.length then bs[i - f.pos]? else if i < f.data.length then f.data[i]? else if i < f.pos then some 0 else none := by
  simp only [apply, hc, Bool.false_eq_true, if_false, hb, List.getElem?_append, List.getElem?_take, List.getElem?_replicate, List.getElem?_drop,
    List.length_append, List.length_take, List.length_replicate]
  have e : ∀ k, f.data.length ≤ k → f.data[k]? = none := fun k h => List.getElem?_eq_none h
  by_cases h1 : i < f.pos
  · rw [if_neg (show ¬ (f.pos ≤ i ∧ i < f.pos + bs.length) by omega)]
    by_cases h2 : i < f.data.length
    · rw [if_pos (by omega), if_pos (by omega), if_pos (by omega), if_pos h1, if_pos h2]
    · rw [if_pos (by omega), if_pos (by omega), if_neg (by omega), if_pos (by omega), if_neg h2, if_pos h1]
  · by_cases h3 : i < f.pos + bs.length
    · rw [if_pos (by omega), if_neg (by omega), if_pos (show f.pos ≤ i ∧ i < f.pos + bs.length by omega)]
      congr 1; omega
    · rw [if_neg (by omega), if_neg (show ¬ (f.pos ≤ i ∧ i < f.pos + bs.length) by omega), if_neg h1]
      rw [show f.pos + bs.length + (i - (min f.pos f.data.length + (f.pos - f.data.length) + bs.length)) = i by omega]
      split
      · rfl
      · rename_i h; exact e i (by omega)

/-- `close` closes the file -/
theorem closes (f : File) : (apply f .close).1.closed = true := by
  unfold apply; split
  · assumption
  · rfl

/-! ## Concrete cases -/

/-- the bytes "ab\n\nc" -/
def demo : File := ⟨[97, 98, 10, 10, 99], 0, false⟩

example : Lines demo.data [[97, 98, 10], [10], [99]] := ⟨rfl, by decide, by decide, by decide⟩
/-- two tasks share the lines -/
example : ∃ s, Run demo [.call 1 .readline, .call 2 .readline, .start 2, .start 1, .exec 2, .exec 1, .deliver 1, .deliver 2] s ∧
    s.results = [(1, .readline, .bytes [10]), (2, .readline, .bytes [97, 98, 10])] ∧
    s.log.filterMap (fun x => anext x.2) = [[97, 98, 10], [10]] :=
  ⟨_, by simpa using run_append (f := demo) Run.init (ls' := [.call 1 .readline, .call 2 .readline, .start 2, .start 1, .exec 2, .exec 1, .deliver 1, .deliver 2]) rfl,
    rfl, rfl⟩
/-- writing past the end fills with zeros, as a file does -/
example : apply ⟨[1], 3, false⟩ (.write [7]) = (⟨[1, 0, 0, 7], 4, false⟩, .num 1) := by decide
example : ∃ s, Run demo ([.call 1 .close, .start 1, .exec 1, .deliver 1, .forget, .call 1 .tell]) s ∧
    s.results = [(1, .close, .none), (1, .tell, .noFile)] :=
  ⟨_, by simpa using run_append (f := demo) Run.init (ls' := [.call 1 .close, .start 1, .exec 1, .deliver 1, .forget, .call 1 .tell]) rfl, rfl⟩

/-- What the operations of an open file do, byte by byte: reading gives the bytes from the position on, at most as many as asked for, and moves
the position behind them; seeking and telling move and report the position; truncating keeps the bytes below the length, fills up with zeros
and leaves the position; writing nothing does nothing.  None but writing and truncating changes the bytes, and none closes the file. -/
theorem file_ops (f : File) (hc : f.closed = false) (n : Nat) :
    (∃ bs, apply f (.read (some n)) = (⟨f.data, f.pos + bs.length, false⟩, .bytes bs) ∧
      ∀ (i : Nat), bs[i]? = if i < n then f.data[f.pos + i]? else none) ∧
    (∃ bs, apply f (.read none) = (⟨f.data, f.pos + bs.length, false⟩, .bytes bs) ∧ ∀ (i : Nat), bs[i]? = f.data[f.pos + i]?) ∧
    apply f (.seek n) = (⟨f.data, n, false⟩, .num n) ∧
    apply f .tell = (f, .num f.pos) ∧
    apply f (.write []) = (f, .num 0) ∧
    ∃ d, apply f (.truncate n) = (⟨d, f.pos, false⟩, .num n) ∧ d.length = n ∧ ∀ (i : Nat), i < n → d[i]? = some (f.data.getD i 0) := by
  obtain ⟨data, pos, closed⟩ := f
  simp only at hc; subst hc
  refine ⟨⟨(data.drop pos).take n, rfl, ?_⟩, ⟨data.drop pos, rfl, ?_⟩, rfl, rfl, rfl,
    ⟨data.take n ++ List.replicate (n - data.length) 0, rfl, ?_, ?_⟩⟩
  · intro i
    rw [List.getElem?_take, List.getElem?_drop]
  · intro i
    rw [List.getElem?_drop]
  · simp only [List.length_append, List.length_take, List.length_replicate]; omega
  · intro i hi
    by_cases h : i < data.length
    · rw [List.getElem?_append_left (by simp; omega), List.getElem?_take, if_pos hi]
      simp [h]
    · rw [List.getElem?_append_right (by simp; omega)]
      simp only [List.length_take]
      rw [List.getElem?_replicate, if_pos (by omega), List.getD_eq_getElem?_getD, List.getElem?_eq_none (by omega)]
      rfl
example : apply ⟨[1, 2, 3, 4], 1, false⟩ (.read (some 2)) = (⟨[1, 2, 3, 4], 3, false⟩, .bytes [2, 3]) := by decide

end Xoscar.AioFile
