import Verif.Spec.NoLock
import Verif.Proof.Base

/-! # C103: `no_lock` -/
namespace Xoscar.NoLock
open Xoscar

theorem applyAll_append (b : Body) (v : Val) (ds es : List Deco) :
    applyAll b v (ds ++ es) = (applyAll b v ds).bind fun p => applyAll p.1 p.2 es := by
  induction ds generalizing b v with
  | nil => rfl
  | cons d ds ih =>
    simp only [List.cons_append, applyAll]
    cases apply b v d with
    | none => rfl
    | some p => simp only [ih]

theorem applyAll_simple (b : Body) (m : Bool) (ds : List Deco) (h : Simple ds) :
    applyAll b (.fn m) ds = some (b, .fn (m || decide (Deco.noLock ∈ ds))) := by
  induction ds generalizing m with
  | nil => simp [applyAll]
  | cons d ds ih =>
    have hd := h d (by simp)
    have hr : Simple ds := fun x hx => h x (by simp [hx])
    rcases hd with rfl | rfl
    · simp [applyAll, apply, ih _ hr]
    · simp [applyAll, apply, ih _ hr, Body.markOf]

theorem applyAll_marks (b : Body) (i : Nat) (ds : List Deco) (h : Marks ds) :
    ∃ h' : List Acc, applyAll b (.acc i) ds = some ({ b with heap := h' }, .acc i) ∧
      h'.length = b.heap.length ∧ ∀ (j : Nat) (a : Acc), b.heap[j]? = some a → ∃ a' : Acc, h'[j]? = some a' ∧ a'.single = a.single ∧ a'.batch = a.batch := by
  induction ds generalizing b with
  | nil => exact ⟨b.heap, rfl, rfl, fun j a ha => ⟨a, ha, rfl, rfl⟩⟩
  | cons d ds ih =>
    have hd := h d (by simp); subst hd
    obtain ⟨h', h1, h2, h3⟩ := ih { b with heap := b.heap.modify i fun a => { a with mark := true } } fun x hx => h x (by simp [hx])
    refine ⟨h', ?_, by rw [h2]; simp, fun j a ha => ?_⟩
    · simp only [applyAll, apply]; exact h1
    · by_cases e : i = j
      · subst e
        obtain ⟨a', g1, g2, g3⟩ := h3 i { a with mark := true } (by simp [ha])
        exact ⟨a', g1, g2, g3⟩
      · obtain ⟨a', g1, g2, g3⟩ := h3 j a (by simp [ha, e])
        exact ⟨a', g1, g2, g3⟩

/-- (C103) **A plain method**: it runs without the lock exactly if `no_lock` is among its decorators (in any order with
`generator`), or the actor itself has the attribute, or the actor is stateless. -/
theorem plain_exact (pre : Body) (n : Name) (ds : List Deco) (hs : Simple ds) (supers : List Body) (actorMark stateless : Bool)
    (r : Route) (hr : r = .remoteCall ∨ r = .localCall) :
    ∃ c, define pre (n, ds) = some c ∧
      bodyLocked (c :: supers) actorMark stateless .plain r n =
        some (decide (stateless = false ∧ actorMark = false ∧ Deco.noLock ∉ ds)) := by
  refine ⟨{ heap := pre.heap, names := pre.names.set n (.fn (false || decide (Deco.noLock ∈ ds))) }, by simp only [define, applyAll_simple pre false ds hs], ?_⟩
  simp only [bodyLocked, resolve, Dict.get?_set, if_true]
  rcases hr with rfl | rfl <;> simp only [callee, hint] <;>
    by_cases hm : Deco.noLock ∈ ds <;> cases stateless <;> cases actorMark <;> simp [hm]

/-- what holds of an accessor while batch implementations are added -/
structure Holds (b : Body) (n : Name) (single batch : Bool) : Prop where
  ex : ∃ i a, b.names.get? n = some (.acc i) ∧ b.heap[i]? = some a ∧ a.single = single ∧
    (match a.batch with | some v => ∃ m, v = .fn m ∧ m = batch | none => batch = false)

theorem define_ext (pre : Body) (n : Name) (below above : List Deco) (hb : Simple below) (ha : Marks above) :
    ∃ c, define pre (n, below ++ .extensible :: above) = some c ∧ Holds c n (decide (Deco.noLock ∈ below)) false := by
  simp only [define, applyAll_append, applyAll_simple pre false below hb, Option.bind_some, applyAll, apply, Bool.false_or]
  obtain ⟨h', h1, h2, h3⟩ := applyAll_marks { pre with heap := pre.heap ++ [⟨false, decide (Deco.noLock ∈ below), none⟩] } pre.heap.length above ha
  rw [h1]
  refine ⟨_, rfl, ⟨pre.heap.length, ?_⟩⟩
  obtain ⟨a', g1, g2, g3⟩ := h3 pre.heap.length ⟨false, decide (Deco.noLock ∈ below), none⟩ (by simp)
  refine ⟨a', by simp, g1, g2, ?_⟩
  simp [g3]

theorem define_batch (b : Body) (n : Name) (single batch : Bool) (h : Holds b n single batch) (d : BatchDef)
    (hb : Simple d.below) (ha : Marks d.above) :
    ∃ c, define b (d.code n) = some c ∧ Holds c n single (decide (Deco.noLock ∈ d.below)) := by
  obtain ⟨i, a, hi, hA, hs, _⟩ := h.ex
  simp only [define, BatchDef.code, applyAll_append, applyAll_simple b false d.below hb, Option.bind_some, applyAll, apply, hi, Bool.false_or]
  obtain ⟨h', h1, h2, h3⟩ := applyAll_marks { b with heap := b.heap.modify i fun a => { a with batch := some (.fn (decide (Deco.noLock ∈ d.below))) } } i d.above ha
  rw [h1]
  refine ⟨_, rfl, ⟨i, ?_⟩⟩
  obtain ⟨a', g1, g2, g3⟩ := h3 i { a with batch := some (.fn (decide (Deco.noLock ∈ d.below))) } (by simp [hA])
  refine ⟨a', ?_, g1, g2.trans hs, ?_⟩
  · simp only [Dict.get?_set]
    split
    · rfl
    · exact hi
  · rw [g3]; exact ⟨_, rfl, rfl⟩

theorem run_batches (b : Body) (n : Name) (single batch : Bool) (h : Holds b n single batch) (bs : List BatchDef)
    (hbs : ∀ d ∈ bs, Simple d.below ∧ Marks d.above) :
    ∃ c, runBody b (bs.map (BatchDef.code n)) = some c ∧
      Holds c n single (match bs.getLast? with | some d => decide (Deco.noLock ∈ d.below) | none => batch) := by
  induction bs generalizing b batch with
  | nil => exact ⟨b, rfl, h⟩
  | cons d r ih =>
    obtain ⟨c, h1, h2⟩ := define_batch b n single batch h d (hbs d (by simp)).1 (hbs d (by simp)).2
    obtain ⟨c', h3, h4⟩ := ih c _ h2 fun x hx => hbs x (by simp [hx])
    refine ⟨c', by simp only [List.map_cons, runBody, h1, h3], ?_⟩
    cases r with
    | nil => simpa using h4
    | cons e r =>
      rw [List.getLast?_cons_cons]
      have : (e :: r).getLast? = some ((e :: r).getLast (by simp)) := List.getLast?_eq_some_getLast (by simp)
      rw [this] at h4 ⊢; exact h4

/-- (C103) **An extensible method**: single calls and batches, remote or local, run without the lock exactly if `no_lock`
stands below `@extensible`, or below `@n.batch` at the last of its batch implementations, or the actor is stateless;
a `no_lock` above these two decorators does nothing. -/
theorem extensible_exact (pre : Body) (n : Name) (below above : List Deco) (hb : Simple below) (ha : Marks above)
    (bs : List BatchDef) (hbs : ∀ d ∈ bs, Simple d.below ∧ Marks d.above) (supers : List Body) (actorMark stateless : Bool) (r : Route) :
    ∃ c, runBody pre ((n, below ++ .extensible :: above) :: bs.map (BatchDef.code n)) = some c ∧
      (bodyLocked (c :: supers) actorMark stateless .plain r n = some false ↔
        stateless = true ∨ Deco.noLock ∈ below ∨ ∃ init last, bs = init ++ [last] ∧ Deco.noLock ∈ last.below) ∧
      (bodyLocked (c :: supers) actorMark stateless .plain r n ≠ none) := by
  obtain ⟨c, h1, h2⟩ := define_ext pre n below above hb ha
  obtain ⟨c', h3, h4⟩ := run_batches c n _ _ h2 bs hbs
  refine ⟨c', by simp only [runBody, h1, h3], ?_⟩
  obtain ⟨i, a, hi, hA, hs, hba⟩ := h4.ex
  have hw : wrapperMark c' a = (decide (Deco.noLock ∈ below) ||
      (match bs.getLast? with | some d => decide (Deco.noLock ∈ d.below) | none => false)) := by
    unfold wrapperMark
    rw [hs]
    congr 1
    cases hab : a.batch with
    | none => rw [hab] at hba; simp only at hba ⊢; exact hba.symm
    | some v =>
      rw [hab] at hba
      obtain ⟨m, hm, hm2⟩ := hba
      subst hm
      simp only [Body.markOf]; exact hm2
  have hval : bodyLocked (c' :: supers) actorMark stateless .plain r n = some (!stateless && !wrapperMark c' a) := by
    simp only [bodyLocked, resolve, hi, callee, hA]
    cases r <;> simp [hint]
  rw [hval, hw]
  refine ⟨?_, by simp⟩
  have hlast : (match bs.getLast? with | some d => decide (Deco.noLock ∈ d.below) | none => false) = true ↔
      ∃ init last, bs = init ++ [last] ∧ Deco.noLock ∈ last.below := by
    cases hl : bs.getLast? with
    | none =>
      have : bs = [] := by simpa using hl
      subst this; simp
    | some d =>
      obtain ⟨ys, hys⟩ := List.getLast?_eq_some_iff.mp hl
      subst hys
      simp only [decide_eq_true_eq]
      constructor
      · intro h; exact ⟨ys, d, rfl, h⟩
      · rintro ⟨init, last, he, hm⟩
        have := List.append_inj_right' he rfl
        injection this with this; rw [this]; exact hm
  rw [← hlast]
  generalize (match bs.getLast? with | some d => decide (Deco.noLock ∈ d.below) | none => false) = q
  cases stateless <;> cases q <;> by_cases hm : Deco.noLock ∈ below <;> simp [hm]

/-- (C103) **Inheritance**: the class nearest to the actor that defines the method decides; what classes further up say about
locks does not count. -/
theorem override_exact (c : Body) (supers supers' : List Body) (n : Name) (hn : n ∈ c.names.keys) (actorMark stateless : Bool)
    (k : Kind) (r : Route) :
    bodyLocked (c :: supers) actorMark stateless k r n = bodyLocked (c :: supers') actorMark stateless k r n := by
  have : ∃ v, c.names.get? n = some v := Option.isSome_iff_exists.mp ((Dict.get?_isSome_iff c.names n).2 hn)
  obtain ⟨v, hv⟩ := this
  simp only [bodyLocked, resolve, hv]

/-- (C103) … and a class that does not define it leaves it as it is. -/
theorem inherited (c : Body) (supers : List Body) (n : Name) (hn : n ∉ c.names.keys) (actorMark stateless : Bool)
    (k : Kind) (r : Route) :
    bodyLocked (c :: supers) actorMark stateless k r n = bodyLocked supers actorMark stateless k r n := by
  have : c.names.get? n = none := (Dict.get?_eq_none_iff c.names n).2 hn
  simp only [bodyLocked, resolve, this]

/-- (C103) refuted: `no_lock` above `@extensible` is accepted and does nothing — the method takes the lock on every route. -/
theorem above_refuted (r : Route) : ∃ c, runBody ⟨[], []⟩ [("m", [.extensible, .noLock])] = some c ∧
    bodyLocked [c] false false .plain r "m" = some true := by
  refine ⟨⟨[⟨true, false, none⟩], [("m", .acc 0)]⟩, by decide, ?_⟩
  cases r <;> decide

/-- (C103) refuted: a mark on the batch implementation also takes the lock from the single method, which has none. -/
theorem batch_mark_refuted : ∃ c, runBody ⟨[], []⟩ [("m", [.extensible]), ("bm", [.noLock, .batch "m"])] = some c ∧
    bodyLocked [c] false false .plain .remoteCall "m" = some false := by
  exact ⟨⟨[⟨false, false, some (.fn true)⟩], [("m", .acc 0), ("bm", .acc 0)]⟩, by decide, by decide⟩

/-- (C103) refuted: on an async generator method `no_lock` has no effect: each step of its body holds the lock, unless the
actor is stateless. -/
theorem generator_refuted (mro : List Body) (actorMark stateless : Bool) (r : Route) (n : Name) (x : Bool)
    (h : bodyLocked mro actorMark stateless .asyncGen r n = some x) : x = !stateless := by
  unfold bodyLocked at h
  split at h
  · cases h
  · split at h
    · cases h
    · simpa using h.symm

/-- `generator_refuted` has instances: a marked async generator method -/
example : ∃ c, runBody ⟨[], []⟩ [("g", [.noLock])] = some c ∧ bodyLocked [c] false false .asyncGen .remoteCall "g" = some true ∧
    bodyLocked [c] false false .plain .remoteCall "g" = some false := by
  exact ⟨⟨[], [("g", .fn true)]⟩, by decide, by decide, by decide⟩

/-- tests/test_batch.py:223-262: `@extensible @no_lock def method`, `@method.batch @no_lock def b_method`, `@no_lock async def no_lock_test`,
`def get_lock_test_result` -/
example : ∃ c, runBody ⟨[], []⟩ [("method", [.noLock, .extensible]), ("b_method", [.noLock, .batch "method"]), ("no_lock_test", [.noLock]),
      ("get_lock_test_result", [])] = some c ∧
    bodyLocked [c] false false .plain .remoteBatch "method" = some false ∧ bodyLocked [c] false false .plain .localBatch "b_method" = some false ∧
    bodyLocked [c] false false .plain .localCall "no_lock_test" = some false ∧
    bodyLocked [c] false false .plain .remoteCall "get_lock_test_result" = some true := by
  exact ⟨⟨[⟨false, true, some (.fn true)⟩], [("method", .acc 0), ("b_method", .acc 0), ("no_lock_test", .fn true), ("get_lock_test_result", .fn false)]⟩,
    by decide, by decide, by decide, by decide, by decide⟩

/-- the hypotheses of `extensible_exact`: the last batch implementation decides -/
example : (∀ d ∈ ([⟨"b1", [.noLock], []⟩, ⟨"b2", [], [.noLock]⟩] : List BatchDef), Simple d.below ∧ Marks d.above) ∧
    ¬ ∃ init last, ([⟨"b1", [.noLock], []⟩, ⟨"b2", [], [.noLock]⟩] : List BatchDef) = init ++ [last] ∧ Deco.noLock ∈ last.below := by
  refine ⟨by simp [Simple, Marks], ?_⟩
  rintro ⟨init, last, he, hm⟩
  have : [⟨"b1", [.noLock], []⟩] ++ [⟨"b2", [], [.noLock]⟩] = init ++ [last] := he
  have := List.append_inj_right' this rfl
  injection this with this
  rw [← this] at hm; simp at hm

end Xoscar.NoLock
