import Verif.Model.Spawn
import Verif.Proof.Base
/-! # C97: starting a sub pool -/
namespace Xoscar.Spawn

theorem verdict_or (r : Option Addr) : (r = none ∧ verdict r = .osError) ∨ ∃ a, r = some a ∧ verdict r = .ok a := by
  rcases r with _ | a
  · exact .inl ⟨rfl, rfl⟩
  · exact .inr ⟨a, rfl, rfl⟩

/-- The invariant of a start. -/
structure Inv (sys : Sys) (s : St) : Prop where
  conf1 : ∀ c, s.child = .attached c → s.given = some c
  conf2 : ∀ c a, s.child = .up c a → s.given = some c
  conf3 : ∀ c a, s.child = .reported c a → s.given = some c
  params : ∀ c, s.content = .params c → s.given = some c
  fits : ∀ c, s.given = some c → s.outcome ≠ some .tooLong → sys.size c < 10232
  long : s.outcome = some .tooLong → s.child = .none ∧ ∃ c, s.given = some c ∧ 10232 ≤ sys.size c
  fresh : s.parent = .fresh → s.child = .none ∧ s.given = none ∧ s.linked = false
  put : s.parent = .put → s.child = .none
  forking : s.parent = .forking → s.child ≠ .none
  waiting : s.parent = .waiting → s.child ≠ .none ∧ s.child ≠ .forked
  closing : s.parent = .closing → (s.child = .ended ∨ s.read ≠ none) ∧ s.child ≠ .none ∧ s.child ≠ .forked
  open_ : s.parent = .fresh ∨ s.parent = .put ∨ s.parent = .forking ∨ s.parent = .waiting ∨ s.parent = .closing → s.outcome = none
  done : s.parent = .done → s.outcome ≠ none
  failed : s.outcome = some .osError → s.child = .ended
  noexec : s.outcome = some .preexecFailed → s.child = .ended
  gone : s.outcome ≠ none → s.linked = false
  link : s.linked = true → s.parent = .put ∨ s.parent = .forking ∨ s.parent = .waiting ∨ s.parent = .dead
  fate : s.parent = .dead → s.child.runs = true → s.armed = false
  thread : s.thread = false → s.child.runs = true → s.armed = false
  dead : s.parent = .dead → s.thread = false
  mask : s.child.runs = true → s.child ≠ .forked → s.blocked = true
  arm : s.child.runs = true → s.child ≠ .forked → s.thread = true → sys.linux = true → s.armed = true
  none_ : s.child = .none → s.read = none ∧ s.armed = false ∧ s.parent ≠ .waiting

set_option maxHeartbeats 2000000 in
theorem inv_step {sys : Sys} {s s' : St} {l : Label} (h : Inv sys s) (hs : step sys s l = some s') : Inv sys s' := by
  obtain ⟨h0, h0', h1, h2, h3, h4, h5, h6, h7, h8, h9, h10, h11, h12, h13, h14, h15, h16, h17, h18, h19, h20, h21⟩ := h
  have hv := verdict_or s.read
  cases l <;> simp only [step, St.kill] at hs <;> (repeat' split at hs)
  all_goals first
    | (cases hs; done)
    | (injection hs with hs; subst hs; constructor <;> grind [Child.runs])

theorem inv {sys : Sys} {ls : List Label} {s : St} (h : Run sys ls s) : Inv sys s := by
  induction h with
  | nil => constructor <;> simp [Child.runs]
  | snoc _ hs ih => exact inv_step ih hs

/-- The sub pool had, earlier in the history, its servers running with the parameters given, and reported these addresses. -/
def WasUp (sys : Sys) (ls : List Label) (a : Addr) : Prop :=
  ∃ pre post s c, ls = pre ++ Label.report :: post ∧ Run sys pre s ∧ s.child = .up c a ∧ s.given = some c

theorem WasUp.later {sys : Sys} {ls : List Label} {a : Addr} (h : WasUp sys ls a) (l : Label) : WasUp sys (ls ++ [l]) a := by
  obtain ⟨pre, post, s, c, rfl, h⟩ := h
  exact ⟨pre, post ++ [l], s, c, by simp, h⟩

theorem seen {sys : Sys} {ls : List Label} {s : St} (h : Run sys ls s) (a : Addr) :
    (s.content = .result a → WasUp sys ls a) ∧ (s.read = some a → WasUp sys ls a) ∧
    (s.outcome = some (.ok a) → WasUp sys ls a) := by
  induction h with
  | nil => simp
  | @snoc ls s l s' hr hs ih =>
    obtain ⟨i1, i2, i3⟩ := ih
    have i1 := fun h => (i1 h).later l
    have i2 := fun h => (i2 h).later l
    have i3 := fun h => (i3 h).later l
    have hi := inv hr
    have hv := verdict_or s.read
    cases l
    case report =>
      simp only [step] at hs
      split at hs
      · next c a' hc =>
        injection hs with hs; subst hs
        refine ⟨fun h => ?_, i2, i3⟩
        simp only [Content.result.injEq] at h
        subst h
        exact ⟨ls, [], s, c, rfl, hr, hc, hi.conf2 _ _ hc⟩
      · cases hs
    all_goals
      simp only [step, St.kill] at hs
      repeat' split at hs
    all_goals first
      | (cases hs; done)
      | (injection hs with hs; subst hs; refine ⟨?_, ?_, ?_⟩ <;> grind)

/-- **C97**: when the start of a sub pool succeeds, the sub pool's servers had been started, with the parameters given, and the addresses
returned are theirs. -/
theorem started {sys : Sys} {ls : List Label} {s : St} (h : Run sys ls s) (a : Addr) (ho : s.outcome = some (.ok a)) :
    WasUp sys ls a := (seen h a).2.2 ho

/-- **C97**: a sub pool only ever works with the parameters given. -/
theorem parameters {sys : Sys} {ls : List Label} {s : St} (h : Run sys ls s) (c : Conf) (a : Addr)
    (hc : s.child = .attached c ∨ s.child = .up c a ∨ s.child = .reported c a) : s.given = some c := by
  rcases hc with hc | hc | hc
  · exact (inv h).conf1 _ hc
  · exact (inv h).conf2 _ _ hc
  · exact (inv h).conf3 _ _ hc

/-- **C97**: a start that is reported to have failed leaves no process. -/
theorem failed {sys : Sys} {ls : List Label} {s : St} (h : Run sys ls s)
    (ho : s.outcome = some .osError ∨ s.outcome = some .preexecFailed ∨ s.outcome = some .tooLong) :
    s.child.runs = false := by
  rcases ho with ho | ho | ho
  · rw [(inv h).failed ho]; rfl
  · rw [(inv h).noexec ho]; rfl
  · rw [((inv h).long ho).1]; rfl

/-- what "there is a process" means in the statements of this file -/
theorem runs_iff (c : Child) : c.runs = true ↔ c ≠ .none ∧ c ≠ .ended := by
  cases c <;> simp [Child.runs]

/-- **C97**: a start that is reported to have failed never had a process, or had one that is gone. -/
theorem failed_nothing_left {sys : Sys} {ls : List Label} {s : St} (h : Run sys ls s)
    (ho : s.outcome = some .osError ∨ s.outcome = some .preexecFailed ∨ s.outcome = some .tooLong) :
    s.child = .none ∨ s.child = .ended := by
  have := failed h ho
  revert this
  cases s.child <;> simp [Child.runs]

/-- **C97**: however a start ends, its shared memory is removed; it only remains when the main process dies during the start. -/
theorem removed {sys : Sys} {ls : List Label} {s : St} (h : Run sys ls s) :
    (s.outcome ≠ none → s.linked = false) ∧
    (s.linked = true → s.parent = .put ∨ s.parent = .forking ∨ s.parent = .waiting ∨ s.parent = .dead) :=
  ⟨(inv h).gone, (inv h).link⟩

/-- **C97**: parameters are refused when they do not fit, and only then; then no process is started. -/
theorem refused {sys : Sys} {ls : List Label} {s : St} (h : Run sys ls s) (c : Conf) (hc : s.given = some c) :
    (s.outcome = some .tooLong ↔ 10232 ≤ sys.size c) := by
  constructor
  · intro ho
    obtain ⟨_, c', h1, h2⟩ := (inv h).long ho
    rw [hc] at h1; cases h1; exact h2
  · intro h1
    by_cases ho : s.outcome = some .tooLong
    · exact ho
    · have := (inv h).fits c hc ho; omega

/-- **C97**: on Linux a sub pool whose main process dies after the child has begun to run Python is killed. -/
theorem shares_fate {sys : Sys} (hl : sys.linux = true) {ls : List Label} {s s' : St} (h : Run sys ls s)
    (hc : s.child.runs = true) (hf : s.child ≠ .forked) (ht : s.thread = true) (hd : step sys s .die = some s') :
    s'.child = .ended := by
  have ha := (inv h).arm hc hf ht hl
  simp only [step, St.kill] at hd
  split at hd
  · cases hd
  · injection hd with hd; subst hd; simp [ha, hc]

/-- **C97**: and one that was not is ended by its own check of the main process, once it has read its parameters; before that it can only
read them or fail. -/
theorem orphan {sys : Sys} {ls : List Label} {s : St} (h : Run sys ls s) (hd : s.parent = .dead) (hc : s.child.runs = true) :
    s.armed = false ∧
    ((∃ s', step sys s .watch = some s' ∧ s'.child = .ended) ∨ s.child = .forked ∨
     (s.child = .started ∧ ∃ s', step sys s .attach = some s' ∧ (s'.child = .ended ∨
        ∃ s'', step sys s' .watch = some s'' ∧ s''.child = .ended))) := by
  refine ⟨(inv h).fate hd hc, ?_⟩
  rcases hs : s.child with _ | _ | _ | c | ⟨c, a⟩ | ⟨c, a⟩ | _
  · rw [hs] at hc; cases hc
  · exact .inr (.inl rfl)
  · refine .inr (.inr ⟨rfl, ?_⟩)
    by_cases hl : s.linked = true
    · rcases hco : s.content with _ | c | a
      · exact ⟨{ s with child := .ended }, by simp [step, hs, hl, hco], .inl rfl⟩
      · exact ⟨{ s with child := .attached c }, by simp [step, hs, hl, hco], .inr ⟨{ s with child := .ended }, by simp [step, hd], rfl⟩⟩
      · exact ⟨{ s with child := .ended }, by simp [step, hs, hl, hco], .inl rfl⟩
    · exact ⟨{ s with child := .ended }, by simp [step, hs, hl], .inl rfl⟩
  · exact .inl ⟨{ s with child := .ended }, by simp [step, hs, hd], rfl⟩
  · exact .inl ⟨{ s with child := .ended }, by simp [step, hs, hd], rfl⟩
  · exact .inl ⟨{ s with child := .ended }, by simp [step, hs, hd], rfl⟩
  · rw [hs] at hc; cases hc

/-- **C97**: the start ends when the child has ended or its report was read. -/
theorem ends {sys : Sys} {ls : List Label} {s : St} (_h : Run sys ls s) (hp : s.parent = .waiting)
    (hc : s.child = .ended ∨ ∃ a, s.content = .result a) :
    ∃ ls' s', Run sys (ls ++ ls') s' ∧ s'.parent = .done ∧ s'.child = s.child ∧ ls' ⊆ [.poll, .wake, .decide] := by
  rcases hc with hc | ⟨a, hc⟩
  · let s1 : St := { s with parent := .closing, linked := false }
    let s2 : St := { s1 with parent := .done, outcome := some (verdict s1.read) }
    have r1 : Run sys (ls ++ [.wake]) s1 := .snoc _h (by simp [step, hp, hc, s1])
    have r2 : Run sys ((ls ++ [.wake]) ++ [.decide]) s2 := .snoc r1 (by simp only [step, s1, s2, if_true])
    exact ⟨[.wake, .decide], s2, by simpa using r2, rfl, rfl, by simp⟩
  · let s0 : St := { s with read := some a }
    let s1 : St := { s0 with parent := .closing, linked := false }
    let s2 : St := { s1 with parent := .done, outcome := some (verdict s1.read) }
    have r0 : Run sys (ls ++ [.poll]) s0 := .snoc _h (by simp [step, hp, hc, s0])
    have r1 : Run sys ((ls ++ [.poll]) ++ [.wake]) s1 := .snoc r0 (by simp [step, hp, s0, s1])
    have r2 : Run sys (((ls ++ [.poll]) ++ [.wake]) ++ [.decide]) s2 := .snoc r1 (by simp only [step, s1, s2, if_true])
    exact ⟨[.poll, .wake, .decide], s2, by simpa using r2, rfl, rfl, by simp⟩

/-- Refuted: while the child neither ends nor reports, the start goes on, whatever else happens: there is no time limit. -/
theorem no_limit_refuted {sys : Sys} {ls : List Label} {s s' : St} {l : Label} (_h : Run sys ls s) (hp : s.parent = .waiting)
    (hc : s.child.runs = true) (hn : ∀ a, s.content ≠ .result a) (hr : s.read = none) (hs : step sys s l = some s')
    (h1 : l ≠ .report) (h2 : l ≠ .exit) (h3 : l ≠ .cancel) (h4 : l ≠ .die) (h5 : s'.child.runs = true) :
    s'.parent = .waiting ∧ s'.outcome = s.outcome := by
  cases l <;> simp only [step, St.kill] at hs <;> (repeat' split at hs)
  all_goals first
    | (cases hs; done)
    | (injection hs with hs; subst hs; grind [Child.runs])

/-- a history from a list of labels -/
theorem runs_from {sys : Sys} {ls : List Label} {s : St} (h : Run sys ls s) : ∀ {ms : List Label} {s' : St},
    ms.foldlM (step sys) s = some s' → Run sys (ls ++ ms) s' := by
  intro ms
  induction ms generalizing ls s with
  | nil => intro s' hs; simp at hs; subst hs; simpa using h
  | cons m ms ih =>
    intro s' hs
    rw [List.foldlM_cons] at hs
    rcases hm : step sys s m with _ | s1
    · rw [hm] at hs; cases hs
    · rw [hm] at hs
      have := ih (.snoc h hm) hs
      simpa using this

/-- Refuted: a cancelled start leaves its sub pool behind: running, though nobody knows of it. -/
theorem cancel_refuted (sys : Sys) (c : Conf) (a : Addr) (hc : sys.size c < 10232) :
    ∃ ls s, Run sys ls s ∧ s.outcome = some .cancelled ∧ s.child = .reported c a ∧ s.parent = .done :=
  ⟨_, _, runs_from .nil (ms := [.put c, .fork, .preexec, .execed, .attach, .listen a, .cancel, .report])
    (s' := { parent := .done, given := some c, outcome := some .cancelled, linked := false, content := .result a, child := .reported c a, armed := sys.linux && true, blocked := true })
    (by simp [step, hc]), rfl, rfl, rfl⟩

/-- Refuted: on Linux the sub pool is killed when the thread that started it ends, although its main process lives. -/
theorem thread_refuted {sys : Sys} (hl : sys.linux = true) {ls : List Label} {s : St} (h : Run sys ls s) (hp : s.parent = .done)
    (ht : s.thread = true) (hc : s.child.runs = true) (hf : s.child ≠ .forked) :
    ∃ s', step sys s .threadEnds = some s' ∧ s'.child = .ended ∧ s'.parent = .done := by
  have ha := (inv h).arm hc hf ht hl
  exact ⟨{ s with thread := false, child := .ended },
    by simp only [step, ht, hp, and_self, if_true, St.kill, ha, hc], rfl, hp⟩

/-- Refuted: a main process that dies between fork and `preexec_fn` leaves the child running, and the segment in place. -/
theorem late_refuted (sys : Sys) (c : Conf) (a : Addr) (hc : sys.size c < 10232) :
    ∃ ls s, Run sys ls s ∧ s.parent = .dead ∧ s.child = .reported c a ∧ s.linked = true :=
  ⟨_, _, runs_from .nil (ms := [.put c, .fork, .die, .preexec, .attach, .listen a, .report])
    (s' := { parent := .dead, given := some c, thread := false, linked := true, content := .result a, child := .reported c a, armed := sys.linux && false, blocked := true })
    (by simp [step, hc]), rfl, rfl, rfl⟩

/-- Refuted: SIGINT never reaches a sub pool, whether or not `suspend_sigint` is asked for: it is blocked in every child. -/
theorem sigint_refuted {sys : Sys} {ls : List Label} {s : St} (h : Run sys ls s) (hc : s.child.runs = true)
    (hf : s.child ≠ .forked) : step sys s .sigint = some s := by
  have := (inv h).mask hc hf
  simp [step, this]

/-! ## Cases -/

/-- Linux; parameters of 400 bytes each pool -/
def linux : Sys := ⟨true, fun c => 400 * c⟩

/-- a start that works -/
example : ∃ ls s, Run linux ls s ∧ s.outcome = some (.ok 7) ∧ s.child = .reported 3 7 ∧ s.linked = false :=
  ⟨_, _, runs_from .nil (ms := [.put 3, .fork, .preexec, .execed, .poll, .attach, .listen 7, .poll, .report, .poll, .wake, .decide])
    (s' := { parent := .done, given := some 3, outcome := some (.ok 7), linked := false, content := .result 7, read := some 7, child := .reported 3 7, armed := true, blocked := true }) (by decide), rfl, rfl, rfl⟩

/-- a child that fails -/
example : ∃ ls s, Run linux ls s ∧ s.outcome = some .osError ∧ s.child = .ended :=
  ⟨_, _, runs_from .nil (ms := [.put 3, .fork, .preexec, .execed, .attach, .exit, .wake, .decide])
    (s' := { parent := .done, given := some 3, outcome := some .osError, linked := false, content := .params 3, child := .ended, armed := true, blocked := true }) (by decide), rfl, rfl⟩

/-- parameters of 30 pools are too long -/
example : ∃ ls s, Run linux ls s ∧ s.outcome = some .tooLong ∧ s.child = .none :=
  ⟨_, _, runs_from .nil (ms := [.put 30]) (s' := { parent := .done, given := some 30, outcome := some .tooLong }) (by decide), rfl, rfl⟩

end Xoscar.Spawn
