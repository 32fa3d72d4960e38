import Verif.Model.WaitFor
/-!
# C61: `wait_for`
-/
namespace Xoscar.WaitFor

/-- everything `enter` and the steps keep true; `ls`: the history -/
structure Inv (t : Timeout) (ls : List Label) (s : St) : Prop where
  timeout : s.timeout = t
  futCancelled : s.fut = some .cancelled → s.task = some .cancelled ∨ s.caller ≠ none
  futValue : ∀ v, s.fut = some (.value v) → s.task = some (.value v)
  futRaised : ∀ e, s.fut = some (.raised e) → s.task = some (.raised e true)
  futTimeout : s.fut ≠ some .timeout
  value : ∀ v, s.caller = some (.value v) → s.task = some (.value v)
  raised : ∀ e, s.caller = some (.raised e) → s.task = some (.raised e true)
  cancelled : s.caller = some .cancelled → s.task = some .cancelled ∨ .cancel ∈ ls
  timedOut : s.caller = some .timeout ↔ t = .nonpositive ∨ .timer ∈ ls
  waiting : s.caller = none → .cancel ∉ ls
  callback : s.caller = none → s.callback = false → ∀ o, s.task = some o → s.fut = onDone none o
  queued : s.callback = true → s.task ≠ none
  pendingFut : s.caller = none → s.callback = true → s.fut = none
  early : s.caller = none → s.task = none → s.fut = none
  cancels : s.cancels = 0 ∨ (s.cancels = 1 ∧ s.caller = some .timeout)

theorem Inv.enter (t : Timeout) (task₀ : Option Outcome) : Inv t [] (enter t task₀) := by
  unfold WaitFor.enter
  by_cases h : t = .nonpositive
  · subst h
    constructor <;> simp [giveUp] <;> (try (cases task₀ <;> simp))
  · simp only [h, if_false]
    constructor <;> simp [h] <;> (try (cases task₀ <;> simp))

theorem Inv.step {t : Timeout} {ls : List Label} {l : Label} {s s' : St} (h : Inv t ls s)
    (hs : step s l = some s') : Inv t (ls ++ [l]) s' := by
  obtain ⟨h1, h3, h4, h5, h6, h7, h8, h9, h10, h11, h12, h13, h14, h15, h16⟩ := h
  cases l with
  | finish o =>
    simp only [WaitFor.step] at hs
    split at hs
    · next ht =>
      cases hs
      constructor <;> simp only [List.mem_append, List.mem_singleton] <;> grind
    · simp at hs
  | onDone =>
    simp only [WaitFor.step] at hs
    split at hs
    · next o hc ht =>
      cases hs
      have hd : (∃ r, s.fut = some r ∧ onDone s.fut o = some r) ∨ (s.fut = none ∧ onDone s.fut o = onDone none o) := by
        rcases hf : s.fut with _ | r
        · exact .inr ⟨rfl, rfl⟩
        · exact .inl ⟨r, rfl, rfl⟩
      have hn : (onDone none o = some .cancelled ∧ o = .cancelled) ∨ (∃ v, onDone none o = some (.value v) ∧ o = .value v) ∨
          (∃ e, onDone none o = some (.raised e) ∧ o = .raised e true) ∨ (∃ e, onDone none o = none ∧ o = .raised e false) := by
        rcases o with v | ⟨e, _ | _⟩ | _ <;> simp [onDone]
      constructor <;> simp only [List.mem_append, List.mem_singleton] <;> grind
    · simp at hs
  | wake =>
    simp only [WaitFor.step] at hs
    split at hs
    · next r hc hf =>
      cases hs
      constructor <;> simp only [List.mem_append, List.mem_singleton] <;> grind
    · simp at hs
  | timer =>
    simp only [WaitFor.step] at hs
    split at hs
    · next hc =>
      cases hs
      have hg : (s.fut = none ∧ s.fut.getD .cancelled = .cancelled) ∨ (∃ r, s.fut = some r ∧ s.fut.getD .cancelled = r) := by
        rcases s.fut with _ | r <;> simp
      constructor <;> simp only [List.mem_append, List.mem_singleton, giveUp] <;> grind
    · simp at hs
  | cancel =>
    simp only [WaitFor.step] at hs
    split at hs
    · next hc =>
      cases hs
      have hg : (s.fut = none ∧ s.fut.getD .cancelled = .cancelled) ∨ (∃ r, s.fut = some r ∧ s.fut.getD .cancelled = r) := by
        rcases s.fut with _ | r <;> simp
      constructor <;> simp only [List.mem_append, List.mem_singleton] <;> grind
    · simp at hs

theorem Inv.of_run {t : Timeout} {task₀ : Option Outcome} {ls : List Label} {s : St}
    (hr : Run (WaitFor.enter t task₀) ls s) : Inv t ls s := by
  induction hr with
  | init => exact Inv.enter t task₀
  | snoc _ hs ih => exact ih.step hs

/-- the task's end is the one given at the start or in the history -/
theorem task_iff {t : Timeout} {task₀ : Option Outcome} {ls : List Label} {s : St}
    (hr : Run (enter t task₀) ls s) (o : Outcome) : s.task = some o ↔ task₀ = some o ∨ .finish o ∈ ls := by
  induction hr with
  | init => unfold enter; split <;> simp [giveUp]
  | @snoc ls l s s' hr hs ih =>
    have hu : ∀ o o', s.task = some o → l = .finish o' → False := by
      intro o o' h e; subst e; simp [step, h] at hs
    cases l <;> simp only [step] at hs
    · split at hs
      · next ht =>
        cases hs
        have : ¬ (task₀ = some o ∨ .finish o ∈ ls) := fun h => by rw [← ih, ht] at h; simp at h
        simp only [not_or] at this
        simp [this, eq_comm]
      · simp at hs
    all_goals (first
      | (split at hs
         · cases hs; simpa [giveUp] using ih
         · simp at hs)
      | skip)

/-! ## The property -/

/-- the call had ended as `o` (before `wait_for` was entered or while it waited) -/
def Ended (task₀ : Option Outcome) (ls : List Label) (o : Outcome) : Prop := task₀ = some o ∨ .finish o ∈ ls

/-- **C61** (nothing made up): `wait_for` returns only the value of the call, raises only its exception, reports a
cancellation only if the call or the caller was cancelled, and a timeout exactly if the time was up -/
theorem result_of_call {t : Timeout} {task₀ : Option Outcome} {ls : List Label} {s : St}
    (hr : Run (enter t task₀) ls s) :
    (∀ v, s.caller = some (.value v) → Ended task₀ ls (.value v)) ∧
    (∀ e, s.caller = some (.raised e) → ∃ b, Ended task₀ ls (.raised e b)) ∧
    (s.caller = some .cancelled → Ended task₀ ls .cancelled ∨ .cancel ∈ ls) ∧
    (s.caller = some .timeout ↔ t = .nonpositive ∨ .timer ∈ ls) := by
  have h := Inv.of_run hr
  refine ⟨fun v hv => (task_iff hr _).mp (h.value v hv), fun e he => ⟨true, (task_iff hr _).mp (h.raised e he)⟩, fun hc => ?_, h.timedOut⟩
  exact (h.cancelled hc).imp_left (task_iff hr _).mp

/-- **C61** (the timeout does not depend on the call): as long as `wait_for` waits, the timer can fire, and then
`wait_for` raises TimeoutError, whatever the call does; a call that still runs is told to cancel, once -/
theorem timer_always {task₀ : Option Outcome} {ls : List Label} {s : St}
    (hr : Run (enter .positive task₀) ls s) (hw : s.caller = none) :
    ∃ s', step s .timer = some s' ∧ s'.caller = some .timeout ∧
      (s.task = none → s'.cancels = 1) ∧ (s.task ≠ none → s'.cancels = 0) := by
  have h := Inv.of_run hr
  have hc : s.cancels = 0 := by rcases h.cancels with h | ⟨_, h⟩
                                · exact h
                                · rw [hw] at h; simp at h
  refine ⟨giveUp s, by simp [step, hw, h.timeout], rfl, fun ht => by simp [giveUp, ht, hc], fun ht => by simp [giveUp, ht, hc]⟩

/-- **C61** (cancelled only on timeout, and once) -/
theorem cancels_le {t : Timeout} {task₀ : Option Outcome} {ls : List Label} {s : St} (hr : Run (enter t task₀) ls s) :
    s.cancels = 0 ∨ (s.cancels = 1 ∧ (t = .nonpositive ∨ .timer ∈ ls)) := by
  have h := Inv.of_run hr
  exact h.cancels.imp_right (fun x => ⟨x.1, h.timedOut.mp x.2⟩)

/-- how the caller sees the end of the call -/
def seenAs : Outcome → Result
  | .value v => .value v
  | .raised e _ => .raised e
  | .cancelled => .cancelled

/-- **C61** (the result arrives): if the call has ended and `wait_for` still waits, the event loop has its callback or the
waiting task to run — unless the call raised an exception that is false.  Running them gives the caller the call's result -/
theorem arrives_partial {t : Timeout} {task₀ : Option Outcome} {ls : List Label} {s : St}
    (hr : Run (enter t task₀) ls s) (hw : s.caller = none) {o : Outcome} (ho : Ended task₀ ls o) (ht : ∀ e, o ≠ .raised e false) :
    ∃ ls' s', Run s ls' s' ∧ (∀ l ∈ ls', l = .onDone ∨ l = .wake) ∧
      s'.caller = some (seenAs o) := by
  have h := Inv.of_run hr
  have hto := (task_iff hr o).mpr ho
  have hd : ∃ r, onDone none o = some r ∧ r = (seenAs o) := by
    rcases o with v | ⟨e, b⟩ | _
    · exact ⟨_, rfl, rfl⟩
    · cases b
      · exact absurd rfl (ht e)
      · exact ⟨_, rfl, rfl⟩
    · exact ⟨_, rfl, rfl⟩
  obtain ⟨r, hr1, hr2⟩ := hd
  rcases hcb : s.callback with _ | _
  · have hf := h.callback hw hcb o hto
    rw [hr1] at hf
    refine ⟨[.wake], { s with caller := some r }, .snoc (ls := []) .init (by simp [step, hw, hf]), by simp, by rw [← hr2]⟩
  · have hf := h.pendingFut hw hcb
    refine ⟨[.onDone, .wake], { s with callback := false, fut := some r, caller := some r },
      .snoc (ls := [.onDone]) (.snoc (ls := []) .init (s' := { s with callback := false, fut := some r }) ?_) ?_, by simp, by rw [← hr2]⟩
    · simp [step, hcb, hto, hf, hr1]
    · simp [step, hw]

/-- a call that ends after 2 other things happened, with a timeout still to come -/
example : ∃ s, Run (enter .positive none) [.finish (.value 7), .onDone, .wake] s ∧ s.caller = some (.value 7) ∧ s.cancels = 0 :=
  ⟨_, .snoc (.snoc (.snoc .init rfl) rfl) rfl, rfl, rfl⟩

/-- the call ignores the cancellation and ends later: `wait_for` has long returned -/
example : ∃ s, Run (enter .positive none) [.timer, .finish (.value 7), .onDone] s ∧ s.caller = some .timeout ∧ s.cancels = 1 :=
  ⟨_, .snoc (.snoc (.snoc .init rfl) rfl) rfl, rfl, rfl⟩

/-! ## What does not hold -/

/-- **C61 refuted** (the caller is cancelled): cancelling the task that waits in `wait_for` never cancels the call, whatever
happens before and after -/
theorem caller_cancel_refuted {t : Timeout} {task₀ : Option Outcome} {ls : List Label} {s : St}
    (hr : Run (enter t task₀) ls s) (hc : .cancel ∈ ls) : s.cancels = 0 := by
  have key : ∀ ls s, Run (enter t task₀) ls s → .cancel ∈ ls → s.cancels = 0 ∧ s.caller ≠ none := by
    intro ls s hr
    induction hr with
    | init => simp
    | @snoc ls l s s' hr hs ih =>
      intro hc
      have hi := Inv.of_run hr
      by_cases hm : .cancel ∈ ls
      · obtain ⟨h1, h2⟩ := ih hm
        cases l <;> simp only [step] at hs
        · split at hs
          · cases hs; exact ⟨h1, h2⟩
          · simp at hs
        · split at hs
          · cases hs; exact ⟨h1, h2⟩
          · simp at hs
        · split at hs
          · next hx _ => exact absurd hx h2
          · simp at hs
        · split at hs
          · next hx => exact absurd hx.1 h2
          · simp at hs
        · split at hs
          · next hx => exact absurd hx h2
          · simp at hs
      · have hl : l = .cancel := by
          rcases List.mem_append.mp hc with h | h
          · exact absurd h hm
          · simpa [eq_comm] using h
        subst hl
        simp only [step] at hs
        split at hs
        · next hx =>
          cases hs
          rcases hi.cancels with h | ⟨_, h⟩
          · exact ⟨h, by simp⟩
          · rw [hx] at h; simp at h
        · simp at hs
  exact (key ls s hr hc).1

/-- the call goes on running -/
example : ∃ s, Run (enter .positive none) [.cancel] s ∧ s.caller = some .cancelled ∧ s.task = none ∧ s.cancels = 0 :=
  ⟨_, .snoc .init rfl, rfl, rfl, rfl⟩

/-- **C61 refuted** (an exception that is false): after the call has raised it, `wait_for` without a timeout never returns -/
theorem falsy_exception_refuted {e : Nat} {ls : List Label} {s : St}
    (hr : Run (enter .none (some (.raised e false))) ls s) (hc : .cancel ∉ ls) : s.caller = none ∧ s.fut = none := by
  induction hr with
  | init => exact ⟨rfl, rfl⟩
  | @snoc ls l s s' hr hs ih =>
    obtain ⟨h1, h2⟩ := ih (fun h => hc (by simp [h]))
    have ht : s.task = some (.raised e false) := (task_iff hr _).mpr (.inl rfl)
    have hi := Inv.of_run hr
    cases l with
    | finish o => simp [step, ht] at hs
    | onDone =>
      simp only [step, ht] at hs
      split at hs
      · next heq =>
        cases hs
        injection heq with heq
        subst heq
        simp [h1, h2, onDone]
      · simp at hs
    | wake => simp [step, h1, h2] at hs
    | timer => simp [step, hi.timeout] at hs
    | cancel => simp at hc

/-- **C61 refuted** (timeout 0): with a timeout that is not positive, the result of a call that has ended already is not
returned -/
theorem zero_timeout_refuted (o : Outcome) {ls : List Label} {s : St}
    (hr : Run (enter .nonpositive (some o)) ls s) : s.caller = some .timeout := by
  exact (Inv.of_run hr).timedOut.mpr (.inl rfl)

end Xoscar.WaitFor
