import Verif.Proof.ActorLock
/-!
# C14 mutual exclusion, C15 lock hand-over, C16 yielding methods
-/
namespace Xoscar.ActorLock
open scoped List

/-- call `t` is executing a stretch of user code under the actor lock -/
def Executing (a : Actor) (t : Nat) : Prop := ∃ c inp, a.calls.get? t = some c ∧ c.phase = .running inp

/-- call `t` is waiting for the actor lock -/
def Waiting (a : Actor) (t : Nat) : Prop := ∃ c inp, a.calls.get? t = some c ∧ c.phase = .acquiring inp

/-- the waiting calls that have not been cancelled, oldest first -/
def waitingLive (a : Actor) : List Nat := live a.lock.waiters

theorem executing_iff {a : Actor} {t : Nat} : Executing a t ↔ a.has isRunning t := by
  constructor
  · rintro ⟨c, i, h, hp⟩; exact ⟨c, h, by rw [hp]; rfl⟩
  · rintro ⟨c, h, hp⟩
    cases hc : c.phase <;> simp_all [isRunning]
    exact ⟨c, _, h, hc⟩

theorem waiting_iff {a : Actor} {t : Nat} : Waiting a t ↔ a.has isAcquiring t := by
  constructor
  · rintro ⟨c, i, h, hp⟩; exact ⟨c, h, by rw [hp]; rfl⟩
  · rintro ⟨c, h, hp⟩
    cases hc : c.phase <;> simp_all [isAcquiring]
    exact ⟨c, _, h, hc⟩

/-- **C14**: in every history of calls, stretches, results, failures and cancellations (in any
interleaving), no two calls are executing at the same time. -/
theorem mutual_exclusion (evs : List Ev) (t u : Nat) (ht : Executing (Actor.init.run evs) t)
    (hu : Executing (Actor.init.run evs) u) : t = u :=
  (run_inv _ init_inv evs).unique t u (executing_iff.mp ht) (executing_iff.mp hu)

/-- **C15**: the lock is granted in the order in which it was requested: the sequence of grants is
a subsequence of the sequence of requests (cancelled requests drop out). -/
theorem grants_in_order (evs : List Ev) :
    (Actor.init.run evs).granted <+ (Actor.init.run evs).asked :=
  (List.sublist_append_left _ _).trans (run_inv _ init_inv evs).order

/-- **C15**, stronger: the waiting, uncancelled calls are still to come in that order: nobody that
asked later can have been granted before them. -/
theorem grants_then_waiting_in_order (evs : List Ev) :
    (Actor.init.run evs).granted ++ waitingLive (Actor.init.run evs) <+ (Actor.init.run evs).asked :=
  (run_inv _ init_inv evs).order

/-- **C15**: the lock is held exactly while some call is executing: every way of leaving the
section (return, exception, cancellation, yield) frees it. -/
theorem lock_held_iff (evs : List Ev) :
    (Actor.init.run evs).lock.locked = true ↔ ∃ t, Executing (Actor.init.run evs) t := by
  have hi := run_inv _ init_inv evs
  constructor
  · intro h; obtain ⟨t, ht⟩ := hi.holder h; exact ⟨t, executing_iff.mpr ht⟩
  · rintro ⟨t, ht⟩; exact hi.held t (executing_iff.mp ht)

/-- **C15/C16**: when no call is executing or waiting (all others are finished or suspended on a
yielded/returned awaitable), a new call starts executing at once. -/
theorem free_actor_starts_at_once (evs : List Ev) (t : Nat)
    (hidle : ∀ u, ¬ Executing (Actor.init.run evs) u ∧ ¬ Waiting (Actor.init.run evs) u)
    (hnew : (Actor.init.run evs).calls.get? t = none) :
    Executing (Actor.init.run (evs ++ [.start t])) t := by
  have hi := run_inv _ init_inv evs
  have e : Actor.init.run (evs ++ [.start t]) = (Actor.init.run evs).step (.start t) := by
    simp [Actor.run]
  rw [e]
  generalize Actor.init.run evs = a at *
  have hl : a.lock.locked = false := by
    cases h : a.lock.locked with
    | false => rfl
    | true => obtain ⟨u, hu⟩ := hi.holder h; exact absurd (executing_iff.mpr hu) (hidle u).1
  have hw : a.lock.waiters = [] := by
    cases h : a.lock.waiters with
    | nil => rfl
    | cons x xs =>
      have : x.1 ∈ ids a.lock.waiters := by simp [h, ids]
      exact absurd (waiting_iff.mpr ((hi.waiting _).mp this)) (hidle x.1).2
  have hacq : a.lock.acquire t = (⟨true, []⟩, true) := by simp [Lock.acquire, hl, hw]
  simp only [Actor.step, hnew, Actor.enter, hacq, if_true]
  exact ⟨⟨.running (.send none), []⟩, .send none, by simp, rfl⟩

/-- **C15**: no waiting call is lost: each is in the lock's queue. -/
theorem waiting_is_queued (evs : List Ev) (t : Nat) (h : Waiting (Actor.init.run evs) t) :
    t ∈ (Actor.init.run evs).lock.waiters.map Prod.fst :=
  ((run_inv _ init_inv evs).waiting t).mpr (waiting_iff.mp h)

/-- **C15**: whenever no call is executing, the longest waiting uncancelled call gets the lock just
by the event loop running the tasks that are already scheduled (no further outside event is
needed); so no wake-up is ever lost, whatever was cancelled before. -/
theorem waiter_gets_lock (evs : List Ev) (t : Nat) (rest : List Nat)
    (hno : ∀ u, ¬ Executing (Actor.init.run evs) u)
    (hw : waitingLive (Actor.init.run evs) = t :: rest) :
    ∃ res : List Nat, Executing (Actor.init.run (evs ++ res.map .resume)) t := by
  have hrun : ∀ (a : Actor) (evs : List Ev) (more : List Ev), (a.run (evs ++ more)) = (a.run evs).run more := by
    intro a evs more; simp [Actor.run]
  have hi := run_inv _ init_inv evs
  have key : ∀ (n : Nat) (a : Actor), a.lock.waiters.length = n → Inv a → (∀ u, ¬ a.has isRunning u) →
      live a.lock.waiters = t :: rest → ∃ res : List Nat, (a.run (res.map .resume)).has isRunning t := by
    intro n
    induction n with
    | zero =>
      intro a hn _ _ hl
      have : a.lock.waiters = [] := List.length_eq_zero_iff.mp hn
      rw [this] at hl; simp [live] at hl
    | succ n ih =>
      intro a hn ha hno hl
      have hunl : a.lock.locked = false := by
        cases h : a.lock.locked with
        | false => rfl
        | true => obtain ⟨u, hu⟩ := ha.holder h; exact absurd hu (hno u)
      cases hws : a.lock.waiters with
      | nil => rw [hws] at hn; simp at hn
      | cons x xs =>
        obtain ⟨u, w⟩ := x
        have hdone := ha.lock.headDone hunl (u, w) (by simp [hws])
        have hacq : a.has isAcquiring u := (ha.waiting u).mp (by simp [hws, ids])
        obtain ⟨c, inp, hc, hph⟩ := waiting_iff.mpr hacq
        obtain ⟨ph, tr⟩ := c
        simp only at hph; subst hph
        have hlook : lookW u a.lock.waiters = some w := by simp [hws, lookW]
        by_cases hww : w = .woken
        · subst hww
          have htu : u = t := by
            rw [hws] at hl; simp [live, alive] at hl; exact hl.1
          subst htu
          refine ⟨[u], ?_⟩
          have hres : a.lock.resume u = (⟨true, removeW u a.lock.waiters⟩, .acquired) := by
            simp [Lock.resume, hlook]
          simp only [List.map_cons, List.map_nil, Actor.run, List.foldl_cons, List.foldl_nil,
            Actor.step, hc, hres]
          exact ⟨_, by simp only [Dict.get?_set, if_true]; rfl, rfl⟩
        · have hdead : alive w = false := by cases w <;> simp_all [alive, W.done]
          have hres : (a.lock.resume u).2 = .cancelled := by
            cases w <;> simp_all [Lock.resume, W.done]
          have hsp := resume_spec a.lock ha.lock u
          rw [hres] at hsp
          obtain ⟨_, hids, _, hlive⟩ := hsp
          have hstep : a.step (.resume u) = { a with lock := (a.lock.resume u).1, calls := a.calls.set u ⟨.done .cancelled, tr⟩ } := by
            simp only [Actor.step, hc, hres]
          have hinv := step_inv a ha (.resume u)
          rw [hstep] at hinv
          obtain ⟨res, hr⟩ := ih _ (by
              have : (ids (a.lock.resume u).1.waiters).length = n := by
                rw [hids, hws]; simp [ids]; rw [hws] at hn; simpa using hn
              simpa [ids] using this) hinv (by
              intro v hv; rw [has_set] at hv; split at hv
              · simp [isRunning] at hv
              · exact hno v hv) (by simp only [hlive]; exact hl)
          refine ⟨u :: res, ?_⟩
          simp only [List.map_cons, Actor.run, List.foldl_cons] at *
          rw [hstep]; exact hr
  obtain ⟨res, h⟩ := key _ _ rfl hi (fun u hu => hno u (executing_iff.mpr hu)) hw
  exact ⟨res, by rw [hrun]; exact executing_iff.mpr h⟩

/-! ## C16 -/

/-- The generator protocol: starting with `asend(None)`, every yield whose awaitable gave `v` is
answered by `asend(v)`, every yield whose awaitable raised `e` by `athrow(e)`.
`Protocol tr i`: the completed exchanges `tr` lead to `i` being passed next. -/
inductive Protocol : List (Input × Outcome × Option Handled) → Input → Prop
  | start : Protocol [] (.send none)
  | value {tr i y v} : Protocol tr i → Protocol (tr ++ [(i, .yield_ y, some (.ok v))]) (.send (some v))
  | error {tr i y e} : Protocol tr i → Protocol (tr ++ [(i, .yield_ y, some (.err e))]) (.throw e)

/-- result of a finished call, from its last stretch -/
inductive Final : Outcome → Option Handled → Res → Prop
  | ret {v} : Final (.ret v) none (.value (some v))
  | stop : Final .stop none (.value none)
  | raised {e} : Final (.raise_ e) none (.exc e)
  | value {y v} : Final (.final y) (some (.ok v)) (.value (some v))
  | error {y e} : Final (.final y) (some (.err e)) (.exc e)

/-- what the trace of a call must be, given where the call is -/
def CallOK (c : Call) : Prop :=
  match c.phase with
  | .acquiring i => Protocol c.trace i
  | .running i => Protocol c.trace i
  | .handling => ∃ tr i y, Protocol tr i ∧ c.trace = tr ++ [(i, .yield_ y, none)]
  | .handlingFinal => ∃ tr i y, Protocol tr i ∧ c.trace = tr ++ [(i, .final y, none)]
  | .done .cancelled => ∃ i, Protocol c.trace i
  | .done r => ∃ tr i o h, Protocol tr i ∧ c.trace = tr ++ [(i, o, h)] ∧ Final o h r

theorem closeLast_append (h : Handled) (tr : List (Input × Outcome × Option Handled)) (i o x) :
    closeLast h (tr ++ [(i, o, x)]) = tr ++ [(i, o, some h)] := by
  induction tr with
  | nil => rfl
  | cons y ys ih =>
    cases ys with
    | nil => rfl
    | cons z zs => simp only [List.cons_append, closeLast] at *; rw [ih]

def AllOK (a : Actor) : Prop := ∀ t c, a.calls.get? t = some c → CallOK c

theorem AllOK.set {calls : Dict Nat Call} (h : ∀ t c, calls.get? t = some c → CallOK c) {t : Nat} {c : Call}
    (hc : CallOK c) : ∀ u d, (calls.set t c).get? u = some d → CallOK d := by
  intro u d hu
  rw [Dict.get?_set] at hu
  split at hu
  · cases hu; exact hc
  · exact h u d hu

theorem enter_ok (a : Actor) (h : AllOK a) (t : Nat) (i : Input) (tr) (hp : Protocol tr i) :
    AllOK (a.enter t i tr) := by
  unfold Actor.enter
  simp only
  split
  · exact AllOK.set h (by exact hp)
  · exact AllOK.set h (by exact hp)

theorem step_ok (a : Actor) (h : AllOK a) (e : Ev) : AllOK (a.step e) := by
  cases e with
  | start t =>
    simp only [Actor.step]; split
    · exact h
    · exact enter_ok a h t _ _ .start
  | resume t =>
    simp only [Actor.step]; split
    · next i tr hc =>
      have hp : Protocol tr i := h t _ hc
      split
      · exact h
      · exact AllOK.set h (by exact hp)
      · exact AllOK.set h (by exact ⟨i, hp⟩)
    · exact h
  | cancel t =>
    simp only [Actor.step]; split
    · exact h
    · exact h
  | stretch t o =>
    simp only [Actor.step]; split
    · next i tr hc =>
      have hp : Protocol tr i := h t _ hc
      refine AllOK.set h ?_
      cases o with
      | yield_ y => exact ⟨tr, i, y, hp, rfl⟩
      | ret v => exact ⟨tr, i, _, _, hp, rfl, .ret⟩
      | stop => exact ⟨tr, i, _, _, hp, rfl, .stop⟩
      | raise_ e => exact ⟨tr, i, _, _, hp, rfl, .raised⟩
      | final y => exact ⟨tr, i, y, hp, rfl⟩
    · exact h
  | handled t hd =>
    simp only [Actor.step]; split
    · next tr hc =>
      obtain ⟨tr0, i, y, hp, he⟩ := h t _ hc
      simp only at he; subst he
      rw [closeLast_append]
      refine enter_ok a h t _ _ ?_
      cases hd with
      | ok v => exact .value hp
      | err e => exact .error hp
    · next tr hc =>
      obtain ⟨tr0, i, y, hp, he⟩ := h t _ hc
      simp only at he; subst he
      rw [closeLast_append]
      refine AllOK.set h ?_
      cases hd with
      | ok v => exact ⟨tr0, i, _, _, hp, rfl, .value⟩
      | err e => exact ⟨tr0, i, _, _, hp, rfl, .error⟩
    · exact h

/-- **C16**: in every history, for every call and every generator behaviour: the exchanges between
the runner and the generator follow the protocol, and a finished call's result is that of its last
stretch (the value of `Return`, None at the end, the exception raised). -/
theorem generator_protocol (evs : List Ev) (t : Nat) (c : Call)
    (hc : (Actor.init.run evs).calls.get? t = some c) : CallOK c := by
  have : ∀ (evs : List Ev) (a : Actor), AllOK a → AllOK (a.run evs) := by
    intro evs
    induction evs with
    | nil => intro a h; exact h
    | cons e es ih => intro a h; exact ih _ (step_ok a h e)
  exact this evs Actor.init (by intro t c h; simp [Actor.init] at h) t c hc

/-- **C16**: while the object yielded by a call is pending, the call does not hold the actor: if
nothing else is executing, the lock is free. -/
theorem yielded_does_not_hold (evs : List Ev)
    (h : ∀ t c, (Actor.init.run evs).calls.get? t = some c →
      c.phase = .handling ∨ c.phase = .handlingFinal ∨ ∃ r, c.phase = .done r) :
    (Actor.init.run evs).lock.locked = false := by
  cases hl : (Actor.init.run evs).lock.locked with
  | false => rfl
  | true =>
    obtain ⟨t, c, i, hc, hp⟩ := (lock_held_iff evs).mp hl
    rcases h t c hc with h | h | ⟨r, h⟩ <;> rw [hp] at h <;> cases h

/-- non-vacuity: call 1 yields, call 2 runs meanwhile, call 3 is cancelled while waiting, call 1
goes on after call 2. -/
example :
    let a := Actor.init.run [.start 1, .start 2, .start 3, .stretch 1 (.yield_ 7), .cancel 3,
      .resume 2, .handled 1 (.ok 8), .stretch 2 (.final 5), .resume 3, .resume 1]
    Executing a 1 ∧ a.granted = [1, 2, 1] ∧ a.asked = [1, 2, 3, 1] ∧
      a.calls.get? 3 = some ⟨.done .cancelled, []⟩ := by
  refine ⟨⟨⟨.running (.send (some 8)), [(.send none, .yield_ 7, some (.ok 8))]⟩, .send (some 8), ?_, rfl⟩, ?_, ?_, ?_⟩ <;> decide

/-- non-vacuity of `waiter_gets_lock`: the executing call ends while the first waiter was
cancelled -/
example : waitingLive (Actor.init.run [.start 1, .start 2, .start 3, .cancel 2, .stretch 1 .stop]) = [3] ∧
    (Actor.init.run [.start 1, .start 2, .start 3, .cancel 2, .stretch 1 .stop]).lock.locked = false := by
  decide

end Xoscar.ActorLock
