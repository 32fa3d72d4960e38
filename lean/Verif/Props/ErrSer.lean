import Verif.Model.ErrSer

/-! # C57: unpicklable errors and results are still reported -/
namespace Xoscar.ErrSer
open Xoscar

/-- The library's own exceptions can be pickled, rebuilt and printed. -/
structure World.Sane {E R} (w : World E R) : Prop where
  pickU : ∀ s, w.pick (w.unpickleable s) = .ok
  loadU : ∀ s, w.load (w.unpickleable s) = .ok (w.unpickleable s)
  pickS : ∀ s, w.pick (w.sendFailed s) = .ok
  loadS : ∀ s, w.load (w.sendFailed s) = .ok (w.sendFailed s)

/-- Pickling and printing the exception `e` raises no strange error. -/
def Polite {E R} (w : World E R) (e : E) : Prop :=
  w.pick e = .ok ∨ (w.isException e = true ∧ (∃ x, w.pick e = .cannot x) ∧ ∃ s, w.str e = .ok s)

variable {E R : Type} {w : World E R}

/-- C57: an exception that can be pickled and rebuilt arrives as itself. -/
theorem picklable_arrives {e e' : E} (hp : w.pick e = .ok) (hl : w.load e = .ok e') :
    outcome w (.error e) = some (.error e') := by
  simp [outcome, send, serialReply, serialError, hp, receive, hl]

theorem unpicklable_arrives_aux (hs : w.Sane) {e x : E} {text : String} (he : w.isException e = true)
    (hp : w.pick e = .cannot x) (ht : w.str e = .ok text) :
    outcome w (.error e) = some (.error (w.unpickleable (unpickleableText (w.typeName e) text))) := by
  simp [outcome, send, serialReply, serialError, hp, he, ht, hs.pickU, receive, hs.loadU]

/-- C57: an exception that cannot be pickled (`TypeError`, `PicklingError`) arrives as an
`UnpickleableError` naming its class and text. -/
theorem unpicklable_arrives (hs : w.Sane) {e x : E} {text : String} (he : w.isException e = true)
    (hp : w.pick e = .cannot x) (ht : w.str e = .ok text) :
    outcome w (.error e) = some (.error (w.unpickleable
      ("Error cannot be pickled, error type: " ++ w.typeName e ++ ", raw error:\n" ++ text))) := by
  have := unpicklable_arrives_aux hs he hp ht
  unfold unpickleableText at this
  exact this

/-- C57: an exception that can be pickled but not rebuilt is reported to its caller as such. -/
theorem unloadable_reported {e x : E} (hp : w.pick e = .ok) (hl : w.load e = .error x) :
    outcome w (.error e) = some (.error (w.deserializeFailed x)) := by
  simp [outcome, send, serialReply, serialError, hp, receive, hl]

/-- Why a reply cannot be sent, in terms of what the user's classes do: a result whose serialization raises `x`; an exception whose
pickling raises something unusual `x`; one that is no `Exception` and cannot be pickled; one that cannot be pickled and whose text cannot
be had, printing it raising `x`. -/
inductive Unsendable (w : World E R) : Reply E R → E → Prop
  | result {r x} : w.serResult r = .error x → Unsendable w (.result r) x
  | strange {e x} : w.pick e = .other x → Unsendable w (.error e) x
  | base {e x} : w.isException e = false → w.pick e = .cannot x → Unsendable w (.error e) x
  | unprintable {e y x} : w.isException e = true → w.pick e = .cannot y → w.str e = .error x → Unsendable w (.error e) x

/-- a reply cannot be sent, for the reason `x`, exactly in these cases -/
theorem unsendable_iff (hs : w.Sane) (r : Reply E R) (x : E) : serialReply w r = .error x ↔ Unsendable w r x := by
  constructor
  · intro h
    cases r with
    | result r =>
      simp only [serialReply] at h
      split at h
      · cases h
      · next hx => cases h; exact .result hx
    | error e =>
      simp only [serialReply, serialError] at h
      rcases hp : w.pick e with _ | y | y
      · simp [hp] at h
      · cases he : w.isException e
        · simp [hp, he] at h; subst h; exact .base he hp
        · rcases ht : w.str e with z | s
          · simp [hp, he, ht] at h; subst h; exact .unprintable he hp ht
          · simp [hp, he, ht, hs.pickU] at h
      · simp [hp] at h; subst h; exact .strange hp
  · intro h
    cases h with
    | result h => simp [serialReply, h]
    | strange h => simp [serialReply, serialError, h]
    | base h1 h2 => simp [serialReply, serialError, h1, h2]
    | unprintable h1 h2 h3 => simp [serialReply, serialError, h1, h2, h3]

/-- C57: a result that cannot be sent is an error for the caller, not a hang: it gets `SendMessageFailed` naming the cause. -/
theorem bad_result_reported (hs : w.Sane) {r : R} {x : E} {text : String} (hf : w.serResult r = .error x)
    (ht : w.repr x = .ok text) :
    outcome w (.result r) = some (.error (w.sendFailed
      ("Error when sending message. Caused by " ++ text ++ ". See server logs for more details"))) := by
  have hx := (unsendable_iff hs (.result r) x).mpr (.result hf)
  have h : ∀ t, serialReply w (.error (w.sendFailed t)) = .ok (.error (w.sendFailed t)) := by
    intro t; simp only [serialReply, serialError, hs.pickS]
  simp only [outcome, send, hx, failureText, ht, h, Option.map_some, receive, hs.loadS]

/-- C57: any other failure to send an exception is reported as `SendMessageFailed` with the cause and the original error, as long as
these can be printed. -/
theorem send_failure_reported (hs : w.Sane) {e x : E} {text original : String}
    (hf : Unsendable w (.error e) x) (ht : w.repr x = .ok text) (ho : w.repr e = .ok original) :
    outcome w (.error e) = some (.error (w.sendFailed
      ("Error when sending message. Caused by " ++ text ++ ". \nOriginal error: " ++ original))) := by
  have hx := (unsendable_iff hs (.error e) x).mpr hf
  have h : ∀ t, serialReply w (.error (w.sendFailed t)) = .ok (.error (w.sendFailed t)) := by
    intro t; simp [serialReply, serialError, hs.pickS]
  simp only [outcome, send, hx, failureText, ht, ho, h, Option.map_some, receive, hs.loadS]

/-- The error raised while the reply `r`, which cannot be sent for the reason `x`, is described to the caller: printing the cause raises
it, or printing the original error does. -/
inductive Unprintable (w : World E R) : Reply E R → E → E → Prop
  | cause {r x y} : w.repr x = .error y → Unprintable w r x y
  | original {e x y} {s : String} : w.repr x = .ok s → w.repr e = .error y → Unprintable w (.error e) x y

theorem unprintable_iff (r : Reply E R) (x y : E) : failureText w r x = .error y ↔ Unprintable w r x y := by
  constructor
  · intro h
    simp only [failureText] at h
    rcases hx : w.repr x with z | s
    · simp [hx] at h; subst h; exact .cause hx
    · cases r with
      | result => simp [hx] at h
      | error e =>
        rcases he : w.repr e with z | s'
        · simp [hx, he] at h; subst h; exact .original hx he
        · simp [hx, he] at h
  · intro h
    cases h with
    | cause h => simp [failureText, h]
    | original h1 h2 => simp [failureText, h1, h2]

/-- C57: if describing the failure raises, that error is what the caller gets, if it can be sent -/
theorem unprintable_reported (hs : w.Sane) {r : Reply E R} {x y : E} (hf : Unsendable w r x) (hu : Unprintable w r x y) :
    outcome w r = outcome w (.error y) ∨ outcome w r = none := by
  have hx := (unsendable_iff hs r x).mpr hf
  have hy := (unprintable_iff r x y).mpr hu
  rcases h : serialReply w (.error y) with z | p
  · right; simp only [outcome, send, hx, hy, h, Option.map_none]
  · left; simp only [outcome, send, hx, hy, h]

/-- A good result arrives unchanged. -/
theorem result_arrives {r : R} (h : w.serResult r = .ok ()) : outcome w (.result r) = some (.result r) := by
  simp [outcome, send, serialReply, h, receive]

theorem serialError_isOk (hs : w.Sane) (e : E) : (∃ p, serialError w e = .ok p) ↔ Polite w e := by
  unfold serialError Polite
  rcases hp : w.pick e with _ | x | x
  · simp
  · by_cases he : w.isException e = true
    · rcases ht : w.str e with y | s
      · simp [he]
      · simp [he, hs.pickU]
    · simp [he]
  · simp

/-- C57, exactly when a call gets no reply: the reply cannot be sent, printing the cause or the
original error raises, and the error raised by that cannot be sent either. -/
theorem no_reply_iff (hs : w.Sane) (r : Reply E R) :
    outcome w r = none ↔ ∃ x y, Unsendable w r x ∧ Unprintable w r x y ∧ ¬ Polite w y := by
  simp only [← unsendable_iff hs, ← unprintable_iff]
  unfold outcome send
  rcases hr : serialReply w r with x | p
  · rcases ht : failureText w r x with y | s
    · have hy : (∃ p, serialReply w (.error y) = .ok p) ↔ Polite w y := by
        rw [← serialError_isOk hs]
        simp only [serialReply]
        rcases serialError w y with z | p <;> simp
      rcases h : serialReply w (.error y) with z | p
      · have hn : ¬ Polite w y := by rw [← hy, h]; simp
        simp only [ht, h, Option.map_none, true_iff]
        exact ⟨x, y, rfl, ht, hn⟩
      · have hn : Polite w y := by rw [← hy, h]; exact ⟨p, rfl⟩
        simp only [ht, h, Option.map_some, reduceCtorEq, false_iff]
        rintro ⟨x', y', e1, e2, e3⟩
        cases e1
        rw [ht] at e2
        cases e2
        exact e3 hn
    · have h : serialReply w (.error (w.sendFailed s)) = .ok (.error (w.sendFailed s)) := by
        simp [serialReply, serialError, hs.pickS]
      simp only [ht, h, Option.map_some, reduceCtorEq, false_iff]
      rintro ⟨x', y', e1, e2, e3⟩
      cases e1
      rw [ht] at e2
      cases e2
  · simp

/-- C57 for polite programs: every call is answered if printing exceptions never raises. -/
theorem always_reply_partial (hs : w.Sane) (hr : ∀ e, ∃ s, w.repr e = .ok s) (r : Reply E R) :
    (outcome w r).isSome = true := by
  rcases h : outcome w r with _ | p
  · obtain ⟨x, y, -, h2, -⟩ := (no_reply_iff hs r).1 h
    exfalso
    cases h2 with
    | cause h => obtain ⟨s, hs⟩ := hr x; rw [hs] at h; cases h
    | original _ h => obtain ⟨s, hs⟩ := hr _; rw [hs] at h; cases h
  · rfl

/-! ### Examples -/

/-- Exceptions: `good`, `locked` (cannot be pickled), `picky` (can be pickled, not rebuilt), `rude`
(pickling raises `ValueError`, printing raises itself), the library's. -/
inductive Ex | good | locked | picky | rude | valueError | unp (s : String) | sf (s : String) | df
deriving DecidableEq

def demo : World Ex Bool where
  isException _ := true
  pick | .locked => .cannot .valueError | .rude => .other .valueError | _ => .ok
  load | .picky => .error .valueError | e => .ok e
  str | .locked => .ok "holds a lock" | .rude => .error .rude | _ => .ok ""
  repr | .rude => .error .rude | _ => .ok "<...>"
  typeName _ := "<class 'Locked'>"
  serResult b := if b then .ok () else .error .valueError
  unpickleable := .unp
  sendFailed := .sf
  deserializeFailed _ := .df

theorem demo_sane : demo.Sane := ⟨fun _ => rfl, fun _ => rfl, fun _ => rfl, fun _ => rfl⟩

example : outcome demo (.error .good) = some (.error .good) := rfl
example : outcome demo (.error .locked) =
    some (.error (.unp "Error cannot be pickled, error type: <class 'Locked'>, raw error:\nholds a lock")) := by rfl
example : outcome demo (.error .picky) = some (.error .df) := rfl
example : outcome demo (.result false) =
    some (.error (.sf "Error when sending message. Caused by <...>. See server logs for more details")) := by rfl

/-- C57 is false in full: an error whose pickling raises something unusual and whose printing raises
it again leaves the caller without a reply. -/
theorem no_reply_refuted : ∃ (w : World Ex Bool) (e : Ex), w.Sane ∧ outcome w (.error e) = none :=
  ⟨demo, .rude, demo_sane, rfl⟩

end Xoscar.ErrSer
