import Verif.Model.ActorLock
import Verif.Proof.Base
namespace Xoscar.ActorLock
open scoped List

def quiet (w : W) : Bool := w == .pending || w == .cancelled
def alive (w : W) : Bool := w == .pending || w == .woken
def ids (l : List (Nat × W)) : List Nat := l.map Prod.fst
def live (l : List (Nat × W)) : List Nat := (l.filter (fun x => alive x.2)).map Prod.fst

structure LockInv (l : Lock) : Prop where
  nodup : (ids l.waiters).Nodup
  lockedQuiet : l.locked = true → ∀ x ∈ l.waiters, quiet x.2 = true
  tailQuiet : ∀ x ∈ l.waiters.tail, quiet x.2 = true
  headDone : l.locked = false → ∀ x ∈ l.waiters.head?, x.2.done = true

theorem LockInv.init : LockInv ⟨false, []⟩ := ⟨by simp [ids], by simp, by simp, by simp⟩

theorem ids_removeW (t : Nat) (l : List (Nat × W)) : ids (removeW t l) = (ids l).erase t := by
  induction l with
  | nil => rfl
  | cons x xs ih =>
    obtain ⟨u, w⟩ := x
    simp only [removeW]
    split
    · next e => subst e; simp [ids]
    · next e =>
      simp only [ids, List.map_cons] at *
      rw [List.erase_cons_tail (by simpa using e), ih]

theorem ids_setW (t : Nat) (w : W) (l : List (Nat × W)) : ids (setW t w l) = ids l := by
  induction l with
  | nil => rfl
  | cons x xs ih =>
    obtain ⟨u, w'⟩ := x
    simp only [setW]; split
    · rfl
    · simp only [ids, List.map_cons] at *; rw [ih]

theorem mem_removeW {t : Nat} {l : List (Nat × W)} {x} (h : x ∈ removeW t l) : x ∈ l := by
  induction l with
  | nil => simp [removeW] at h
  | cons y ys ih =>
    obtain ⟨u, w⟩ := y
    simp only [removeW] at h; split at h
    · exact List.mem_cons_of_mem _ h
    · rcases List.mem_cons.mp h with h | h
      · subst h; simp
      · exact List.mem_cons_of_mem _ (ih h)

theorem mem_setW {t : Nat} {w' : W} {l : List (Nat × W)} {x} (h : x ∈ setW t w' l) :
    x ∈ l ∨ x = (t, w') := by
  induction l with
  | nil => simp [setW] at h
  | cons y ys ih =>
    obtain ⟨u, w⟩ := y
    simp only [setW] at h; split at h
    · next e => rcases List.mem_cons.mp h with h | h
                · subst e; exact .inr h
                · exact .inl (List.mem_cons_of_mem _ h)
    · rcases List.mem_cons.mp h with h | h
      · subst h; simp
      · rcases ih h with h | h
        · exact .inl (List.mem_cons_of_mem _ h)
        · exact .inr h

theorem lookW_mem {t : Nat} {l : List (Nat × W)} {w : W} (h : lookW t l = some w) : (t, w) ∈ l := by
  induction l with
  | nil => simp [lookW] at h
  | cons y ys ih =>
    obtain ⟨u, w'⟩ := y
    simp only [lookW] at h; split at h
    · next e => subst e; cases h; simp
    · exact List.mem_cons_of_mem _ (ih h)

theorem lookW_some_iff {t : Nat} {l : List (Nat × W)} : (∃ w, lookW t l = some w) ↔ t ∈ ids l := by
  induction l with
  | nil => simp [lookW, ids]
  | cons y ys ih =>
    obtain ⟨u, w'⟩ := y
    simp only [lookW, ids, List.map_cons, List.mem_cons] at *; split
    · next e => subst e; simp
    · next e => rw [ih]; constructor
                · exact .inr
                · rintro (h | h)
                  · exact absurd h.symm e
                  · exact h

/-- a woken waiter is the head -/
theorem woken_head {l : Lock} (hi : LockInv l) {t : Nat} {w : W} (h : lookW t l.waiters = some w)
    (hq : quiet w = false) : ∃ ws, l.waiters = (t, w) :: ws ∧ l.locked = false := by
  have hm := lookW_mem h
  cases hw : l.waiters with
  | nil => rw [hw] at hm; simp at hm
  | cons x xs =>
    rw [hw] at hm
    rcases List.mem_cons.mp hm with hx | hx
    · subst hx
      refine ⟨xs, rfl, ?_⟩
      cases hl : l.locked with
      | false => rfl
      | true => have := hi.lockedQuiet hl (t, w) (by rw [hw]; simp); simp [hq] at this
    · have := hi.tailQuiet (t, w) (by rw [hw]; exact hx); simp [hq] at this

theorem wakeFirst_ids (l : Lock) : ids l.wakeFirst.waiters = ids l.waiters := by
  unfold Lock.wakeFirst; split
  · rfl
  · next t w ws e => split
                     · rfl
                     · simp [ids, e]

theorem wakeFirst_live (l : Lock) : live l.wakeFirst.waiters = live l.waiters := by
  unfold Lock.wakeFirst; split
  · rfl
  · next t w ws e => split
                     · rfl
                     · next h => cases w <;> simp_all [live, W.done, alive]

theorem wakeFirst_locked (l : Lock) : l.wakeFirst.locked = l.locked := by
  unfold Lock.wakeFirst; split
  · rfl
  · split <;> rfl

/-- waking the first waiter of an unlocked lock whose waiters are quiet after the head -/
theorem wakeFirst_inv (l : Lock) (hl : l.locked = false) (hn : (ids l.waiters).Nodup)
    (ht : ∀ x ∈ l.waiters.tail, quiet x.2 = true) : LockInv l.wakeFirst := by
  refine ⟨by rw [wakeFirst_ids]; exact hn, by rw [wakeFirst_locked, hl]; simp, ?_, ?_⟩
  · unfold Lock.wakeFirst; split
    · exact ht
    · next t w ws e => split
                       · exact ht
                       · rw [e] at ht; exact ht
  · intro _
    unfold Lock.wakeFirst; split
    · next e => simp [e]
    · next t w ws e => split
                       · next hd => simp [e, hd]
                       · simp [W.done]

theorem release_inv (l : Lock) (hi : LockInv l) : LockInv l.release :=
  wakeFirst_inv _ rfl hi.nodup hi.tailQuiet

theorem release_locked (l : Lock) : l.release.locked = false := by
  unfold Lock.release; rw [wakeFirst_locked]

theorem mem_tail_append {α} {l : List α} {a x : α} (h : x ∈ (l ++ [a]).tail) : x ∈ l.tail ∨ x = a := by
  cases l with
  | nil => simp at h
  | cons y ys => simpa using h

theorem acquire_inv (l : Lock) (hi : LockInv l) (t : Nat) (ht : t ∉ ids l.waiters) :
    LockInv (l.acquire t).1 := by
  unfold Lock.acquire; split
  · next h =>
    simp only [Bool.and_eq_true, Bool.not_eq_true', List.all_eq_true] at h
    refine ⟨hi.nodup, fun _ x hx => ?_, hi.tailQuiet, by simp⟩
    have := h.2 x hx
    cases hw : x.2 <;> simp_all [W.isCancelled, quiet]
  · next h =>
    refine ⟨?_, ?_, ?_, ?_⟩
    · simp only [ids, List.map_append, List.map_cons, List.map_nil]
      rw [List.nodup_append]
      refine ⟨hi.nodup, by simp, ?_⟩
      rintro a ha b hb rfl
      simp at hb; subst hb; exact ht ha
    · intro hl x hx
      rcases List.mem_append.mp hx with hx | hx
      · exact hi.lockedQuiet hl x hx
      · simp at hx; subst hx; rfl
    · intro x hx
      rcases mem_tail_append hx with hx | hx
      · exact hi.tailQuiet x hx
      · subst hx; rfl
    · intro hl x hx
      simp only at hl hx
      cases hw : l.waiters with
      | nil => simp [hw, hl] at h
      | cons y ys =>
        rw [hw] at hx; simp at hx; subst hx
        exact hi.headDone hl y (by simp [hw])

theorem acquire_true {l : Lock} {t : Nat} (h : (l.acquire t).2 = true) :
    l.locked = false ∧ live l.waiters = [] ∧ (l.acquire t).1 = ⟨true, l.waiters⟩ := by
  unfold Lock.acquire at *
  split at h
  · next hc =>
    simp only [Bool.and_eq_true, Bool.not_eq_true', List.all_eq_true] at hc
    refine ⟨hc.1, ?_, by rw [if_pos (by simpa using hc)]⟩
    unfold live
    rw [List.map_eq_nil_iff, List.filter_eq_nil_iff]
    intro x hx
    have := hc.2 x hx
    cases hw : x.2 <;> simp_all [W.isCancelled, alive]
  · cases h

theorem acquire_false {l : Lock} {t : Nat} (h : (l.acquire t).2 = false) :
    (l.acquire t).1 = ⟨l.locked, l.waiters ++ [(t, .pending)]⟩ := by
  unfold Lock.acquire at *
  split at h
  · cases h
  · next hc => rw [if_neg hc]

theorem removeW_tail_mem {t : Nat} {l : List (Nat × W)} {x} (h : x ∈ (removeW t l).tail) : x ∈ l.tail := by
  cases l with
  | nil => simp [removeW] at h
  | cons y ys =>
    obtain ⟨u, w⟩ := y
    simp only [removeW] at h
    split at h
    · exact List.mem_of_mem_tail h
    · exact mem_removeW h

theorem live_removeW_dead {t : Nat} {l : List (Nat × W)} {w : W} (h : lookW t l = some w)
    (hd : alive w = false) : live (removeW t l) = live l := by
  induction l with
  | nil => rfl
  | cons y ys ih =>
    obtain ⟨u, w'⟩ := y
    simp only [lookW] at h
    simp only [removeW]
    split
    · next e => rw [if_pos e] at h; cases h; simp [live, hd]
    · next e =>
      rw [if_neg e] at h
      have := ih h
      simp only [live, List.filter_cons] at *
      split <;> simp_all

theorem live_setW_dead {t : Nat} {l : List (Nat × W)} {w : W} (hd : alive w = false) :
    live (setW t w l) <+ live l := by
  induction l with
  | nil => exact .slnil
  | cons y ys ih =>
    obtain ⟨u, w'⟩ := y
    simp only [setW]
    split
    · simp only [live, List.filter_cons, hd, Bool.false_eq_true, if_false]
      split <;> simp
    · simp only [live, List.filter_cons] at *
      split
      · simpa using ih
      · exact ih

/-- everything about `resume` -/
theorem resume_spec (l : Lock) (hi : LockInv l) (t : Nat) :
    match (l.resume t).2 with
    | .notScheduled => (l.resume t).1 = l
    | .acquired => l.locked = false ∧ ∃ ws, l.waiters = (t, .woken) :: ws ∧ (l.resume t).1 = ⟨true, ws⟩
    | .cancelled => (l.resume t).1.locked = l.locked ∧
        ids (l.resume t).1.waiters = (ids l.waiters).erase t ∧ t ∈ ids l.waiters ∧
        live (l.resume t).1.waiters = live l.waiters := by
  have dead : ∀ w, lookW t l.waiters = some w → alive w = false →
      (l.resume t) = (if l.locked then (⟨l.locked, removeW t l.waiters⟩ : Lock)
        else Lock.wakeFirst ⟨l.locked, removeW t l.waiters⟩, .cancelled) →
      ((l.resume t).1.locked = l.locked ∧
        ids (l.resume t).1.waiters = (ids l.waiters).erase t ∧ t ∈ ids l.waiters ∧
        live (l.resume t).1.waiters = live l.waiters) := by
    intro w h3 hd he
    have hmem : t ∈ ids l.waiters := lookW_some_iff.mp ⟨w, h3⟩
    have hlv := live_removeW_dead h3 hd
    rw [he]; simp only
    split
    · exact ⟨rfl, ids_removeW _ _, hmem, hlv⟩
    · exact ⟨by rw [wakeFirst_locked], by rw [wakeFirst_ids]; exact ids_removeW _ _, hmem,
        by rw [wakeFirst_live]; exact hlv⟩
  rcases h : lookW t l.waiters with _ | w
  · simp [Lock.resume, h]
  · cases w with
    | pending => simp [Lock.resume, h]
    | woken =>
      obtain ⟨ws, hw, hl⟩ := woken_head hi h rfl
      have e : l.resume t = (⟨true, removeW t l.waiters⟩, .acquired) := by simp [Lock.resume, h]
      rw [e]; exact ⟨hl, ws, hw, by rw [hw]; simp [removeW]⟩
    | wokenCancel =>
      have e : l.resume t = (if l.locked then (⟨l.locked, removeW t l.waiters⟩ : Lock)
        else Lock.wakeFirst ⟨l.locked, removeW t l.waiters⟩, .cancelled) := by simp [Lock.resume, h]
      have := dead _ h rfl e
      simpa [e] using this
    | cancelled =>
      have e : l.resume t = (if l.locked then (⟨l.locked, removeW t l.waiters⟩ : Lock)
        else Lock.wakeFirst ⟨l.locked, removeW t l.waiters⟩, .cancelled) := by simp [Lock.resume, h]
      have := dead _ h rfl e
      simpa [e] using this

theorem resume_inv (l : Lock) (hi : LockInv l) (t : Nat) : LockInv (l.resume t).1 := by
  unfold Lock.resume
  split
  · exact hi
  · exact hi
  · next h =>
    obtain ⟨ws, hw, hl⟩ := woken_head hi h rfl
    rw [hw]; simp only [removeW, if_true]
    refine ⟨?_, ?_, ?_, by simp⟩
    · have := hi.nodup; rw [hw] at this; simp [ids] at this; exact this.2
    · intro _ x hx; exact hi.tailQuiet x (by rw [hw]; exact hx)
    · intro x hx; exact hi.tailQuiet x (by rw [hw]; exact List.mem_of_mem_tail hx)
  · next w h1 h2 h3 =>
    have hn : (ids (removeW t l.waiters)).Nodup := by rw [ids_removeW]; exact hi.nodup.erase _
    simp only
    split
    · next hl =>
      exact ⟨hn, fun _ x hx => hi.lockedQuiet hl x (mem_removeW hx),
        fun x hx => hi.tailQuiet x (removeW_tail_mem hx), fun h => by simp [hl] at h⟩
    · next hl =>
      exact wakeFirst_inv _ (by simpa using hl) hn (fun x hx => hi.tailQuiet x (removeW_tail_mem hx))

theorem cancelWait_ids (l : Lock) (t : Nat) : ids (l.cancelWait t).waiters = ids l.waiters := by
  unfold Lock.cancelWait; split <;> simp [ids_setW]

theorem cancelWait_locked (l : Lock) (t : Nat) : (l.cancelWait t).locked = l.locked := by
  unfold Lock.cancelWait; split <;> rfl

theorem cancelWait_live (l : Lock) (t : Nat) : live (l.cancelWait t).waiters <+ live l.waiters := by
  unfold Lock.cancelWait; split
  · exact live_setW_dead rfl
  · exact live_setW_dead rfl
  · exact List.Sublist.refl _

theorem setW_tail {t : Nat} {w' : W} {l : List (Nat × W)} {x} (h : x ∈ (setW t w' l).tail) :
    x ∈ l.tail ∨ x = (t, w') := by
  cases l with
  | nil => simp [setW] at h
  | cons y ys =>
    obtain ⟨u, w⟩ := y
    simp only [setW] at h; split at h
    · exact .inl h
    · exact mem_setW h

theorem setW_head {t : Nat} {w' : W} {l : List (Nat × W)} {x} (h : x ∈ (setW t w' l).head?) :
    x ∈ l.head? ∨ x = (t, w') := by
  cases l with
  | nil => simp [setW] at h
  | cons y ys =>
    obtain ⟨u, w⟩ := y
    simp only [setW] at h; split at h
    · next e => subst e; simp at h; exact .inr h.symm
    · exact .inl h

theorem cancelWait_inv (l : Lock) (hi : LockInv l) (t : Nat) : LockInv (l.cancelWait t) := by
  unfold Lock.cancelWait
  split
  · next h =>
    refine ⟨by rw [ids_setW]; exact hi.nodup, ?_, ?_, ?_⟩
    · intro hl x hx
      rcases mem_setW hx with hx | rfl
      · exact hi.lockedQuiet hl x hx
      · rfl
    · intro x hx
      rcases setW_tail hx with hx | rfl
      · exact hi.tailQuiet x hx
      · rfl
    · intro hl x hx
      rcases setW_head hx with hx | rfl
      · exact hi.headDone hl x hx
      · rfl
  · next h =>
    obtain ⟨ws, hw, hl⟩ := woken_head hi h rfl
    have e : setW t .wokenCancel l.waiters = (t, .wokenCancel) :: ws := by rw [hw]; simp [setW]
    rw [e]
    refine ⟨?_, by simp [hl], ?_, ?_⟩
    · have := hi.nodup; rw [hw] at this; simpa [ids] using this
    · intro x hx; exact hi.tailQuiet x (by rw [hw]; exact hx)
    · intro _ x hx; simp at hx; subst hx; rfl
  · exact hi

/-! ## the actor -/

def isAcquiring (p : Phase) : Bool := match p with
  | .acquiring _ => true
  | _ => false
def isRunning (p : Phase) : Bool := match p with
  | .running _ => true
  | _ => false

/-- phase of a call satisfies a predicate -/
def Actor.has (a : Actor) (p : Phase → Bool) (t : Nat) : Prop :=
  ∃ c, a.calls.get? t = some c ∧ p c.phase = true

structure Inv (a : Actor) : Prop where
  lock : LockInv a.lock
  waiting : ∀ t, t ∈ ids a.lock.waiters ↔ a.has isAcquiring t
  held : ∀ t, a.has isRunning t → a.lock.locked = true
  holder : a.lock.locked = true → ∃ t, a.has isRunning t
  unique : ∀ t u, a.has isRunning t → a.has isRunning u → t = u
  order : a.granted ++ live a.lock.waiters <+ a.asked

theorem has_set {a : Actor} {p : Phase → Bool} {t u : Nat} {c : Call} {l : Lock} {x y : List Nat} :
    Actor.has ⟨l, a.calls.set t c, x, y⟩ p u ↔
      if t = u then p c.phase = true else a.has p u := by
  unfold Actor.has; simp only [Dict.get?_set]
  split
  · simp
  · rfl

theorem not_both {a : Actor} {t : Nat} (h1 : a.has isAcquiring t) (h2 : a.has isRunning t) : False := by
  obtain ⟨c, hc, hp⟩ := h1; obtain ⟨d, hd, hq⟩ := h2
  rw [hc] at hd; cases hd
  cases hph : c.phase <;> simp_all [isAcquiring, isRunning]

/-- entering the lock when neither waiting nor running -/
theorem enter_inv (a : Actor) (hi : Inv a) (t : Nat) (inp : Input) (tr) (hna : ¬ a.has isAcquiring t)
    (hnr : ¬ a.has isRunning t) : Inv (a.enter t inp tr) := by
  have hnw : t ∉ ids a.lock.waiters := fun h => hna ((hi.waiting t).mp h)
  have hli := acquire_inv a.lock hi.lock t hnw
  unfold Actor.enter
  cases hg : (a.lock.acquire t).2 with
  | true =>
    obtain ⟨hl, hlive, he⟩ := acquire_true hg
    rw [he] at hli
    simp only [hg, he, if_true]
    have hno : ∀ u, ¬ a.has isRunning u := fun u hu => by have := hi.held u hu; simp [hl] at this
    refine ⟨hli, ?_, ?_, ?_, ?_, ?_⟩
    · intro u; rw [has_set]; split
      · next e => subst e; simp [isAcquiring]; exact hnw
      · exact hi.waiting u
    · intro u _; rfl
    · intro _; exact ⟨t, has_set.mpr (by simp [isRunning])⟩
    · intro u v hu hv
      rw [has_set] at hu hv
      split at hu
      · split at hv
        · subst_vars; rfl
        · exact absurd hv (hno v)
      · exact absurd hu (hno u)
    · simp only [hlive, List.append_nil]
      exact List.Sublist.append ((List.sublist_append_left _ _).trans hi.order) (List.Sublist.refl _)
  | false =>
    have he := acquire_false hg
    rw [he] at hli
    simp only [hg, he, Bool.false_eq_true, if_false]
    refine ⟨hli, ?_, ?_, ?_, ?_, ?_⟩
    · intro u; rw [has_set]
      simp only [ids, List.map_append, List.map_cons, List.map_nil, List.mem_append, List.mem_singleton]
      split
      · next e => subst e; simp [isAcquiring]
      · next e =>
        have e' : ¬ u = t := fun h => e h.symm
        rw [← hi.waiting u]; simp [ids, e']
    · intro u hu; rw [has_set] at hu; split at hu
      · simp [isRunning] at hu
      · exact hi.held u hu
    · intro hl
      obtain ⟨u, hu⟩ := hi.holder hl
      refine ⟨u, has_set.mpr ?_⟩
      split
      · next e => subst e; exact absurd hu hnr
      · exact hu
    · intro u v hu hv
      rw [has_set] at hu hv
      split at hu
      · simp [isRunning] at hu
      · split at hv
        · simp [isRunning] at hv
        · exact hi.unique u v hu hv
    · have : live (a.lock.waiters ++ [(t, .pending)]) = live a.lock.waiters ++ [t] := by
        simp [live, alive]
      simp only [this]
      rw [← List.append_assoc]
      exact hi.order.append (List.Sublist.refl _)

theorem step_inv (a : Actor) (hi : Inv a) (e : Ev) : Inv (a.step e) := by
  cases e with
  | start t =>
    simp only [Actor.step]
    split
    · exact hi
    · next h =>
      refine enter_inv a hi t _ _ ?_ ?_ <;>
      · rintro ⟨c, hc, _⟩; rw [h] at hc; cases hc
  | resume t =>
    simp only [Actor.step]
    split
    · next inp tr hc =>
      have hacq : a.has isAcquiring t := ⟨_, hc, rfl⟩
      have hsp := resume_spec a.lock hi.lock t
      have hli := resume_inv a.lock hi.lock t
      have hnr : ¬ a.has isRunning t := fun h => not_both hacq h
      cases hr : (a.lock.resume t).2 with
      | notScheduled => exact hi
      | acquired =>
        rw [hr] at hsp; obtain ⟨hl, ws, hw, he⟩ := hsp
        rw [he] at hli
        simp only [he]
        have hno : ∀ u, ¬ a.has isRunning u := fun u hu => by have := hi.held u hu; simp [hl] at this
        have hnd := hi.lock.nodup; rw [hw] at hnd; simp only [ids, List.map_cons, List.nodup_cons] at hnd
        refine ⟨hli, ?_, ?_, ?_, ?_, ?_⟩
        · intro u; rw [has_set]; split
          · next e => subst e; simp [isAcquiring]; exact hnd.1
          · next e =>
            have e' : ¬ u = t := fun h => e h.symm
            rw [← hi.waiting u, hw]; simp [ids, e']
        · intro u _; rfl
        · intro _; exact ⟨t, has_set.mpr (by simp [isRunning])⟩
        · intro u v hu hv
          rw [has_set] at hu hv
          split at hu
          · split at hv
            · subst_vars; rfl
            · exact absurd hv (hno v)
          · exact absurd hu (hno u)
        · have ho := hi.order
          rw [hw] at ho
          simp only
          have : live ((t, W.woken) :: ws) = t :: live ws := by simp [live, alive]
          rw [this] at ho; simpa using ho
      | cancelled =>
        rw [hr] at hsp; obtain ⟨hl, hids, hm, hlive⟩ := hsp
        simp only
        refine ⟨hli, ?_, ?_, ?_, ?_, ?_⟩
        · intro u; rw [has_set]; simp only [hids]; split
          · next e => subst e; simp [isAcquiring]; exact hi.lock.nodup.not_mem_erase
          · next e => rw [← hi.waiting u]; exact List.mem_erase_of_ne (fun h => e h.symm)
        · intro u hu; rw [has_set] at hu; simp only [hl]; split at hu
          · simp [isRunning] at hu
          · exact hi.held u hu
        · intro h; simp only [hl] at h
          obtain ⟨u, hu⟩ := hi.holder h
          refine ⟨u, has_set.mpr ?_⟩
          split
          · next e => subst e; exact absurd hu hnr
          · exact hu
        · intro u v hu hv
          rw [has_set] at hu hv
          split at hu
          · simp [isRunning] at hu
          · split at hv
            · simp [isRunning] at hv
            · exact hi.unique u v hu hv
        · simp only [hlive]; exact hi.order
    · exact hi
  | cancel t =>
    simp only [Actor.step]
    split
    · refine ⟨cancelWait_inv _ hi.lock t, ?_, ?_, ?_, hi.unique, ?_⟩
      · intro u; simp only [cancelWait_ids]; exact hi.waiting u
      · intro u hu; simp only [cancelWait_locked]; exact hi.held u hu
      · intro h; simp only [cancelWait_locked] at h; exact hi.holder h
      · exact ((List.Sublist.refl _).append (cancelWait_live _ _)).trans hi.order
    · exact hi
  | stretch t o =>
    simp only [Actor.step]
    split
    · next inp tr hc =>
      have hrun : a.has isRunning t := ⟨_, hc, rfl⟩
      have hna : ¬ a.has isAcquiring t := fun h => not_both h hrun
      have hph : isRunning (afterStretch o) = false ∧ isAcquiring (afterStretch o) = false := by
        cases o <;> exact ⟨rfl, rfl⟩
      have hids : ids a.lock.release.waiters = ids a.lock.waiters := by
        unfold Lock.release; rw [wakeFirst_ids]
      have hlive : live a.lock.release.waiters = live a.lock.waiters := by
        unfold Lock.release; rw [wakeFirst_live]
      obtain ⟨p1, p2⟩ := hph
      refine ⟨release_inv _ hi.lock, ?_, ?_, ?_, ?_, ?_⟩
      · intro u; rw [has_set]; simp only [hids]; split
        · next e => subst e; simp only [p2, Bool.false_eq_true, iff_false]
                    exact fun h => hna ((hi.waiting t).mp h)
        · exact hi.waiting u
      · intro u hu; rw [has_set] at hu; split at hu
        · simp [p1] at hu
        · next e => exact absurd (hi.unique t u hrun hu) e
      · intro h; simp only [release_locked] at h; cases h
      · intro u v hu hv
        rw [has_set] at hu hv
        split at hu
        · simp [p1] at hu
        · split at hv
          · simp [p1] at hv
          · exact hi.unique u v hu hv
      · simp only [hlive]; exact hi.order
    · exact hi
  | handled t h =>
    simp only [Actor.step]
    split
    · next tr hc =>
      refine enter_inv a hi t _ _ ?_ ?_ <;>
      · rintro ⟨c, hc', hp⟩; rw [hc] at hc'; cases hc'; simp [isAcquiring, isRunning] at hp
    · next tr hc =>
      have hna : ¬ a.has isAcquiring t := by
        rintro ⟨c, hc', hp⟩; rw [hc] at hc'; cases hc'; simp [isAcquiring] at hp
      have hnr : ¬ a.has isRunning t := by
        rintro ⟨c, hc', hp⟩; rw [hc] at hc'; cases hc'; simp [isRunning] at hp
      have hset : ∀ (r : Res) (tr' : List (Input × Outcome × Option Handled)),
          Inv { a with calls := a.calls.set t ⟨.done r, tr'⟩ } := by
        intro r tr'
        refine ⟨hi.lock, ?_, ?_, ?_, ?_, hi.order⟩
        · intro u; rw [has_set]; split
          · next e => subst e; simp only [isAcquiring, Bool.false_eq_true, iff_false]
                      exact fun h => hna ((hi.waiting t).mp h)
          · exact hi.waiting u
        · intro u hu; rw [has_set] at hu; split at hu
          · simp [isRunning] at hu
          · exact hi.held u hu
        · intro hl; obtain ⟨u, hu⟩ := hi.holder hl
          refine ⟨u, has_set.mpr ?_⟩
          split
          · next e => subst e; exact absurd hu hnr
          · exact hu
        · intro u v hu hv
          rw [has_set] at hu hv
          split at hu
          · simp [isRunning] at hu
          · split at hv
            · simp [isRunning] at hv
            · exact hi.unique u v hu hv
      exact hset _ _
    · exact hi

theorem init_inv : Inv Actor.init :=
  ⟨LockInv.init, by intro t; simp [Actor.init, ids, Actor.has], by rintro t ⟨c, hc, _⟩; simp [Actor.init] at hc,
   by simp [Actor.init], by rintro t u ⟨c, hc, _⟩; simp [Actor.init] at hc, by simp [Actor.init, live]⟩

theorem run_inv (a : Actor) (hi : Inv a) (evs : List Ev) : Inv (a.run evs) := by
  unfold Actor.run
  induction evs generalizing a with
  | nil => exact hi
  | cons e es ih => exact ih _ (step_inv a hi e)

end Xoscar.ActorLock
