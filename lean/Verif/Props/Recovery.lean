import Verif.Model.Recovery
import Verif.Proof.Base
/-!
# C45: crash recovery recreates the actors
-/
namespace Xoscar.Recovery
open scoped List

/-! ## Specification -/

/-- the recorded creations, in order -/
def recorded (l : Slots) : List Msg := l.filterMap (fun x => x.map (·.2))

/-- a sequence of steps -/
inductive Steps : St → List Label → St → Prop
  | nil (s : St) : Steps s [] s
  | cons {s s1 s2 : St} {l : Label} {ls : List Label} : step s l = some s1 → Steps s1 ls s2 → Steps s (l :: ls) s2

/-! ## The loop -/

theorem nextEntry_some {l : Slots} {pos pos' : Nat} {m : Msg} (h : nextEntry l pos = some (m, pos')) :
    pos < pos' ∧ pos' ≤ l.length ∧ recorded (l.take pos') = recorded (l.take pos) ++ [m] := by
  induction l generalizing pos pos' with
  | nil => simp [nextEntry] at h
  | cons x xs ih =>
    cases pos with
    | zero =>
      cases x with
      | some km =>
        obtain ⟨k, m'⟩ := km
        simp only [nextEntry, Option.some.injEq, Prod.mk.injEq] at h
        obtain ⟨rfl, rfl⟩ := h
        exact ⟨by omega, by simp, by simp [recorded]⟩
      | none =>
        simp only [nextEntry, Option.map_eq_some_iff] at h
        obtain ⟨⟨m', p⟩, h1, h2⟩ := h
        simp only [Prod.mk.injEq] at h2
        obtain ⟨rfl, rfl⟩ := h2
        obtain ⟨a, b, c⟩ := ih h1
        refine ⟨by omega, by simp; omega, ?_⟩
        simp only [List.take_succ_cons]
        simpa [recorded] using c
    | succ n =>
      have h' : nextEntry (x :: xs) (n + 1) = (nextEntry xs n).map (fun x => (x.1, x.2 + 1)) := by cases x <;> rfl
      rw [h', Option.map_eq_some_iff] at h
      obtain ⟨⟨m', p⟩, h1, h2⟩ := h
      simp only [Prod.mk.injEq] at h2
      obtain ⟨rfl, rfl⟩ := h2
      obtain ⟨a, b, c⟩ := ih h1
      refine ⟨by omega, by simp; omega, ?_⟩
      simp only [List.take_succ_cons, recorded, List.filterMap_cons] at c ⊢
      cases hx : (Option.map (fun x => x.2) x)
      · simpa using c
      · simp only [List.cons_append, List.cons.injEq, true_and]; exact c

theorem nextEntry_none {l : Slots} {pos : Nat} (h : nextEntry l pos = none) : recorded (l.take pos) = recorded l := by
  induction l generalizing pos with
  | nil => simp
  | cons x xs ih =>
    cases pos with
    | zero =>
      cases x with
      | some km => simp [nextEntry] at h
      | none =>
        simp only [nextEntry, Option.map_eq_none_iff] at h
        have := ih h
        simpa [recorded] using this
    | succ n =>
      have h' : nextEntry (x :: xs) (n + 1) = (nextEntry xs n).map (fun x => (x.1, x.2 + 1)) := by cases x <;> rfl
      rw [h', Option.map_eq_none_iff] at h
      have := ih h
      simp only [List.take_succ_cons, recorded, List.filterMap_cons] at this ⊢
      cases hx : (Option.map (fun x => x.2) x)
      · simpa using this
      · simp only [List.cons.injEq, true_and]; exact this

/-- done: created, or answered with an error -/
def Done (s : St) (ms : List Msg) : Prop := ∀ m ∈ ms, m.uid ∈ s.actors ∨ m ∈ s.failed

/-- as long as nobody interferes -/
def Clean (s : St) : Prop := s.dirty = false → match s.mon with
  | .looping _ pos size => s.up = true ∧ ∃ l, s.slots = some l ∧ size = used l ∧ pos ≤ l.length ∧ s.sent = recorded (l.take pos) ∧ Done s s.sent
  | .calling _ pos size m => s.up = true ∧ ∃ l, s.slots = some l ∧ size = used l ∧ pos ≤ l.length ∧ s.sent = recorded (l.take pos) ∧
      ∃ pre, s.sent = pre ++ [m] ∧ Done s pre
  | _ => True

theorem finish_mon (s : St) (d : Bool) : (finish s d).mon = .idle := by
  simp only [finish]; split <;> rfl

theorem clean_of_idle {s : St} (h : s.mon = .idle) : Clean s := by simp [Clean, h]

theorem clean_of_dirty {s : St} (h : s.dirty = true) : Clean s := by simp [Clean, h]

theorem Done.mono {s s' : St} {ms : List Msg} (h : Done s ms) (h1 : ∀ u ∈ s.actors, u ∈ s'.actors) (h2 : s'.failed = s.failed) : Done s' ms := by
  intro m hm
  rcases h m hm with h | h
  · exact .inl (h1 _ h)
  · exact .inr (by rw [h2]; exact h)

theorem clean_step {s s' : St} {l : Label} (h : Clean s) (hs : step s l = some s') : Clean s' := by
  cases l with
  | record k m => simp only [step] at hs; cases hs; exact clean_of_dirty rfl
  | forget k => simp only [step] at hs; cases hs; exact clean_of_dirty rfl
  | gone u => simp only [step] at hs; split at hs <;> cases hs; exact clean_of_dirty rfl
  | crash => simp only [step] at hs; split at hs <;> cases hs; exact clean_of_dirty rfl
  | born u =>
    simp only [step] at hs
    split at hs <;> cases hs
    intro hd
    have hc := h hd
    have hmono : ∀ ms, Done s ms → Done { s with actors := if u ∈ s.actors then s.actors else s.actors ++ [u] } ms := by
      intro ms hh
      refine hh.mono ?_ rfl
      intro v hv; simp only; split
      · exact hv
      · simp [hv]
    rcases hm : s.mon with _ | d | ⟨d, pos, size⟩ | ⟨d, pos, size, m⟩
    · trivial
    · trivial
    · rw [hm] at hc; obtain ⟨a, l, b, c, d, e, f⟩ := hc; exact ⟨a, l, b, c, d, e, hmono _ f⟩
    · rw [hm] at hc; obtain ⟨a, l, b, c, d, e, pre, f, g⟩ := hc; exact ⟨a, l, b, c, d, e, pre, f, hmono _ g⟩
  | notice =>
    simp only [step] at hs
    split at hs <;> cases hs
    exact h
  | check =>
    simp only [step] at hs
    split at hs
    · next hm =>
      split at hs
      · split at hs <;> cases hs
        · exact clean_of_idle (finish_mon _ _)
        · intro _; trivial
        · intro _; trivial
      · cases hs; exact clean_of_idle (finish_mon _ _)
    · cases hs
  | restarted =>
    simp only [step] at hs
    split at hs
    · split at hs <;> cases hs
      · next l _ hsl => intro _; exact ⟨rfl, l, hsl, rfl, by omega, by simp [recorded], by intro m hm; cases hm⟩
      · exact clean_of_idle rfl
      · exact clean_of_idle (finish_mon _ _)
    · cases hs
  | restartFailed =>
    simp only [step] at hs
    split at hs <;> cases hs
    exact clean_of_idle rfl
  | next =>
    simp only [step] at hs
    split at hs
    · next d pos size l hm hsl =>
      split at hs
      · cases hs; exact clean_of_idle rfl
      · split at hs <;> cases hs
        · next m pos' hne =>
          intro hd
          have hc := h hd
          rw [hm] at hc
          obtain ⟨a, l', b, c, e, f, g⟩ := hc
          rw [hsl] at b; cases b
          obtain ⟨_, p2, p3⟩ := nextEntry_some hne
          exact ⟨a, l, hsl, c, p2, by simp only; rw [f, p3], _, rfl, g⟩
        · exact clean_of_idle (finish_mon _ _)
    · cases hs
  | answered ok =>
    simp only [step] at hs
    split at hs
    · next d pos size m hm =>
      split at hs
      · split at hs <;> cases hs
        · intro hd
          have hc := h hd
          rw [hm] at hc
          obtain ⟨a, l, b, c, e, f, pre, g, i⟩ := hc
          refine ⟨a, l, b, c, e, f, ?_⟩
          intro m' hm'
          have hm' : m' ∈ s.sent := hm'
          rw [g] at hm'
          simp only [List.mem_append, List.mem_singleton] at hm'
          rcases hm' with hm' | rfl
          · rcases i m' hm' with x | x
            · left; simp only
              split
              · split
                · exact x
                · simp [x]
              · exact x
            · right; simp only; split
              · exact x
              · simp [x]
          · cases ok
            · right; simp
            · left; simp only [if_true]
              split
              · assumption
              · simp
        · exact clean_of_dirty rfl
      · cases hs
    · cases hs
  | lost =>
    simp only [step] at hs
    split at hs
    · split at hs <;> cases hs
      exact clean_of_idle rfl
    · cases hs
  | wait =>
    simp only [step] at hs
    split at hs
    · cases hs; exact h
    · split at hs <;> cases hs <;> exact h

theorem clean_run {mode : Mode} {b : Bool} {ls : List Label} {s : St} (h : Run mode b ls s) : Clean s := by
  induction h with
  | init => exact clean_of_idle rfl
  | snoc _ hs ih => exact clean_step ih hs

theorem finish_recovers (s : St) (d : Bool) : (finish s d).recovers = s.recovers ∧ (finish s d).slots = s.slots ∧ (finish s d).sent = s.sent ∧
    (finish s d).actors = s.actors ∧ (finish s d).failed = s.failed ∧ (finish s d).aborts = s.aborts := by
  simp only [finish]; split <;> exact ⟨rfl, rfl, rfl, rfl, rfl, rfl⟩

/-- **C45** (complete, partial): when the recovery of a pool ends without anybody having interfered, every recorded creation was sent to the new
process, in order and once, and each of those actors exists there unless its own creation was answered with an error.
Missing: a record made or removed while the loop runs ends the recovery early (`record_aborts`, `pending_create_aborts`) -/
theorem recovery_complete_partial {mode : Mode} {b : Bool} {ls : List Label} {s s' : St} (h : Run mode b ls s) (hs : step s .next = some s')
    (hr : s'.recovers = s.recovers + 1) (hd : s.dirty = false) :
    ∃ l, s'.slots = some l ∧ s'.sent = recorded l ∧ ∀ m ∈ recorded l, m.uid ∈ s'.actors ∨ m ∈ s'.failed := by
  have hc := clean_run h hd
  simp only [step] at hs
  split at hs
  · next d pos size l hm hsl =>
    rw [hm] at hc
    obtain ⟨_, l', b, c, e, f, g⟩ := hc
    rw [hsl] at b; cases b
    split at hs
    · cases hs; simp [abort] at hr
    · split at hs <;> cases hs
      · simp at hr
      · next hne =>
        have hrec := nextEntry_none hne
        obtain ⟨_, e1, e2, e3, e4, _⟩ := finish_recovers { s with recovers := s.recovers + 1 } d
        refine ⟨l, by rw [e1]; exact hsl, by rw [e2, ← hrec]; exact f, ?_⟩
        rw [e3, e4, ← hrec, ← f]; exact g
  · cases hs

/-- **C45** (one failure does not stop the others): without interference the loop neither stops nor gets stuck: whatever the process answers to
each creation, the recovery reaches its end -/
theorem recovery_ends_partial {s : St} (h : Clean s) (hd : s.dirty = false) {d : Bool} {pos size : Nat} (hm : s.mon = .looping d pos size)
    (hf : ∀ l, s.slots = some l → ∀ m ∈ recorded l, m.fromMain = true) (ok : Msg → Bool) :
    ∃ ls s', Steps s ls s' ∧ s'.mon = .idle ∧ s'.recovers = s.recovers + 1 ∧ s'.aborts = s.aborts ∧ s'.slots = s.slots := by
  have hc := h hd
  rw [hm] at hc
  obtain ⟨hup, l, hsl, hsize, hpos, hsent, hdone⟩ := hc
  clear hsent hdone
  -- by the entries left
  generalize hn : l.length - pos = n
  clear h
  induction n using Nat.strongRecOn generalizing s pos with
  | _ n ih =>
    rcases hne : nextEntry l pos with _ | ⟨m, pos'⟩
    · have hstep : step s .next = some (finish { s with recovers := s.recovers + 1 } d) := by
        simp only [step, hm, hsl, hsize, hne, ne_eq, not_true_eq_false, if_false]
      obtain ⟨e1, e2, _, _, _, e6⟩ := finish_recovers { s with recovers := s.recovers + 1 } d
      exact ⟨[.next], _, .cons hstep (.nil _), finish_mon _ _, e1, e6, e2⟩
    · obtain ⟨p1, p2, p3⟩ := nextEntry_some hne
      have hstep : step s .next = some { s with mon := .calling d pos' size m, sent := s.sent ++ [m] } := by
        simp only [step, hm, hsl, hsize, hne, ne_eq, not_true_eq_false, if_false]
      have hmem : m ∈ recorded l := by
        have h1 : m ∈ recorded (l.take pos') := by rw [p3]; simp
        simp only [recorded, List.mem_filterMap] at h1 ⊢
        obtain ⟨x, hx, hx2⟩ := h1
        exact ⟨x, List.mem_of_mem_take hx, hx2⟩
      have hfm := hf l hsl m hmem
      let s2 : St := { s with mon := .looping d pos' size, sent := s.sent ++ [m],
                              actors := if ok m then (if m.uid ∈ s.actors then s.actors else s.actors ++ [m.uid]) else s.actors,
                              failed := if ok m then s.failed else s.failed ++ [m] }
      have hstep2 : step { s with mon := .calling d pos' size m, sent := s.sent ++ [m] } (.answered (ok m)) = some s2 := by
        simp only [step, hup, if_true, hfm, s2]
      obtain ⟨ls, s', h1, h2, h3, h4, h5⟩ := ih (l.length - pos') (by omega) (s := s2) (pos := pos') hd rfl hf hup hsl p2 rfl
      exact ⟨.next :: .answered (ok m) :: ls, s', .cons hstep (.cons hstep2 h1), h2, h3, h4, h5⟩

/-- a restart that failed is tried again at the next look -/
theorem restart_retried {s s1 : St} (h1 : step s .restartFailed = some s1) (hn : s.noticed = true) (hm : s.mode ≠ .off) :
    ∃ s2 d, step s1 .check = some s2 ∧ s2.mon = .restarting d := by
  simp only [step] at h1
  split at h1 <;> cases h1
  simp only [step, abort, hn, if_true]
  cases hmo : s.mode with
  | off => exact absurd hmo hm
  | process => exact ⟨_, s.event.isSome, rfl, rfl⟩
  | actor => exact ⟨_, s.event.isSome, rfl, rfl⟩

/-! ## Those who wait -/

/-- **C45** (nobody is woken early): while a recovery is under way nobody is woken -/
theorem no_wake_while_recovering {s s' : St} {l : Label} (hs : step s l = some s') (h : recovering s' = true) : s'.woken = s.woken := by
  have hfin : ∀ (x : St) (d : Bool), recovering (finish x d) = true → False := by
    intro x d hh; simp only [recovering, finish_mon] at hh; cases hh
  cases l with
  | check =>
    simp only [step] at hs
    split at hs
    · split at hs
      · split at hs <;> cases hs
        · exact (hfin _ _ h).elim
        · rfl
        · rfl
      · cases hs; exact (hfin _ _ h).elim
    · cases hs
  | restarted =>
    simp only [step] at hs
    split at hs
    · split at hs <;> cases hs
      · rfl
      · rfl
      · exact (hfin _ _ h).elim
    · cases hs
  | next =>
    simp only [step] at hs
    split at hs
    · split at hs
      · cases hs; rfl
      · split at hs <;> cases hs
        · rfl
        · exact (hfin _ _ h).elim
    · cases hs
  | _ =>
    simp only [step] at hs
    repeat' split at hs
    all_goals first | (cases hs; done) | (cases hs; rfl)

structure WInv (s : St) : Prop where
  off : s.mode = .off → s.event = none
  ev : ∀ e, s.event = some e → e ∉ s.woken ∧ e < s.nextEvent
  wk : ∀ e ∈ s.woken, e < s.nextEvent
  le : ∀ w ∈ s.waiters, w.recovers ≤ s.recovers ∧ w.aborts ≤ s.aborts
  pend : ∀ w ∈ s.waiters, ∀ e, w.event = some e → w.known = true → s.aborts = w.aborts →
    (e ∈ s.woken → w.recovers < s.recovers) ∧ (e ∉ s.woken → w.recovers < s.recovers ∨ s.noticed = true ∨ recovering s = true)

theorem winv_finish {s : St} (d : Bool) (h : WInv s)
    (hp : ∀ w ∈ s.waiters, ∀ e, w.event = some e → w.known = true → s.aborts = w.aborts → w.recovers < s.recovers) : WInv (finish s d) := by
  obtain ⟨h1, h2, h3, h4, _⟩ := h
  have hnone : WInv { s with mon := .idle } :=
    ⟨h1, h2, h3, h4, fun w hw e he hk ha => ⟨fun _ => hp w hw e he hk ha, fun _ => .inl (hp w hw e he hk ha)⟩⟩
  simp only [finish]
  split
  · next e heq =>
    refine ⟨fun _ => rfl, by simp, ?_, h4, fun w hw e' he hk ha => ⟨fun _ => hp w hw e' he hk ha, fun _ => .inl (hp w hw e' he hk ha)⟩⟩
    intro e' he'
    simp only [List.mem_cons] at he'
    rcases he' with rfl | he'
    · exact (h2 _ heq).2
    · exact h3 e' he'
  · exact hnone

theorem winv_abort {s : St} (h : WInv s) : WInv (abort s) := by
  obtain ⟨h1, h2, h3, h4, _⟩ := h
  refine ⟨h1, h2, h3, fun w hw => ⟨(h4 w hw).1, Nat.le_succ_of_le (h4 w hw).2⟩, ?_⟩
  intro w hw e he hk ha
  have := (h4 w hw).2
  simp only [abort] at ha
  omega

/-- nothing that matters to the waiting changed -/
theorem WInv.congr {s s' : St} (h : WInv s) (h1 : s'.mode = s.mode) (h2 : s'.event = s.event) (h3 : s'.woken = s.woken) (h4 : s'.nextEvent = s.nextEvent)
    (h5 : s'.waiters = s.waiters) (h6 : s'.recovers = s.recovers) (h7 : s'.aborts = s.aborts)
    (h8 : s.noticed = true ∨ recovering s = true → s'.noticed = true ∨ recovering s' = true) : WInv s' := by
  obtain ⟨g1, g2, g3, g4, g5⟩ := h
  refine ⟨by rw [h1, h2]; exact g1, by rw [h2, h3, h4]; exact g2, by rw [h3, h4]; exact g3, by rw [h5, h6, h7]; exact g4, ?_⟩
  rw [h5, h6, h7, h3]
  intro w hw e he hk ha
  obtain ⟨p, q⟩ := g5 w hw e he hk ha
  refine ⟨p, fun hn => ?_⟩
  rcases q hn with q | q
  · exact .inl q
  · exact .inr (h8 q)

/-- one more waiter for an event that is not set -/
theorem winv_add {s : St} (h : WInv s) (w : Waiter) (h1 : w.recovers = s.recovers) (h2 : w.aborts = s.aborts) (h3 : w.known = (s.noticed || recovering s))
    (h4 : ∀ e, w.event = some e → e ∉ s.woken) : WInv { s with waiters := s.waiters ++ [w] } := by
  obtain ⟨g1, g2, g3, g4, g5⟩ := h
  refine ⟨g1, g2, g3, ?_, ?_⟩
  · intro w' hw'
    simp only [List.mem_append, List.mem_singleton] at hw'
    rcases hw' with hw' | rfl
    · exact g4 w' hw'
    · simp only; omega
  · intro w' hw' e he hk ha
    simp only [List.mem_append, List.mem_singleton] at hw'
    rcases hw' with hw' | rfl
    · exact g5 w' hw' e he hk ha
    · refine ⟨fun hh => absurd hh (h4 e he), fun _ => .inr ?_⟩
      rw [h3] at hk
      simpa [recovering] using hk

theorem winv_step {s s' : St} {l : Label} (h : WInv s) (hs : step s l = some s') : WInv s' := by
  have bump : ∀ (s : St), WInv s → ∀ (t : St), t = { s with recovers := s.recovers + 1 } → (∀ w ∈ t.waiters, w.recovers < t.recovers) := by
    intro s h t ht w hw
    subst ht
    have := (h.le w hw).1
    simp only; omega
  cases l with
  | wait =>
    simp only [step] at hs
    split at hs
    · cases hs; exact winv_add h _ rfl rfl rfl (by simp)
    · next hmo =>
      split at hs <;> cases hs
      · next e he => exact winv_add h _ rfl rfl rfl (by rintro e' ⟨⟩; exact (h.ev e he).1)
      · next hev =>
        have hfresh : s.nextEvent ∉ s.woken := fun hh => Nat.lt_irrefl _ (h.wk _ hh)
        have h' : WInv { s with event := some s.nextEvent, nextEvent := s.nextEvent + 1 } := by
          obtain ⟨g1, g2, g3, g4, g5⟩ := h
          refine ⟨fun hh => absurd hh hmo, ?_, fun e he => Nat.lt_succ_of_lt (g3 e he), g4, g5⟩
          rintro e ⟨⟩; exact ⟨hfresh, Nat.lt_succ_self _⟩
        exact winv_add (s := { s with event := some s.nextEvent, nextEvent := s.nextEvent + 1 }) h' _ rfl rfl rfl (by rintro e' ⟨⟩; exact hfresh)
  | check =>
    simp only [step] at hs
    split at hs
    · next hm =>
      split at hs
      · split at hs <;> cases hs
        · next hno hmo =>
          have hev := h.off hmo
          have h' : WInv { s with downs := s.downs + 1, slots := some [] } := h.congr rfl rfl rfl rfl rfl rfl rfl (fun hh => hh)
          simp only [hev, Option.isSome_none, finish]
          exact h'.congr rfl hev.symm rfl rfl rfl rfl rfl (fun hh => by simpa [recovering, hm] using hh)
        · exact h.congr rfl rfl rfl rfl rfl rfl rfl (fun _ => .inr rfl)
        · exact h.congr rfl rfl rfl rfl rfl rfl rfl (fun _ => .inr rfl)
      · next hno =>
        cases hs
        refine winv_finish _ h ?_
        intro w hw e he hk ha
        obtain ⟨p, q⟩ := h.pend w hw e he hk ha
        rcases Classical.em (e ∈ s.woken) with hh | hh
        · exact p hh
        · rcases q hh with q | q | q
          · exact q
          · exact absurd q hno
          · simp [recovering, hm] at q
    · cases hs
  | restarted =>
    simp only [step] at hs
    split at hs
    · next d hm =>
      split at hs <;> cases hs
      · exact h.congr rfl rfl rfl rfl rfl rfl rfl (fun _ => .inr rfl)
      · refine winv_abort ?_
        exact h.congr rfl rfl rfl rfl rfl rfl rfl (fun _ => .inr (by simp [recovering, hm]))
      · have h' : WInv { s with up := true, noticed := false, actors := [], sent := [], failed := [], dirty := false } :=
          h.congr rfl rfl rfl rfl rfl rfl rfl (fun _ => .inr (by simp [recovering, hm]))
        have hb := bump _ h' _ rfl
        refine winv_finish d ?_ (fun w hw e _ _ _ => hb w hw)
        obtain ⟨g1, g2, g3, g4, g5⟩ := h'
        exact ⟨g1, g2, g3, fun w hw => ⟨Nat.le_of_lt (hb w hw), (g4 w hw).2⟩, fun w hw e _ _ _ => ⟨fun _ => hb w hw, fun _ => .inl (hb w hw)⟩⟩
    · cases hs
  | restartFailed =>
    simp only [step] at hs
    split at hs <;> cases hs
    exact winv_abort h
  | lost =>
    simp only [step] at hs
    split at hs
    · split at hs <;> cases hs
      exact winv_abort h
    · cases hs
  | next =>
    simp only [step] at hs
    split at hs
    · next d pos size l hm hsl =>
      split at hs
      · cases hs; exact winv_abort h
      · split at hs <;> cases hs
        · exact h.congr rfl rfl rfl rfl rfl rfl rfl (fun _ => .inr rfl)
        · have hb := bump _ h _ rfl
          refine winv_finish d ?_ (fun w hw e _ _ _ => hb w hw)
          obtain ⟨g1, g2, g3, g4, g5⟩ := h
          exact ⟨g1, g2, g3, fun w hw => ⟨Nat.le_of_lt (hb w hw), (g4 w hw).2⟩, fun w hw e _ _ _ => ⟨fun _ => hb w hw, fun _ => .inl (hb w hw)⟩⟩
    · cases hs
  | answered ok =>
    simp only [step] at hs
    split at hs
    · split at hs
      · split at hs <;> cases hs
        · exact h.congr rfl rfl rfl rfl rfl rfl rfl (fun _ => .inr rfl)
        · exact h.congr rfl rfl rfl rfl rfl rfl rfl (fun _ => .inr rfl)
      · cases hs
    · cases hs
  | notice =>
    simp only [step] at hs
    split at hs <;> cases hs
    exact h.congr rfl rfl rfl rfl rfl rfl rfl (fun _ => .inl rfl)
  | record k m => simp only [step] at hs; cases hs; exact h.congr rfl rfl rfl rfl rfl rfl rfl (fun hh => hh)
  | forget k => simp only [step] at hs; cases hs; exact h.congr rfl rfl rfl rfl rfl rfl rfl (fun hh => hh)
  | born u => simp only [step] at hs; split at hs <;> cases hs; exact h.congr rfl rfl rfl rfl rfl rfl rfl (fun hh => hh)
  | gone u => simp only [step] at hs; split at hs <;> cases hs; exact h.congr rfl rfl rfl rfl rfl rfl rfl (fun hh => hh)
  | crash => simp only [step] at hs; split at hs <;> cases hs; exact h.congr rfl rfl rfl rfl rfl rfl rfl (fun hh => hh)

theorem winv_run {mode : Mode} {b : Bool} {ls : List Label} {s : St} (h : Run mode b ls s) : WInv s := by
  induction h with
  | init => exact ⟨fun _ => rfl, by simp [init], by simp [init], by simp [init], by simp [init]⟩
  | snoc _ hs ih => exact winv_step ih hs

/-- **C45** (waiting, partial): who waits when the main pool knows about the loss is woken only after a recovery finished that ended later, unless
a recovery failed meanwhile.  Missing: who waits before the loss is noticed, or whose recovery fails, is woken early (`woken_before_notice`,
`woken_after_abort`) -/
theorem woken_after_recovery_partial {mode : Mode} {b : Bool} {ls : List Label} {s : St} (h : Run mode b ls s) {w : Waiter} (hw : w ∈ s.waiters)
    (hk : w.known = true) {e : Nat} (he : w.event = some e) (hwk : e ∈ s.woken) (ha : s.aborts = w.aborts) : w.recovers < s.recovers :=
  ((winv_run h).pend w hw e he hk ha).1 hwk

/-- **C45** (waiting ends): the first look at a pool that is not lost wakes everybody who waits for it -/
theorem check_wakes {s : St} (hm : s.mon = .idle) (hn : s.noticed = false) {e : Nat} (he : s.event = some e) :
    ∃ s', step s .check = some s' ∧ e ∈ s'.woken := by
  refine ⟨finish s true, ?_, ?_⟩
  · simp [step, hm, hn, he]
  · simp [finish, he]

/-! ## Examples and refutations -/

theorem run_of (mode : Mode) (b : Bool) (ls : List Label) (s : St) (h : ls.foldlM step (init mode b) = some s) : Run mode b ls s := by
  have : ∀ (ls2 ls1 : List Label) (s1 : St), Run mode b ls1 s1 → ls2.foldlM step s1 = some s → Run mode b (ls1 ++ ls2) s := by
    intro ls2
    induction ls2 with
    | nil => intro ls1 s1 h1 h2; cases h2; simpa using h1
    | cons l ls2 ih =>
      intro ls1 s1 h1 h2
      rw [List.foldlM_cons] at h2
      rcases hs : step s1 l with _ | s2
      · rw [hs] at h2; cases h2
      · rw [hs] at h2
        have := ih (ls1 ++ [l]) s2 (.snoc h1 hs) h2
        simpa using this
  simpa using this ls [] (init mode b) .init h

/-- three actors, the second cannot be created again: the others are, and who waits is woken.  Meets the hypotheses of the theorems above -/
def demo : List Label :=
  [.record (some 1) ⟨1, true⟩, .born 1, .record (some 2) ⟨2, true⟩, .born 2, .record (some 3) ⟨3, true⟩, .born 3, .crash, .notice, .wait, .check, .restarted,
   .next, .answered true, .next, .answered false, .next, .answered true, .next]

example : ∃ s, Run .actor true demo s ∧ s.actors = [1, 3] ∧ s.recovers = 1 ∧ s.woken = [1] ∧ s.dirty = false ∧ s.aborts = 0 ∧ s.up = true ∧
    s.waiters = [⟨some 1, 0, 0, true⟩] := ⟨_, run_of _ _ demo _ rfl, by decide⟩

/-- **refuted**: an actor recorded while the loop runs (created by somebody else, or by an actor that is just being created again) ends the
recovery: actor 2 is not created again, and who waited is woken all the same -/
theorem record_aborts : ∃ s, Run .actor true [.record (some 1) ⟨1, true⟩, .record (some 2) ⟨2, true⟩, .crash, .notice, .wait, .check, .restarted,
      .next, .record (some 7) ⟨7, true⟩, .answered true, .next, .check] s ∧
    s.actors = [1] ∧ s.aborts = 1 ∧ s.recovers = 0 ∧ s.woken = [1] ∧ s.mon = .idle ∧ s.noticed = false :=
  ⟨_, run_of _ _ [.record (some 1) ⟨1, true⟩, .record (some 2) ⟨2, true⟩, .crash, .notice, .wait, .check, .restarted,
      .next, .record (some 7) ⟨7, true⟩, .answered true, .next, .check] _ rfl, by decide⟩

/-- **refuted**: a creation that was under way when the process died leaves its placeholder.  Its message is not marked as coming from the main
pool, so the new process tells the main pool about the actor, which changes the records during the loop: actor 2 is lost -/
theorem pending_create_aborts : ∃ s, Run .actor true [.record (some 1) ⟨1, true⟩, .record none ⟨9, false⟩, .record (some 2) ⟨2, true⟩, .crash, .notice,
      .check, .restarted, .next, .answered true, .next, .answered true, .next] s ∧
    s.actors = [1, 9] ∧ s.aborts = 1 ∧ s.recovers = 0 ∧ s.mon = .idle ∧ s.noticed = false :=
  ⟨_, run_of _ _ [.record (some 1) ⟨1, true⟩, .record none ⟨9, false⟩, .record (some 2) ⟨2, true⟩, .crash, .notice,
      .check, .restarted, .next, .answered true, .next, .answered true, .next] _ rfl, by decide⟩

/-- **refuted**: who waits after the process died but before the main pool noticed is woken at once, with the process still dead -/
theorem woken_before_notice : ∃ s, Run .actor true [.crash, .wait, .check] s ∧ s.woken = [1] ∧ s.up = false ∧ s.waiters = [⟨some 1, 0, 0, false⟩] :=
  ⟨_, run_of _ _ [.crash, .wait, .check] _ rfl, by decide⟩

/-- **refuted**: who waits for a recovery that fails is woken at the next look, with the actors missing -/
theorem woken_after_abort : ∃ s, Run .actor true [.record (some 1) ⟨1, true⟩, .crash, .notice, .wait, .check, .restarted, .record (some 7) ⟨7, true⟩, .next,
      .check] s ∧ s.woken = [1] ∧ s.actors = [] ∧ s.recovers = 0 ∧ s.waiters = [⟨some 1, 0, 0, true⟩] :=
  ⟨_, run_of _ _ [.record (some 1) ⟨1, true⟩, .crash, .notice, .wait, .check, .restarted, .record (some 7) ⟨7, true⟩, .next, .check] _ rfl, by decide⟩

/-- **refuted**: without recovery nobody waits: the call returns at once -/
theorem wait_without_recovery : ∃ s, Run .off true [.crash, .notice, .wait] s ∧ s.waiters = [⟨none, 0, 0, true⟩] :=
  ⟨_, run_of _ _ [.crash, .notice, .wait] _ rfl, by decide⟩

/-- **refuted**: the actors of a sub pool that was appended later are not recorded: its recovery fails after the restart -/
theorem appended_not_recovered : ∃ s, Run .actor false [.record (some 1) ⟨1, true⟩, .born 1, .crash, .notice, .check, .restarted] s ∧
    s.actors = [] ∧ s.aborts = 1 ∧ s.recovers = 0 ∧ s.mon = .idle :=
  ⟨_, run_of _ _ [.record (some 1) ⟨1, true⟩, .born 1, .crash, .notice, .check, .restarted] _ rfl, by decide⟩

/-- **refuted**: without recovery the loss of one process is reported again at every look -/
theorem down_again_and_again (n : Nat) : ∃ s, Run .off true ([.crash, .notice] ++ List.replicate n .check) s ∧ s.downs = n := by
  have key : ∀ n, ∃ s, Run .off true ([.crash, .notice] ++ List.replicate n .check) s ∧ s.downs = n ∧ s.noticed = true ∧ s.mon = .idle ∧ s.mode = .off ∧
      s.event = none := by
    intro n
    induction n with
    | zero => exact ⟨_, run_of _ _ [.crash, .notice] _ rfl, by decide⟩
    | succ n ih =>
      obtain ⟨s, h1, h2, h3, h4, h5, h6⟩ := ih
      refine ⟨{ s with downs := s.downs + 1, slots := some [], mon := .idle }, ?_, by simp [h2], h3, rfl, h5, h6⟩
      rw [List.replicate_succ', ← List.append_assoc]
      refine .snoc h1 ?_
      simp [step, h4, h3, h5, h6, finish]
  obtain ⟨s, h1, h2, _⟩ := key n
  exact ⟨s, h1, h2⟩

/-- **C45** (records survive): in actor mode only a recording, a forgetting or a re-created actor's own report changes what is recorded; so what
is re-created is what was recorded when the pool was lost -/
theorem records_kept {s s' : St} {l : Label} (hs : step s l = some s') (hm : s.mode = .actor)
    (hl : ∀ k m, l ≠ .record k m) (hl' : ∀ k, l ≠ .forget k) (hl'' : ∀ ok, l ≠ .answered ok) : s'.slots = s.slots := by
  cases l <;> simp only [step] at hs
  case record k m => exact absurd rfl (hl k m)
  case forget k => exact absurd rfl (hl' k)
  case answered ok => exact absurd rfl (hl'' ok)
  all_goals
    have f1 : ∀ (s : St) d, (finish s d).slots = s.slots := fun s d => by simp only [finish]; split <;> rfl
    grind [abort]

/-- **C45**: a restarted pool counts as running again -/
theorem restarted_up {s s' : St} (hs : step s .restarted = some s') : s'.up = true ∧ s'.noticed = false := by
  simp only [step] at hs
  have f1 : ∀ (s : St) d, (finish s d).up = s.up ∧ (finish s d).noticed = s.noticed := fun s d => by simp only [finish]; split <;> exact ⟨rfl, rfl⟩
  grind [abort]

/-! ## The records and the loop, in terms of what happened -/

/-- what a dict holds under a key -/
def look (k : Option Uid) (l : Slots) : Option Msg :=
  l.findSome? (fun x => match x with | some (k', m) => if k' = k then some m else none | none => none)

/-- the records the main pool ought to have: what was recorded last for the key, unless it was forgotten since -/
def book (k : Option Uid) : List Label → Option Msg → Option Msg
  | [], b => b
  | .record k' m :: ls, b => book k ls (if k' = k then some m else b)
  | .forget k' :: ls, b => book k ls (if k' = k then none else b)
  | _ :: ls, b => book k ls b

/-- the process was started again, and since then nothing was recorded or forgotten, and neither it nor one of its actors went away -/
def calm : List Label → Bool → Bool
  | [], b => b
  | .restarted :: ls, _ => calm ls true
  | .record _ _ :: ls, _ => calm ls false
  | .forget _ :: ls, _ => calm ls false
  | .gone _ :: ls, _ => calm ls false
  | .crash :: ls, _ => calm ls false
  | _ :: ls, b => calm ls b

/-- creations answered with an error since the process was started again -/
def failures : List Label → Nat → Nat
  | [], n => n
  | .restarted :: ls, _ => failures ls 0
  | .answered false :: ls, n => failures ls (n + 1)
  | _ :: ls, n => failures ls n

theorem book_append (k : Option Uid) (l1 l2 : List Label) (b : Option Msg) : book k (l1 ++ l2) b = book k l2 (book k l1 b) := by
  induction l1 generalizing b with
  | nil => rfl
  | cons x xs ih => cases x <;> simp only [List.cons_append, book, ih]

theorem calm_append (l1 l2 : List Label) (b : Bool) : calm (l1 ++ l2) b = calm l2 (calm l1 b) := by
  induction l1 generalizing b with
  | nil => rfl
  | cons x xs ih => cases x <;> simp only [List.cons_append, calm, ih]

theorem failures_append (l1 l2 : List Label) (b : Nat) : failures (l1 ++ l2) b = failures l2 (failures l1 b) := by
  induction l1 generalizing b with
  | nil => rfl
  | cons x xs ih =>
    cases x <;> simp only [List.cons_append, failures, ih]
    next ok => cases ok <;> simp only [failures, ih]

theorem look_del (k k' : Option Uid) (l : Slots) : look k' (del k l) = if k = k' then none else look k' l := by
  induction l with
  | nil => simp [look, del]
  | cons x xs ih =>
    simp only [look, del, List.map_cons, List.findSome?_cons] at ih ⊢
    rcases x with _ | ⟨k0, m0⟩
    · simpa using ih
    · simp only
      by_cases h0 : k0 = k
      · simp only [h0, if_true]
        rw [ih]
        by_cases h1 : k = k' <;> simp [h1]
      · simp only [h0, if_false]
        by_cases h1 : k0 = k'
        · have : ¬ k = k' := fun hh => h0 (h1.trans hh.symm)
          simp [h1, this]
        · simp only [h1, if_false]; exact ih

theorem hasKey_iff (k : Option Uid) (l : Slots) : hasKey k l = true ↔ look k l ≠ none := by
  induction l with
  | nil => simp [hasKey, look]
  | cons x xs ih =>
    simp only [hasKey, look, List.any_cons, List.findSome?_cons, Bool.or_eq_true] at ih ⊢
    rcases x with _ | ⟨k0, m0⟩
    · simpa using ih
    · by_cases h0 : k0 = k
      · simp [h0]
      · simpa [h0] using ih

theorem look_put (k k' : Option Uid) (m : Msg) (l : Slots) : look k' (put k m l) = if k = k' then some m else look k' l := by
  unfold put
  split
  · next hk =>
    rw [hasKey_iff] at hk
    induction l with
    | nil => simp [look] at hk
    | cons x xs ih =>
      simp only [look, List.map_cons, List.findSome?_cons] at ih hk ⊢
      rcases x with _ | ⟨k0, m0⟩
      · simp only at hk; simpa using ih hk
      · by_cases h0 : k0 = k
        · subst h0
          by_cases h1 : k0 = k'
          · simp [h1]
          · simp only [if_true, h1, if_false]
            clear ih hk
            induction xs with
            | nil => rfl
            | cons y ys ih =>
              simp only [List.map_cons, List.findSome?_cons]
              rcases y with _ | ⟨k1, m1⟩
              · exact ih
              · by_cases h2 : k1 = k0
                · subst h2; simp only [if_true, h1, if_false]; exact ih
                · simp only [h2, if_false]; rw [ih]
        · simp only [h0, if_false] at hk ⊢
          have := ih hk
          by_cases h1 : k0 = k'
          · have : ¬ k = k' := fun hh => h0 (h1.trans hh.symm)
            simp [h1, this]
          · simp only [h1, if_false]; exact this
  · next hk =>
    rw [hasKey_iff] at hk
    simp only [look, ne_eq, Classical.not_not] at hk ⊢
    rw [List.findSome?_append]
    by_cases h1 : k = k'
    · subst h1; rw [hk]; simp
    · simp [h1]

structure RInv (ls : List Label) (s : St) : Prop where
  mode : s.mode = .actor
  recs : ∃ l, s.slots = some l ∧ (∀ k, look k l = book k ls none) ∧ ∀ m ∈ recorded l, m.fromMain = true
  calling : ∀ d pos size m, s.mon = .calling d pos size m → m.fromMain = true
  calm : calm ls false = true → s.dirty = false
  fails : s.failed.length = failures ls 0

theorem recorded_put {k : Option Uid} {m x : Msg} {l : Slots} (h : x ∈ recorded (put k m l)) : x = m ∨ x ∈ recorded l := by
  unfold put at h
  split at h
  · simp only [recorded, List.mem_filterMap, List.mem_map] at h ⊢
    obtain ⟨a, ⟨b, hb, hab⟩, ha⟩ := h
    rcases b with _ | ⟨k', m'⟩
    · simp only at hab; subst hab; simp at ha
    · simp only at hab
      split at hab
      · subst hab; simp at ha; exact .inl ha.symm
      · subst hab; exact .inr ⟨_, hb, ha⟩
  · simp only [recorded, List.filterMap_append, List.mem_append, List.filterMap_cons, List.filterMap_nil, Option.map_some, List.mem_singleton] at h
    rcases h with h | h
    · exact .inr h
    · exact .inl h

theorem recorded_del {k : Option Uid} {x : Msg} {l : Slots} (h : x ∈ recorded (del k l)) : x ∈ recorded l := by
  simp only [del, recorded, List.mem_filterMap, List.mem_map] at h ⊢
  obtain ⟨a, ⟨b, hb, hab⟩, ha⟩ := h
  rcases b with _ | ⟨k', m'⟩
  · simp only at hab; subst hab; simp at ha
  · simp only at hab
    split at hab
    · subst hab; simp at ha
    · subst hab; exact ⟨_, hb, ha⟩

theorem nextEntry_mem {l : Slots} {pos pos' : Nat} {m : Msg} (h : nextEntry l pos = some (m, pos')) : m ∈ recorded l := by
  have := (nextEntry_some h).2.2
  have hm : m ∈ recorded (l.take pos') := by rw [this]; simp
  simp only [recorded, List.mem_filterMap] at hm ⊢
  obtain ⟨a, ha, hx⟩ := hm
  exact ⟨a, List.mem_of_mem_take ha, hx⟩

theorem finish_same (s : St) (d : Bool) : (finish s d).mode = s.mode ∧ (finish s d).dirty = s.dirty := by
  simp only [finish]; split <;> exact ⟨rfl, rfl⟩

theorem rinv_finish {ls : List Label} {s : St} (d : Bool) (h : RInv ls s) : RInv ls (finish s d) := by
  obtain ⟨h1, h2, h3, h4, h5⟩ := h
  have e := finish_recovers s d
  have e' := finish_same s d
  refine ⟨e'.1.trans h1, ?_, ?_, ?_, ?_⟩
  · rw [e.2.1]; exact h2
  · intro d' pos size m hm; rw [finish_mon] at hm; cases hm
  · rw [e'.2]; exact h4
  · rw [e.2.2.2.2.1]; exact h5

theorem rinv {ls : List Label} {s : St} (h : Run .actor true ls s) (hm : ∀ k m, Label.record k m ∈ ls → m.fromMain = true) : RInv ls s := by
  induction h with
  | init => exact ⟨rfl, ⟨[], rfl, fun k => rfl, by simp [recorded]⟩, by simp [init], fun _ => rfl, rfl⟩
  | @snoc ls l s s' _ hs ih =>
    obtain ⟨h1, ⟨t, h2, h2a, h2b⟩, h3, h4, h5⟩ := ih (fun k m h => hm k m (by simp [h]))
    cases l with
    | record k m =>
      cases hs
      refine ⟨h1, ⟨put k m t, by simp [h2], fun k' => ?_, fun x hx => ?_⟩, h3, ?_, ?_⟩
      · rw [look_put, book_append, h2a]; rfl
      · rcases recorded_put hx with rfl | hx
        · exact hm k x (by simp)
        · exact h2b x hx
      · rw [calm_append]; simp [calm]
      · rw [failures_append]; exact h5
    | forget k =>
      cases hs
      refine ⟨h1, ⟨del k t, by simp [h2], fun k' => ?_, fun x hx => h2b x (recorded_del hx)⟩, h3, ?_, ?_⟩
      · rw [look_del, book_append, h2a]; rfl
      · rw [calm_append]; simp [calm]
      · rw [failures_append]; exact h5
    | born u =>
      simp only [step] at hs; split at hs <;> cases hs
      exact ⟨h1, ⟨t, h2, fun k' => by rw [book_append, h2a]; rfl, h2b⟩, h3, by rw [calm_append]; exact h4, by rw [failures_append]; exact h5⟩
    | gone u =>
      simp only [step] at hs; split at hs <;> cases hs
      exact ⟨h1, ⟨t, h2, fun k' => by rw [book_append, h2a]; rfl, h2b⟩, h3, by rw [calm_append]; simp [calm], by rw [failures_append]; exact h5⟩
    | crash =>
      simp only [step] at hs; split at hs <;> cases hs
      exact ⟨h1, ⟨t, h2, fun k' => by rw [book_append, h2a]; rfl, h2b⟩, h3, by rw [calm_append]; simp [calm], by rw [failures_append]; exact h5⟩
    | notice =>
      simp only [step] at hs; split at hs <;> cases hs
      exact ⟨h1, ⟨t, h2, fun k' => by rw [book_append, h2a]; rfl, h2b⟩, h3, by rw [calm_append]; exact h4, by rw [failures_append]; exact h5⟩
    | wait =>
      simp only [step] at hs; repeat' split at hs
      all_goals
        cases hs
        exact ⟨h1, ⟨t, h2, fun k' => by rw [book_append, h2a]; rfl, h2b⟩, h3, by rw [calm_append]; exact h4, by rw [failures_append]; exact h5⟩
    | check =>
      simp only [step, h1] at hs
      split at hs
      · split at hs <;> cases hs
        · exact ⟨rfl, ⟨t, h2, fun k' => by rw [book_append, h2a]; rfl, h2b⟩, by simp, by rw [calm_append]; exact h4, by rw [failures_append]; exact h5⟩
        · exact rinv_finish _ ⟨h1, ⟨t, h2, fun k' => by rw [book_append, h2a]; rfl, h2b⟩, h3, by rw [calm_append]; exact h4, by rw [failures_append]; exact h5⟩
      · cases hs
    | restarted =>
      simp only [step] at hs
      split at hs
      · simp only [h1, h2] at hs
        cases hs
        exact ⟨rfl, ⟨t, rfl, fun k' => by rw [book_append, h2a]; rfl, h2b⟩, by simp, fun _ => rfl, by rw [failures_append]; rfl⟩
      · cases hs
    | restartFailed =>
      simp only [step] at hs
      split at hs <;> cases hs
      exact ⟨h1, ⟨t, h2, fun k' => by rw [book_append, h2a]; rfl, h2b⟩, by simp [abort], by rw [calm_append]; exact h4, by rw [failures_append]; exact h5⟩
    | next =>
      simp only [step] at hs
      split at hs
      · next d pos size l hmon hsl =>
        rw [h2] at hsl; cases hsl
        split at hs
        · cases hs
          exact ⟨h1, ⟨t, h2, fun k' => by rw [book_append, h2a]; rfl, h2b⟩, by simp [abort], by rw [calm_append]; exact h4, by rw [failures_append]; exact h5⟩
        · split at hs <;> cases hs
          · next m pos' hn =>
            refine ⟨h1, ⟨t, h2, fun k' => by rw [book_append, h2a]; rfl, h2b⟩, ?_, by rw [calm_append]; exact h4, by rw [failures_append]; exact h5⟩
            intro d' p' s' m' hh
            cases hh
            exact h2b _ (nextEntry_mem hn)
          · exact rinv_finish _ ⟨h1, ⟨t, h2, fun k' => by rw [book_append, h2a]; rfl, h2b⟩, h3, by rw [calm_append]; exact h4, by rw [failures_append]; exact h5⟩
      · cases hs
    | answered ok =>
      simp only [step] at hs
      split at hs
      · next d pos size m hmon =>
        have hfm := h3 _ _ _ _ hmon
        by_cases hup : s.up = true
        · rw [if_pos hup, if_pos hfm] at hs
          cases hs
          refine ⟨h1, ⟨t, h2, fun k' => by rw [book_append, h2a]; rfl, h2b⟩, by simp, by rw [calm_append]; exact h4, ?_⟩
          rw [failures_append]
          cases ok <;> simp [failures, h5]
        · rw [if_neg hup] at hs; cases hs
      · cases hs
    | lost =>
      simp only [step] at hs
      split at hs
      · split at hs <;> cases hs
        exact ⟨h1, ⟨t, h2, fun k' => by rw [book_append, h2a]; rfl, h2b⟩, by simp [abort], by rw [calm_append]; exact h4, by rw [failures_append]; exact h5⟩
      · cases hs

/-- **C45** (records): the main pool's records of a pool are what was recorded last for each actor and not forgotten since, through any
number of losses and recoveries -/
theorem records_exact {ls : List Label} {s : St} (h : Run .actor true ls s) (hm : ∀ k m, Label.record k m ∈ ls → m.fromMain = true) :
    ∃ l, s.slots = some l ∧ ∀ k, look k l = book k ls none := by
  obtain ⟨l, h1, h2, _⟩ := (rinv h hm).recs
  exact ⟨l, h1, h2⟩

/-- **C45** (complete, partial): the same as `recovery_complete_partial`, with everything said about the history: when a recovery ends and since
the restart nothing was recorded or forgotten and nothing else died, every creation then on record was sent to the new process, and each of
these actors exists there or its creation failed; and no more of them failed than creations were answered with an error since the restart -/
theorem recovery_history_partial {ls : List Label} {s s' : St} (h : Run .actor true ls s) (hm : ∀ k m, Label.record k m ∈ ls → m.fromMain = true)
    (hc : calm ls false = true) (hs : step s .next = some s') (hr : s'.recovers = s.recovers + 1) :
    (∀ k m, book k ls none = some m → m ∈ s'.sent ∧ (m.uid ∈ s'.actors ∨ m ∈ s'.failed)) ∧
    s'.failed.length = failures ls 0 := by
  have hi := rinv h hm
  have hi' := rinv (.snoc h hs) (fun k m h => hm k m (by simpa using h))
  obtain ⟨l, h1, h2, h3⟩ := recovery_complete_partial h hs hr (hi.calm hc)
  refine ⟨fun k m hk => ?_, ?_⟩
  · obtain ⟨l', e1, e2, _⟩ := hi'.recs
    rw [h1] at e1; cases e1
    have hl := e2 k
    rw [book_append] at hl
    have hl : look k l = some m := hl.trans hk
    have hmem : m ∈ recorded l := by
      obtain ⟨x, hx, hxe⟩ := List.exists_of_findSome?_eq_some hl
      rcases x with _ | ⟨k', m'⟩
      · simp at hxe
      · simp only [Option.ite_none_right_eq_some, Option.some.injEq] at hxe
        simp only [recorded, List.mem_filterMap]
        exact ⟨_, hx, by rw [← hxe.2]; rfl⟩
    exact ⟨by rw [h2]; exact hmem, h3 m hmem⟩
  · have := hi'.fails
    rw [failures_append] at this
    exact this

/-- **C45** (no half-done recovery for ever): whatever happens to the process, the monitor's recovery has a next step -/
theorem monitor_goes_on {ls : List Label} {s : St} (h : Run .actor true ls s) (hm : ∀ k m, Label.record k m ∈ ls → m.fromMain = true)
    (hr : s.mon ≠ .idle) : ∃ l s', l ∈ [Label.restarted, .next, .answered true, .lost] ∧ step s l = some s' := by
  have hi := rinv h hm
  obtain ⟨t, h2, -, -⟩ := hi.recs
  rcases hmon : s.mon with _ | d | ⟨d, pos, size⟩ | ⟨d, pos, size, m⟩
  · exact absurd hmon hr
  · exact ⟨.restarted, _, by simp, by simp only [step, hmon, hi.mode, h2]; rfl⟩
  · rcases hn : nextEntry t pos with _ | ⟨m, p⟩
    · by_cases hu : used t ≠ size
      · exact ⟨.next, _, by simp, by simp only [step, hmon, h2, if_pos hu]; rfl⟩
      · exact ⟨.next, _, by simp, by simp only [step, hmon, h2, if_neg hu, hn]; rfl⟩
    · by_cases hu : used t ≠ size
      · exact ⟨.next, _, by simp, by simp only [step, hmon, h2, if_pos hu]; rfl⟩
      · exact ⟨.next, _, by simp, by simp only [step, hmon, h2, if_neg hu, hn]; rfl⟩
  · have hf := hi.calling _ _ _ _ hmon
    rcases hu : s.up
    · exact ⟨.lost, _, by simp, by simp only [step, hmon, hu]; rfl⟩
    · exact ⟨.answered true, _, by simp, by simp only [step, hmon, hu, hf]; rfl⟩

example : calm demo false = true ∧ failures demo 0 = 1 ∧ book (some 2) demo none = some ⟨2, true⟩ ∧
    (∀ k m, Label.record k m ∈ demo → m.fromMain = true) :=
  ⟨rfl, rfl, rfl, fun k m h => by simp [demo] at h; rcases h with h | h | h <;> rw [h.2]⟩

/-- **C45** (no recovery of actors): when actors are not recovered, the loss of the process empties the records of the pool -/
theorem loss_forgets {s s' : St} (hs : step s .check = some s') (hn : s.noticed = true) (hm : s.mode ≠ .actor) : s'.slots = some [] := by
  simp only [step, hn, if_true] at hs
  split at hs
  · split at hs
    · cases hs; exact (finish_recovers _ _).2.1
    · cases hs; rfl
    · next h => exact absurd h hm
  · cases hs

/-- an answer about a creation that did not come from the main pool is recorded there -/
theorem answered_records {s s' : St} {ok d : Bool} {pos size : Nat} {m : Msg} {l : Slots} (hs : step s (.answered ok) = some s')
    (hm : s.mon = .calling d pos size m) (hl : s.slots = some l) :
    ∃ l', s'.slots = some l' ∧ ∀ k, look k l' = if m.fromMain = false ∧ k = some m.uid then some ⟨m.uid, true⟩ else look k l := by
  simp only [step, hm] at hs
  split at hs
  · split at hs
    · next hf => cases hs; exact ⟨l, hl, fun k => by rw [if_neg (fun hh => by rw [hf] at hh; cases hh.1)]⟩
    · next hf =>
      cases hs
      refine ⟨_, by simp only [hl]; rfl, fun k => ?_⟩
      rw [look_put]
      by_cases hk : some m.uid = k
      · rw [if_pos hk, if_pos ⟨by simpa using hf, hk.symm⟩]
      · rw [if_neg hk, if_neg (fun hh => hk hh.2.symm)]
  · cases hs

/-- **refuted**: an actor destroyed while its pool is recovered ends the recovery: actor 2 is not created again -/
theorem forget_aborts : ∃ s, Run .actor true [.record (some 1) ⟨1, true⟩, .record (some 2) ⟨2, true⟩, .crash, .notice, .wait, .check, .restarted,
      .next, .answered true, .forget (some 1), .next, .check] s ∧
    s.actors = [1] ∧ s.aborts = 1 ∧ s.recovers = 0 ∧ s.woken = [1] ∧ s.mon = .idle ∧ s.noticed = false :=
  ⟨_, run_of _ _ [.record (some 1) ⟨1, true⟩, .record (some 2) ⟨2, true⟩, .crash, .notice, .wait, .check, .restarted,
      .next, .answered true, .forget (some 1), .next, .check] _ rfl, by decide⟩

/-- **C45**: there are actors in a running process only, and the main pool takes a process for lost only if it is -/
theorem lost_is_lost {mode : Mode} {b : Bool} {ls : List Label} {s : St} (h : Run mode b ls s) :
    (s.up = false → s.actors = []) ∧ (s.noticed = true → s.up = false) := by
  have hf : ∀ (x : St) (d : Bool), (finish x d).up = x.up ∧ (finish x d).actors = x.actors ∧ (finish x d).noticed = x.noticed := by
    intro x d; unfold finish; split <;> exact ⟨rfl, rfl, rfl⟩
  induction h with
  | init => simp [init]
  | @snoc ls l s s' _ hs ih =>
    obtain ⟨i1, i2⟩ := ih
    cases l <;> simp only [step] at hs <;> (repeat' split at hs) <;> cases hs <;>
      simp only [hf, abort] <;> grind

/-- **C45** (waiting): in a pool that recovers, who asks waits, for the one event everybody waits for at that time; in one that does not, nobody
waits -/
theorem wait_waits (s : St) : ∃ s' w, step s .wait = some s' ∧ s'.waiters = s.waiters ++ [w] ∧ (w.event = none ↔ s.mode = .off) ∧
    (s.mode ≠ .off → w.event = s'.event) ∧ (s.event ≠ none → s'.event = s.event) := by
  simp only [step]
  by_cases hm : s.mode = .off
  · rw [if_pos hm]; exact ⟨_, _, rfl, rfl, by simp [hm], by simp [hm], by simp⟩
  · rw [if_neg hm]
    rcases he : s.event with _ | e
    · exact ⟨_, _, rfl, rfl, by simp [hm], by simp, by simp⟩
    · exact ⟨_, _, rfl, rfl, by simp [hm], by simp [he], by simp [he]⟩

/-- **C45** (failing): a recovery fails only if the process cannot be started, if it is lost once more while a creation is under way, if nothing is
recorded for this pool, or if the number of records changed meanwhile -/
theorem aborts_why {s s' : St} {l : Label} (hs : step s l = some s') (ha : s'.aborts ≠ s.aborts) :
    s'.aborts = s.aborts + 1 ∧ (l = .restartFailed ∨ (l = .lost ∧ s.up = false) ∨ s.slots = none ∨
      ∃ d pos size r, s.mon = .looping d pos size ∧ s.slots = some r ∧ used r ≠ size) := by
  have hf : ∀ (x : St) (d : Bool), (finish x d).aborts = x.aborts := fun x d => (finish_recovers x d).2.2.2.2.2
  cases l <;> simp only [step] at hs <;> (repeat' split at hs) <;> cases hs <;>
    first
      | exact absurd rfl ha
      | exact absurd (hf _ _) ha
      | skip
  · rename_i hsl; exact ⟨rfl, .inr (.inr (.inl hsl))⟩
  · exact ⟨rfl, .inl rfl⟩
  · rename_i hm hsl hu; exact ⟨rfl, .inr (.inr (.inr ⟨_, _, _, _, hm, hsl, hu⟩))⟩
  · rename_i hup; exact ⟨rfl, .inr (.inl ⟨rfl, by simpa using hup⟩)⟩

end Xoscar.Recovery
