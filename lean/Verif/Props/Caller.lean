import Verif.Model.Caller
import Verif.Proof.Base
/-!
# C20 Replies reach the caller that asked; C21 No caller hangs when the connection dies
-/
namespace Xoscar.Caller
open scoped List

/-! ## helper lemmas -/

theorem failAll_get (e : Exc) (ms : List Nat) (futs : Dict Nat Fut) (id : Nat) :
    (failAll e ms futs).1.get? id = futs.get? id ∨
    (futs.get? id = some .pending ∧ id ∈ ms ∧ (failAll e ms futs).1.get? id = some (.exc e)) := by
  induction ms generalizing futs with
  | nil => exact .inl rfl
  | cons m ms ih =>
    rcases h : futs.get? m with _ | f
    · exact .inl (by simp only [failAll, h])
    · cases f with
      | pending =>
        simp only [failAll, h]
        rcases ih (futs.set m (.exc e)) with h1 | ⟨h1, h2, h3⟩
        · rw [h1, Dict.get?_set]
          split
          · next em => subst em; exact .inr ⟨h, by simp, rfl⟩
          · exact .inl rfl
        · rw [Dict.get?_set] at h1
          split at h1
          · cases h1
          · exact .inr ⟨h1, List.mem_cons_of_mem _ h2, h3⟩
      | result p => exact .inl (by simp only [failAll, h])
      | exc e' => exact .inl (by simp only [failAll, h])
      | cancelled => exact .inl (by simp only [failAll, h])

theorem failAll_ok (e : Exc) (ms : List Nat) (futs : Dict Nat Fut) (hn : ms.Nodup)
    (h : ∀ m ∈ ms, futs.get? m = some .pending) :
    (failAll e ms futs).2 = true ∧ ∀ id, (failAll e ms futs).1.get? id =
      if id ∈ ms then some (.exc e) else futs.get? id := by
  induction ms generalizing futs with
  | nil => exact ⟨rfl, fun id => by simp [failAll]⟩
  | cons m ms ih =>
    simp only [List.nodup_cons] at hn
    have hm := h m (by simp)
    simp only [failAll, hm]
    obtain ⟨h1, h2⟩ := ih (futs.set m (.exc e)) hn.2 (by
      intro x hx
      rw [Dict.get?_set, if_neg (by rintro rfl; exact hn.1 hx)]
      exact h x (List.mem_cons_of_mem _ hx))
    refine ⟨h1, fun id => ?_⟩
    rw [h2, Dict.get?_set]
    by_cases e1 : id = m
    · subst e1; simp
    · have e2 : ¬ m = id := fun h => e1 h.symm
      simp [e1, e2]

theorem failPending_get (s : St) (e : Exc) (id : Nat) :
    (s.failPending e).futs.get? id = s.futs.get? id ∨
    (s.futs.get? id = some .pending ∧ (s.failPending e).futs.get? id = some (.exc e)) := by
  unfold St.failPending
  simp only
  split <;>
  · rcases failAll_get e s.table s.futs id with h | ⟨h1, _, h3⟩
    · exact .inl h
    · exact .inr ⟨h1, h3⟩

theorem failPending_sendFailed (s : St) (e : Exc) : (s.failPending e).sendFailed = s.sendFailed := by
  unfold St.failPending; simp only; split <;> rfl

/-! ## C20 -/

/-- a step changes a future only in the allowed ways -/
theorem step_fut (s : St) (ev : Ev) (id : Nat) (p : Nat)
    (h : (s.step ev).futs.get? id = some (.result p)) :
    s.futs.get? id = some (.result p) ∨
      (s.futs.get? id = some .pending ∧ ev = .recv id p) := by
  have keep : ∀ (s' : St) e, (s'.failPending e).futs.get? id = some (.result p) →
      s'.futs.get? id = some (.result p) := by
    intro s' e h
    rcases failPending_get s' e id with h1 | ⟨_, h2⟩
    · rw [← h1]; exact h
    · rw [h2] at h; cases h
  cases ev with
  | call i =>
    simp only [St.step, St.register] at h
    split at h
    · exact .inl h
    · split at h <;>
      · simp only [Dict.get?_set] at h
        split at h
        · cases h
        · exact .inl h
  | callSendError i =>
    simp only [St.step, St.register] at h
    split at h
    · exact .inl h
    · simp only [Dict.get?_set] at h
      split at h
      · cases h
      · exact .inl h
  | cancel i =>
    simp only [St.step] at h
    split at h
    · simp only [Dict.get?_set] at h
      split at h
      · cases h
      · exact .inl h
    · exact .inl h
  | recv i q =>
    simp only [St.step] at h
    split at h
    · exact .inl h
    · split at h
      · split at h
        · next hp =>
          simp only [Dict.get?_set] at h
          split at h
          · next e => subst e; cases h; exact .inr ⟨hp, rfl⟩
          · exact .inl h
        · exact .inl h
      · exact .inl (keep _ _ h)
  | recvBad i q =>
    simp only [St.step] at h
    split at h
    · exact .inl h
    · split at h
      · split at h
        · simp only [Dict.get?_set] at h
          split at h
          · cases h
          · exact .inl h
        · exact .inl h
      · exact .inl h
  | recvEof =>
    simp only [St.step] at h
    split at h
    · exact .inl h
    · exact .inl (keep { s with closed := true } _ h)
  | recvError n =>
    simp only [St.step] at h
    split at h
    · exact .inl h
    · exact .inl (keep _ _ h)
  | loop =>
    simp only [St.step] at h
    split at h
    · exact .inl h
    · split at h
      · split at h
        · exact .inl (keep _ _ h)
        · exact .inl (keep _ _ h)
      · exact .inl h
  | close => exact .inl h
  | cancelTasks =>
    simp only [St.step] at h
    split at h <;> exact .inl h

theorem run_snoc (s : St) (evs : List Ev) (e : Ev) : s.run (evs ++ [e]) = (s.run evs).step e := by
  simp [St.run]

/-- **C20**: a call returns a payload only if a reply with the call's own id and that payload was
received, after the call was made and while it was waiting. -/
theorem reply_matches (evs : List Ev) (id p : Nat) (h : (St.init.run evs).view id = .returned p) :
    ∃ before after, evs = before ++ .recv id p :: after ∧ (St.init.run before).futs.get? id = some .pending := by
  have hf : (St.init.run evs).futs.get? id = some (.result p) := by
    unfold St.view at h
    split at h
    · cases h
    · split at h <;> simp_all
  clear h
  induction evs using List.reverseRecOn' with
  | nil => simp [St.run, St.init] at hf
  | append_singleton evs e ih =>
    rw [run_snoc] at hf
    rcases step_fut _ _ _ _ hf with h | ⟨h, he⟩
    · obtain ⟨b, a, h1, h2⟩ := ih h
      exact ⟨b, a ++ [e], by rw [h1]; simp, h2⟩
    · subst he; exact ⟨evs, [], rfl, h⟩

/-- invariant: the table holds exactly the ids whose future may still be resolved by the listener -/
structure TInv (s : St) : Prop where
  nodup : s.table.Nodup
  known : ∀ m ∈ s.table, ∃ f, s.futs.get? m = some f
  pending : s.listener = .running → ∀ m, s.futs.get? m = some .pending → m ∈ s.table
  live : ∀ m ∈ s.table, s.futs.get? m = some .pending ∨ s.futs.get? m = some .cancelled

theorem register_inv (s : St) (h : TInv s) (id : Nat) : TInv (s.register id) := by
  unfold St.register
  refine ⟨?_, ?_, ?_, ?_⟩
  · rw [List.nodup_append]
    refine ⟨h.nodup.filter _, by simp, ?_⟩
    intro a ha b hb e
    subst e; simp at ha hb; exact ha.2 hb
  · intro m hm
    simp only [Dict.get?_set]
    split
    · exact ⟨_, rfl⟩
    · next hne =>
      simp only [List.mem_append, List.mem_filter, List.mem_singleton] at hm
      rcases hm with hm | hm
      · exact h.known m hm.1
      · exact absurd hm.symm hne
  · intro hl m hm
    simp only [Dict.get?_set] at hm
    simp only [List.mem_append, List.mem_filter, List.mem_singleton]
    split at hm
    · next e => exact .inr e.symm
    · next e => exact .inl ⟨h.pending hl m hm, by simpa using fun h : m = id => e h.symm⟩
  · intro m hm
    simp only [Dict.get?_set]
    split
    · exact .inl rfl
    · next hne =>
      simp only [List.mem_append, List.mem_filter, List.mem_singleton] at hm
      rcases hm with hm | hm
      · exact h.live m hm.1
      · exact absurd hm.symm hne

theorem failAll_true (e : Exc) (ms : List Nat) (futs : Dict Nat Fut) (hok : (failAll e ms futs).2 = true) :
    ∀ m ∈ ms, (failAll e ms futs).1.get? m = some (.exc e) := by
  induction ms generalizing futs with
  | nil => simp
  | cons m ms ih =>
    rcases h : futs.get? m with _ | f
    · simp [failAll, h] at hok
    · cases f with
      | pending =>
        simp only [failAll, h] at hok ⊢
        intro x hx
        rcases List.mem_cons.mp hx with rfl | hx
        · rcases failAll_get e ms (futs.set x (.exc e)) x with h1 | ⟨_, _, h3⟩
          · rw [h1]; simp
          · exact h3
        · exact ih _ hok x hx
      | result p => simp [failAll, h] at hok
      | exc e' => simp [failAll, h] at hok
      | cancelled => simp [failAll, h] at hok

theorem failPending_inv (s : St) (h : TInv s) (hl : s.listener = .running) (e : Exc) : TInv (s.failPending e) := by
  unfold St.failPending
  simp only
  split
  · next hok =>
    refine ⟨by simp, by simp, ?_, by simp⟩
    intro _ m hm
    exfalso
    have hm' : m ∈ s.table := by
      rcases failAll_get e s.table s.futs m with h1 | ⟨_, h2, _⟩
      · simp only at hm; rw [h1] at hm; exact h.pending hl m hm
      · exact h2
    have := failAll_true e s.table s.futs hok m hm'
    simp only at hm; rw [this] at hm; cases hm
  · refine ⟨by simp, by simp, by simp, by simp⟩

theorem step_inv (s : St) (h : TInv s) (ev : Ev) : TInv (s.step ev) := by
  have popped : ∀ (id : Nat) (f : Fut) , TInv s → f.done = true →
      TInv { s with table := s.table.filter (· ≠ id), futs := s.futs.set id f } := by
    intro id f h hf
    refine ⟨h.nodup.filter _, ?_, ?_, ?_⟩
    · intro m hm
      simp only [Dict.get?_set]
      split
      · exact ⟨_, rfl⟩
      · exact h.known m (List.mem_filter.mp hm).1
    · intro hl m hm
      simp only [Dict.get?_set] at hm
      split at hm
      · cases hm; cases hf
      · next e => exact List.mem_filter.mpr ⟨h.pending hl m hm, by simpa using fun h : m = id => e h.symm⟩
    · intro m hm
      have hm' := List.mem_filter.mp hm
      have hne : ¬ id = m := by
        intro e; subst e; simp at hm'
      simp only [Dict.get?_set, hne, if_false]
      exact h.live m hm'.1
  have dropped : ∀ (id : Nat) (l : Listener) (c : Bool), (s.futs.get? id ≠ some .pending ∨ l = .crashed) →
      (l = .running → s.listener = .running) →
      TInv { s with table := s.table.filter (· ≠ id), listener := l, closed := c } := by
    intro id l c hor hl'
    refine ⟨h.nodup.filter _, ?_, ?_, ?_⟩
    · intro m hm; exact h.known m (List.mem_filter.mp hm).1
    · intro hl m hm
      have hne : m ≠ id := by
        rintro rfl
        rcases hor with hor | hor
        · exact hor hm
        · simp only at hl; rw [hor] at hl; cases hl
      exact List.mem_filter.mpr ⟨h.pending (hl' hl) m hm, by simpa using hne⟩
    · intro m hm; exact h.live m (List.mem_filter.mp hm).1
  cases ev with
  | call i =>
    simp only [St.step]
    split
    · exact h
    · have := register_inv s h i
      split
      · exact ⟨this.nodup, this.known, this.pending, this.live⟩
      · exact this
  | callSendError i =>
    simp only [St.step]
    split
    · exact h
    · have := register_inv s h i
      exact ⟨this.nodup, this.known, this.pending, this.live⟩
  | cancel i =>
    simp only [St.step]
    split
    · next hp =>
      refine ⟨h.nodup, ?_, ?_, ?_⟩
      · intro m hm; simp only [Dict.get?_set]; split
        · exact ⟨_, rfl⟩
        · exact h.known m hm
      · intro hl m hm; simp only [Dict.get?_set] at hm; split at hm
        · cases hm
        · exact h.pending hl m hm
      · intro m hm; simp only [Dict.get?_set]; split
        · exact .inr rfl
        · exact h.live m hm
    · exact h
  | recv i q =>
    simp only [St.step]
    split
    · exact h
    · next hl =>
      have hrun : s.listener = .running := by simpa using hl
      split
      · split
        · exact popped i _ h rfl
        · next hnp =>
          have := dropped i s.listener s.closed (.inl (by intro e; exact hnp e)) (fun h => h)
          exact this
      · exact failPending_inv s h hrun _
  | recvBad i q =>
    simp only [St.step]
    split
    · exact h
    · split
      · split
        · exact popped i _ h rfl
        · exact dropped i .crashed true (.inr rfl) (by simp)
      · exact ⟨h.nodup, h.known, by simp, h.live⟩
  | recvEof =>
    simp only [St.step]
    split
    · exact h
    · next hl => exact failPending_inv { s with closed := true } ⟨h.nodup, h.known, h.pending, h.live⟩ (by simpa using hl) _
  | recvError n =>
    simp only [St.step]
    split
    · exact h
    · next hl => exact failPending_inv s h (by simpa using hl) _
  | loop =>
    simp only [St.step]
    split
    · exact h
    · next hl =>
      split
      · have hf := failPending_inv s h (by simpa using hl) .serverClosed
        split
        · exact hf
        · exact ⟨hf.nodup, hf.known, by simp, hf.live⟩
      · exact h
  | close => exact ⟨h.nodup, h.known, h.pending, h.live⟩
  | cancelTasks =>
    simp only [St.step]
    split
    · exact h
    · exact ⟨h.nodup, h.known, fun hh => by simp at hh, h.live⟩

theorem run_inv (evs : List Ev) : TInv (St.init.run evs) := by
  have : ∀ (evs : List Ev) (s : St), TInv s → TInv (s.run evs) := by
    intro evs
    induction evs with
    | nil => intro s h; exact h
    | cons e es ih => intro s h; exact ih _ (step_inv s h e)
  exact this evs _ ⟨by simp [St.init], by simp [St.init], by simp [St.init], by simp [St.init]⟩

/-- **C20**, completeness: a reply received by a working listener completes the waiting call with
that id with exactly that payload, and changes nothing for any other call. -/
theorem reply_delivered (evs : List Ev) (id p : Nat) (hl : (St.init.run evs).listener = .running)
    (hw : (St.init.run evs).view id = .waiting) :
    (St.init.run (evs ++ [.recv id p])).view id = .returned p ∧
    ∀ other, other ≠ id → (St.init.run (evs ++ [.recv id p])).view other = (St.init.run evs).view other := by
  have hi := run_inv evs
  rw [run_snoc]
  generalize St.init.run evs = s at *
  have hs : id ∉ s.sendFailed := by
    intro h; simp [St.view, h] at hw
  have hp : s.futs.get? id = some .pending := by
    unfold St.view at hw
    rw [if_neg hs] at hw
    split at hw <;> simp_all
  have hm := hi.pending hl id hp
  have e : s.step (.recv id p) =
      { s with table := s.table.filter (· ≠ id), futs := s.futs.set id (.result p) } := by
    simp [St.step, hl, hm, hp]
  rw [e]
  constructor
  · simp [St.view, hs]
  · intro o ho
    have ho' : ¬ id = o := fun h => ho h.symm
    simp [St.view, ho']

/-- Deviation found: a reply nobody waits for (unknown id) makes every waiting call on this
connection fail with KeyError. -/
theorem stray_reply_fails_all_calls :
    ∃ evs : List Ev, (St.init.run evs).view 1 = .waiting ∧
      (St.init.run (evs ++ [.recv 9 0])).view 1 = .raised .keyError :=
  ⟨[.call 1], by decide, by decide⟩

/-- **C21** (undecodable replies): a reply that cannot be decoded ends the wait of the call it answers, and of no other call,
with its cause; the connection goes on. -/
theorem bad_reply_delivered (evs : List Ev) (id n : Nat) (hl : (St.init.run evs).listener = .running)
    (hw : (St.init.run evs).view id = .waiting) :
    (St.init.run (evs ++ [.recvBad id n])).view id = .raised (.cause n) ∧
    (∀ other, other ≠ id → (St.init.run (evs ++ [.recvBad id n])).view other = (St.init.run evs).view other) ∧
    (St.init.run (evs ++ [.recvBad id n])).listener = .running ∧
    (St.init.run (evs ++ [.recvBad id n])).closed = (St.init.run evs).closed := by
  have hi := run_inv evs
  rw [run_snoc]
  generalize St.init.run evs = s at *
  have hs : id ∉ s.sendFailed := by
    intro h; simp [St.view, h] at hw
  have hf : s.futs.get? id = some .pending := by
    unfold St.view at hw
    simp only [hs, if_false] at hw
    split at hw <;> simp_all
  have ht := hi.pending hl id hf
  have e : s.step (.recvBad id n) = { s with table := s.table.filter (· ≠ id), futs := s.futs.set id (.exc (.cause n)) } := by
    simp [St.step, hl, ht, hf]
  rw [e]
  refine ⟨?_, fun other ho => ?_, hl, rfl⟩
  · simp [St.view, hs]
  · have ho' : ¬ id = other := fun h => ho h.symm
    simp [St.view, ho']

/-- a future that is done, and a failed send, stay as they are -/
theorem step_final (s : St) (ev : Ev) (id : Nat) :
    (id ∈ s.sendFailed → id ∈ (s.step ev).sendFailed) ∧
    (∀ f, s.futs.get? id = some f → f ≠ .pending → (s.step ev).futs.get? id = some f) ∧
    (id ∈ (s.step ev).sendFailed → id ∈ s.sendFailed ∨ s.futs.get? id = none) := by
  have keep : ∀ (s' : St) e f, s'.futs.get? id = some f → f ≠ .pending → (s'.failPending e).futs.get? id = some f := by
    intro s' e f h hf
    rcases failPending_get s' e id with h1 | ⟨h2, _⟩
    · rw [h1]; exact h
    · rw [h2] at h; cases h; exact absurd rfl hf
  have hset : ∀ i g f, s.futs.get? id = some f → f ≠ .pending → s.futs.get? i = some .pending →
      (s.futs.set i g).get? id = some f := by
    intro i g f h hf hp
    rw [Dict.get?_set]
    split
    · next e => subst e; rw [hp] at h; cases h; exact absurd rfl hf
    · exact h
  have hreg : ∀ i g f, s.futs.get? id = some f → ¬ s.futs.has i = true → (s.futs.set i g).get? id = some f := by
    intro i g f h hn
    rw [Dict.get?_set]
    split
    · next e => subst e; simp [Dict.has, h] at hn
    · exact h
  have hsf : ∀ i, ¬ s.futs.has i = true → id ∈ s.sendFailed ++ [i] → id ∈ s.sendFailed ∨ s.futs.get? id = none := by
    intro i hn h
    rcases List.mem_append.1 h with h | h
    · exact .inl h
    · simp only [List.mem_singleton] at h
      subst h
      refine .inr ?_
      cases hx : s.futs.get? id with
      | none => rfl
      | some v => simp [Dict.has, hx] at hn
  cases ev with
  | call i =>
    simp only [St.step, St.register]
    split
    · exact ⟨_root_.id, fun f h _ => h, fun h => .inl h⟩
    · next hn =>
      split
      · exact ⟨fun h => List.mem_append_left _ h, fun f h _ => hreg i _ f h hn, hsf i hn⟩
      · exact ⟨_root_.id, fun f h _ => hreg i _ f h hn, fun h => .inl h⟩
  | callSendError i =>
    simp only [St.step, St.register]
    split
    · exact ⟨_root_.id, fun f h _ => h, fun h => .inl h⟩
    · next hn => exact ⟨fun h => List.mem_append_left _ h, fun f h _ => hreg i _ f h hn, hsf i hn⟩
  | cancel i =>
    simp only [St.step]
    split
    · next hp => exact ⟨_root_.id, fun f h hf => hset i _ f h hf hp, fun h => .inl h⟩
    · exact ⟨_root_.id, fun f h _ => h, fun h => .inl h⟩
  | recv i q =>
    simp only [St.step]
    split
    · exact ⟨_root_.id, fun f h _ => h, fun h => .inl h⟩
    · split
      · split
        · next hp => exact ⟨_root_.id, fun f h hf => hset i _ f h hf hp, fun h => .inl h⟩
        · exact ⟨_root_.id, fun f h _ => h, fun h => .inl h⟩
      · rw [failPending_sendFailed]
        exact ⟨_root_.id, fun f h hf => keep _ _ f h hf, fun h => .inl h⟩
  | recvBad i q =>
    simp only [St.step]
    split
    · exact ⟨_root_.id, fun f h _ => h, fun h => .inl h⟩
    · split
      · split
        · next hp => exact ⟨_root_.id, fun f h hf => hset i _ f h hf hp, fun h => .inl h⟩
        · exact ⟨_root_.id, fun f h _ => h, fun h => .inl h⟩
      · exact ⟨_root_.id, fun f h _ => h, fun h => .inl h⟩
  | recvEof =>
    simp only [St.step]
    split
    · exact ⟨_root_.id, fun f h _ => h, fun h => .inl h⟩
    · rw [failPending_sendFailed]
      exact ⟨_root_.id, fun f h hf => keep { s with closed := true } _ f h hf, fun h => .inl h⟩
  | recvError n =>
    simp only [St.step]
    split
    · exact ⟨_root_.id, fun f h _ => h, fun h => .inl h⟩
    · rw [failPending_sendFailed]
      exact ⟨_root_.id, fun f h hf => keep _ _ f h hf, fun h => .inl h⟩
  | loop =>
    simp only [St.step]
    split
    · exact ⟨_root_.id, fun f h _ => h, fun h => .inl h⟩
    · split
      · split
        · rw [failPending_sendFailed]
          exact ⟨_root_.id, fun f h hf => keep _ _ f h hf, fun h => .inl h⟩
        · simp only [failPending_sendFailed]
          exact ⟨_root_.id, fun f h hf => keep _ _ f h hf, fun h => .inl h⟩
      · exact ⟨_root_.id, fun f h _ => h, fun h => .inl h⟩
  | close => exact ⟨_root_.id, fun f h _ => h, fun h => .inl h⟩
  | cancelTasks =>
    simp only [St.step]
    split <;> exact ⟨_root_.id, fun f h _ => h, fun h => .inl h⟩

/-- **C20**: a call is answered at most once: whatever its caller got - a reply, an error, or its
own cancellation - nothing that happens later changes it. -/
theorem answered_once (s : St) (more : List Ev) (id : Nat)
    (h1 : s.view id ≠ .notCalled) (h2 : s.view id ≠ .waiting) :
    (s.run more).view id = s.view id := by
  induction more generalizing s with
  | nil => rfl
  | cons e es ih =>
    show ((s.step e).run es).view id = s.view id
    have hv : (s.step e).view id = s.view id := by
      obtain ⟨a, b, c⟩ := step_final s e id
      by_cases hs : id ∈ s.sendFailed
      · simp only [St.view, hs, a hs, if_true]
      · rcases hx : s.futs.get? id with _ | f
        · exact absurd (by simp only [St.view, hs, if_false, hx]) h1
        · have hf : f ≠ .pending := by
            rintro rfl
            exact h2 (by simp only [St.view, hs, if_false, hx])
          have hns : id ∉ (s.step e).sendFailed := by
            intro h
            rcases c h with h | h
            · exact hs h
            · rw [hx] at h; cases h
          simp only [St.view, hs, hns, if_false, hx, b f hx hf]
    rw [ih _ (by rw [hv]; exact h1) (by rw [hv]; exact h2), hv]

example : (St.init.run [.call 1, .call 2, .recv 2 5]).view 2 = .returned 5 := by decide

/-! ## C21 -/

/-- Histories in which no waiting call is cancelled, the peer never answers an unknown id with
an undecodable message and the listener is not cancelled. -/
def Calm : List Ev → Prop
  | [] => True
  | .cancel _ :: _ => False
  | .recvBad _ _ :: _ => False
  | .cancelTasks :: _ => False
  | _ :: l => Calm l

theorem calm_append {a b : List Ev} : Calm (a ++ b) ↔ Calm a ∧ Calm b := by
  induction a with
  | nil => simp [Calm]
  | cons e es ih => cases e <;> simp [Calm, ih]

/-- with no cancelled future, the listener never crashes -/
structure CInv (s : St) : Prop extends TInv s where
  nocancel : ∀ m, s.futs.get? m ≠ some .cancelled
  nocrash : s.listener ≠ .crashed
  endedClosed : s.listener = .ended → s.closed = true ∧
    ∀ m, s.futs.get? m = some .pending → m ∈ s.sendFailed

theorem failPending_calm (s : St) (h : CInv s) (hl : s.listener = .running) (e : Exc) :
    (s.failPending e).listener = .running ∧ (s.failPending e).closed = s.closed ∧
    (∀ m, (s.failPending e).futs.get? m ≠ some .pending) ∧
    (∀ m, (s.failPending e).futs.get? m ≠ some .cancelled) := by
  have hp : ∀ m ∈ s.table, s.futs.get? m = some .pending := fun m hm =>
    (h.live m hm).resolve_right (h.nocancel m)
  obtain ⟨h1, h2⟩ := failAll_ok e s.table s.futs h.nodup hp
  unfold St.failPending
  simp only [h1, if_true]
  refine ⟨hl, trivial, ?_, ?_⟩
  · intro m hm
    rw [h2] at hm
    split at hm
    · cases hm
    · next hn => exact hn (h.pending hl m hm)
  · intro m hm
    rw [h2] at hm
    split at hm
    · cases hm
    · exact h.nocancel m hm

theorem step_calm (s : St) (h : CInv s) (ev : Ev) (hc : Calm [ev]) : CInv (s.step ev) := by
  have hT := step_inv s h.toTInv ev
  refine { hT with nocancel := ?_, nocrash := ?_, endedClosed := ?_ }
  · intro m hm
    cases ev with
    | call i =>
      simp only [St.step, St.register] at hm
      split at hm
      · exact h.nocancel m hm
      · split at hm <;>
        · simp only [Dict.get?_set] at hm
          split at hm
          · cases hm
          · exact h.nocancel m hm
    | callSendError i =>
      simp only [St.step, St.register] at hm
      split at hm
      · exact h.nocancel m hm
      · simp only [Dict.get?_set] at hm
        split at hm
        · cases hm
        · exact h.nocancel m hm
    | cancel i => exact hc
    | recvBad i q => exact hc
    | recv i q =>
      simp only [St.step] at hm
      split at hm
      · exact h.nocancel m hm
      · next hl =>
        split at hm
        · split at hm
          · simp only [Dict.get?_set] at hm
            split at hm
            · cases hm
            · exact h.nocancel m hm
          · exact h.nocancel m hm
        · exact (failPending_calm s h (by simpa using hl) _).2.2.2 m hm
    | recvEof =>
      simp only [St.step] at hm
      split at hm
      · exact h.nocancel m hm
      · next hl =>
        refine (failPending_calm { s with closed := true } ?_ (by simpa using hl) .serverClosed).2.2.2 m hm
        exact { nodup := h.nodup, known := h.known, pending := h.pending, live := h.live, nocancel := h.nocancel, nocrash := h.nocrash, endedClosed := by intro he; simp at hl; simp [hl] at he }
    | recvError n =>
      simp only [St.step] at hm
      split at hm
      · exact h.nocancel m hm
      · next hl => exact (failPending_calm s h (by simpa using hl) _).2.2.2 m hm
    | loop =>
      simp only [St.step] at hm
      split at hm
      · exact h.nocancel m hm
      · next hl =>
        split at hm
        · split at hm <;> exact (failPending_calm s h (by simpa using hl) _).2.2.2 m hm
        · exact h.nocancel m hm
    | close => exact h.nocancel m hm
    | cancelTasks => exact hc.elim
  · cases ev with
    | call i =>
      simp only [St.step, St.register]
      split
      · exact h.nocrash
      · split <;> exact h.nocrash
    | callSendError i =>
      simp only [St.step, St.register]
      split <;> exact h.nocrash
    | cancel i => exact hc.elim
    | recvBad i q => exact hc.elim
    | recv i q =>
      simp only [St.step]
      split
      · exact h.nocrash
      · next hl =>
        split
        · split <;> exact h.nocrash
        · rw [(failPending_calm s h (by simpa using hl) _).1]; decide
    | recvEof =>
      simp only [St.step]
      split
      · exact h.nocrash
      · next hl =>
        rw [(failPending_calm { s with closed := true } ?_ (by simpa using hl) .serverClosed).1]
        · decide
        · exact { nodup := h.nodup, known := h.known, pending := h.pending, live := h.live, nocancel := h.nocancel, nocrash := h.nocrash, endedClosed := by intro he; simp at hl; simp [hl] at he }
    | recvError n =>
      simp only [St.step]
      split
      · exact h.nocrash
      · next hl => rw [(failPending_calm s h (by simpa using hl) _).1]; decide
    | loop =>
      simp only [St.step]
      split
      · exact h.nocrash
      · next hl =>
        split
        · rw [(failPending_calm s h (by simpa using hl) _).1]; simp
        · exact h.nocrash
    | close => exact h.nocrash
    | cancelTasks => exact hc.elim
  · intro he
    cases ev with
    | call i =>
      simp only [St.step] at he ⊢
      split at he
      · rename_i hh; rw [if_pos hh]; exact h.endedClosed he
      · rename_i hh
        rw [if_neg hh]
        split at he
        · rename_i hcl
          rw [if_pos hcl]
          refine ⟨hcl, ?_⟩
          intro m hm
          simp only [St.register, Dict.get?_set] at hm
          simp only [List.mem_append, List.mem_singleton]
          split at hm
          · next e => exact .inr e.symm
          · exact .inl ((h.endedClosed he).2 m hm)
        · rename_i hcl
          exact absurd (h.endedClosed he).1 hcl
    | callSendError i =>
      simp only [St.step] at he ⊢
      split at he
      · rename_i hh; rw [if_pos hh]; exact h.endedClosed he
      · rename_i hh
        rw [if_neg hh]
        refine ⟨rfl, ?_⟩
        intro m hm
        simp only [St.register, Dict.get?_set] at hm
        simp only [List.mem_append, List.mem_singleton]
        split at hm
        · next e => exact .inr e.symm
        · exact .inl ((h.endedClosed he).2 m hm)
    | cancel i => exact hc.elim
    | recvBad i q => exact hc.elim
    | recv i q =>
      have hl : s.listener ≠ .running := by
        intro hl
        simp only [St.step, hl, ne_eq, not_true_eq_false, if_false] at he
        split at he
        · split at he <;> cases he
        · rw [(failPending_calm s h hl _).1] at he; cases he
      simp only [St.step, hl, ne_eq, not_false_eq_true, if_true] at he ⊢
      exact h.endedClosed he
    | recvEof =>
      have hl : s.listener ≠ .running := by
        intro hl
        have e : s.step .recvEof = { s with closed := true }.failPending .serverClosed := by
          simp only [St.step]; rw [if_neg (by simp [hl])]
        rw [e, (failPending_calm { s with closed := true } ?_ hl .serverClosed).1] at he
        · cases he
        · exact { nodup := h.nodup, known := h.known, pending := h.pending, live := h.live, nocancel := h.nocancel, nocrash := h.nocrash, endedClosed := by intro he; simp [hl] at he }
      simp only [St.step, hl, ne_eq, not_false_eq_true, if_true] at he ⊢
      exact h.endedClosed he
    | recvError n =>
      have hl : s.listener ≠ .running := by
        intro hl
        simp only [St.step, hl, ne_eq, not_true_eq_false, if_false] at he
        rw [(failPending_calm s h hl _).1] at he; cases he
      simp only [St.step, hl, ne_eq, not_false_eq_true, if_true] at he ⊢
      exact h.endedClosed he
    | loop =>
      by_cases hl : s.listener = .running
      · by_cases hcl : s.closed = true
        · obtain ⟨f1, f2, f3, f4⟩ := failPending_calm s h hl .serverClosed
          have e : s.step .loop = { s.failPending .serverClosed with listener := .ended } := by
            simp [St.step, hl, hcl, f1]
          rw [e]
          exact ⟨by simp only [f2, hcl], fun m hm => absurd hm (f3 m)⟩
        · have e : s.step .loop = s := by simp [St.step, hl, hcl]
          rw [e] at he ⊢; exact h.endedClosed he
      · have e : s.step .loop = s := by simp [St.step, hl]
        rw [e] at he ⊢; exact h.endedClosed he
    | close => exact ⟨rfl, (h.endedClosed he).2⟩
    | cancelTasks => exact hc.elim

theorem run_calm (evs : List Ev) (hc : Calm evs) : CInv (St.init.run evs) := by
  induction evs using List.reverseRecOn' with
  | nil =>
    exact { nodup := by simp [St.run, St.init], known := by simp [St.run, St.init], pending := by simp [St.run, St.init],
            live := by simp [St.run, St.init], nocancel := by simp [St.run, St.init],
            nocrash := by simp [St.run, St.init], endedClosed := by simp [St.run, St.init] }
  | append_singleton evs e ih =>
    rw [calm_append] at hc
    rw [run_snoc]
    exact step_calm _ (ih hc.1) e hc.2

/-- **C21** (partial): in every history without cancelled calls and without undecodable replies,
once the connection has died (`recvEof`) and the listener has gone round its loop once more,
every call ever made - before or during that - has been answered: returned or raised.
Missing: histories with cancelled calls or undecodable replies to them, or with a cancelled listener, for which the claim is
false (`cancelled_call_hangs_others_refuted`, `stopped_caller_hangs_refuted`). -/
theorem no_hang_partial (evs : List Ev) (hc : Calm evs) (mid : List Ev) (hm : Calm mid)
    (id : Nat) :
    (St.init.run (evs ++ [.recvEof] ++ mid ++ [.loop])).view id ≠ .waiting := by
  have hcalm : Calm (evs ++ [.recvEof] ++ mid ++ [.loop]) := by
    simp [calm_append, hc, hm, Calm]
  -- the client stays closed
  have hclosed : ∀ (l : List Ev) (s : St), s.closed = true → (s.run l).closed = true := by
    intro l
    induction l with
    | nil => intro s h; exact h
    | cons e es ih =>
      intro s h
      refine ih _ ?_
      have hfp : ∀ (s : St) e, s.closed = true → (s.failPending e).closed = true := by
        intro s e h; unfold St.failPending; simp only; split
        · exact h
        · rfl
      cases e with
      | call i => simp only [St.step, St.register]; split
                  · exact h
                  · exact h
      | callSendError i => simp only [St.step]; split
                           · exact h
                           · rfl
      | cancel i => simp only [St.step]; split <;> exact h
      | recv i q => simp only [St.step]; split
                    · exact h
                    · split
                      · split <;> exact h
                      · exact hfp _ _ h
      | recvBad i q => simp only [St.step]; split
                       · exact h
                       · split
                         · split
                           · exact h
                           · rfl
                         · rfl
      | recvEof => simp only [St.step]; split
                   · exact h
                   · exact hfp _ _ rfl
      | recvError n => simp only [St.step]; split
                       · exact h
                       · exact hfp _ _ h
      | loop => simp only [St.step]; split
                · exact h
                · split
                  · exact hfp _ _ h
                  · exact hfp _ _ h
      | close => rfl
      | cancelTasks => simp only [St.step]; split
                       · exact h
                       · rfl
  have hend : (St.init.run (evs ++ [.recvEof] ++ mid ++ [.loop])).listener = .ended := by
    rw [run_snoc]
    have h1 := run_calm (evs ++ [.recvEof] ++ mid) (by simp [calm_append, hc, hm, Calm])
    have hcl : (St.init.run (evs ++ [.recvEof] ++ mid)).closed = true := by
      have : St.init.run (evs ++ [.recvEof] ++ mid) = ((St.init.run evs).step .recvEof).run mid := by
        simp [St.run]
      rw [this]
      refine hclosed mid _ ?_
      have h0 := run_calm evs hc
      simp only [St.step]
      split
      · next hl =>
        cases hx : (St.init.run evs).listener with
        | running => simp [hx] at hl
        | ended => exact (h0.endedClosed hx).1
        | crashed => exact absurd hx h0.nocrash
      · unfold St.failPending; simp only; split <;> rfl
    generalize St.init.run (evs ++ [.recvEof] ++ mid) = s at *
    cases hx : s.listener with
    | running =>
      have f1 := (failPending_calm s h1 hx .serverClosed).1
      simp [St.step, hx, hcl, f1]
    | ended => simp [St.step, hx]
    | crashed => exact absurd hx h1.nocrash
  have h := run_calm _ hcalm
  have hp := (h.endedClosed hend).2
  intro hw
  unfold St.view at hw
  split at hw
  · cases hw
  · next hns =>
    split at hw
    · cases hw
    · next hpend => exact hns (hp _ hpend)
    · cases hw
    · cases hw
    · cases hw

/-- after a crash of the listener nothing changes a registered, sent call any more -/
theorem crashed_stays (s : St) (hcr : s.listener = .crashed) (hcl : s.closed = true) (id : Nat)
    (hp : s.futs.get? id = some .pending) (hs : id ∉ s.sendFailed) (evs : List Ev)
    (hnc : ∀ e ∈ evs, e ≠ .cancel id) : (s.run evs).view id = .waiting := by
  induction evs generalizing s with
  | nil => simp [St.run, St.view, hs, hp]
  | cons e es ih =>
    have hne : e ≠ .cancel id := hnc e (by simp)
    have hrest : ∀ e ∈ es, e ≠ .cancel id := fun e he => hnc e (List.mem_cons_of_mem _ he)
    have hhas : s.futs.has id = true := by simp [Dict.has, hp]
    show ((s.step e).run es).view id = .waiting
    have ext : ∀ i, s.futs.has i = false → i ≠ id := by
      rintro i hi rfl; rw [hhas] at hi; cases hi
    cases e with
    | call i =>
      by_cases hi : s.futs.has i = true
      · simp only [St.step, hi, if_true]; exact ih s hcr hcl hp hs hrest
      · have hii := ext i (by simpa using hi)
        simp only [St.step, hi, Bool.false_eq_true, if_false, St.register, hcl, if_true]
        exact ih _ hcr rfl (by simp [hii, hp]) (by have hii' : ¬ id = i := (fun h => hii h.symm); simp [hs, hii']) hrest
    | callSendError i =>
      by_cases hi : s.futs.has i = true
      · simp only [St.step, hi, if_true]; exact ih s hcr hcl hp hs hrest
      · have hii := ext i (by simpa using hi)
        simp only [St.step, hi, Bool.false_eq_true, if_false, St.register]
        exact ih _ hcr rfl (by simp [hii, hp]) (by have hii' : ¬ id = i := (fun h => hii h.symm); simp [hs, hii']) hrest
    | cancel i =>
      have hii : i ≠ id := fun h => hne (by rw [h])
      simp only [St.step]
      split
      · exact ih _ hcr hcl (by simp [hii, hp]) hs hrest
      · exact ih s hcr hcl hp hs hrest
    | recv i q => simp only [St.step, hcr]; exact ih s hcr hcl hp hs hrest
    | recvBad i q => simp only [St.step, hcr]; exact ih s hcr hcl hp hs hrest
    | recvEof => simp only [St.step, hcr]; exact ih s hcr hcl hp hs hrest
    | recvError n => simp only [St.step, hcr]; exact ih s hcr hcl hp hs hrest
    | loop => simp only [St.step, hcr]; exact ih s hcr hcl hp hs hrest
    | close => simp only [St.step]; exact ih { s with closed := true } hcr rfl hp hs hrest
    | cancelTasks => simp only [St.step, hcr]; exact ih s hcr hcl hp hs hrest

/-- call `j` still has no reply and was made before call `id`, which has none either -/
def Before (s : St) (j id : Nat) : Prop := ∃ a b c, s.table = a ++ j :: b ++ id :: c

theorem failAll_reaches (e : Exc) (a c : List Nat) (id : Nat) (futs : Dict Nat Fut) (hn : (a ++ id :: c).Nodup)
    (h : ∀ j ∈ a, futs.get? j = some .pending) (hid : futs.get? id = some .pending) :
    (failAll e (a ++ id :: c) futs).1.get? id = some (.exc e) := by
  induction a generalizing futs with
  | nil =>
    simp only [List.nil_append, failAll, hid]
    rcases failAll_get e c (futs.set id (.exc e)) id with h1 | ⟨_, _, h3⟩
    · rw [h1]; simp
    · exact h3
  | cons m a ih =>
    simp only [List.cons_append, List.nodup_cons] at hn
    simp only [List.cons_append, failAll, h m (by simp)]
    refine ih _ hn.2 ?_ ?_
    · intro j hj
      rw [Dict.get?_set, if_neg (by rintro rfl; exact hn.1 (List.mem_append_left _ hj))]
      exact h j (List.mem_cons_of_mem _ hj)
    · rw [Dict.get?_set, if_neg (by rintro rfl; exact hn.1 (by simp))]; exact hid

theorem failAll_stops (e : Exc) (a b : List Nat) (j : Nat) (futs : Dict Nat Fut) (hn : (a ++ j :: b).Nodup)
    (hj : futs.get? j ≠ some .pending) (id : Nat) (hid : id ∈ b) :
    (failAll e (a ++ j :: b) futs).2 = false ∧ (failAll e (a ++ j :: b) futs).1.get? id = futs.get? id := by
  induction a generalizing futs with
  | nil =>
    rcases h : futs.get? j with _ | f
    · simp only [List.nil_append, failAll, h]; exact ⟨trivial, trivial⟩
    · cases f with
      | pending => exact absurd h hj
      | result p => simp only [List.nil_append, failAll, h]; exact ⟨trivial, trivial⟩
      | exc x => simp only [List.nil_append, failAll, h]; exact ⟨trivial, trivial⟩
      | cancelled => simp only [List.nil_append, failAll, h]; exact ⟨trivial, trivial⟩
  | cons m a ih =>
    simp only [List.cons_append, List.nodup_cons] at hn
    have hmi : m ≠ id := by rintro rfl; exact hn.1 (by simp [hid])
    have hmj : m ≠ j := by rintro rfl; exact hn.1 (by simp)
    simp only [List.cons_append, failAll]
    split
    · obtain ⟨h1, h2⟩ := ih (futs.set m (.exc e)) hn.2 (by rw [Dict.get?_set, if_neg hmj]; exact hj)
      exact ⟨h1, by rw [h2, Dict.get?_set, if_neg hmi]⟩
    · exact ⟨rfl, rfl⟩

/-- **C21**, exactly, for every history: when the listener of a connection finds it dead — reading fails, or it was closed and the
listener comes round — a waiting call gets ServerClosed if no call made before it was cancelled and is still without a reply;
otherwise it waits for ever (unless it is cancelled itself). -/
theorem death_exact (evs : List Ev) (hl : (St.init.run evs).listener = .running) (id : Nat) (hw : (St.init.run evs).view id = .waiting)
    (e : Ev) (he : e = .recvEof ∨ e = .loop ∧ (St.init.run evs).closed = true) :
    ((∀ j, Before (St.init.run evs) j id → (St.init.run evs).futs.get? j ≠ some .cancelled) →
      (St.init.run (evs ++ [e])).view id = .raised .serverClosed) ∧
    (∀ j, Before (St.init.run evs) j id → (St.init.run evs).futs.get? j = some .cancelled →
      ∀ more : List Ev, (∀ x ∈ more, x ≠ .cancel id) → (St.init.run (evs ++ e :: more)).view id = .waiting) := by
  have hi := run_inv evs
  have e1 : ∀ more, St.init.run (evs ++ e :: more) = ((St.init.run evs).step e).run more := by intro more; simp [St.run]
  simp only [e1, run_snoc]
  generalize St.init.run evs = s at *
  have hns : id ∉ s.sendFailed := by
    intro h; simp [St.view, h] at hw
  have hp : s.futs.get? id = some .pending := by
    simp only [St.view, hns, if_false] at hw
    split at hw <;> first | assumption | cases hw
  have hm : id ∈ s.table := hi.pending hl id hp
  -- the two events do the same to the futures
  have hstep : ∃ s0 : St, s0.table = s.table ∧ s0.futs = s.futs ∧ s0.sendFailed = s.sendFailed ∧ s0.closed = true ∧
      (s.step e).futs = (s0.failPending .serverClosed).futs ∧ (s.step e).sendFailed = (s0.failPending .serverClosed).sendFailed ∧
      ((s0.failPending .serverClosed).listener = .crashed → (s.step e).listener = .crashed ∧ (s.step e).closed = true) := by
    rcases he with rfl | ⟨rfl, hc⟩
    · refine ⟨{ s with closed := true }, rfl, rfl, rfl, rfl, ?_⟩
      have e2 : s.step .recvEof = { s with closed := true }.failPending .serverClosed := by
        simp only [St.step]; rw [if_neg (by simp [hl])]
      rw [e2]
      refine ⟨rfl, rfl, fun h => ⟨h, ?_⟩⟩
      unfold St.failPending; simp only; split <;> rfl
    · refine ⟨s, rfl, rfl, rfl, hc, ?_⟩
      simp only [St.step, hl, ne_eq, not_true_eq_false, if_false, hc, if_true]
      refine ⟨by split <;> rfl, by split <;> rfl, fun h => ?_⟩
      rw [if_pos h]
      refine ⟨h, ?_⟩
      unfold St.failPending; simp only; split
      · exact hc
      · rfl
  obtain ⟨s0, t1, t2, t3, t4, t5, t6, t7⟩ := hstep
  have hfut : (s0.failPending .serverClosed).futs = (failAll .serverClosed s.table s.futs).1 := by
    unfold St.failPending; simp only [t1, t2]; split <;> rfl
  constructor
  · intro hb
    obtain ⟨a, c, hac⟩ := List.append_of_mem hm
    have hgot := failAll_reaches .serverClosed a c id s.futs (hac ▸ hi.nodup) (by
      intro j hj
      have hjt : j ∈ s.table := by rw [hac]; exact List.mem_append_left _ hj
      refine (hi.live j hjt).resolve_right (hb j ?_)
      obtain ⟨x, y, hxy⟩ := List.append_of_mem hj
      exact ⟨x, y, c, by rw [hac, hxy]⟩) hp
    rw [← hac] at hgot
    have k1 : (s.step e).futs.get? id = some (.exc .serverClosed) := by rw [t5, hfut]; exact hgot
    have k2 : id ∉ (s.step e).sendFailed := by rw [t6, failPending_sendFailed, t3]; exact hns
    show (s.step e).view id = _
    unfold St.view
    rw [if_neg k2, k1]
  · rintro j ⟨a, b, c, hab⟩ hj more hmore
    have hab' : s.table = a ++ j :: (b ++ id :: c) := by rw [hab]; simp
    obtain ⟨k1, k2⟩ := failAll_stops .serverClosed a (b ++ id :: c) j s.futs (hab' ▸ hi.nodup) (by rw [hj]; simp) id (by simp)
    have hcr : (s0.failPending .serverClosed).listener = .crashed := by
      unfold St.failPending; simp only [t1, t2, hab', k1]; rfl
    obtain ⟨c1, c2⟩ := t7 hcr
    refine crashed_stays _ c1 c2 id ?_ ?_ more hmore
    · rw [t5, hfut, hab', k2]; exact hp
    · rw [t6, failPending_sendFailed, t3]; exact hns

/-- calls without a reply are in the order in which they were made -/
theorem before_order (evs : List Ev) : (St.init.run evs).table <+ evs.filterMap fun e => match e with
    | .call i => some i
    | .callSendError i => some i
    | _ => none := by
  induction evs using List.reverseRecOn' with
  | nil => simp [St.run, St.init]
  | append_singleton evs e ih =>
    rw [run_snoc, List.filterMap_append]
    have hf : ∀ (s : St) x, (s.failPending x).table = [] := by
      intro s x; unfold St.failPending; simp only; split <;> rfl
    generalize St.init.run evs = s at *
    have keep : s.table <+ List.filterMap (fun e => match e with | .call i => some i | .callSendError i => some i | _ => none) evs ++
        List.filterMap (fun e => match e with | .call i => some i | .callSendError i => some i | _ => none) [e] := ih.trans (List.sublist_append_left _ _)
    have reg : ∀ i, (s.register i).table <+ List.filterMap (fun e => match e with | .call i => some i | .callSendError i => some i | _ => none) evs ++ [i] :=
      fun i => ((List.filter_sublist).trans ih).append (List.Sublist.refl _)
    cases e with
    | call i =>
      simp only [St.step]
      repeat' split
      · exact keep
      · exact reg i
      · exact reg i
    | callSendError i =>
      simp only [St.step]
      split
      · exact keep
      · exact reg i
    | cancel i => simp only [St.step]; split <;> exact keep
    | recv i q =>
      simp only [St.step]
      split
      · exact keep
      · split
        · split <;> exact (List.filter_sublist).trans keep
        · rw [hf]; simp
    | recvBad i q =>
      simp only [St.step]
      split
      · exact keep
      · split
        · split <;> exact (List.filter_sublist).trans keep
        · exact keep
    | recvEof => simp only [St.step]; split
                 · exact keep
                 · rw [hf]; simp
    | recvError n => simp only [St.step]; split
                     · exact keep
                     · rw [hf]; simp
    | loop =>
      simp only [St.step]
      repeat' split
      · exact keep
      · rw [hf]; simp
      · rw [hf]; simp
      · exact keep
    | close => exact keep
    | cancelTasks => simp only [St.step]; split <;> exact keep

example : (St.init.run [.call 1, .call 2, .call 3, .cancel 2]).view 3 = .waiting ∧ Before (St.init.run [.call 1, .call 2, .call 3, .cancel 2]) 2 3 :=
  ⟨by decide, [1], [], [], by decide⟩

example : (St.init.run ([.call 1, .call 2, .call 3, .cancel 2] ++ [.recvEof])).view 1 = .raised .serverClosed := by decide

/-- **C21** in full is false of the code: two calls are waiting, the first is cancelled, the
connection dies: setting the exception on the cancelled future raises InvalidStateError, the
listener dies, and the second call waits for ever - whatever happens afterwards. -/
theorem cancelled_call_hangs_others_refuted (more : List Ev) (hnc : ∀ e ∈ more, e ≠ .cancel 2) :
    (St.init.run ([.call 1, .call 2, .cancel 1, .recvEof] ++ more)).view 2 = .waiting := by
  have e : St.init.run ([.call 1, .call 2, .cancel 1, .recvEof] ++ more) =
      (St.init.run [.call 1, .call 2, .cancel 1, .recvEof]).run more := by simp [St.run]
  rw [e]
  exact crashed_stays _ rfl rfl 2 rfl (by decide) more hnc

/-- The same with a reply that cannot be decoded, for a call that has been cancelled. -/
theorem bad_reply_to_cancelled_hangs_others_refuted (more : List Ev) (hnc : ∀ e ∈ more, e ≠ .cancel 2) :
    (St.init.run ([.call 1, .call 2, .cancel 1, .recvBad 1 0] ++ more)).view 2 = .waiting := by
  have e : St.init.run ([.call 1, .call 2, .cancel 1, .recvBad 1 0] ++ more) =
      (St.init.run [.call 1, .call 2, .cancel 1, .recvBad 1 0]).run more := by simp [St.run]
  rw [e]
  exact crashed_stays _ rfl rfl 2 rfl (by decide) more hnc

/-- **C21 refuted** for a caller that is stopped (its pool stops): the connections are closed and the listeners cancelled; one that has not
run in between (it is reading a reply) leaves its calls waiting for ever -/
theorem stopped_caller_hangs_refuted (more : List Ev) (hnc : ∀ e ∈ more, e ≠ .cancel 1) :
    (St.init.run ([.call 1, .close, .cancelTasks] ++ more)).view 1 = .waiting := by
  have e : St.init.run ([.call 1, .close, .cancelTasks] ++ more) = (St.init.run [.call 1, .close, .cancelTasks]).run more := by simp [St.run]
  rw [e]
  exact crashed_stays _ rfl rfl 1 rfl (by decide) more hnc

/-- **C21** when the caller is stopped and the listener gets to run between the closing and the cancellation, no call waits -/
theorem stopped_after_listener_partial (evs : List Ev) (hc : Calm evs) (after : List Ev)
    (hn : ∀ e ∈ after, (∀ i, e ≠ .call i) ∧ ∀ i, e ≠ .callSendError i) (id : Nat) :
    (St.init.run (evs ++ [.close, .recvEof, .loop, .cancelTasks] ++ after)).view id ≠ .waiting := by
  have base : (St.init.run (evs ++ [.close, .recvEof, .loop])).view id ≠ .waiting := by
    have := no_hang_partial (evs ++ [.close]) (by simp [calm_append, hc, Calm]) [] trivial id
    simpa using this
  have stays : ∀ (l : List Ev) (s : St), (∀ e ∈ l, (∀ i, e ≠ .call i) ∧ ∀ i, e ≠ .callSendError i) → s.view id ≠ .waiting → (s.run l).view id ≠ .waiting := by
    intro l
    induction l with
    | nil => intro s _ h; exact h
    | cons e es ih =>
      intro s hl h
      refine ih _ (fun e he => hl e (List.mem_cons_of_mem _ he)) ?_
      have he := hl e (by simp)
      intro hw
      apply h
      unfold St.view at hw ⊢
      have hsf : (s.step e).sendFailed = s.sendFailed := by
        cases e with
        | call i => exact absurd rfl (he.1 i)
        | callSendError i => exact absurd rfl (he.2 i)
        | cancel i => simp only [St.step]; split <;> rfl
        | recv i q => simp only [St.step]; repeat' split
                      all_goals first | rfl | exact failPending_sendFailed _ _
        | recvBad i q => simp only [St.step]; repeat' split
                         all_goals rfl
        | recvEof => simp only [St.step]; split
                     · rfl
                     · exact failPending_sendFailed _ _
        | recvError n => simp only [St.step]; split
                         · rfl
                         · exact failPending_sendFailed _ _
        | loop => simp only [St.step]; repeat' split
                  all_goals first | rfl | exact failPending_sendFailed _ _
        | close => rfl
        | cancelTasks => simp only [St.step]; split <;> rfl
      rw [hsf] at hw
      split at hw
      · cases hw
      · next hns =>
        rw [if_neg hns]
        split at hw
        · cases hw
        · next hpend =>
          rcases hb : s.futs.get? id with _ | f
          · exfalso
            have fp : ∀ (s' : St) x, s'.futs.get? id = none → (s'.failPending x).futs.get? id ≠ some .pending := by
              intro s' x h0 h1
              rcases failPending_get s' x id with h2 | ⟨h2, _⟩
              · rw [h2, h0] at h1; cases h1
              · rw [h2] at h0; cases h0
            cases e with
            | call i => exact absurd rfl (he.1 i)
            | callSendError i => exact absurd rfl (he.2 i)
            | cancel i =>
              simp only [St.step] at hpend
              split at hpend
              · simp only [Dict.get?_set] at hpend; split at hpend
                · cases hpend
                · rw [hb] at hpend; cases hpend
              · rw [hb] at hpend; cases hpend
            | recv i q =>
              simp only [St.step] at hpend
              split at hpend
              · rw [hb] at hpend; cases hpend
              · split at hpend
                · split at hpend
                  · simp only [Dict.get?_set] at hpend; split at hpend
                    · cases hpend
                    · rw [hb] at hpend; cases hpend
                  · rw [hb] at hpend; cases hpend
                · exact fp _ _ hb hpend
            | recvBad i q =>
              simp only [St.step] at hpend
              split at hpend
              · rw [hb] at hpend; cases hpend
              · split at hpend
                · split at hpend
                  · simp only [Dict.get?_set] at hpend; split at hpend
                    · cases hpend
                    · rw [hb] at hpend; cases hpend
                  · rw [hb] at hpend; cases hpend
                · rw [hb] at hpend; cases hpend
            | recvEof =>
              simp only [St.step] at hpend
              split at hpend
              · rw [hb] at hpend; cases hpend
              · exact fp { s with closed := true } _ hb hpend
            | recvError n =>
              simp only [St.step] at hpend
              split at hpend
              · rw [hb] at hpend; cases hpend
              · exact fp _ _ hb hpend
            | loop =>
              simp only [St.step] at hpend
              split at hpend
              · rw [hb] at hpend; cases hpend
              · split at hpend
                · split at hpend <;> exact fp _ _ hb hpend
                · rw [hb] at hpend; cases hpend
            | close => simp only [St.step, hb] at hpend; cases hpend
            | cancelTasks =>
              simp only [St.step] at hpend
              split at hpend <;> (rw [hb] at hpend; cases hpend)
          · by_cases hf : f = .pending
            · rw [hf]
            · have := (step_final s e id).2.1 f hb hf
              rw [this] at hpend; injection hpend with hpend; exact absurd hpend hf
        · cases hw
        · cases hw
        · cases hw
  have e : St.init.run (evs ++ [.close, .recvEof, .loop, .cancelTasks] ++ after) =
      (St.init.run (evs ++ [.close, .recvEof, .loop])).run (.cancelTasks :: after) := by simp [St.run]
  rw [e]
  refine stays _ _ (fun e he => ?_) base
  rcases List.mem_cons.mp he with rfl | he
  · simp
  · exact hn e he

example : Calm [.call 1, .call 2, .recv 2 5] ∧
    (St.init.run ([.call 1, .call 2, .recv 2 5] ++ [.close, .recvEof, .loop, .cancelTasks] ++ [.recv 1 4])).view 1 = .raised .serverClosed := by
  refine ⟨by simp [Calm], by decide⟩

/-- non-vacuity of `no_hang_partial` -/
example : Calm [.call 1, .call 2, .recv 2 5] ∧
    (St.init.run ([.call 1, .call 2, .recv 2 5] ++ [.recvEof] ++ [.call 3] ++ [.loop])).view 1 = .raised .serverClosed ∧
    (St.init.run ([.call 1, .call 2, .recv 2 5] ++ [.recvEof] ++ [.call 3] ++ [.loop])).view 2 = .returned 5 ∧
    (St.init.run ([.call 1, .call 2, .recv 2 5] ++ [.recvEof] ++ [.call 3] ++ [.loop])).view 3 = .raised .serverClosed := by
  refine ⟨by simp [Calm], ?_, ?_, ?_⟩ <;> decide

end Xoscar.Caller
