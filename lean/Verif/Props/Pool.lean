import Verif.Proof.PoolOut
/-!
# C22, C23, C24, C46, C48: one actor pool

`Run ls s`: `ls` is any interleaving of arrivals, starts, ends of user code (with any outcome) and
ends of sends; `s.log` is what happened.
-/
namespace Xoscar.Pool

/-! ## C22 -/

/-- every answer the pool gives agrees with the actors created and not destroyed before -/
theorem history_ok {ls : List Label} {s : St} (h : Run ls s) {past : List Ev} {e : Ev} {future : List Ev}
    (hl : s.log = past ++ e :: future) : EvOk past e :=
  (inv_of_run h).hist past e future hl

theorem stays {ls : List Label} {s : St} (h : Run ls s) {u : Uid} {i : Inst} (a : List Ev)
    (ha : live u a = some i) (b : List Ev) :
    ∀ c, s.log = a ++ b ++ c → (∀ t j, Ev.removed t u j ∉ b) → live u (a ++ b) = some i := by
  induction b using List.reverseRecOn' with
  | nil => intro c _ _; simpa using ha
  | append_singleton b e ih =>
    intro c hl hn
    have hprev := ih (e :: c) (by simpa using hl) (fun t j hm => hn t j (by simp [hm]))
    have hok := history_ok h (past := a ++ b) (e := e) (future := c) (by simpa using hl)
    rw [← List.append_assoc, live_snoc, hprev]
    cases e with
    | registered t v j =>
      simp only [EvOk] at hok
      simp only [liveStep]
      split
      · next hv => subst hv; rw [hprev] at hok; simp at hok
      · rfl
    | removed t v j =>
      simp only [liveStep]
      split
      · next hv => subst hv; exact absurd (by simp) (hn t j)
      · rfl
    | _ => rfl

theorem first_removed (u : Uid) (b : List Ev) (hb : ∃ t j, Ev.removed t u j ∈ b) :
    ∃ b1 t j b2, b = b1 ++ Ev.removed t u j :: b2 ∧ ∀ t j, Ev.removed t u j ∉ b1 := by
  induction b with
  | nil => simp at hb
  | cons e b ih =>
    by_cases he : ∃ t j, e = Ev.removed t u j
    · obtain ⟨t, j, rfl⟩ := he
      exact ⟨[], t, j, b, rfl, by simp⟩
    · have : ∃ t j, Ev.removed t u j ∈ b := by
        obtain ⟨t, j, hm⟩ := hb
        rcases List.mem_cons.mp hm with hm | hm
        · exact absurd ⟨t, j, hm.symm⟩ he
        · exact ⟨t, j, hm⟩
      obtain ⟨b1, t, j, b2, rfl, hn⟩ := ih this
      refine ⟨e :: b1, t, j, b2, rfl, fun t j hm => ?_⟩
      rcases List.mem_cons.mp hm with hm | hm
      · exact he ⟨t, j, hm.symm⟩
      · exact hn t j hm

/-- **C22** (at most one live actor per uid): between two creations under one uid the first actor was
destroyed. -/
theorem one_live_actor {ls : List Label} {s : St} (h : Run ls s) {a b c : List Ev} {t t' : Tid} {u : Uid} {i j : Inst}
    (hl : s.log = a ++ Ev.registered t u i :: b ++ Ev.registered t' u j :: c) :
    ∃ t'', Ev.removed t'' u i ∈ b := by
  have hlive : live u (a ++ [Ev.registered t u i]) = some i := by rw [live_snoc]; simp [liveStep]
  by_cases hb : ∃ t j, Ev.removed t u j ∈ b
  · obtain ⟨b1, t2, k, b2, rfl, hn⟩ := first_removed u b hb
    have h1 := stays h (u := u) (i := i) (a ++ [Ev.registered t u i]) hlive b1
      (Ev.removed t2 u k :: b2 ++ Ev.registered t' u j :: c) (by simp [hl]) hn
    have h2 := history_ok h (past := a ++ [Ev.registered t u i] ++ b1) (e := Ev.removed t2 u k)
      (future := b2 ++ Ev.registered t' u j :: c) (by simp [hl])
    rw [EvOk, h1] at h2; cases h2
    exact ⟨t2, by simp⟩
  · have h1 := stays h (u := u) (i := i) (a ++ [Ev.registered t u i]) hlive b
      (Ev.registered t' u j :: c) (by simp [hl]) (fun t j hm => hb ⟨t, j, hm⟩)
    have h2 := history_ok h (past := a ++ [Ev.registered t u i] ++ b) (e := Ev.registered t' u j)
      (future := c) (by simp [hl])
    rw [EvOk, h1] at h2; simp at h2

/-- **C22** (while it lives): from its creation until its removal an actor is the one found under its
uid, `has_actor` is true, a creation under its uid is refused. -/
theorem while_live {ls : List Label} {s : St} (h : Run ls s) {a b c : List Ev} {t : Tid} {u : Uid} {i : Inst} {e : Ev}
    (hl : s.log = a ++ Ev.registered t u i :: b ++ e :: c) (hb : ∀ t' j, Ev.removed t' u j ∉ b) :
    match e with
    | .registered _ v _ => v ≠ u
    | .missing _ v => v ≠ u
    | .hasAns _ v x => v = u → x = true
    | .found _ v j => v = u → j = i
    | .preDestroy _ v j => v = u → j = i
    | .removed _ v j => v = u → j = i
    | _ => True := by
  have hlive : live u (a ++ [Ev.registered t u i]) = some i := by rw [live_snoc]; simp [liveStep]
  have h1 := stays h (u := u) (i := i) (a ++ [Ev.registered t u i]) hlive b (e :: c) (by simp [hl]) hb
  have h2 := history_ok h (past := a ++ [Ev.registered t u i] ++ b) (e := e) (future := c) (by simp [hl])
  cases e <;> simp only [EvOk] at h2 ⊢ <;> grind

theorem stays_none (u : Uid) (a : List Ev) (ha : live u a = none) (b : List Ev) :
    (∀ t j, Ev.registered t u j ∉ b) → live u (a ++ b) = none := by
  induction b using List.reverseRecOn' with
  | nil => intro _; simpa using ha
  | append_singleton b e ih =>
    intro hn
    have hprev := ih (fun t j hm => hn t j (by simp [hm]))
    rw [← List.append_assoc, live_snoc, hprev]
    cases e with
    | registered t v j =>
      simp only [liveStep]
      split
      · next hv => subst hv; exact absurd (by simp) (hn t j)
      · rfl
    | removed t v j => simp only [liveStep]; split <;> rfl
    | _ => rfl

/-- **C22** (after destruction, and before creation): as long as no actor is created under a uid whose
actor was removed (or that was never used: `a = []`), requests to it report ActorNotExist,
`has_actor` is false, and a creation is not refused. -/
theorem while_dead {ls : List Label} {s : St} (h : Run ls s) {a b c : List Ev} {u : Uid} {e : Ev}
    (ha : a = [] ∨ ∃ a' t i, a = a' ++ [Ev.removed t u i])
    (hl : s.log = a ++ b ++ e :: c) (hb : ∀ t' j, Ev.registered t' u j ∉ b) :
    match e with
    | .refused _ v => v ≠ u
    | .hasAns _ v x => v = u → x = false
    | .found _ v _ => v ≠ u
    | .preDestroy _ v _ => v ≠ u
    | .removed _ v _ => v ≠ u
    | _ => True := by
  have hdead : live u a = none := by
    rcases ha with rfl | ⟨a', t, i, rfl⟩
    · rfl
    · rw [live_snoc]; simp [liveStep]
  have h1 := stays_none u a hdead b hb
  have h2 := history_ok h (past := a ++ b) (e := e) (future := c) (by simp [hl])
  cases e <;> simp only [EvOk] at h2 ⊢ <;> grind

/-- a refused creation leaves the actors as they are -/
theorem refused_changes_nothing (u : Uid) (log : List Ev) (t : Tid) (v : Uid) :
    live u (log ++ [.refused t v]) = live u log := by rw [live_snoc]; rfl

/-- **C22 / C48** what the replies mean: a reply answers its own request's id and reports what
happened -/
theorem reply_means {ls : List Label} {s : St} (h : Run ls s) {t : Tid} {m : Mid} {r : Reply}
    (hr : Ev.replied t m r ∈ s.log) :
    ∃ k, s.tasks[t]? = some k ∧ k.mid = m ∧ (Means s.log t k.req r ∨ r = .error .sendFailed) := by
  have inv := inv_of_run h
  have hmem : (m, r) ∈ replies t s.log :=
    List.mem_filterMap.mpr ⟨_, hr, by simp⟩
  have hlt : t < s.tasks.length := by
    rcases Nat.lt_or_ge t s.tasks.length with h | h
    · exact h
    · rw [(inv.unknown t h).2] at hmem; simp at hmem
  refine ⟨s.tasks[t], List.getElem?_eq_getElem hlt, ?_⟩
  have hp := inv.tasks t _ (List.getElem?_eq_getElem hlt)
  generalize s.tasks[t] = k at *
  rcases hph : k.phase with _ | ⟨u, i⟩ | ⟨u, i⟩ | ⟨u, i⟩ | _ | _ | ⟨r', b⟩ | _ <;> rw [hph] at hp
  case sending => cases b <;> rw [hp.2.1] at hmem <;> simp at hmem
  case done =>
    rcases hp with ⟨_, _, h⟩ | ⟨_, _, h⟩ | ⟨r0, h0, hh⟩
    · rw [h] at hmem; simp at hmem
    · rw [h] at hmem; simp at hmem
    · rcases hh with ⟨_, h⟩ | ⟨_, h⟩ | ⟨_, h⟩ | ⟨_, h⟩ | ⟨_, h⟩ <;> rw [h] at hmem <;> simp at hmem
      · exact ⟨hmem.1.symm, .inl (by rw [hmem.2]; exact h0)⟩
      · exact ⟨hmem.1.symm, .inr hmem.2⟩
  all_goals first
    | (rw [hp.2.1] at hmem; simp at hmem; done)
    | (rw [hp.2] at hmem; simp at hmem; done)

/-- **C48** (the right answer): unless it could not be sent, the reply is what the request's own code ended with:
the value of the method called, its exception, the cancellation — or what can be said without running any -/
theorem reply_is_outcome {ls : List Label} {s : St} (h : Run ls s) {t : Tid} {m : Mid} {r : Reply}
    (hr : Ev.replied t m r ∈ s.log) (hf : r ≠ .error .sendFailed) :
    ∃ k, s.tasks[t]? = some k ∧ k.mid = m ∧ Right k.req (outcomes t ls) r := by
  obtain ⟨k, hk, _, h2, h3⟩ := (out_of_run h).sent t m r hr
  exact ⟨k, hk, h2, h3.resolve_left hf⟩

/-- a call answered with the value its method returned -/
example : ∃ ls s, Run ls s ∧ Ev.replied 1 8 (.value 42) ∈ s.log ∧ outcomes 1 ls = [.ok 42] := by
  exact ⟨[.recv 7 (.create 5 true), .start 0, .finish 0 (.ok 0), .recv 8 (.send 5), .start 1, .finish 1 (.ok 42), .send 1 .sent], _,
    .snoc (.snoc (.snoc (.snoc (.snoc (.snoc (.snoc .init rfl) rfl) rfl) rfl) rfl) rfl) rfl, by decide, by decide⟩

/-- **C22** read on the replies: a destroy answered with the uid removed the actor -/
theorem destroy_succeeds {ls : List Label} {s : St} (h : Run ls s) {t : Tid} {m : Mid} {u u' : Uid} {k : Task}
    (hk : s.tasks[t]? = some k) (hq : k.req = .destroy u) (hr : Ev.replied t m (.uid u') ∈ s.log) :
    u' = u ∧ ∃ i, Ev.removed t u i ∈ s.log := by
  obtain ⟨k', hk', _, hm⟩ := reply_means h hr
  rw [hk] at hk'; cases hk'
  rcases hm with hm | hm
  · rw [hq] at hm; simp only [Means] at hm; grind
  · simp at hm

/-! ## C48 -/

/-- **C48**: what becomes of each request.  A finished task sent exactly one reply, with its request's
id, unless the connection was closed under it, or sending failed twice (then the second attempt was
the error reply).  A message cancelling itself may be dropped (`self_cancel_reply`). -/
theorem every_request_one_reply {ls : List Label} {s : St} (h : Run ls s) {t : Nat} {k : Task}
    (hk : s.tasks[t]? = some k) (hd : k.phase = .done) (hq : k.req ≠ .reply) (hc : k.req ≠ .cancel k.mid) :
    ∃ r, Means s.log t k.req r ∧
      ((sends t ls = [.sent] ∧ replies t s.log = [(k.mid, r)]) ∨
       (sends t ls = [.failed, .sent] ∧ replies t s.log = [(k.mid, .error .sendFailed)]) ∨
       (sends t ls = [.closed] ∧ replies t s.log = []) ∨
       (sends t ls = [.failed, .closed] ∧ replies t s.log = []) ∨
       (sends t ls = [.failed, .failed] ∧ replies t s.log = [])) := by
  have hp := (inv_of_run h).tasks t k hk
  rw [hd] at hp
  rcases hp with ⟨h1, _⟩ | ⟨h1, _⟩ | ⟨r, h1, h2⟩
  · exact absurd h1 hc
  · exact absurd h1 hq
  · exact ⟨r, h1, by grind⟩

/-- **C48**: at most one reply per request, at any time -/
theorem at_most_one_reply {ls : List Label} {s : St} (h : Run ls s) (t : Nat) : (replies t s.log).length ≤ 1 := by
  have inv := inv_of_run h
  rcases Nat.lt_or_ge t s.tasks.length with hlt | hge
  · have hp := inv.tasks t _ (List.getElem?_eq_getElem hlt)
    generalize s.tasks[t] = k at *
    rcases hph : k.phase with _ | ⟨u, i⟩ | ⟨u, i⟩ | ⟨u, i⟩ | _ | _ | ⟨r', b⟩ | _ <;> rw [hph] at hp
    case sending => cases b <;> rw [hp.2.1] <;> simp
    case done =>
      rcases hp with ⟨_, _, h⟩ | ⟨_, _, h⟩ | ⟨r0, h0, hh⟩
      · rw [h]; simp
      · rw [h]; simp
      · rcases hh with ⟨_, h⟩ | ⟨_, h⟩ | ⟨_, h⟩ | ⟨_, h⟩ | ⟨_, h⟩ <;> rw [h] <;> simp
    all_goals first
      | (rw [hp.2.1]; simp; done)
      | (rw [hp.2]; simp; done)
  · rw [(inv.unknown t hge).2]; simp

/-- **C48** (a message cancelling itself): if it is answered, then by one of the answers of a cancel -/
theorem self_cancel_reply {ls : List Label} {s : St} (h : Run ls s) {t : Nat} {k : Task}
    (hk : s.tasks[t]? = some k) (hc : k.req = .cancel k.mid) {m : Mid} {r : Reply}
    (hr : Ev.replied t m r ∈ s.log) : m = k.mid ∧ (r = .bool true ∨ r = .error .cannotCancel ∨ r = .error .sendFailed) := by
  obtain ⟨k', hk', h1, h2⟩ := reply_means h hr
  rw [hk] at hk'; cases hk'
  refine ⟨h1.symm, ?_⟩
  rw [hc] at h2
  rcases h2 with (h | h) | h
  · exact .inl h
  · exact .inr (.inl h)
  · exact .inr (.inr h)

/-- **C48** (not a request): a result or error message sent to a pool is never answered -/
theorem reply_message_unanswered {ls : List Label} {s : St} (h : Run ls s) {t : Nat} {k : Task}
    (hk : s.tasks[t]? = some k) (hq : k.req = .reply) : replies t s.log = [] := by
  have hp := (inv_of_run h).tasks t k hk
  rcases hph : k.phase with _ | ⟨u, i⟩ | ⟨u, i⟩ | ⟨u, i⟩ | _ | _ | ⟨r', b⟩ | _ <;> rw [hph] at hp
  case sending => cases b <;> exact hp.2.1
  case done =>
    rcases hp with ⟨_, _, h⟩ | ⟨_, _, h⟩ | ⟨r0, h0, hh⟩
    · exact h
    · exact h
    · rw [hq] at h0; exact h0.elim
  all_goals first | exact hp.2.1 | exact hp.2

/-- what remains to be done by a task -/
def Phase.rank : Phase → Nat
  | .new => 4
  | .post _ _ | .pre _ _ | .recv _ _ | .told | .other => 3
  | .sending _ true => 2
  | .sending _ false => 1
  | .done => 0

theorem kind_rank {s t k l p es a n r} (h : Kind s t k l p es a n r) : p.rank < k.phase.rank := by
  cases h with
  | failed h _ => rcases h with ⟨_, _, h⟩ | ⟨_, _, h⟩ | ⟨_, _, h⟩ | h <;> simp [h, Phase.rank]
  | @sent r b h => rw [h]; cases b <;> simp [Phase.rank]
  | @closed r b h => rw [h]; cases b <;> simp [Phase.rank]
  | @aborted r b h => rw [h]; cases b <;> simp [Phase.rank]
  | _ => simp_all [Phase.rank]

/-- **C48** (progress): a task that is not finished can always go on — its handler is not stuck
waiting for anything but user code or the connection — and every step of it brings it nearer to its
end, so after at most four steps of its own it is finished. -/
theorem request_progresses {ls : List Label} {s : St} (_ : Run ls s) {t : Nat} {k : Task}
    (hk : s.tasks[t]? = some k) (hd : k.phase ≠ .done) :
    (∃ l s', l.tid? = some t ∧ step s l = some s') ∧
    (∀ l s' k', l.tid? = some t → step s l = some s' → s'.tasks[t]? = some k' → k'.phase.rank < k.phase.rank) := by
  constructor
  · obtain ⟨mid, req, p, c⟩ := k
    rcases p with _ | ⟨u, i⟩ | ⟨u, i⟩ | ⟨u, i⟩ | _ | _ | ⟨r, b⟩ | _
    · exact ⟨.start t, _, rfl, by simp only [step, hk]; rfl⟩
    · exact ⟨.finish t (.ok 0), _, rfl, by simp only [step, hk, finishTask]; rfl⟩
    · exact ⟨.finish t (.ok 0), _, rfl, by simp only [step, hk, finishTask]; rfl⟩
    · exact ⟨.finish t (.ok 0), _, rfl, by simp only [step, hk, finishTask]; rfl⟩
    · cases c
      · exact ⟨.finish t (.ok 0), s.reply t mid .none, rfl, by simp [step, hk, finishTask]⟩
      · exact ⟨.finish t .cancelled, s.reply t mid (.error .cancelled), rfl, by simp [step, hk, finishTask]⟩
    · exact ⟨.finish t (.ok 0), _, rfl, by simp only [step, hk, finishTask]; rfl⟩
    · exact ⟨.send t .sent, _, rfl, by simp only [step, hk]; rfl⟩
    · exact absurd rfl hd
  · intro l s' k' hl hs hk'
    rcases step_cases hs with ⟨mid, req, rfl, rfl⟩ | ⟨t', k0, p, es, ht, ha⟩
    · simp [Label.tid?] at hl
    · rw [hl] at ht; cases ht
      rw [ha.task] at hk'; cases hk'
      have := ha.old; rw [hk] at this; cases this
      exact kind_rank ha.kind

/-- **C48** (whatever the code does): however the user's code of a request ends — with any value, any exception, cancelled — the handler
takes it and has an answer to send. -/
theorem any_outcome {s : St} {t : Nat} {k : Task} (hk : s.tasks[t]? = some k)
    (hp : (∃ u i, k.phase = .post u i) ∨ (∃ u i, k.phase = .pre u i) ∨ (∃ u i, k.phase = .recv u i) ∨ k.phase = .other) (o : Out) :
    ∃ s' k' r, step s (.finish t o) = some s' ∧ s'.tasks[t]? = some k' ∧ k'.phase = .sending r true := by
  obtain ⟨mid, req, p, c⟩ := k
  have hlt := (List.getElem?_eq_some_iff.mp hk).1
  have rep : ∀ (x : St) (r : Reply), x.tasks = s.tasks → ∃ k', (x.reply t mid r).tasks[t]? = some k' ∧ k'.phase = .sending r true := by
    intro x r hx
    refine ⟨⟨mid, req, .sending r true, c⟩, ?_, rfl⟩
    simp [St.reply, St.setPhase, List.getElem?_modify, hx, hk]
  have fin : ∃ (s' : St) (r : Reply) (x : St), step s (.finish t o) = some s' ∧ x.tasks = s.tasks ∧ s' = x.reply t mid r := by
    simp only [step, hk]
    have des : ∀ uid, ∃ (r : Reply) (x : St), x.tasks = s.tasks ∧ finishDestroy s t mid uid = x.reply t mid r := by
      intro uid
      simp only [finishDestroy]
      split
      · next i _ => exact ⟨.uid uid, { s with actors := s.actors.erase uid }.addLog (.removed t uid i), rfl, rfl⟩
      · exact ⟨.error .keyError, s, rfl, rfl⟩
    rcases hp with ⟨u, i, h⟩ | ⟨u, i, h⟩ | ⟨u, i, h⟩ | h <;> simp only at h <;> subst h <;> cases o
    case inr.inl.ok n =>
      obtain ⟨r, x, h1, h2⟩ := des u
      exact ⟨_, r, x, rfl, h1, h2⟩
    all_goals exact ⟨_, _, s, rfl, rfl, rfl⟩
  obtain ⟨s', r, x, h1, h2, rfl⟩ := fin
  obtain ⟨k', h3, h4⟩ := rep x r h2
  exact ⟨_, k', r, h1, h3, h4⟩

/-! ## C23 -/

/-- **C23, the part that holds**: a creation whose constructor raises leaves nothing behind: the uid is as
free as before. -/
theorem failed_constructor_leaves_nothing_partial {s s' : St} {t : Nat} {k : Task} {u : Uid}
    (hk : s.tasks[t]? = some k) (hn : k.phase = .new) (hq : k.req = .create u false)
    (hs : step s (.start t) = some s') : s'.actors = s.actors ∧ ∀ t' i, Ev.registered t' u i ∈ s'.log → Ev.registered t' u i ∈ s.log := by
  obtain ⟨mid, req, p, c⟩ := k
  simp only at hn hq; subst hn hq
  simp only [step, hk, startTask, startCreate, Option.some.injEq] at hs
  rcases ha : s.actors.get? u with _ | i <;> simp only [ha] at hs <;> subst hs <;> constructor <;>
    simp [St.reply, St.setPhase, St.addLog]

/-- **C23 refuted**: when `__post_create__` raises or is cancelled, the creation is answered with the error
and the actor stays, in every state: nothing is removed. -/
theorem failed_post_create_leaves_actor_refuted {s s' : St} {t : Nat} {k : Task} {u : Uid} {i : Inst} {o : Out}
    (hk : s.tasks[t]? = some k) (hp : k.phase = .post u i) (ho : ∀ n, o ≠ .ok n)
    (hs : step s (.finish t o) = some s') :
    s'.actors = s.actors ∧ s'.log = s.log ∧ ∃ c, s'.tasks[t]? = some ⟨k.mid, k.req, .sending (.error o.err) true, c⟩ := by
  obtain ⟨mid, req, p, c⟩ := k
  simp only at hp; subst hp
  simp only [step, hk] at hs
  rcases o with n | n | _
  · exact absurd rfl (ho n)
  all_goals
    simp only [finishTask, Option.some.injEq] at hs
    subst hs
    refine ⟨rfl, rfl, c, ?_⟩
    simp [St.reply, St.setPhase, List.getElem?_modify, hk]

/-- … and the uid cannot be used again: the client that created it got error 7, there is an actor, and
the second creation is refused. -/
theorem failed_post_create_blocks_uid_refuted :
    ∃ ls s, Run ls s ∧ s.log = [.registered 0 5 0, .replied 0 100 (.error (.user 7)), .refused 1 5,
      .replied 1 101 (.error .alreadyExist)] ∧ s.actors.get? 5 = some 0 := by
  refine ⟨_, _, .snoc (.snoc (.snoc (.snoc (.snoc (.snoc (.snoc .init
    (l := .recv 100 (.create 5 true)) rfl) (l := .start 0) rfl) (l := .finish 0 (.exc 7)) rfl)
    (l := .send 0 .sent) rfl) (l := .recv 101 (.create 5 true)) rfl) (l := .start 1) rfl) (l := .send 1 .sent) rfl,
    by decide, by decide⟩

/-! ## C24 -/

theorem live_some {u : Uid} {i : Inst} (log : List Ev) (h : live u log = some i) :
    ∃ p t q, log = p ++ Ev.registered t u i :: q ∧ ∀ t' j, Ev.removed t' u j ∉ q := by
  induction log using List.reverseRecOn' with
  | nil => simp [live] at h
  | append_singleton log e ih =>
    rw [live_snoc] at h
    by_cases hreg : ∃ t, e = .registered t u i
    · obtain ⟨t, rfl⟩ := hreg
      exact ⟨log, t, [], rfl, by simp⟩
    · have hprev : live u log = some i ∧ ∀ t' j, e ≠ .removed t' u j := by
        cases e with
        | registered t v j =>
          simp only [liveStep] at h
          split at h
          · next hv => subst hv; cases h; exact absurd ⟨t, rfl⟩ hreg
          · exact ⟨h, by simp⟩
        | removed t v j =>
          simp only [liveStep] at h
          split at h
          · simp at h
          · next hv => exact ⟨h, by simpa using hv⟩
        | _ => exact ⟨h, by simp⟩
      obtain ⟨p, t, q, rfl, hq⟩ := ih hprev.1
      refine ⟨p, t, q ++ [e], by simp, fun t' j hm => ?_⟩
      rcases List.mem_append.mp hm with hm | hm
      · exact hq t' j hm
      · exact hprev.2 t' j (List.mem_singleton.mp hm).symm

theorem registered_unique {ls : List Label} {s : St} (h : Run ls s) {a b c d r : List Ev} {t t' : Tid} {u u' : Uid} {i : Inst}
    (h1 : s.log = a ++ Ev.registered t u i :: b ++ r) (h2 : a ++ Ev.registered t u i :: b = c ++ Ev.registered t' u' i :: d) :
    a = c := by
  rcases List.append_eq_append_iff.mp h2 with ⟨x, rfl, hx⟩ | ⟨x, rfl, hx⟩
  · rcases x with _ | ⟨e, x⟩
    · simp
    · simp at hx
      obtain ⟨rfl, hx⟩ := hx
      have := history_ok h (past := a ++ Ev.registered t u i :: x) (e := .registered t' u' i) (future := d ++ r)
        (by rw [h1, hx]; simp)
      exact absurd (by simp) (this.2 t u)
  · rcases x with _ | ⟨e, x⟩
    · simp
    · simp at hx
      obtain ⟨rfl, hx⟩ := hx
      have := history_ok h (past := c ++ Ev.registered t' u' i :: x) (e := .registered t u i) (future := b ++ r)
        (by rw [h1]; simp)
      exact absurd (by simp) (this.2 t' u')

/-- **C24** (at most one success): whatever the interleaving, an actor is removed at most once -/
theorem removed_once {ls : List Label} {s : St} (h : Run ls s) {a b c : List Ev} {t t' : Tid} {u u' : Uid} {i : Inst} :
    s.log ≠ a ++ Ev.removed t u i :: b ++ Ev.removed t' u' i :: c := by
  intro hl
  have h1 := history_ok h (past := a) (e := .removed t u i) (future := b ++ Ev.removed t' u' i :: c) (by simp [hl])
  have h2 := history_ok h (past := a ++ Ev.removed t u i :: b) (e := .removed t' u' i) (future := c) (by simp [hl])
  simp only [EvOk] at h1 h2
  obtain ⟨p, t0, q, rfl, hq⟩ := live_some _ h1
  obtain ⟨p', t1, q', he, hq'⟩ := live_some _ h2
  have he0 : p ++ Ev.registered t0 u i :: (q ++ Ev.removed t u i :: b) = p' ++ Ev.registered t1 u' i :: q' := by simpa using he
  have := registered_unique h (r := Ev.removed t' u' i :: c) (by simp [hl]) he0
  subst this
  simp at he0
  obtain ⟨⟨_, rfl⟩, rfl⟩ := he0
  exact hq' t i (by simp)

/-- **C24 refuted**: two destroys of one actor: the hook runs twice and the second caller gets KeyError, not
ActorNotExist. -/
theorem concurrent_destroy_hook_twice_refuted :
    ∃ ls s, Run ls s ∧ s.log = [.registered 0 5 0, .replied 0 100 (.actorRef 5), .preDestroy 1 5 0, .preDestroy 2 5 0,
      .removed 1 5 0, .replied 1 101 (.uid 5), .replied 2 102 (.error .keyError)] := by
  refine ⟨_, _, .snoc (.snoc (.snoc (.snoc (.snoc (.snoc (.snoc (.snoc (.snoc (.snoc (.snoc (.snoc .init
    (l := .recv 100 (.create 5 true)) rfl) (l := .start 0) rfl) (l := .finish 0 (.ok 0)) rfl)
    (l := .send 0 .sent) rfl) (l := .recv 101 (.destroy 5)) rfl) (l := .recv 102 (.destroy 5)) rfl)
    (l := .start 1) rfl) (l := .start 2) rfl) (l := .finish 1 (.ok 0)) rfl) (l := .send 1 .sent) rfl)
    (l := .finish 2 (.ok 0)) rfl) (l := .send 2 .sent) rfl, by decide⟩

/-- **C24 refuted** (worse): between the two ends of the destroys the uid is created again; the second
destroy then removes the new actor, whose hook never ran. -/
theorem stale_destroy_removes_new_actor_refuted :
    ∃ ls s, Run ls s ∧ s.log = [.registered 0 5 0, .preDestroy 1 5 0, .preDestroy 2 5 0, .removed 1 5 0,
      .registered 3 5 1, .removed 2 5 1, .replied 2 102 (.uid 5)] ∧ s.actors.get? 5 = none := by
  refine ⟨_, _, .snoc (.snoc (.snoc (.snoc (.snoc (.snoc (.snoc (.snoc (.snoc (.snoc (.snoc .init
    (l := .recv 100 (.create 5 true)) rfl) (l := .start 0) rfl)
    (l := .recv 101 (.destroy 5)) rfl) (l := .recv 102 (.destroy 5)) rfl)
    (l := .start 1) rfl) (l := .start 2) rfl) (l := .finish 1 (.ok 0)) rfl)
    (l := .recv 103 (.create 5 true)) rfl) (l := .start 3) rfl)
    (l := .finish 2 (.ok 0)) rfl) (l := .send 2 .sent) rfl, by decide, by decide⟩

/-- no destroy starts while another one of the same uid is in its hook -/
def NoOverlap (ls : List Label) : Prop :=
  ∀ (n t : Nat) s k u, ls[n]? = some (Label.start t) → Run (ls.take n) s → s.tasks[t]? = some k → k.req = .destroy u →
    ∀ (t' : Nat) k' i, s.tasks[t']? = some k' → k'.phase ≠ .pre u i

structure Serial (s : St) : Prop where
  hooked : ∀ (t : Nat) k u i, s.tasks[t]? = some k → k.phase = .pre u i → s.actors.get? u = some i ∧ Ev.preDestroy t u i ∈ s.log
  alone : ∀ (t t' : Nat) k k' u i i', s.tasks[t]? = some k → s.tasks[t']? = some k' → k.phase = .pre u i → k'.phase = .pre u i' → t = t'
  noKeyErr : ∀ (t : Nat) k b, s.tasks[t]? = some k → k.phase ≠ .sending (.error .keyError) b
  noKeyRep : ∀ t m, Ev.replied t m (.error .keyError) ∉ s.log
  hook : ∀ t u i, Ev.removed t u i ∈ s.log → Ev.preDestroy t u i ∈ s.log

theorem serial_of_run {ls : List Label} {s : St} (h : Run ls s) (hno : NoOverlap ls) : Serial s := by
  induction h with
  | init => constructor <;> simp [St.init]
  | @snoc ls l s s' hr hstep ih =>
    have ih := ih (fun n t s k u he hrun hk hq => by
      have hlt : n < ls.length := (List.getElem?_eq_some_iff.mp he).1
      exact hno n t s k u (by rw [List.getElem?_append_left hlt]; exact he)
        (by rw [List.take_append_of_le_length (Nat.le_of_lt hlt)]; exact hrun) hk hq)
    rcases step_cases hstep with ⟨mid, req, rfl, rfl⟩ | ⟨t, k, p, es, ht, ha⟩
    · have hnew : ∀ (t : Nat) k, (s.tasks ++ [⟨mid, req, .new, false⟩])[t]? = some k → s.tasks[t]? = some k ∨ k.phase = .new := by
        intro t k hk
        rw [List.getElem?_append] at hk
        split at hk
        · exact .inl hk
        · rcases List.getElem?_eq_some_iff.mp hk with ⟨_, hh⟩
          simp at hh; subst hh; exact .inr rfl
      refine ⟨fun t k u i hk hp => ?_, fun t t' k k' u i i' hk hk' hp hp' => ?_, fun t k b hk hp => ?_, ih.noKeyRep, ih.hook⟩
      · rcases hnew t k hk with h | h
        · exact ih.hooked t k u i h hp
        · rw [h] at hp; simp at hp
      · rcases hnew t k hk with h | h
        · rcases hnew t' k' hk' with h' | h'
          · exact ih.alone t t' k k' u i i' h h' hp hp'
          · rw [h'] at hp'; simp at hp'
        · rw [h] at hp; simp at hp
      · rcases hnew t k hk with h | h
        · exact ih.noKeyErr t k b h hp
        · rw [h] at hp; simp at hp
    · have hold : ∀ (t' : Nat) k', s'.tasks[t']? = some k' → t' ≠ t → ∃ k0, s.tasks[t']? = some k0 ∧ k0.phase = k'.phase := by
        intro t' k' hk' hne
        obtain ⟨f, hf⟩ := ha.rest t' hne
        rw [hf] at hk'
        rcases h0 : s.tasks[t']? with _ | k0
        · rw [h0] at hk'; simp at hk'
        · rw [h0] at hk'; simp at hk'; subst hk'; exact ⟨k0, rfl, rfl⟩
      -- the actors of other tasks' hooks are not touched
      have hact : ∀ (t' : Nat) k0 u i, s.tasks[t']? = some k0 → t' ≠ t → k0.phase = .pre u i → s'.actors.get? u = some i := by
        intro t' k0 u i h0 hne hp
        have h1 := (ih.hooked t' k0 u i h0 hp).1
        have hkind := ha.kind
        have : s'.actors.get? u = s.actors.get? u := by
          generalize s'.actors = a at *
          generalize s'.nextInst = n at *
          generalize s'.running = r at *
          cases hkind with
          | registered _ _ hnone =>
            rw [Dict.get?_set]
            split
            · next he => subst he; rw [h1] at hnone; simp at hnone
            · rfl
          | removed hpre _ =>
            rw [Dict.get?_erase]
            split
            · next he => subst he; exact absurd (ih.alone t' t k0 k _ _ _ h0 ha.old hp hpre) hne
            · rfl
          | _ => rfl
        rw [this, h1]
      refine ⟨fun t' k' u i hk hp => ?_, fun t1 t2 k1 k2 u i i' hk1 hk2 hp1 hp2 => ?_, fun t' k' b hk hp => ?_, fun t' m hm => ?_, fun t' u i hm => ?_⟩
      · by_cases he : t' = t
        · subst he
          rw [ha.task] at hk; cases hk
          simp only at hp
          have hkind := ha.kind
          rw [ha.log]
          generalize s'.actors = a at *
          generalize s'.nextInst = n at *
          generalize s'.running = r at *
          subst hp
          cases hkind with
          | destroy h1 h2 h3 => exact ⟨h3, by simp⟩
        · obtain ⟨k0, h0, hp0⟩ := hold t' k' hk he
          refine ⟨hact t' k0 u i h0 he (hp0.trans hp), ?_⟩
          rw [ha.log]; exact List.mem_append_left _ (ih.hooked t' k0 u i h0 (hp0.trans hp)).2
      · -- a task entering its hook is alone
        have enter : ∀ (ta tb : Nat) ka kb i i', s'.tasks[ta]? = some ka → s'.tasks[tb]? = some kb → ka.phase = .pre u i →
            kb.phase = .pre u i' → ta = t → tb = t := by
          intro ta tb ka kb i i' hka hkb hpa hpb hta
          subst hta
          by_cases htb : tb = ta
          · exact htb
          exfalso
          obtain ⟨k0, h0, hp0⟩ := hold tb kb hkb htb
          rw [ha.task] at hka; cases hka
          simp only at hpa
          have hkind := ha.kind
          generalize s'.actors = a at *
          generalize s'.nextInst = n at *
          generalize s'.running = r at *
          subst hpa
          cases hkind with
          | destroy h1 h2 h3 =>
            exact hno ls.length ta s k u (by simp) (by simpa using hr) ha.old h2 tb k0 i' h0 (hp0.trans hpb)
        by_cases h1 : t1 = t
        · rw [h1, enter t1 t2 k1 k2 i i' hk1 hk2 hp1 hp2 h1]
        · by_cases h2 : t2 = t
          · rw [h2, enter t2 t1 k2 k1 i' i hk2 hk1 hp2 hp1 h2]
          · obtain ⟨k01, h01, hp01⟩ := hold t1 k1 hk1 h1
            obtain ⟨k02, h02, hp02⟩ := hold t2 k2 hk2 h2
            exact ih.alone t1 t2 k01 k02 u i i' h01 h02 (hp01.trans hp1) (hp02.trans hp2)
      · by_cases he : t' = t
        · subst he
          rw [ha.task] at hk; cases hk
          simp only at hp
          have hkind := ha.kind
          generalize s'.actors = a at *
          generalize s'.nextInst = n at *
          generalize s'.running = r at *
          subst hp
          generalize hphase : Phase.sending (.error .keyError) b = ph at hkind
          cases hkind <;> simp at hphase
          case keyError u i n h1 h2 =>
            have := (ih.hooked t' k u i ha.old h1).1
            rw [h2] at this; simp at this
          case failed h1 h2 =>
            rename_i o
            rcases o with n | n | _ <;> simp [Out.err] at hphase
        · obtain ⟨k0, h0, hp0⟩ := hold t' k' hk he
          exact ih.noKeyErr t' k0 b h0 (hp0.trans hp)
      · rw [ha.log] at hm
        rcases List.mem_append.mp hm with hm | hm
        · exact ih.noKeyRep t' m hm
        · have hkind := ha.kind
          generalize s'.actors = a at *
          generalize s'.nextInst = n at *
          generalize s'.running = r at *
          cases hkind <;> simp at hm
          case sent =>
            obtain ⟨rfl, rfl, rfl⟩ := hm
            exact ih.noKeyErr t' k _ ha.old (by assumption)
      · rw [ha.log] at hm ⊢
        rcases List.mem_append.mp hm with hm | hm
        · exact List.mem_append_left _ (ih.hook t' u i hm)
        · have hkind := ha.kind
          generalize s'.actors = a at *
          generalize s'.nextInst = n at *
          generalize s'.running = r at *
          cases hkind <;> simp at hm
          case removed =>
            obtain ⟨rfl, rfl, rfl⟩ := hm
            have := ih.hooked t' k u _ ha.old (by assumption)
            rw [‹s.actors.get? u = some i›] at this
            obtain ⟨h3, h4⟩ := this
            cases h3
            exact List.mem_append_left _ h4

/-- **C24, the part that holds**: when the destroys of one uid do not overlap, a destroy that succeeds ran
the hook of the very actor it removes, and no destroy ends in KeyError: the others report ActorNotExist
(or the error of their own hook). -/
theorem destroy_exclusive_partial {ls : List Label} {s : St} (h : Run ls s) (hno : NoOverlap ls) :
    (∀ t u i, Ev.removed t u i ∈ s.log → Ev.preDestroy t u i ∈ s.log) ∧
    (∀ t m, Ev.replied t m (.error .keyError) ∉ s.log) :=
  ⟨(serial_of_run h hno).hook, (serial_of_run h hno).noKeyRep⟩

theorem run_iff (ls : List Label) (s : St) : Run ls s ↔ ls.foldlM step St.init = some s := by
  constructor
  · intro h
    induction h with
    | init => rfl
    | snoc _ hs ih => simp [List.foldlM_append, ih, hs]
  · intro h
    induction ls using List.reverseRecOn' generalizing s with
    | nil => simp at h; subst h; exact .init
    | append_singleton ls l ih =>
      rw [List.foldlM_append] at h
      rcases hs : ls.foldlM step St.init with _ | s0
      · rw [hs] at h; simp at h
      · rw [hs] at h
        simp at h
        exact .snoc (ih s0 hs) h

/-- the hypotheses of `destroy_exclusive_partial` are met by two destroys one after the other: the first
succeeds, the second reports ActorNotExist -/
example : ∃ ls s, Run ls s ∧ NoOverlap ls ∧
    s.log = [.registered 0 5 0, .preDestroy 1 5 0, .removed 1 5 0, .replied 1 101 (.uid 5), .missing 2 5,
      .replied 2 102 (.error .notExist)] := by
  refine ⟨[.recv 100 (.create 5 true), .start 0, .recv 101 (.destroy 5), .recv 102 (.destroy 5), .start 1,
    .finish 1 (.ok 0), .send 1 .sent, .start 2, .send 2 .sent], _, (run_iff _ _).mpr rfl, ?_, by decide⟩
  intro n t s k u hl hr hk hq t' k' i hk' hp
  rw [run_iff] at hr
  match n with
  | 0 | 2 | 3 | 5 | 6 | 8 => simp at hl
  | 1 =>
    simp at hl; subst hl
    have : s = { St.init with tasks := [⟨100, .create 5 true, .new, false⟩] } := (Option.some.inj hr).symm
    subst this
    simp at hk; subst hk; simp at hq
  | 4 =>
    have : s.tasks = [⟨100, .create 5 true, .post 5 0, false⟩, ⟨101, .destroy 5, .new, false⟩, ⟨102, .destroy 5, .new, false⟩] := by
      rw [← Option.some.inj hr]; rfl
    rw [this] at hk'
    match t' with
    | 0 | 1 | 2 => simp at hk'; subst hk'; simp at hp
    | n + 3 => simp at hk'
  | 7 =>
    have : s.tasks = [⟨100, .create 5 true, .post 5 0, false⟩, ⟨101, .destroy 5, .done, false⟩, ⟨102, .destroy 5, .new, false⟩] := by
      rw [← Option.some.inj hr]; rfl
    rw [this] at hk'
    match t' with
    | 0 | 1 | 2 => simp at hk'; subst hk'; simp at hp
    | n + 3 => simp at hk'
  | n + 9 => simp at hl

/-! ## C46 -/

/-- the tasks have different message ids (clients draw them at random: `new_message_id`) -/
def UniqueIds (s : St) : Prop := ∀ (t t' : Nat) k k', s.tasks[t]? = some k → s.tasks[t']? = some k' → k.mid = k'.mid → t = t'

/-- with different ids, a call is found under its id exactly while its user code runs -/
theorem running_iff {ls : List Label} {s : St} (h : Run ls s) (hu : UniqueIds s) (m : Mid) (t : Nat) :
    s.running.get? m = some t ↔ ∃ k, s.tasks[t]? = some k ∧ k.mid = m ∧ k.phase.awaiting = true := by
  refine ⟨(inv_of_run h).running m t, ?_⟩
  induction h generalizing m t with
  | init => simp [St.init]
  | @snoc ls l s s' hr hstep ih =>
    rintro ⟨k, hk, rfl, hp⟩
    rcases step_cases hstep with ⟨mid, req, rfl, rfl⟩ | ⟨t0, k0, p, es, ht, ha⟩
    · have hu0 : UniqueIds s := fun t t' k k' h1 h2 => hu t t' k k'
        (by rw [List.getElem?_append_left (List.getElem?_eq_some_iff.mp h1).1]; exact h1)
        (by rw [List.getElem?_append_left (List.getElem?_eq_some_iff.mp h2).1]; exact h2)
      refine ih hu0 k.mid t ⟨k, ?_, rfl, hp⟩
      rw [List.getElem?_append] at hk
      split at hk
      · exact hk
      · rcases List.getElem?_eq_some_iff.mp hk with ⟨_, hh⟩
        simp at hh; subst hh; simp [Phase.awaiting] at hp
    · have hget : ∀ (t' : Nat) k', s.tasks[t']? = some k' → ∃ k'', s'.tasks[t']? = some k'' ∧ k''.mid = k'.mid ∧ (t' ≠ t0 → k''.phase = k'.phase) := by
        intro t' k' h'
        by_cases he : t' = t0
        · subst he; rw [ha.old] at h'; cases h'; exact ⟨_, ha.task, rfl, fun h => absurd rfl h⟩
        · obtain ⟨f, hf⟩ := ha.rest t' he
          exact ⟨{ k' with cancelReq := f k'.cancelReq }, by rw [hf, h']; rfl, rfl, fun _ => rfl⟩
      have hu0 : UniqueIds s := by
        intro t t' k k' h1 h2 he
        obtain ⟨k1, h1', e1, _⟩ := hget t k h1
        obtain ⟨k2, h2', e2, _⟩ := hget t' k' h2
        exact hu t t' k1 k2 h1' h2' (by rw [e1, e2, he])
      have ih := ih hu0
      by_cases he : t = t0
      · subst he
        rw [ha.task] at hk; cases hk
        rcases kind_running ha.kind with ⟨hr, h1, h2⟩ | ⟨hr, h1⟩ | ⟨hr, h1, h2⟩
        · rw [hr]; simp
        · simp only at hp; rw [h1] at hp; simp at hp
        · simp only at hp; rw [h2] at hp; simp at hp
      · obtain ⟨f, hf⟩ := ha.rest t he
        rw [hf] at hk
        rcases h0 : s.tasks[t]? with _ | k1
        · rw [h0] at hk; simp at hk
        · rw [h0] at hk; simp at hk; subst hk
          have h2 := ih k1.mid t ⟨k1, h0, rfl, hp⟩
          have hne : ¬ k0.mid = k1.mid := fun e => he (hu0 t t0 k1 k0 h0 ha.old e.symm)
          rcases kind_running ha.kind with ⟨hr, _⟩ | ⟨hr, _⟩ | ⟨hr, _⟩ <;> rw [hr] <;> simp [hne, h2]

/-- **C46** (a running call): cancelling the id of a call whose user code is running marks exactly that
call as cancelled, answers True, and changes nothing of any other call, nor the actors. -/
theorem cancel_running_call {ls : List Label} {s : St} (h : Run ls s) (hu : UniqueIds s) {t t' : Nat} {k k' : Task} {m : Mid}
    (hk : s.tasks[t]? = some k) (hn : k.phase = .new) (hq : k.req = .cancel m) (hm : m ≠ k.mid)
    (hk' : s.tasks[t']? = some k') (hm' : k'.mid = m) (hp : k'.phase.awaiting = true) :
    ∃ s', step s (.start t) = some s' ∧ s'.tasks[t']? = some { k' with cancelReq := true } ∧
      s'.tasks[t]? = some { k with phase := .sending (.bool true) true } ∧
      (∀ (t'' : Nat), t'' ≠ t → t'' ≠ t' → s'.tasks[t'']? = s.tasks[t'']?) ∧
      s'.actors = s.actors ∧ s'.log = s.log := by
  have hrun := (running_iff h hu m t').mpr ⟨k', hk', hm', hp⟩
  have hne : t' ≠ t := by
    rintro rfl; rw [hk] at hk'; cases hk'; rw [hn] at hp; simp [Phase.awaiting] at hp
  have hne' : ¬ t = t' := fun e => hne e.symm
  obtain ⟨mid, req, p, c⟩ := k
  simp only at hn hq hm; subst hn hq
  have hg : (s.running.set mid t).get? m = some t' := by
    rw [Dict.get?_set, if_neg (fun e => hm e.symm), hrun]
  refine ⟨({ s with tasks := s.tasks.modify t' (fun k => { k with cancelReq := true }) }).reply t mid (.bool true),
    by simp only [step, hk, startTask, startCancel, hg, if_neg hne], ?_, ?_, ?_, rfl, rfl⟩
  · simp [St.reply, St.setPhase, List.getElem?_modify, hk', hne']
  · simp [St.reply, St.setPhase, List.getElem?_modify, hk, hne]
  · intro t'' h1 h2
    have h1' : ¬ t = t'' := fun e => h1 e.symm
    have h2' : ¬ t' = t'' := fun e => h2 e.symm
    simp [St.reply, St.setPhase, List.getElem?_modify, h1', h2']

/-- **C46** (not running): cancelling an id under which no user code runs answers CannotCancelTask and
changes nothing else. -/
theorem cancel_not_running {ls : List Label} {s : St} (h : Run ls s) {t : Nat} {k : Task} {m : Mid}
    (hk : s.tasks[t]? = some k) (hn : k.phase = .new) (hq : k.req = .cancel m) (hm : m ≠ k.mid)
    (hno : ∀ (t' : Nat) k', s.tasks[t']? = some k' → k'.mid = m → k'.phase.awaiting = false) :
    ∃ s', step s (.start t) = some s' ∧
      s'.tasks[t]? = some { k with phase := .sending (.error .cannotCancel) true } ∧
      (∀ (t'' : Nat), t'' ≠ t → s'.tasks[t'']? = s.tasks[t'']?) ∧
      s'.actors = s.actors ∧ s'.log = s.log := by
  have hrun : s.running.get? m = none := by
    rcases hr : s.running.get? m with _ | t'
    · rfl
    · obtain ⟨k', hk', h1, h2⟩ := (inv_of_run h).running m t' hr
      rw [hno t' k' hk' h1] at h2; simp at h2
  obtain ⟨mid, req, p, c⟩ := k
  simp only at hn hq hm; subst hn hq
  have hg : (s.running.set mid t).get? m = none := by
    rw [Dict.get?_set, if_neg (fun e => hm e.symm), hrun]
  refine ⟨s.reply t mid (.error .cannotCancel), by simp only [step, hk, startTask, startCancel, hg], ?_, ?_, rfl, rfl⟩
  · simp [St.reply, St.setPhase, List.getElem?_modify, hk]
  · intro t'' h1
    have h1' : ¬ t = t'' := fun e => h1 e.symm
    simp [St.reply, St.setPhase, List.getElem?_modify, h1']

/-- **C46** (other calls are never affected), whatever the ids: a step changes another task than its own
only by setting its cancel mark, and only if it is a cancel message carrying that task's id while that
task runs user code. -/
theorem only_cancel_touches_others {ls : List Label} {s s' : St} (h : Run ls s) {l : Label} {t t' : Nat} {k' : Task}
    (ht : l.tid? = some t) (hs : step s l = some s') (hne : t' ≠ t) (hk' : s.tasks[t']? = some k') :
    s'.tasks[t']? = some k' ∨
    (s'.tasks[t']? = some { k' with cancelReq := true } ∧ k'.phase.awaiting = true ∧
      ∃ k, s.tasks[t]? = some k ∧ k.req = .cancel k'.mid) := by
  have hne' : ¬ t = t' := fun e => hne e.symm
  rcases l with ⟨mid, req⟩ | t0 | ⟨t0, o⟩ | ⟨t0, o⟩ <;> simp only [Label.tid?, Option.some.injEq, reduceCtorEq] at ht <;> subst ht
  · simp only [step] at hs
    split at hs
    · next mid req c hk =>
      simp only [Option.some.injEq] at hs; subst hs
      cases req with
      | cancel m =>
        simp only [startTask, startCancel]
        rcases hg : (s.running.set mid t0).get? m with _ | t''
        · left; simp [St.reply, St.setPhase, List.getElem?_modify, hne', hk']
        · simp only
          split
          · left; simp [St.reply, St.setPhase, List.getElem?_modify, hne', hk']
          · next hnt =>
            by_cases he : t'' = t'
            · subst he
              right
              rw [Dict.get?_set] at hg
              split at hg
              · cases hg; exact absurd rfl hnt
              · obtain ⟨k2, hk2, h1, h2⟩ := (inv_of_run h).running m t'' hg
                rw [hk'] at hk2; cases hk2
                refine ⟨by simp [St.reply, St.setPhase, List.getElem?_modify, hne', hk'], h2, _, hk, by rw [h1]⟩
            · left; simp [St.reply, St.setPhase, List.getElem?_modify, hne', he, hk']
      | create u c =>
        left; simp only [startTask, startCreate]
        rcases s.actors.get? u with _ | _ <;> (try cases c) <;>
          simp [St.reply, St.await, St.addLog, St.setPhase, List.getElem?_modify, hne', hk']
      | destroy u =>
        left; simp only [startTask, startDestroy]
        rcases s.actors.get? u with _ | _ <;>
          simp [St.reply, St.await, St.addLog, St.setPhase, List.getElem?_modify, hne', hk']
      | ref u =>
        left; simp only [startTask, startUse]
        rcases s.actors.get? u with _ | _ <;>
          simp [St.reply, St.await, St.addLog, St.setPhase, List.getElem?_modify, hne', hk']
      | send u =>
        left; simp only [startTask, startUse]
        rcases s.actors.get? u with _ | _ <;>
          simp [St.reply, St.await, St.addLog, St.setPhase, List.getElem?_modify, hne', hk']
      | tell u =>
        left; simp only [startTask, startUse]
        rcases s.actors.get? u with _ | _ <;>
          simp [St.reply, St.await, St.addLog, St.setPhase, List.getElem?_modify, hne', hk']
      | has u => left; simp [startTask, St.reply, St.addLog, St.setPhase, List.getElem?_modify, hne', hk']
      | other => left; simp [startTask, St.await, St.setPhase, List.getElem?_modify, hne', hk']
      | reply => left; simp [startTask, St.setPhase, List.getElem?_modify, hne', hk']
    · simp at hs
  · left
    rcases step_cases hs with ⟨_, _, h, _⟩ | ⟨t1, k, p, es, h1, ha⟩
    · simp at h
    · simp only [step] at hs
      split at hs
      · next mid req p c hk =>
        rcases p with _ | ⟨u, i⟩ | ⟨u, i⟩ | ⟨u, i⟩ | _ | _ | ⟨r, b⟩ | _ <;> rcases o with n | n | _ <;>
          simp only [finishTask, finishDestroy, reduceCtorEq, Option.some.injEq] at hs <;> (try split at hs) <;>
          (try simp only [reduceCtorEq, Option.some.injEq] at hs) <;> (try (rcases hs)) <;>
          (try subst hs) <;> (try split) <;>
          simp [St.reply, St.addLog, St.setPhase, List.getElem?_modify, hne', hk']
      · simp at hs
  · left
    simp only [step] at hs
    split at hs
    · next mid req r b c hk =>
      split at hs
      · simp at hs
      simp only [Option.some.injEq] at hs; subst hs
      cases o <;> simp only [sendTask] <;> (try split) <;> simp [St.addLog, St.setPhase, List.getElem?_modify, hne', hk']
    · simp at hs

/-- a cancelled `tell` that is still waiting is answered with CancelledError, and nothing else is possible -/
theorem cancelled_tell {s s' : St} {t : Nat} {k : Task} {o : Out} (hk : s.tasks[t]? = some k) (hp : k.phase = .told)
    (hc : k.cancelReq = true) (hs : step s (.finish t o) = some s') :
    s'.tasks[t]? = some { k with phase := .sending (.error .cancelled) true } := by
  obtain ⟨mid, req, p, c⟩ := k
  simp only at hp hc; subst hp hc
  simp only [step, hk] at hs
  rcases o with n | n | _ <;> simp [finishTask] at hs
  subst hs
  simp [St.reply, St.setPhase, List.getElem?_modify, hk]

/-- a cancel message is met by a running call in a reachable state -/
example : ∃ ls s, Run ls s ∧ UniqueIds s ∧ s.running.get? 101 = some 1 ∧
    s.tasks[2]? = some ⟨102, .cancel 101, .new, false⟩ := by
  refine ⟨[.recv 100 (.create 5 true), .start 0, .recv 101 (.send 5), .start 1, .recv 102 (.cancel 101)], _,
    (run_iff _ _).mpr rfl, ?_, by decide, by decide⟩
  intro t t' k k' h1 h2 he
  match t, t' with
  | 0, 0 | 1, 1 | 2, 2 => rfl
  | 0, 1 | 0, 2 | 1, 0 | 1, 2 | 2, 0 | 2, 1 => cases h1; cases h2; simp at he
  | n + 3, _ => simp [St.init, startTask, startCreate, startUse, St.await, St.setPhase, St.addLog, Dict.get?, Dict.set] at h1
  | _, n + 3 => simp [St.init, startTask, startCreate, startUse, St.await, St.setPhase, St.addLog, Dict.get?, Dict.set] at h2

end Xoscar.Pool
