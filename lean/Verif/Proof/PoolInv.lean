import Verif.Proof.Pool
import Verif.Spec.Pool
namespace Xoscar.Pool

theorem live_snoc (u : Uid) (log : List Ev) (e : Ev) : live u (log ++ [e]) = liveStep u (live u log) e := by
  simp [live]

/-- the task is suspended in its handler -/
def Phase.awaiting : Phase → Bool
  | .post _ _ | .pre _ _ | .recv _ _ | .told | .other => true
  | _ => false

/-- what is known of a finished task -/
def Done (log : List Ev) (sd : List SendOut) (rp : List (Mid × Reply)) (t : Tid) (k : Task) : Prop :=
  (k.req = .cancel k.mid ∧ (sd = [.aborted] ∨ sd = [.failed, .aborted]) ∧ rp = []) ∨
  (k.req = .reply ∧ sd = [] ∧ rp = []) ∨
  ∃ r, Means log t k.req r ∧
    ((sd = [.sent] ∧ rp = [(k.mid, r)]) ∨ (sd = [.closed] ∧ rp = []) ∨
     (sd = [.failed, .sent] ∧ rp = [(k.mid, .error .sendFailed)]) ∨
     (sd = [.failed, .closed] ∧ rp = []) ∨ (sd = [.failed, .failed] ∧ rp = []))

def PhaseOk (log : List Ev) (sd : List SendOut) (rp : List (Mid × Reply)) (t : Tid) (k : Task) : Phase → Prop
  | .new => sd = [] ∧ rp = []
  | .post u i => sd = [] ∧ rp = [] ∧ k.req = .create u true ∧ Ev.registered t u i ∈ log
  | .pre u i => sd = [] ∧ rp = [] ∧ k.req = .destroy u ∧ Ev.preDestroy t u i ∈ log
  | .recv u i => sd = [] ∧ rp = [] ∧ k.req = .send u ∧ Ev.found t u i ∈ log
  | .told => sd = [] ∧ rp = [] ∧ ∃ u i, k.req = .tell u ∧ Ev.found t u i ∈ log
  | .other => sd = [] ∧ rp = [] ∧ k.req = .other
  | .sending r true => sd = [] ∧ rp = [] ∧ Means log t k.req r
  | .sending r false => sd = [.failed] ∧ rp = [] ∧ r = .error .sendFailed ∧ ∃ r', Means log t k.req r'
  | .done => Done log sd rp t k

structure Inv (ls : List Label) (s : St) : Prop where
  actors : ∀ u, s.actors.get? u = live u s.log
  fresh : ∀ t u i, Ev.registered t u i ∈ s.log → i < s.nextInst
  hist : ∀ pre e post, s.log = pre ++ e :: post → EvOk pre e
  running : ∀ m t, s.running.get? m = some t → ∃ k, s.tasks[t]? = some k ∧ k.mid = m ∧ k.phase.awaiting = true
  tasks : ∀ (t : Nat) k, s.tasks[t]? = some k → PhaseOk s.log (sends t ls) (replies t s.log) t k k.phase
  unknown : ∀ (t : Nat), s.tasks.length ≤ t → sends t ls = [] ∧ replies t s.log = []

theorem Means.mono {log log' : List Ev} {t : Tid} {q : Req} {r : Reply} (hs : ∀ e ∈ log, e ∈ log')
    (h : Means log t q r) : Means log' t q r := by
  cases q <;> simp only [Means] at * <;> grind

theorem PhaseOk.mono {log log' : List Ev} {sd rp} {t : Tid} {k : Task} {p : Phase} (hs : ∀ e ∈ log, e ∈ log')
    (h : PhaseOk log sd rp t k p) : PhaseOk log' sd rp t k p := by
  rcases p with _ | ⟨u, i⟩ | ⟨u, i⟩ | ⟨u, i⟩ | _ | _ | ⟨r, b⟩ | _
  · exact h
  · exact ⟨h.1, h.2.1, h.2.2.1, hs _ h.2.2.2⟩
  · exact ⟨h.1, h.2.1, h.2.2.1, hs _ h.2.2.2⟩
  · exact ⟨h.1, h.2.1, h.2.2.1, hs _ h.2.2.2⟩
  · obtain ⟨h1, h2, u, i, h3, h4⟩ := h
    exact ⟨h1, h2, u, i, h3, hs _ h4⟩
  · exact h
  · cases b
    · exact ⟨h.1, h.2.1, h.2.2.1, h.2.2.2.imp fun _ h => h.mono hs⟩
    · exact ⟨h.1, h.2.1, h.2.2.mono hs⟩
  · rcases h with h | h | ⟨r, h1, h2⟩
    · exact .inl h
    · exact .inr (.inl h)
    · exact .inr (.inr ⟨r, h1.mono hs, h2⟩)

theorem PhaseOk.congr {log : List Ev} {sd rp} {t : Tid} {k k' : Task} {p : Phase} (hm : k'.mid = k.mid)
    (hr : k'.req = k.req) (h : PhaseOk log sd rp t k p) : PhaseOk log sd rp t k' p := by
  rcases p with _ | ⟨u, i⟩ | ⟨u, i⟩ | ⟨u, i⟩ | _ | _ | ⟨r, b⟩ | _ <;> try cases b
  all_goals simpa only [PhaseOk, Done, hm, hr] using h

theorem sends_snoc (t : Tid) (ls : List Label) (l : Label) :
    sends t (ls ++ [l]) = sends t ls ++ sends t [l] := by simp [sends]

theorem replies_append (t : Tid) (a b : List Ev) : replies t (a ++ b) = replies t a ++ replies t b := by
  simp [replies]

theorem sends_other {t : Tid} {l : Label} (h : l.tid? ≠ some t) : sends t [l] = [] := by
  rcases l with _ | _ | _ | ⟨t', o⟩ <;> simp only [sends, List.filterMap_cons, List.filterMap_nil]
  simp only [Label.tid?, ne_eq, Option.some.injEq] at h
  simp [h]

theorem kind_replies_other {s t k l p es a n r} (h : Kind s t k l p es a n r) {t' : Tid} (hne : t' ≠ t) :
    replies t' es = [] := by
  have : ¬ t = t' := fun e => hne e.symm
  cases h <;> simp [replies, this]

/-- one event's meaning carried over a step -/
theorem kind_evok {s t k l p es a n r} (h : Kind s t k l p es a n r)
    (ha : ∀ u, s.actors.get? u = live u s.log)
    (hf : ∀ t u i, Ev.registered t u i ∈ s.log → i < s.nextInst) :
    (es = [] ∨ ∃ e, es = [e] ∧ EvOk s.log e) ∧ (∀ u, a.get? u = live u (s.log ++ es)) ∧
      (∀ t u i, Ev.registered t u i ∈ s.log ++ es → i < n) := by
  cases h with
  | registered _ _ h0 =>
    refine ⟨.inr ⟨_, rfl, ⟨by rw [← ha]; exact h0, fun t v hm => ?_⟩⟩, fun u => ?_, fun t' u i hm => ?_⟩
    · exact absurd (hf _ _ _ hm) (Nat.lt_irrefl _)
    · rw [live_snoc, Dict.get?_set, ← ha]; rfl
    · rcases List.mem_append.mp hm with hm | hm
      · exact Nat.lt_succ_of_lt (hf _ _ _ hm)
      · simp at hm; rw [hm.2.2]; exact Nat.lt_succ_self _
  | removed _ h0 =>
    refine ⟨.inr ⟨_, rfl, by rw [EvOk, ← ha]; exact h0⟩, fun u => ?_, fun t' u i hm => ?_⟩
    · rw [live_snoc, Dict.get?_erase, ← ha]; rfl
    · exact hf t' u i (by simpa using hm)
  | _ =>
    refine ⟨?_, fun u => ?_, fun t' u i hm => hf t' u i (by simpa using hm)⟩
    · first
        | exact .inl rfl
        | exact .inr ⟨_, rfl, by first | trivial | (simp only [EvOk, ← ha]; done) | (simp only [EvOk, ← ha]; first | assumption | exact ⟨_, by assumption⟩)⟩
    · first
        | (rw [live_snoc, ← ha]; rfl)
        | (rw [List.append_nil]; exact ha u)

theorem kind_phase {s t k l p es a n r} (h : Kind s t k l p es a n r) (ls : List Label)
    (hrun : ∀ m t, s.running.get? m = some t → ∃ k, s.tasks[t]? = some k ∧ k.mid = m ∧ k.phase.awaiting = true)
    (hk : s.tasks[t]? = some k)
    (hp : PhaseOk s.log (sends t ls) (replies t s.log) t k k.phase) :
    PhaseOk (s.log ++ es) (sends t (ls ++ [l])) (replies t (s.log ++ es)) t k p := by
  rw [sends_snoc, replies_append]
  generalize hsd : sends t ls = sd at *
  generalize hrp : replies t s.log = rp at *
  have hmono : ∀ {es'} , ∀ e ∈ s.log, e ∈ s.log ++ es' := fun e he => List.mem_append_left _ he
  cases h with
  | selfCancel h1 h2 h3 =>
    rw [h1] at hp; obtain ⟨rfl, rfl⟩ := hp
    exact ⟨rfl, rfl, by rw [h2]; exact .inl rfl⟩
  | noHandler h1 h2 =>
    rw [h1] at hp; obtain ⟨rfl, rfl⟩ := hp
    exact .inr (.inl ⟨h2, rfl, rfl⟩)
  | aborted h1 h2 =>
    rename_i r b
    rw [h1] at hp
    cases b
    · obtain ⟨rfl, rfl, rfl, r', h3⟩ := hp
      exact .inl ⟨h2, .inr (by simp [sends]), by simp [replies]⟩
    · obtain ⟨rfl, rfl, h3⟩ := hp
      exact .inl ⟨h2, .inl (by simp [sends]), by simp [replies]⟩
  | missing h1 h2 h3 =>
    rw [h1] at hp; obtain ⟨rfl, rfl⟩ := hp
    refine ⟨rfl, rfl, ?_⟩
    rcases h2 with h2 | h2 | h2 | h2 <;> rw [h2] <;> simp [Means]
  | failed h1 h2 =>
    rename_i o
    have : Means (s.log ++ []) t k.req (.error o.err) := by
      rcases o with n | n | _
      · exact absurd rfl (h2 n)
      all_goals
        rcases h1 with ⟨u, i, h1⟩ | ⟨u, i, h1⟩ | ⟨u, i, h1⟩ | h1 <;> rw [h1] at hp <;>
          simp only [PhaseOk] at hp <;> simp only [hp, Means, Out.err] <;> simp <;> grind
    rcases h1 with ⟨u, i, h1⟩ | ⟨u, i, h1⟩ | ⟨u, i, h1⟩ | h1 <;> rw [h1] at hp <;>
      exact ⟨by simp [sends, hp.1], by simp [replies, hp.2.1], this⟩
  | toldOk h1 h2 =>
    rw [h1] at hp
    obtain ⟨rfl, rfl, u, i, h3, h4⟩ := hp
    exact ⟨rfl, rfl, by rw [h3]; exact .inr ⟨i, by simpa using h4, .inl rfl⟩⟩
  | toldCancelled h1 h2 =>
    rw [h1] at hp
    obtain ⟨rfl, rfl, u, i, h3, h4⟩ := hp
    exact ⟨rfl, rfl, by rw [h3]; exact .inr ⟨i, by simpa using h4, .inr rfl⟩⟩
  | posted h1 =>
    rw [h1] at hp
    obtain ⟨rfl, rfl, h3, h4⟩ := hp
    exact ⟨rfl, rfl, by rw [h3]; exact .inr (.inr ⟨rfl, _, by simpa using h4, .inl rfl⟩)⟩
  | removed h1 h2 =>
    rw [h1] at hp
    obtain ⟨rfl, rfl, h3, h4⟩ := hp
    exact ⟨rfl, rfl, by rw [h3]; exact .inr ⟨_, hmono _ h4, .inl ⟨_, rfl, List.mem_append_right _ (List.mem_singleton.mpr rfl)⟩⟩⟩
  | keyError h1 h2 =>
    rw [h1] at hp
    obtain ⟨rfl, rfl, h3, h4⟩ := hp
    exact ⟨rfl, rfl, by rw [h3]; exact .inr ⟨_, hmono _ h4, .inr (.inl rfl)⟩⟩
  | received h1 =>
    rw [h1] at hp
    obtain ⟨rfl, rfl, h3, h4⟩ := hp
    exact ⟨rfl, rfl, by rw [h3]; exact .inr ⟨_, hmono _ h4, .inl ⟨_, rfl⟩⟩⟩
  | otherOk h1 =>
    rw [h1] at hp
    obtain ⟨rfl, rfl, h3⟩ := hp
    exact ⟨rfl, rfl, by rw [h3]; exact .inl ⟨_, rfl⟩⟩
  | sent h1 =>
    rename_i r b
    rw [h1] at hp
    cases b
    · obtain ⟨rfl, rfl, rfl, r', h3⟩ := hp
      exact .inr (.inr ⟨r', h3.mono hmono, .inr (.inr (.inl ⟨by simp [sends], by simp [replies]⟩))⟩)
    · obtain ⟨rfl, rfl, h3⟩ := hp
      exact .inr (.inr ⟨r, h3.mono hmono, .inl ⟨by simp [sends], by simp [replies]⟩⟩)
  | closed h1 =>
    rename_i r b
    rw [h1] at hp
    cases b
    · obtain ⟨rfl, rfl, rfl, r', h3⟩ := hp
      exact .inr (.inr ⟨r', h3.mono hmono, .inr (.inr (.inr (.inl ⟨by simp [sends], by simp [replies]⟩)))⟩)
    · obtain ⟨rfl, rfl, h3⟩ := hp
      exact .inr (.inr ⟨r, h3.mono hmono, .inr (.inl ⟨by simp [sends], by simp [replies]⟩)⟩)
  | resend h1 =>
    rw [h1] at hp
    obtain ⟨rfl, rfl, h3⟩ := hp
    exact ⟨by simp [sends], by simp [replies], rfl, _, h3.mono hmono⟩
  | sendFailed h1 =>
    rw [h1] at hp
    obtain ⟨rfl, rfl, rfl, r', h3⟩ := hp
    exact .inr (.inr ⟨r', h3.mono hmono, .inr (.inr (.inr (.inr ⟨by simp [sends], by simp [replies]⟩)))⟩)
  | cannotCancel h1 h2 h3 =>
    rw [h1] at hp; obtain ⟨rfl, rfl⟩ := hp
    exact ⟨rfl, rfl, by rw [h2]; exact .inr rfl⟩
  | cancel h1 h2 h3 =>
    rw [h1] at hp; obtain ⟨rfl, rfl⟩ := hp
    exact ⟨rfl, rfl, by rw [h2]; exact .inl rfl⟩
  | other h1 h2 =>
    rw [h1] at hp; obtain ⟨rfl, rfl⟩ := hp
    exact ⟨rfl, rfl, h2⟩
  | ctorFail h1 h2 h3 =>
    rw [h1] at hp; obtain ⟨rfl, rfl⟩ := hp
    exact ⟨rfl, rfl, by rw [h2]; exact .inr (.inl ⟨rfl, rfl⟩)⟩
  | refused h1 h2 h3 =>
    rw [h1] at hp; obtain ⟨rfl, rfl⟩ := hp
    exact ⟨rfl, rfl, by rw [h2]; exact .inl ⟨rfl, by simp⟩⟩
  | registered h1 h2 h3 =>
    rw [h1] at hp; obtain ⟨rfl, rfl⟩ := hp
    exact ⟨rfl, rfl, h2, by simp⟩
  | has h1 h2 =>
    rw [h1] at hp; obtain ⟨rfl, rfl⟩ := hp
    exact ⟨rfl, rfl, by rw [h2]; exact ⟨_, rfl, by simp⟩⟩
  | destroy h1 h2 h3 =>
    rw [h1] at hp; obtain ⟨rfl, rfl⟩ := hp
    exact ⟨rfl, rfl, h2, by simp⟩
  | ref h1 h2 h3 =>
    rw [h1] at hp; obtain ⟨rfl, rfl⟩ := hp
    exact ⟨rfl, rfl, by rw [h2]; exact .inr ⟨rfl, _, List.mem_append_right _ (List.mem_singleton.mpr rfl)⟩⟩
  | send h1 h2 h3 =>
    rw [h1] at hp; obtain ⟨rfl, rfl⟩ := hp
    exact ⟨rfl, rfl, h2, by simp⟩
  | tell h1 h2 h3 =>
    rw [h1] at hp; obtain ⟨rfl, rfl⟩ := hp
    exact ⟨rfl, rfl, _, _, h2, List.mem_append_right _ (List.mem_singleton.mpr rfl)⟩

theorem kind_running {s t k l p es a n r} (h : Kind s t k l p es a n r) :
    (r = s.running.set k.mid t ∧ p.awaiting = true ∧ k.phase.awaiting = false) ∨ (r = s.running.erase k.mid ∧ p.awaiting = false) ∨
    (r = s.running ∧ k.phase.awaiting = false ∧ p.awaiting = false) := by
  cases h <;> simp_all [Phase.awaiting]

theorem inv_of_run {ls : List Label} {s : St} (h : Run ls s) : Inv ls s := by
  induction h with
  | init => exact ⟨fun _ => rfl, by simp [St.init], by simp [St.init], by simp [St.init], by simp [St.init],
      fun _ _ => ⟨rfl, rfl⟩⟩
  | @snoc ls l s s' _ hstep ih =>
    rcases step_cases hstep with ⟨mid, req, rfl, rfl⟩ | ⟨t, k, p, es, ht, ha⟩
    · have hsd : ∀ t, sends t (ls ++ [.recv mid req]) = sends t ls := by intro t; simp [sends]
      refine ⟨ih.actors, ih.fresh, ih.hist, fun m t h => ?_, fun t k h => ?_, fun t h => ?_⟩
      · obtain ⟨k, hk, h2⟩ := ih.running m t h
        exact ⟨k, by simp only; rw [List.getElem?_append_left (List.getElem?_eq_some_iff.mp hk).1]; exact hk, h2⟩
      · rw [hsd]
        simp only [List.getElem?_append] at h
        split at h
        · exact ih.tasks t k h
        · next hlt =>
          have := ih.unknown t (by omega)
          rcases List.getElem?_eq_some_iff.mp h with ⟨_, hh⟩
          simp at hh; subst hh
          exact this
      · rw [hsd]; simp at h; exact ih.unknown t (by omega)
    · obtain ⟨e1, e2, e3⟩ := kind_evok ha.kind ih.actors ih.fresh
      have htl : t < s.tasks.length := (List.getElem?_eq_some_iff.mp ha.old).1
      refine ⟨by rw [ha.log]; exact e2, by rw [ha.log]; exact e3, ?_, fun m t' h => ?_, fun t' k' h => ?_, fun t' h => ?_⟩
      · rw [ha.log]
        intro pre e post heq
        rcases e1 with rfl | ⟨e0, rfl, hok⟩
        · exact ih.hist pre e post (by simpa using heq)
        · rcases List.eq_nil_or_concat post with rfl | ⟨q, x, rfl⟩
          · have := List.append_inj' heq rfl
            simp at this
            rw [← this.1, ← this.2]; exact hok
          · rw [List.concat_eq_append, ← List.cons_append, ← List.append_assoc] at heq
            exact ih.hist pre e q (List.append_inj' heq rfl).1
      · have hother : s.running.get? m = some t' → t' ≠ t → ∃ k, s'.tasks[t']? = some k ∧ k.mid = m ∧ k.phase.awaiting = true := by
          intro h hne
          obtain ⟨k', hk', h2, h3⟩ := ih.running m t' h
          obtain ⟨f, hf⟩ := ha.rest t' hne
          exact ⟨{ k' with cancelReq := f k'.cancelReq }, by rw [hf, hk']; rfl, h2, h3⟩
        have hnot : ∀ m, s.running.get? m = some t → m = k.mid ∧ k.phase.awaiting = true := by
          intro m h
          obtain ⟨k', hk', h2, h3⟩ := ih.running m t h
          rw [ha.old] at hk'; cases hk'; exact ⟨h2.symm, h3⟩
        rcases kind_running ha.kind with ⟨hr, hp, hkp⟩ | ⟨hr, hp⟩ | ⟨hr, hkp, _⟩
        · rw [hr, Dict.get?_set] at h
          split at h
          · cases h; exact ⟨_, ha.task, ‹_›, hp⟩
          · refine hother h ?_
            rintro rfl; rw [(hnot _ h).2] at hkp; simp at hkp
        · rw [hr, Dict.get?_erase] at h
          split at h
          · simp at h
          · next hne =>
            refine hother h ?_
            rintro rfl; exact hne (hnot _ h).1.symm
        · rw [hr] at h
          refine hother h ?_
          rintro rfl; rw [(hnot _ h).2] at hkp; simp at hkp
      · by_cases he : t' = t
        · subst he
          rw [ha.task] at h; cases h
          rw [ha.log]
          exact (kind_phase ha.kind ls ih.running ha.old (ih.tasks t' k ha.old)).congr rfl rfl
        · obtain ⟨f, hf⟩ := ha.rest t' he
          rw [hf] at h
          rcases hk' : s.tasks[t']? with _ | k0
          · rw [hk'] at h; simp at h
          · rw [hk'] at h; simp at h; subst h
            have := ih.tasks t' k0 hk'
            rw [sends_snoc, sends_other (by rw [ht]; simpa using fun e => he e.symm), List.append_nil, ha.log,
              replies_append, kind_replies_other ha.kind he, List.append_nil]
            exact (this.mono fun e he => List.mem_append_left _ he).congr rfl rfl
      · rw [ha.len] at h
        have hne : t' ≠ t := by rintro rfl; exact absurd htl (Nat.not_lt.mpr h)
        have := ih.unknown t' h
        rw [sends_snoc, sends_other (by rw [ht]; simpa using fun e => hne e.symm), List.append_nil, ha.log,
              replies_append, kind_replies_other ha.kind hne, List.append_nil]
        exact this

end Xoscar.Pool
