import Verif.Proof.PoolInv
namespace Xoscar.Pool

theorem outcomes_snoc (t : Tid) (ls : List Label) (l : Label) :
    outcomes t (ls ++ [l]) = outcomes t ls ++ outcomes t [l] := by simp [outcomes]

theorem outcomes_other {t : Tid} {l : Label} (h : l.tid? ≠ some t) : outcomes t [l] = [] := by
  rcases l with _ | _ | ⟨t', o⟩ | _ <;> simp only [outcomes, List.filterMap_cons, List.filterMap_nil]
  simp only [Label.tid?, ne_eq, Option.some.injEq] at h
  simp [h]

def OutOk (os : List Out) (k : Task) : Phase → Prop
  | .new => os = []
  | .post u _ => os = [] ∧ ∃ c, k.req = .create u c
  | .pre u _ => os = [] ∧ k.req = .destroy u
  | .recv u _ => os = [] ∧ k.req = .send u
  | .told => os = [] ∧ ∃ u, k.req = .tell u
  | .other => os = [] ∧ k.req = .other
  | .sending r true => Right k.req os r
  | .sending r false => r = .error .sendFailed
  | .done => True

structure OutInv (ls : List Label) (s : St) : Prop where
  tasks : ∀ (t : Nat) k, s.tasks[t]? = some k → OutOk (outcomes t ls) k k.phase
  unknown : ∀ (t : Nat), s.tasks.length ≤ t → outcomes t ls = []
  sent : ∀ t m r, Ev.replied t m r ∈ s.log → ∃ k, s.tasks[t]? = some k ∧ k.phase = .done ∧ k.mid = m ∧
    (r = .error .sendFailed ∨ Right k.req (outcomes t ls) r)

theorem kind_out {s t k l p es a n r} (h : Kind s t k l p es a n r) (os : List Out) (hp : OutOk os k k.phase) :
    OutOk (os ++ outcomes t [l]) k p := by
  cases h with
  | failed h1 h2 =>
    rename_i o
    have hA : os = [] ∧ Answer k.req o (.error o.err) := by
      rcases o with n | n | _
      · exact absurd rfl (h2 n)
      all_goals
        rcases h1 with ⟨u, i, h1⟩ | ⟨u, i, h1⟩ | ⟨u, i, h1⟩ | h1 <;> rw [h1] at hp <;> simp only [OutOk] at hp <;>
          exact ⟨hp.1, by rcases k.req with _ | _ | _ | _ | _ | _ | _ | _ | _ <;> simp [Answer, Out.err]⟩
    exact .inr ⟨o, by simp [hA.1, outcomes], hA.2⟩
  | has h1 h2 =>
    rw [h1] at hp
    refine .inl ⟨by rw [show os = [] from hp]; rfl, ?_⟩
    rw [h2]
    rename_i u
    cases (s.actors.get? u).isSome <;> simp [AtOnce]
  | _ =>
    all_goals simp_all only [OutOk]
    all_goals simp [outcomes, Right, AtOnce, Answer] <;> grind

theorem kind_done {s t k l p es a n r} (h : Kind s t k l p es a n r) : k.phase ≠ .done := by
  intro hd
  have := h
  cases this <;> simp_all

theorem kind_sent {s t k l p es a n r} (h : Kind s t k l p es a n r) {t' : Tid} {m : Mid} {x : Reply}
    (hm : Ev.replied t' m x ∈ es) : t' = t ∧ m = k.mid ∧ p = .done ∧ (∃ b, k.phase = .sending x b) ∧ l = .send t .sent := by
  cases h <;> simp_all

theorem out_of_run {ls : List Label} {s : St} (h : Run ls s) : OutInv ls s := by
  induction h with
  | init => exact ⟨by simp [St.init], fun _ _ => rfl, by simp [St.init]⟩
  | @snoc ls l s s' _ hstep ih =>
    rcases step_cases hstep with ⟨mid, req, rfl, rfl⟩ | ⟨t, k, p, es, ht, ha⟩
    · have hsd : ∀ t, outcomes t (ls ++ [.recv mid req]) = outcomes t ls := by intro t; simp [outcomes]
      refine ⟨fun t k h => ?_, fun t h => ?_, fun t m r h => ?_⟩
      · rw [hsd]
        simp only [List.getElem?_append] at h
        split at h
        · exact ih.tasks t k h
        · next hlt =>
          rcases List.getElem?_eq_some_iff.mp h with ⟨_, hh⟩
          simp at hh; subst hh
          exact ih.unknown t (by omega)
      · rw [hsd]; simp at h; exact ih.unknown t (by omega)
      · obtain ⟨k, hk, h2⟩ := ih.sent t m r h
        exact ⟨k, by simp only; rw [List.getElem?_append_left (List.getElem?_eq_some_iff.mp hk).1]; exact hk, by rw [hsd]; exact h2⟩
    · have htl : t < s.tasks.length := (List.getElem?_eq_some_iff.mp ha.old).1
      refine ⟨fun t' k' h => ?_, fun t' h => ?_, fun t' m r h => ?_⟩
      · rw [outcomes_snoc]
        by_cases he : t' = t
        · subst he
          rw [ha.task] at h; cases h
          have := kind_out ha.kind _ (ih.tasks t' k ha.old)
          rcases p with _ | ⟨u, i⟩ | ⟨u, i⟩ | ⟨u, i⟩ | _ | _ | ⟨r, b⟩ | _ <;> try cases b
          all_goals exact this
        · obtain ⟨f, hf⟩ := ha.rest t' he
          rw [hf] at h
          rcases hk' : s.tasks[t']? with _ | k0
          · rw [hk'] at h; simp at h
          · rw [hk'] at h; simp at h; subst h
            have := ih.tasks t' k0 hk'
            rw [outcomes_other (by rw [ht]; simpa using fun e => he e.symm), List.append_nil]
            rcases hp : k0.phase with _ | ⟨u, i⟩ | ⟨u, i⟩ | ⟨u, i⟩ | _ | _ | ⟨r, b⟩ | _ <;> try cases b
            all_goals rw [hp] at this; exact this
      · rw [ha.len] at h
        have hne : t' ≠ t := by rintro rfl; exact absurd htl (Nat.not_lt.mpr h)
        rw [outcomes_snoc, ih.unknown t' h, outcomes_other (by rw [ht]; simpa using fun e => hne e.symm)]; rfl
      · rw [ha.log] at h
        rcases List.mem_append.mp h with h | h
        · obtain ⟨k0, hk0, h1, h2, h3⟩ := ih.sent t' m r h
          have hne : t' ≠ t := by
            rintro rfl; rw [ha.old] at hk0; cases hk0; exact kind_done ha.kind h1
          obtain ⟨f, hf⟩ := ha.rest t' hne
          refine ⟨{ k0 with cancelReq := f k0.cancelReq }, by rw [hf, hk0]; rfl, h1, h2, ?_⟩
          rw [outcomes_snoc, outcomes_other (by rw [ht]; simpa using fun e => hne e.symm), List.append_nil]
          exact h3
        · obtain ⟨rfl, rfl, rfl, ⟨b, hb⟩, rfl⟩ := kind_sent ha.kind h
          refine ⟨_, ha.task, rfl, rfl, ?_⟩
          have := ih.tasks t' k ha.old
          rw [hb] at this
          rw [outcomes_snoc]
          have e : outcomes t' [.send t' .sent] = [] := rfl
          rw [e, List.append_nil]
          cases b
          · exact .inl this
          · exact .inr this

end Xoscar.Pool
