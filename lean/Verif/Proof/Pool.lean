import Verif.Model.Pool
import Verif.Proof.Base
namespace Xoscar.Pool

/-- the transitions of one task -/
inductive Kind (s : St) (t : Tid) (k : Task) :
    Label → Phase → List Ev → Dict Uid Inst → Nat → Dict Mid Tid → Prop
  | refused {u c i} : k.phase = .new → k.req = .create u c → s.actors.get? u = some i →
      Kind s t k (.start t) (.sending (.error .alreadyExist) true) [.refused t u] s.actors s.nextInst
        (s.running.erase k.mid)
  | ctorFail {u} : k.phase = .new → k.req = .create u false → s.actors.get? u = none →
      Kind s t k (.start t) (.sending (.error (.user 0)) true) [] s.actors s.nextInst
        (s.running.erase k.mid)
  | registered {u} : k.phase = .new → k.req = .create u true → s.actors.get? u = none →
      Kind s t k (.start t) (.post u s.nextInst) [.registered t u s.nextInst]
        (s.actors.set u s.nextInst) (s.nextInst + 1) (s.running.set k.mid t)
  | has {u} : k.phase = .new → k.req = .has u →
      Kind s t k (.start t) (.sending (.bool (s.actors.get? u).isSome) true)
        [.hasAns t u (s.actors.get? u).isSome] s.actors s.nextInst (s.running.erase k.mid)
  | missing {u} : k.phase = .new → (k.req = .destroy u ∨ k.req = .ref u ∨ k.req = .send u ∨ k.req = .tell u) →
      s.actors.get? u = none →
      Kind s t k (.start t) (.sending (.error .notExist) true) [.missing t u] s.actors s.nextInst
        (s.running.erase k.mid)
  | destroy {u i} : k.phase = .new → k.req = .destroy u → s.actors.get? u = some i →
      Kind s t k (.start t) (.pre u i) [.preDestroy t u i] s.actors s.nextInst (s.running.set k.mid t)
  | ref {u i} : k.phase = .new → k.req = .ref u → s.actors.get? u = some i →
      Kind s t k (.start t) (.sending (.actorRef u) true) [.found t u i] s.actors s.nextInst
        (s.running.erase k.mid)
  | send {u i} : k.phase = .new → k.req = .send u → s.actors.get? u = some i →
      Kind s t k (.start t) (.recv u i) [.found t u i] s.actors s.nextInst (s.running.set k.mid t)
  | tell {u i} : k.phase = .new → k.req = .tell u → s.actors.get? u = some i →
      Kind s t k (.start t) .told [.found t u i] s.actors s.nextInst (s.running.set k.mid t)
  | cannotCancel {m} : k.phase = .new → k.req = .cancel m → (s.running.set k.mid t).get? m = none →
      Kind s t k (.start t) (.sending (.error .cannotCancel) true) [] s.actors s.nextInst
        (s.running.erase k.mid)
  | selfCancel {m} : k.phase = .new → k.req = .cancel m → (s.running.set k.mid t).get? m = some t →
      Kind s t k (.start t) (.sending (.bool true) true) [] s.actors s.nextInst (s.running.erase k.mid)
  | noHandler : k.phase = .new → k.req = .reply →
      Kind s t k (.start t) .done [] s.actors s.nextInst s.running
  | cancel {m t'} : k.phase = .new → k.req = .cancel m → (s.running.set k.mid t).get? m = some t' → t' ≠ t →
      Kind s t k (.start t) (.sending (.bool true) true) [] s.actors s.nextInst (s.running.erase k.mid)
  | other : k.phase = .new → k.req = .other →
      Kind s t k (.start t) .other [] s.actors s.nextInst (s.running.set k.mid t)
  | posted {u i n} : k.phase = .post u i →
      Kind s t k (.finish t (.ok n)) (.sending (.actorRef u) true) [] s.actors s.nextInst
        (s.running.erase k.mid)
  | removed {u i i' n} : k.phase = .pre u i → s.actors.get? u = some i' →
      Kind s t k (.finish t (.ok n)) (.sending (.uid u) true) [.removed t u i'] (s.actors.erase u) s.nextInst
        (s.running.erase k.mid)
  | keyError {u i n} : k.phase = .pre u i → s.actors.get? u = none →
      Kind s t k (.finish t (.ok n)) (.sending (.error .keyError) true) [] s.actors s.nextInst
        (s.running.erase k.mid)
  | received {u i n} : k.phase = .recv u i →
      Kind s t k (.finish t (.ok n)) (.sending (.value n) true) [] s.actors s.nextInst
        (s.running.erase k.mid)
  | toldOk {n} : k.phase = .told → k.cancelReq = false →
      Kind s t k (.finish t (.ok n)) (.sending .none true) [] s.actors s.nextInst
        (s.running.erase k.mid)
  | toldCancelled : k.phase = .told → k.cancelReq = true →
      Kind s t k (.finish t .cancelled) (.sending (.error .cancelled) true) [] s.actors s.nextInst
        (s.running.erase k.mid)
  | otherOk {n} : k.phase = .other →
      Kind s t k (.finish t (.ok n)) (.sending (.value n) true) [] s.actors s.nextInst
        (s.running.erase k.mid)
  | failed {o} : ((∃ u i, k.phase = .post u i) ∨ (∃ u i, k.phase = .pre u i) ∨ (∃ u i, k.phase = .recv u i) ∨
        k.phase = .other) → (∀ n, o ≠ .ok n) →
      Kind s t k (.finish t o) (.sending (.error o.err) true) [] s.actors s.nextInst
        (s.running.erase k.mid)
  | sent {r b} : k.phase = .sending r b →
      Kind s t k (.send t .sent) .done [.replied t k.mid r] s.actors s.nextInst s.running
  | closed {r b} : k.phase = .sending r b →
      Kind s t k (.send t .closed) .done [] s.actors s.nextInst s.running
  | aborted {r b} : k.phase = .sending r b → k.req = .cancel k.mid →
      Kind s t k (.send t .aborted) .done [] s.actors s.nextInst s.running
  | resend {r} : k.phase = .sending r true →
      Kind s t k (.send t .failed) (.sending (.error .sendFailed) false) [] s.actors s.nextInst s.running
  | sendFailed {r} : k.phase = .sending r false →
      Kind s t k (.send t .failed) .done [] s.actors s.nextInst s.running

/-- a step of task `t` -/
structure Adv (s : St) (t : Tid) (l : Label) (s' : St) (k : Task) (p : Phase) (es : List Ev) : Prop where
  old : s.tasks[t]? = some k
  kind : Kind s t k l p es s'.actors s'.nextInst s'.running
  log : s'.log = s.log ++ es
  task : s'.tasks[t]? = some { k with phase := p }
  rest : ∀ (t' : Nat), t' ≠ t → ∃ f : Bool → Bool,
    s'.tasks[t']? = (s.tasks[t']?).map (fun k => { k with cancelReq := f k.cancelReq })
  len : s'.tasks.length = s.tasks.length

theorem modify_id (ts : List Task) (t t' : Nat) (p : Phase) (h : t' ≠ t) :
    (ts.modify t (fun k => { k with phase := p }))[t']? = (ts[t']?).map (fun k => { k with cancelReq := id k.cancelReq }) := by
  have h' : ¬ t = t' := fun e => h e.symm
  simp [List.getElem?_modify, h']

theorem adv_simple {s : St} {t : Tid} {l : Label} {k : Task} {p : Phase} {es : List Ev} (s' : St)
    (hk : s.tasks[t]? = some k)
    (kind : Kind s t k l p es s'.actors s'.nextInst s'.running) (hlog : s'.log = s.log ++ es)
    (ht : s'.tasks = s.tasks.modify t (fun k => { k with phase := p })) : Adv s t l s' k p es where
  old := hk
  kind := kind
  log := hlog
  task := by rw [ht, List.getElem?_modify, hk]; simp
  rest t' h := ⟨id, by rw [ht]; exact modify_id _ _ _ _ h⟩
  len := by rw [ht]; simp

theorem startTask_adv {s : St} {t : Tid} {k : Task} (hk : s.tasks[t]? = some k) (hp : k.phase = .new) :
    ∃ p es, Adv s t (.start t) (startTask s t k.mid k.req) k p es := by
  rcases hr : k.req with ⟨u, c⟩ | u | u | u | u | u | m | _ | _
  · simp only [startTask, startCreate]
    rcases ha : s.actors.get? u with _ | i
    · cases c
      · exact ⟨_, _, adv_simple _ hk (.ctorFail hp hr ha) (by simp [St.reply, St.setPhase]) rfl⟩
      · exact ⟨_, _, adv_simple _ hk (.registered hp hr ha) rfl rfl⟩
    · exact ⟨_, _, adv_simple _ hk (.refused hp hr ha) rfl rfl⟩
  · exact ⟨_, _, adv_simple _ hk (.has hp hr) rfl rfl⟩
  · simp only [startTask, startDestroy]
    rcases ha : s.actors.get? u with _ | i
    · exact ⟨_, _, adv_simple _ hk (.missing hp (.inl hr) ha) rfl rfl⟩
    · exact ⟨_, _, adv_simple _ hk (.destroy hp hr ha) rfl rfl⟩
  · simp only [startTask, startUse]
    rcases ha : s.actors.get? u with _ | i
    · exact ⟨_, _, adv_simple _ hk (.missing hp (.inr (.inl hr)) ha) rfl rfl⟩
    · exact ⟨_, _, adv_simple _ hk (.ref hp hr ha) rfl rfl⟩
  · simp only [startTask, startUse]
    rcases ha : s.actors.get? u with _ | i
    · exact ⟨_, _, adv_simple _ hk (.missing hp (.inr (.inr (.inl hr))) ha) rfl rfl⟩
    · exact ⟨_, _, adv_simple _ hk (.send hp hr ha) rfl rfl⟩
  · simp only [startTask, startUse]
    rcases ha : s.actors.get? u with _ | i
    · exact ⟨_, _, adv_simple _ hk (.missing hp (.inr (.inr (.inr hr))) ha) rfl rfl⟩
    · exact ⟨_, _, adv_simple _ hk (.tell hp hr ha) rfl rfl⟩
  · simp only [startTask, startCancel]
    rcases ha : (s.running.set k.mid t).get? m with _ | t'
    · exact ⟨_, _, adv_simple _ hk (.cannotCancel hp hr ha) (by simp [St.reply, St.setPhase]) rfl⟩
    · by_cases he : t' = t
      · subst he
        simp only [if_true]
        exact ⟨_, _, adv_simple _ hk (.selfCancel hp hr ha) (by simp [St.reply, St.setPhase]) rfl⟩
      · simp only [if_neg he]
        refine ⟨_, _, hk, .cancel hp hr ha he, by simp [St.reply, St.setPhase], ?_, ?_, ?_⟩
        · simp only [St.reply, St.setPhase, List.getElem?_modify, if_pos, if_neg he, hk]; rfl
        · intro t'' hne
          have hne' : ¬ t = t'' := fun h => hne h.symm
          simp only [St.reply, St.setPhase, List.getElem?_modify]
          by_cases h2 : t' = t''
          · exact ⟨fun _ => true, by rcases s.tasks[t'']? with _ | _ <;> simp [h2, hne']⟩
          · exact ⟨id, by rcases s.tasks[t'']? with _ | _ <;> simp [h2, hne']⟩
        · simp [St.reply, St.setPhase]
  · exact ⟨_, _, adv_simple _ hk (.other hp hr) (by simp [startTask, St.await, St.setPhase]) rfl⟩
  · exact ⟨_, _, adv_simple _ hk (.noHandler hp hr) (by simp [startTask, St.setPhase]) rfl⟩

theorem finishTask_adv {s s' : St} {t : Tid} {k : Task} {o : Out} (hk : s.tasks[t]? = some k)
    (h : finishTask s t k.mid k.cancelReq k.phase o = some s') : ∃ p es, Adv s t (.finish t o) s' k p es := by
  rcases hp : k.phase with _ | ⟨u, i⟩ | ⟨u, i⟩ | ⟨u, i⟩ | _ | _ | ⟨r, b⟩ | _ <;> rcases o with n | n | _ <;>
    rw [hp] at h <;> simp only [finishTask, reduceCtorEq, Option.some.injEq] at h
  · subst h; exact ⟨_, _, adv_simple _ hk (.posted hp) (by simp [St.reply, St.setPhase]) rfl⟩
  · subst h; exact ⟨_, _, adv_simple _ hk (.failed (.inl ⟨_, _, hp⟩) (by simp)) (by simp [St.reply, St.setPhase]) rfl⟩
  · subst h; exact ⟨_, _, adv_simple _ hk (.failed (.inl ⟨_, _, hp⟩) (by simp)) (by simp [St.reply, St.setPhase]) rfl⟩
  · subst h
    simp only [finishDestroy]
    rcases ha : s.actors.get? u with _ | i'
    · exact ⟨_, _, adv_simple _ hk (.keyError hp ha) (by simp [St.reply, St.setPhase]) rfl⟩
    · exact ⟨_, _, adv_simple _ hk (.removed hp ha) rfl rfl⟩
  · subst h; exact ⟨_, _, adv_simple _ hk (.failed (.inr (.inl ⟨_, _, hp⟩)) (by simp)) (by simp [St.reply, St.setPhase]) rfl⟩
  · subst h; exact ⟨_, _, adv_simple _ hk (.failed (.inr (.inl ⟨_, _, hp⟩)) (by simp)) (by simp [St.reply, St.setPhase]) rfl⟩
  · subst h; exact ⟨_, _, adv_simple _ hk (.received hp) (by simp [St.reply, St.setPhase]) rfl⟩
  · subst h; exact ⟨_, _, adv_simple _ hk (.failed (.inr (.inr (.inl ⟨_, _, hp⟩))) (by simp)) (by simp [St.reply, St.setPhase]) rfl⟩
  · subst h; exact ⟨_, _, adv_simple _ hk (.failed (.inr (.inr (.inl ⟨_, _, hp⟩))) (by simp)) (by simp [St.reply, St.setPhase]) rfl⟩
  · split at h
    · simp at h
    · next hc =>
      simp only [Option.some.injEq] at h
      subst h; exact ⟨_, _, adv_simple _ hk (.toldOk hp (by simpa using hc)) (by simp [St.reply, St.setPhase]) rfl⟩
  · split at h
    · next hc =>
      simp only [Option.some.injEq] at h
      subst h; exact ⟨_, _, adv_simple _ hk (.toldCancelled hp hc) (by simp [St.reply, St.setPhase]) rfl⟩
    · simp at h
  · subst h; exact ⟨_, _, adv_simple _ hk (.otherOk hp) (by simp [St.reply, St.setPhase]) rfl⟩
  · subst h; exact ⟨_, _, adv_simple _ hk (.failed (.inr (.inr (.inr hp))) (by simp)) (by simp [St.reply, St.setPhase]) rfl⟩
  · subst h; exact ⟨_, _, adv_simple _ hk (.failed (.inr (.inr (.inr hp))) (by simp)) (by simp [St.reply, St.setPhase]) rfl⟩

theorem sendTask_adv {s : St} {t : Tid} {k : Task} {o : SendOut} {r : Reply} {b : Bool} (hk : s.tasks[t]? = some k)
    (hp : k.phase = .sending r b) (ho : ¬ (o = .aborted ∧ k.req ≠ .cancel k.mid)) : ∃ p es, Adv s t (.send t o) (sendTask s t k.mid r b o) k p es := by
  cases o
  · exact ⟨_, _, adv_simple _ hk (.sent hp) rfl rfl⟩
  · exact ⟨_, _, adv_simple _ hk (.closed hp) (by simp [sendTask, St.setPhase]) rfl⟩
  · cases b
    · exact ⟨_, _, adv_simple _ hk (.sendFailed hp) (by simp [sendTask, St.setPhase]) rfl⟩
    · exact ⟨_, _, adv_simple _ hk (.resend hp) (by simp [sendTask, St.setPhase]) rfl⟩
  · have hq : k.req = .cancel k.mid := by simpa using ho
    exact ⟨_, _, adv_simple _ hk (.aborted hp hq) (by simp [sendTask, St.setPhase]) rfl⟩

/-- the task a label is about -/
def Label.tid? : Label → Option Tid
  | .recv _ _ => none
  | .start t => some t
  | .finish t _ => some t
  | .send t _ => some t

theorem step_cases {s s' : St} {l : Label} (h : step s l = some s') :
    (∃ mid req, l = .recv mid req ∧ s' = { s with tasks := s.tasks ++ [⟨mid, req, .new, false⟩] }) ∨
    (∃ t k p es, l.tid? = some t ∧ Adv s t l s' k p es) := by
  rcases l with ⟨mid, req⟩ | t | ⟨t, o⟩ | ⟨t, o⟩
  · simp only [step, Option.some.injEq] at h; exact .inl ⟨mid, req, rfl, h.symm⟩
  · right
    simp only [step] at h
    split at h
    · next mid req c hk =>
      simp only [Option.some.injEq] at h; subst h
      obtain ⟨p, es, ha⟩ := startTask_adv hk rfl
      exact ⟨t, _, p, es, rfl, ha⟩
    · simp at h
  · right
    simp only [step] at h
    split at h
    · next mid req p c hk =>
      obtain ⟨p, es, ha⟩ := finishTask_adv hk h
      exact ⟨t, _, p, es, rfl, ha⟩
    · simp at h
  · right
    simp only [step] at h
    split at h
    · next mid req r b c hk =>
      split at h
      · simp at h
      · next ho =>
        simp only [Option.some.injEq] at h; subst h
        obtain ⟨p, es, ha⟩ := sendTask_adv (o := o) hk rfl ho
        exact ⟨t, _, p, es, rfl, ha⟩
    · simp at h

end Xoscar.Pool
