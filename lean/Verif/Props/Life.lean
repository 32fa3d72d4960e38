import Verif.Model.Life
import Verif.Proof.Base
/-!
# C49: the life cycle of a pool
-/
namespace Xoscar.Life

/-- the part of the invariant about the event and the log -/
structure LogInv (s : St) : Prop where
  stopped : s.stopped = true ↔ ∃ c, Ev.setStopped c ∈ s.log
  noStart : ∀ a c b, s.log = a ++ Ev.setStopped c :: b → ∀ c' x, Ev.serverStart c' x ∉ b
  joined : ∀ a c b, s.log = a ++ Ev.joined c :: b → ∃ c', Ev.setStopped c' ∈ a

theorem LogInv.append {s s' : St} {es : List Ev} (h : LogInv s) (hl : s'.log = s.log ++ es)
    (hst : s'.stopped = true ↔ (s.stopped = true ∨ ∃ c, Ev.setStopped c ∈ es))
    (hns : (∃ c x, Ev.serverStart c x ∈ es) → s.stopped = false ∧ ∀ c, Ev.setStopped c ∉ es)
    (hj : (∃ c, Ev.joined c ∈ es) → s.stopped = true) : LogInv s' := by
  refine ⟨by rw [hst, h.stopped, hl]; simp only [List.mem_append]; grind, ?_, ?_⟩
  · rw [hl]
    intro a c b heq c' x hm
    have hmem : Ev.setStopped c ∈ s.log ++ es := by rw [heq]; simp
    have hx : Ev.serverStart c' x ∈ s.log ++ es := by rw [heq]; simp [hm]
    rcases List.append_eq_append_iff.mp heq with ⟨y, rfl, hy⟩ | ⟨y, hy, hy'⟩
    · -- the event is in es
      have h1 : Ev.setStopped c ∈ es := by rw [hy]; simp
      have h2 : Ev.serverStart c' x ∈ es := by rw [hy]; simp [hm]
      exact (hns ⟨_, _, h2⟩).2 c h1
    · rcases y with _ | ⟨e, y⟩
      · simp at hy'
        have h1 : Ev.setStopped c ∈ es := by rw [← hy']; simp
        have h2 : Ev.serverStart c' x ∈ es := by rw [← hy']; simp [hm]
        exact (hns ⟨_, _, h2⟩).2 c h1
      · simp at hy'
        obtain ⟨rfl, rfl⟩ := hy'
        have h1 : s.stopped = true := h.stopped.mpr ⟨c, by rw [hy]; simp⟩
        rcases List.mem_append.mp hm with hm | hm
        · exact h.noStart a c y hy c' x hm
        · rw [(hns ⟨_, _, hm⟩).1] at h1; simp at h1
  · rw [hl]
    intro a c b heq
    rcases List.append_eq_append_iff.mp heq with ⟨y, rfl, hy⟩ | ⟨y, hy, hy'⟩
    · have h2 : Ev.joined c ∈ es := by rw [hy]; simp
      obtain ⟨c', hc'⟩ := h.stopped.mp (hj ⟨_, h2⟩)
      exact ⟨c', List.mem_append_left _ hc'⟩
    · rcases y with _ | ⟨e, y⟩
      · simp at hy'
        have h2 : Ev.joined c ∈ es := by rw [← hy']; simp
        obtain ⟨c', hc'⟩ := h.stopped.mp (hj ⟨_, h2⟩)
        exact ⟨c', by rw [← List.append_nil a, ← hy]; exact hc'⟩
      · simp at hy'
        obtain ⟨rfl, rfl⟩ := hy'
        exact h.joined a c y hy

theorem logInv_step {s s' : St} {l : Label} (h : LogInv s) (hs : step s l = some s') : LogInv s' := by
  rcases l with _ | _ | _ | ⟨c, ok⟩ | c
  · simp only [step] at hs
    split at hs <;> cases hs
    · exact h.append rfl (by simp) (by simp) (by simp)
    · exact h.append rfl (by simp) (by simp_all) (by simp)
  · cases hs; exact ⟨h.stopped, h.noStart, h.joined⟩
  · simp only [step] at hs
    split at hs <;> cases hs
    · exact h.append (es := [.setStopped s.calls.length, .subsStop s.calls.length]) (by simp [setStopped]) (by simp [setStopped]) (by simp) (by simp)
    · exact h.append (es := s.servers.map (Ev.serverStop s.calls.length) ++ [.callerStop s.calls.length])
        (by simp [baseStop]) (by simp [baseStop]) (by simp) (by simp)
  · simp only [step] at hs
    split at hs
    · cases hs; exact ⟨h.stopped, h.noStart, h.joined⟩
    · split at hs <;> cases hs
      exact h.append rfl (by simp [St.setCall]) (by simp) (by simp_all)
    · split at hs <;> cases hs
      · exact h.append (es := s.servers.map (Ev.serverStop c) ++ [.callerStop c])
          (by simp [baseStop, St.setCall]) (by simp [baseStop, St.setCall]) (by simp) (by simp)
      · exact ⟨h.stopped, h.noStart, h.joined⟩
    · split at hs <;> cases hs
      · exact h.append (es := [.setStopped c]) (by simp [setStopped, St.setCall]) (by simp [setStopped, St.setCall]) (by simp) (by simp)
      · exact h.append (es := [.setStopped c]) (by simp [setStopped, St.setCall]) (by simp [setStopped, St.setCall]) (by simp) (by simp)
    · simp at hs
  · simp only [step] at hs
    split at hs
    · cases hs; exact h.append rfl (by simp [St.setCall]) (by simp) (by simp)
    · simp at hs

theorem logInv_of_run {m : Bool} {srv : List Nat} {ls : List Label} {s : St} (h : Run m srv ls s) : LogInv s := by
  induction h with
  | init => constructor <;> simp [St.init]
  | snoc _ hs ih => exact logInv_step ih hs

/-- **C49** (never restarted): once the pool is marked stopped, no server is ever started again, by any
call, and -/
theorem never_restarted {m : Bool} {srv : List Nat} {ls : List Label} {s : St} (h : Run m srv ls s)
    {a b : List Ev} {c : Cid} (hl : s.log = a ++ Ev.setStopped c :: b) : ∀ c' x, Ev.serverStart c' x ∉ b :=
  (logInv_of_run h).noStart a c b hl

/-- … `start` raises at once, starting nothing. -/
theorem start_after_stop {s : St} (h : s.stopped = true) :
    step s .start = some { s with calls := s.calls ++ [(.start, .raised)], log := s.log ++ [.startRefused s.calls.length] } := by
  simp [step, h]

/-- before, `start` starts every server of the pool -/
theorem start_before_stop {s : St} (h : s.stopped = false) :
    ∃ s', step s .start = some s' ∧ s'.log = s.log ++ s.servers.map (Ev.serverStart s.calls.length) := by
  simp [step, h]

/-- **C49** (join waits): a join that returned, not by its time limit, returned after the pool was marked
stopped, and -/
theorem join_after_stop {m : Bool} {srv : List Nat} {ls : List Label} {s : St} (h : Run m srv ls s)
    {a b : List Ev} {c : Cid} (hl : s.log = a ++ Ev.joined c :: b) : ∃ c', Ev.setStopped c' ∈ a :=
  (logInv_of_run h).joined a c b hl

/-- … a waiting join can return in every state in which the pool is stopped, and in no other. -/
theorem join_returns_iff {s : St} {c : Nat} {o : Op} {ok : Bool} (hc : s.calls[c]? = some (o, .joining)) :
    (∃ s', step s (.ends c ok) = some s') ↔ s.stopped = true := by
  simp only [step, hc]
  split <;> simp_all

/-- what is known of a call -/
def CallOk (m : Bool) (srv : List Nat) (s : St) (o : Op) (p : Ph) : Prop :=
  (p = .starting → o = .start) ∧ (p = .joining → o = .join) ∧ (p = .stoppingSubs → o = .stop ∧ m = true) ∧
    (p = .stoppingServers → o = .stop ∧ ∀ x ∈ s.servers, ∃ c', Ev.serverStop c' x ∈ s.log) ∧
    (o = .stop → m = true → s.stopped = true) ∧
    (o = .stop → (p = .raised ∨ p = .returned) → s.stopped = true) ∧
    (o = .stop → p = .returned → ∀ x ∈ srv, ∃ c', Ev.serverStop c' x ∈ s.log)

/-- the part of the invariant about calls -/
structure CallInv (m : Bool) (srv : List Nat) (s : St) : Prop where
  isMain : s.isMain = m
  shape : ∀ (c : Nat) o p, s.calls[c]? = some (o, p) → CallOk m srv s o p
  servers : s.servers = srv ∨ (s.servers = [] ∧ ∀ x ∈ srv, ∃ c, Ev.serverStop c x ∈ s.log)
  setBy : m = false → ∀ c, Ev.setStopped c ∈ s.log → s.calls[c]? = some (.stop, .returned) ∨ s.calls[c]? = some (.stop, .raised)

theorem CallOk.mono {m : Bool} {srv : List Nat} {s s' : St} {o : Op} {p : Ph} (h : CallOk m srv s o p)
    (hst : s.stopped = true → s'.stopped = true) (hsv : s'.servers = s.servers ∨ s'.servers = [])
    (hl : ∀ e ∈ s.log, e ∈ s'.log) : CallOk m srv s' o p := by
  obtain ⟨h1, h2, h3, h4, h5, h6, h7⟩ := h
  refine ⟨h1, h2, h3, fun hp => ⟨(h4 hp).1, fun x hx => ?_⟩, fun a b => hst (h5 a b), fun a b => hst (h6 a b),
    fun a b x hx => (h7 a b x hx).imp fun _ h => hl _ h⟩
  rcases hsv with e | e
  · exact ((h4 hp).2 x (by rw [← e]; exact hx)).imp fun _ h => hl _ h
  · rw [e] at hx; simp at hx

theorem CallInv.new {m : Bool} {srv : List Nat} {s s' : St} {es : List Ev} {o : Op} {p : Ph} (ih : CallInv m srv s)
    (e1 : s'.isMain = s.isMain) (e2 : s'.servers = s.servers) (e3 : s.stopped = true → s'.stopped = true)
    (e4 : s'.log = s.log ++ es) (e5 : s'.calls = s.calls ++ [(o, p)]) (hok : CallOk m srv s' o p)
    (hset : m = false → ∀ c, Ev.setStopped c ∉ es) : CallInv m srv s' := by
  have hl : ∀ e ∈ s.log, e ∈ s'.log := fun e he => by rw [e4]; exact List.mem_append_left _ he
  refine ⟨e1.trans ih.isMain, fun c o' p' h => ?_, ?_, fun hm c h => ?_⟩
  · rw [e5, List.getElem?_append] at h
    split at h
    · exact (ih.shape c o' p' h).mono e3 (.inl e2) hl
    · rcases List.getElem?_eq_some_iff.mp h with ⟨_, hh⟩
      simp at hh
      obtain ⟨rfl, rfl⟩ := hh
      exact hok
  · rw [e2]
    exact ih.servers.imp_right fun h => ⟨h.1, fun x hx => (h.2 x hx).imp fun _ h => hl _ h⟩
  · rw [e4] at h
    have h : Ev.setStopped c ∈ s.log := (List.mem_append.mp h).resolve_right (hset hm c)
    rw [e5]
    have := ih.setBy hm c h
    rw [List.getElem?_append_left (by rcases this with h | h <;> exact (List.getElem?_eq_some_iff.mp h).1)]
    exact this

theorem CallInv.upd {m : Bool} {srv : List Nat} {s s' : St} {es : List Ev} {c : Nat} {o : Op} {p p' : Ph} (ih : CallInv m srv s)
    (hc : s.calls[c]? = some (o, p)) (hp : p ≠ .returned ∧ p ≠ .raised)
    (e1 : s'.isMain = s.isMain) (e2 : s'.servers = s.servers ∨ (s'.servers = [] ∧ ∀ x ∈ s.servers, ∃ c, Ev.serverStop c x ∈ s.log))
    (e3 : s.stopped = true → s'.stopped = true)
    (e4 : s'.log = s.log ++ es) (e5 : s'.calls = s.calls.set c (o, p')) (hok : CallOk m srv s' o p')
    (hset : ∀ c', Ev.setStopped c' ∈ es → c' = c ∧ o = .stop ∧ (p' = .returned ∨ p' = .raised)) : CallInv m srv s' := by
  have hl : ∀ e ∈ s.log, e ∈ s'.log := fun e he => by rw [e4]; exact List.mem_append_left _ he
  have hlt := (List.getElem?_eq_some_iff.mp hc).1
  refine ⟨e1.trans ih.isMain, fun c' o' p2 h => ?_, ?_, fun hm c' h => ?_⟩
  · rw [e5, List.getElem?_set] at h
    split at h
    · simp at h
      rw [← h.1, ← h.2]
      exact hok
    · exact (ih.shape c' o' p2 h).mono e3 (e2.imp_right And.left) hl
  · have h0 := ih.servers.imp_right fun h => (⟨h.1, fun x hx => (h.2 x hx).imp fun _ h => hl _ h⟩ :
      s.servers = [] ∧ ∀ x ∈ srv, ∃ c, Ev.serverStop c x ∈ s'.log)
    rcases e2 with e2 | ⟨e2, h2⟩
    · rw [e2]; exact h0
    · right
      refine ⟨e2, fun x hx => ?_⟩
      rcases h0 with h0 | h0
      · exact (h2 x (by rw [h0]; exact hx)).imp fun _ h => hl _ h
      · exact h0.2 x hx
  · rw [e4] at h
    rw [e5]
    rcases List.mem_append.mp h with h | h
    · have := ih.setBy hm c' h
      have hne : c ≠ c' := by
        rintro rfl
        rw [hc] at this
        rcases this with h | h <;> cases h
        · exact hp.1 rfl
        · exact hp.2 rfl
      simp [hne, this]
    · obtain ⟨rfl, rfl, h2⟩ := hset c' h
      rw [List.getElem?_set]
      simp [hlt, h2]

theorem callInv_of_run {m : Bool} {srv : List Nat} {ls : List Label} {s : St} (h : Run m srv ls s) : CallInv m srv s := by
  induction h with
  | init => constructor <;> simp [St.init]
  | @snoc ls l s s' hr hs ih =>
    rcases l with _ | _ | _ | ⟨c, ok⟩ | c
    · simp only [step] at hs
      split at hs <;> cases hs
      · exact ih.new rfl rfl id rfl rfl (by simp [CallOk]) (by simp)
      · exact ih.new rfl rfl id rfl rfl (by simp [CallOk]) (by simp)
    · cases hs
      exact ih.new rfl rfl id (List.append_nil _).symm rfl (by simp [CallOk]) (by simp)
    · simp only [step] at hs
      split at hs <;> cases hs
      · next hm =>
        rw [ih.isMain] at hm
        exact ih.new (es := [.setStopped s.calls.length, .subsStop s.calls.length]) rfl rfl (by simp [setStopped]) (by simp [setStopped]) rfl
          (by simp [CallOk, setStopped, hm]) (by simp [hm])
      · next hm =>
        rw [ih.isMain] at hm
        exact ih.new (es := s.servers.map (Ev.serverStop s.calls.length) ++ [.callerStop s.calls.length]) rfl rfl id
          (by simp [baseStop]) rfl
          ⟨by simp, by simp, by simp, fun _ => ⟨rfl, fun x hx => ⟨s.calls.length, by simp [baseStop]; exact .inr hx⟩⟩,
            by simp [hm], by simp, by simp⟩ (by simp)
    · simp only [step] at hs
      split at hs
      · next o0 hc =>
        cases hs
        have h0 := (ih.shape c _ _ hc).1 rfl
        subst h0
        exact ih.upd hc (by simp) rfl (.inl rfl) id (List.append_nil _).symm rfl (by cases ok <;> simp [CallOk]) (by simp)
      · next o0 hc =>
        split at hs <;> cases hs
        have h0 := (ih.shape c _ _ hc).2.1 rfl
        subst h0
        exact ih.upd hc (by simp) rfl (.inl rfl) id rfl rfl (by simp [CallOk]) (by simp)
      · next o0 hc =>
        obtain ⟨rfl, hm⟩ := (ih.shape c _ _ hc).2.2.1 rfl
        have hst := (ih.shape c _ _ hc).2.2.2.2.1 rfl hm
        split at hs <;> cases hs
        · exact ih.upd (es := s.servers.map (Ev.serverStop c) ++ [.callerStop c]) hc (by simp) rfl (.inl rfl) id
            (by simp [baseStop, St.setCall]) rfl
            ⟨by simp, by simp, by simp, fun _ => ⟨rfl, fun x hx => ⟨c, by simp [baseStop, St.setCall]; exact .inr hx⟩⟩,
              fun _ _ => hst, by simp, by simp⟩ (by simp)
        · exact ih.upd hc (by simp) rfl (.inl rfl) id (List.append_nil _).symm rfl
            ⟨by simp, by simp, by simp, by simp, fun _ _ => hst, fun _ _ => hst, by simp⟩ (by simp)
      · next o0 hc =>
        obtain ⟨rfl, hsv⟩ := (ih.shape c _ _ hc).2.2.2.1 rfl
        split at hs <;> cases hs
        · refine ih.upd (es := [.setStopped c]) hc (by simp) rfl (.inr ⟨rfl, hsv⟩) (by simp [setStopped, St.setCall])
            (by simp [setStopped, St.setCall]) rfl
            ⟨by simp, by simp, by simp, by simp, by simp [setStopped, St.setCall], by simp [setStopped, St.setCall], fun _ _ x hx => ?_⟩ (by simp)
          rcases ih.servers with h | h
          · exact (hsv x (by rw [h]; exact hx)).imp fun _ h => by simp [setStopped, St.setCall, h]
          · exact (h.2 x hx).imp fun _ h => by simp [setStopped, St.setCall, h]
        · exact ih.upd (es := [.setStopped c]) hc (by simp) rfl (.inl rfl) (by simp [setStopped, St.setCall])
            (by simp [setStopped, St.setCall]) rfl
            ⟨by simp, by simp, by simp, by simp, by simp [setStopped, St.setCall], by simp [setStopped, St.setCall], by simp⟩ (by simp)
      · simp at hs
    · simp only [step] at hs
      split at hs
      · next o0 hc =>
        cases hs
        have h0 := (ih.shape c _ _ hc).2.1 rfl
        subst h0
        exact ih.upd hc (by simp) rfl (.inl rfl) id rfl rfl (by simp [CallOk]) (by simp)
      · simp at hs

/-- **C49** (stop always stops): a stop call that ended, even with an exception, leaves the pool marked
stopped; one that returned normally had every server of the pool stopped. -/
theorem stop_stops {m : Bool} {srv : List Nat} {ls : List Label} {s : St} (h : Run m srv ls s) {c : Nat} {p : Ph}
    (hc : s.calls[c]? = some (.stop, p)) :
    ((p = .returned ∨ p = .raised) → s.stopped = true) ∧
    (p = .returned → ∀ x ∈ srv, ∃ c', Ev.serverStop c' x ∈ s.log) := by
  have := (callInv_of_run h).shape c _ _ hc
  exact ⟨fun hp => this.2.2.2.2.2.1 rfl hp.symm, this.2.2.2.2.2.2 rfl⟩

/-- **C49** (any number of stops): `stop` may be called in every state, and a stop under way can always
go on to its end. -/
theorem stop_any_time (s : St) : (∃ s', step s .stop = some s') ∧
    ∀ (c : Nat) p ok, s.calls[c]? = some (.stop, p) → (p = .stoppingSubs ∨ p = .stoppingServers) → ∃ s', step s (.ends c ok) = some s' := by
  constructor
  · simp only [step]; split <;> exact ⟨_, rfl⟩
  · intro c p ok hc hp
    rcases hp with rfl | rfl <;> simp only [step, hc] <;> split <;> exact ⟨_, rfl⟩

/-- **C49** (sub pools): a join returns only when some stop call has come to its end -/
theorem sub_join_after_stop_ended {srv : List Nat} {ls : List Label} {s : St} (h : Run false srv ls s) {c : Cid}
    (hj : Ev.joined c ∈ s.log) :
    ∃ c' : Nat, s.calls[c']? = some (.stop, .returned) ∨ s.calls[c']? = some (.stop, .raised) := by
  obtain ⟨a, b, hl⟩ := List.append_of_mem hj
  obtain ⟨c', hc'⟩ := join_after_stop h hl
  exact ⟨c', (callInv_of_run h).setBy rfl c' (by rw [hl]; exact List.mem_append_left _ hc')⟩

/-- **C49** (outcomes): a `start` returns if all its servers started and raises otherwise; -/
theorem start_outcome {m : Bool} {srv : List Nat} {ls : List Label} {s s' : St} (_ : Run m srv ls s) {c : Nat} {ok : Bool}
    (hc : s.calls[c]? = some (.start, .starting)) (hs : step s (.ends c ok) = some s') :
    s'.calls[c]? = some (.start, if ok then .returned else .raised) ∧ s'.servers = s.servers ∧ s'.stopped = s.stopped := by
  have hlt := (List.getElem?_eq_some_iff.mp hc).1
  simp only [step, hc] at hs
  cases hs
  simp [St.setCall, List.getElem?_set, hlt]

/-- … the last phase of a `stop` returns if all servers stopped, and the pool then keeps none of them, and raises otherwise, the
pool keeping its servers for the next `stop`. -/
theorem stop_outcome {m : Bool} {srv : List Nat} {ls : List Label} {s s' : St} (_ : Run m srv ls s) {c : Nat} {ok : Bool}
    (hc : s.calls[c]? = some (.stop, .stoppingServers)) (hs : step s (.ends c ok) = some s') :
    s'.calls[c]? = some (.stop, if ok then .returned else .raised) ∧ s'.servers = (if ok then [] else s.servers) ∧
      s'.stopped = true := by
  have hlt := (List.getElem?_eq_some_iff.mp hc).1
  simp only [step, hc] at hs
  cases ok <;> cases hs <;> simp [St.setCall, setStopped, List.getElem?_set, hlt]

/-- … before that, a main pool's `stop` goes on from its sub pools to its own servers, stopping every one of them and the caller;
if stopping the sub pools raises, so does the call. -/
theorem stop_goes_on {s s' : St} {c : Nat} {ok : Bool} (hc : s.calls[c]? = some (.stop, .stoppingSubs)) (hs : step s (.ends c ok) = some s') :
    s'.calls[c]? = some (.stop, if ok then .stoppingServers else .raised) ∧ s'.servers = s.servers ∧ s'.stopped = s.stopped ∧
      (ok = true → s'.log = s.log ++ s.servers.map (Ev.serverStop c) ++ [.callerStop c]) ∧ (ok = false → s'.log = s.log) := by
  have hlt := (List.getElem?_eq_some_iff.mp hc).1
  simp only [step, hc] at hs
  cases ok <;> cases hs <;> simp [St.setCall, baseStop, hlt]

/-- **C49 refuted for main pools**: the event is set first, so a join returns while the stop call is still
stopping the sub pools and no server has been stopped. -/
theorem main_join_before_stop_ended_refuted :
    ∃ ls s, Run true [1, 2] ls s ∧ Ev.joined 1 ∈ s.log ∧ s.calls[2]? = some (.stop, .stoppingSubs) ∧
      ∀ c x, Ev.serverStop c x ∉ s.log := by
  refine ⟨_, _, .snoc (.snoc (.snoc (.snoc (.snoc .init (l := .start) rfl) (l := .ends 0 true) rfl)
    (l := .join) rfl) (l := .stop) rfl) (l := .ends 1 true) rfl, by decide, by decide, ?_⟩
  intro c x
  simp [St.init, St.setCall, setStopped]

/-- **C49 refuted for failing stops of main pools**: if stopping the sub pools raises, the pool is marked
stopped although its servers were never stopped. -/
theorem main_failed_stop_leaves_servers_refuted :
    ∃ ls s, Run true [1] ls s ∧ s.stopped = true ∧ s.calls[1]? = some (.stop, .raised) ∧ s.servers = [1] ∧
      ∀ c x, Ev.serverStop c x ∉ s.log := by
  refine ⟨_, _, .snoc (.snoc (.snoc .init (l := .start) rfl) (l := .stop) rfl) (l := .ends 1 false) rfl, by decide, by decide, by decide, ?_⟩
  intro c x
  simp [St.init, St.setCall, setStopped]

/-- **C49 refuted for sub pools**: the event is set last, so a `start` during a stop is accepted and starts
servers after they were stopped. -/
theorem sub_start_during_stop_refuted :
    ∃ ls s, Run false [1] ls s ∧ s.log = [.serverStart 0 1, .serverStop 1 1, .callerStop 1, .serverStart 2 1, .setStopped 1] := by
  exact ⟨_, _, .snoc (.snoc (.snoc (.snoc .init (l := .start) rfl) (l := .stop) rfl) (l := .start) rfl) (l := .ends 1 true) rfl, by decide⟩

/-- a life: start, stop twice, start refused, join returns -/
example : ∃ ls s, Run false [1] ls s ∧ s.log = [.serverStart 0 1, .serverStop 1 1, .callerStop 1, .setStopped 1,
    .callerStop 2, .setStopped 2, .startRefused 3, .joined 4] := by
  exact ⟨_, _, .snoc (.snoc (.snoc (.snoc (.snoc (.snoc (.snoc (.snoc .init (l := .start) rfl) (l := .stop) rfl) (l := .ends 1 true) rfl)
    (l := .stop) rfl) (l := .ends 2 true) rfl) (l := .start) rfl) (l := .join) rfl) (l := .ends 4 true) rfl, by decide⟩

end Xoscar.Life
