import Verif.Model.Dummy
import Verif.Proof.Base
/-!
# C51: in-process channels
-/
namespace Xoscar.Dummy
attribute [local grind =] Dict.get?_set Dict.get?_erase

/-! ## Specification -/

/-- the messages accepted from end `s`: those whose `send` returned without error -/
def accepted (s : Side) : List (Label × List Ev) → List Msg
  | [] => []
  | (.send s' m, evs) :: rest => if s' = s ∧ evs = [⟨s, .sent⟩] then m :: accepted s rest else accepted s rest
  | _ :: rest => accepted s rest

def gotBy (s : Side) (e : Ev) : Option Msg := match e.out with
  | .got m => if e.side = s then some m else none
  | _ => none

/-- the messages the calls of `recv` on end `s` returned, in order -/
def received (s : Side) (ls : List (Label × List Ev)) : List Msg := (ls.flatMap (·.2)).filterMap (gotBy s)

/-! ## Proof -/

theorem accepted_append (s : Side) (l1 l2 : List (Label × List Ev)) : accepted s (l1 ++ l2) = accepted s l1 ++ accepted s l2 := by
  induction l1 with
  | nil => rfl
  | cons x xs ih =>
    obtain ⟨l, evs⟩ := x
    cases l <;> simp only [List.cons_append, accepted, ih]
    split <;> simp

theorem received_append (s : Side) (l1 l2 : List (Label × List Ev)) : received s (l1 ++ l2) = received s l1 ++ received s l2 := by
  simp [received]

theorem out_setOut (c : Conn) (s s' : Side) (w : Way) : (c.setOut s w).out s' = if s = s' then w else c.out s' := by
  cases s <;> cases s' <;> rfl

theorem closed_setOut (c : Conn) (s : Side) (w : Way) : (c.setOut s w).closed = c.closed := by cases s <;> rfl

/-- what a step adds on one direction -/
theorem step_way {c c' : Conn} {l : Label} {evs : List Ev} (h : step c l = some (c', evs)) (s : Side) :
    (c.out s).queue ++ accepted s [(l, evs)] = received s.other [(l, evs)] ++ (c'.out s).queue := by
  cases l with
  | send s' m =>
    simp only [step] at h
    split at h <;> cases h
    · cases s <;> cases s' <;> simp [accepted, received, gotBy]
    · rw [out_setOut]; cases s <;> cases s' <;> simp [accepted, received, gotBy, Conn.out]
  | recv s' r =>
    simp only [step] at h
    split at h
    · cases h; cases s <;> cases s' <;> simp [accepted, received, gotBy]
    · split at h
      · cases h
      · split at h <;> cases h <;> next hq =>
          simp only [out_setOut]
          cases s <;> cases s' <;> simp_all [accepted, received, gotBy, Conn.out, Side.other]
  | wake s' r =>
    simp only [step] at h
    split at h
    case isFalse => cases h
    split at h <;> cases h
    next hq =>
      simp only [out_setOut]
      cases s <;> cases s' <;> simp_all [accepted, received, gotBy, Conn.out, Side.other]
  | cancel s' r =>
    simp only [step] at h
    split at h <;> cases h
    simp only [out_setOut]
    cases s <;> cases s' <;> simp_all [accepted, received, gotBy, Conn.out, Side.other]
  | close s' => cases h; cases s <;> simp [accepted, received, Conn.out]

/-- **C51** (order, exactly once): at every moment, what one end received followed by what is still in the queue is what the other end
has sent: nothing is lost, doubled, reordered or crosses over, however sends, receives, cancellations and closes interleave -/
theorem delivered {ls : List (Label × List Ev)} {c : Conn} (h : Run ls c) (s : Side) :
    received s.other ls ++ (c.out s).queue = accepted s ls := by
  induction h with
  | init => cases s <;> rfl
  | snoc _ hs ih =>
    rw [received_append, accepted_append, ← ih, List.append_assoc, List.append_assoc, step_way hs s]

/-- **C51** (order): what was received is an initial part of what was sent -/
theorem received_prefix {ls : List (Label × List Ev)} {c : Conn} (h : Run ls c) (s : Side) :
    received s.other ls <+: accepted s ls := ⟨_, delivered h s⟩

/-- **C51** (delivery): while the channel is open, `recv` returns the oldest message not received yet, if there is one -/
theorem recv_oldest {ls : List (Label × List Ev)} {c : Conn} (h : Run ls c) (hc : c.closed = false) {s : Side} {r : Rid} {m : Msg} {rest : List Msg}
    (hr : r ∉ (c.out s.other).waiting) (hm : accepted s.other ls = received s ls ++ m :: rest) :
    ∃ c', step c (.recv s r) = some (c', [⟨s, .got m⟩]) := by
  have hd := delivered h s.other
  have hoo : s.other.other = s := by cases s <;> rfl
  rw [hoo, hm] at hd
  have hq := List.append_cancel_left hd
  exact ⟨_, by simp only [step, hc, hq, hr, if_false, Bool.false_eq_true]; rfl⟩

/-- **C51** (delivery, waiting receivers): a message arriving for a waiting `recv` can be taken by it at once -/
theorem waiting_gets {ls : List (Label × List Ev)} {c : Conn} (h : Run ls c) {s : Side} {r : Rid} {m : Msg} {rest : List Msg}
    (hr : r ∈ (c.out s.other).waiting) (hm : accepted s.other ls = received s ls ++ m :: rest) :
    ∃ c', step c (.wake s r) = some (c', [⟨s, .got m⟩]) := by
  have hd := delivered h s.other
  have hoo : s.other.other = s := by cases s <;> rfl
  rw [hoo, hm] at hd
  have hq := List.append_cancel_left hd
  exact ⟨_, by simp only [step, hq, hr, if_true]; rfl⟩

theorem closed_step {c c' : Conn} {l : Label} {evs : List Ev} (h : step c l = some (c', evs)) (hc : c.closed = true) : c'.closed = true := by
  cases l <;> simp only [step] at h
  case close => cases h; rfl
  all_goals (repeat' split at h)
  all_goals first
    | cases h; done
    | (cases h; first | exact hc | (rw [closed_setOut]; exact hc))

theorem closed_of_mem {ls : List (Label × List Ev)} {c : Conn} (h : Run ls c) {s : Side} (hm : ∃ evs, (.close s, evs) ∈ ls) : c.closed = true := by
  induction h with
  | init => simp at hm
  | snoc _ hs ih =>
    obtain ⟨evs, hm⟩ := hm
    simp only [List.mem_append, List.mem_singleton] at hm
    rcases hm with hm | hm
    · exact closed_step hs (ih ⟨evs, hm⟩)
    · cases hm; cases hs; rfl

/-- **C51** (after close): once either end was closed, every `send` and `recv` on either end fails with ChannelClosed and changes nothing -/
theorem after_close {ls : List (Label × List Ev)} {c : Conn} (h : Run ls c) {s0 : Side} (hm : ∃ evs, (.close s0, evs) ∈ ls) (s : Side) (m : Msg) (r : Rid) :
    step c (.send s m) = some (c, [⟨s, .channelClosed⟩]) ∧ step c (.recv s r) = some (c, [⟨s, .channelClosed⟩]) := by
  have hc := closed_of_mem h hm
  exact ⟨by simp [step, hc], by simp [step, hc]⟩

/-- before any close, `send` is accepted -/
theorem send_accepted {ls : List (Label × List Ev)} {c : Conn} (h : Run ls c) (hn : ∀ s evs, (.close s, evs) ∉ ls) (s : Side) (m : Msg) :
    ∃ c', step c (.send s m) = some (c', [⟨s, .sent⟩]) := by
  have hc : c.closed = false := by
    clear s m
    induction h with
    | init => rfl
    | snoc _ hs ih =>
      rename_i l _ c' _
      have ih := ih (fun s evs hh => hn s evs (by simp [hh]))
      cases l <;> simp only [step] at hs
      case close s => exact absurd (by simp; exact .inr rfl) (hn s _)
      all_goals (repeat' split at hs)
      all_goals first
        | cases hs; done
        | (cases hs; first | exact ih | (rw [closed_setOut]; exact ih))
  exact ⟨_, by simp only [step, hc, Bool.false_eq_true, if_false]; rfl⟩

/-! ### What close does not do -/

/-- **refuted**: closing does not wake a pending `recv`: after it, no sequence of sends, receives, closes and wake-ups on either end ever
ends this call; only its own cancellation does -/
theorem pending_recv_hangs_refuted {c : Conn} (hc : c.closed = true) {s : Side} {r : Rid} (hr : r ∈ (c.out s.other).waiting)
    (hq : (c.out s.other).queue = []) {l : Label} {c' : Conn} {evs : List Ev} (h : step c l = some (c', evs)) (hl : l ≠ .cancel s r) :
    c'.closed = true ∧ r ∈ (c'.out s.other).waiting ∧ (c'.out s.other).queue = [] := by
  refine ⟨closed_step h hc, ?_⟩
  cases l with
  | send s' m => simp only [step, hc, if_true] at h; cases h; exact ⟨hr, hq⟩
  | recv s' r' => simp only [step, hc, if_true] at h; cases h; exact ⟨hr, hq⟩
  | wake s' r' =>
    simp only [step] at h
    split at h
    case isFalse => cases h
    split at h <;> cases h
    next hq' =>
      rw [out_setOut]
      split
      · next hh => cases s <;> cases s' <;> simp_all [Side.other]
      · exact ⟨hr, hq⟩
  | cancel s' r' =>
    simp only [step] at h
    split at h <;> cases h
    rw [out_setOut]
    split
    · next hh =>
      have : s' = s := by cases s <;> cases s' <;> simp_all [Side.other]
      subst this
      refine ⟨?_, hq⟩
      simp only [List.mem_filter, decide_eq_true_eq]
      exact ⟨hr, fun hh => hl (by rw [hh])⟩
    · exact ⟨hr, hq⟩
  | close s' => cases h; cases s <;> exact ⟨hr, hq⟩

theorem run_of (ls : List (Label × List Ev)) (c : Conn)
    (h : ls.foldlM (fun c (x : Label × List Ev) => match step c x.1 with | some (c', evs) => if evs = x.2 then some c' else none | none => none) Conn.init = some c) :
    Run ls c := by
  induction ls using List.reverseRecOn' generalizing c with
  | nil => cases h; exact .init
  | append_singleton l x ih =>
    rw [List.foldlM_append] at h
    rcases hh : l.foldlM (fun c (x : Label × List Ev) => match step c x.1 with | some (c', evs) => if evs = x.2 then some c' else none | none => none) Conn.init with _ | t
    · simp [hh] at h
    · simp only [hh, Option.bind_eq_bind, Option.bind_some, List.foldlM_cons, List.foldlM_nil] at h
      rcases hs : step t x.1 with _ | ⟨c', evs⟩
      · simp [hs] at h
      · simp only [hs] at h
        split at h
        · next he => cases h; obtain ⟨l', e'⟩ := x; subst he; exact .snoc (ih t hh) hs
        · simp at h

/-- … and such a state is reached: the server waits for a message when the client closes -/
example : ∃ c, Run [(.recv .server 1, []), (.close .client, [])] c ∧ c.closed = true ∧ 1 ∈ (c.out Side.server.other).waiting ∧
    (c.out Side.server.other).queue = [] := ⟨_, run_of _ _ rfl, rfl, by decide, rfl⟩

/-- **refuted**: a message accepted before the close and not received yet can never be received afterwards, if nobody waits -/
theorem accepted_lost_refuted : ∃ c, Run [(.send .client 7, [⟨.client, .sent⟩]), (.close .client, [])] c ∧
    ∀ ls' c', Run ([(.send .client 7, [⟨.client, .sent⟩]), (.close .client, [])] ++ ls') c' →
      received .server ([(.send .client 7, [⟨.client, .sent⟩]), (.close .client, [])] ++ ls') = [] := by
  refine ⟨_, run_of _ _ rfl, ?_⟩
  have key : ∀ ls' c', Run ([(.send .client 7, [⟨.client, .sent⟩]), (.close .client, [])] ++ ls') c' →
      c' = ⟨⟨[7], []⟩, ⟨[], []⟩, true⟩ ∧ received .server ([(.send .client 7, [⟨.client, .sent⟩]), (.close .client, [])] ++ ls') = [] := by
    intro ls'
    induction ls' using List.reverseRecOn' with
    | nil =>
      intro c' h
      have hd := delivered h .client
      rw [List.append_nil] at h
      generalize hl : [(Label.send .client 7, [Ev.mk .client .sent]), (Label.close .client, [])] = L at h
      cases h with
      | init => cases hl
      | snoc h1 hs1 =>
        rename_i ls1 c1 l1 e1
        have hl' : [(Label.send .client 7, [Ev.mk .client .sent])] ++ [(Label.close .client, [])] = ls1 ++ [(l1, e1)] := hl
        obtain ⟨ha, hb⟩ := List.append_inj' hl' rfl
        cases hb
        generalize hL : ls1 = L1 at h1
        cases h1 with
        | init => subst hL; cases ha
        | snoc h2 hs2 =>
          rename_i ls2 c2 l2 e2
          have hl2 : ([] : List (Label × List Ev)) ++ [(Label.send .client 7, [Ev.mk .client .sent])] = ls2 ++ [(l2, e2)] := by
            rw [← hL, ← ha]; rfl
          obtain ⟨ha', hb'⟩ := List.append_inj' hl2 rfl
          cases hb'
          generalize hL2 : ls2 = L2 at h2
          cases h2 with
          | init => cases hs2; cases hs1; exact ⟨rfl, rfl⟩
          | snoc _ _ => subst hL2; simp at ha'
    | append_singleton l x ih =>
      intro c' h
      rw [← List.append_assoc] at h ⊢
      generalize hl : ([(Label.send .client 7, [Ev.mk .client .sent]), (Label.close .client, [])] ++ l) ++ [x] = L at h
      cases h with
      | init => simp at hl
      | snoc h1 hs1 =>
        obtain ⟨ha, hb⟩ := List.append_inj' hl rfl
        cases hb
        subst ha
        obtain ⟨hc1, hr1⟩ := ih _ h1
        subst hc1
        rw [← hl, received_append, hr1]
        rename_i lab evs
        cases lab with
        | send s m => cases hs1; exact ⟨rfl, by cases s <;> rfl⟩
        | recv s r => cases hs1; exact ⟨rfl, by cases s <;> rfl⟩
        | wake s r => cases s <;> simp [step, Conn.out, Side.other] at hs1
        | cancel s r => cases s <;> simp [step, Conn.out, Side.other] at hs1
        | close s => cases hs1; exact ⟨rfl, rfl⟩
  exact fun ls' c' h => (key ls' c' h).2

example : ∃ c, Run [(.recv .server 1, []), (.send .client 5, [⟨.client, .sent⟩]), (.send .client 6, [⟨.client, .sent⟩]), (.recv .server 2, [⟨.server, .got 5⟩]),
    (.wake .server 1, [⟨.server, .got 6⟩])] c ∧ (c.out .client).queue = [] := ⟨_, run_of _ _ rfl, rfl⟩

/-! ## Servers -/

structure WInv (w : World) : Prop where
  inst : ∀ a s, w.instances.get? a = some s → ∃ sv, w.servers.get? s = some sv ∧ sv.addr = a
  fresh : ∀ s sv, w.servers.get? s = some sv → s < w.nextS
  newest : ∀ s sv, w.servers.get? s = some sv → sv.stopped = false → w.instances.get? sv.addr = some s

theorem stopAll_get (s : Sid) (d : Dict Cid Link) (c : Cid) : Dict.get? (stopAll s d) c = (Dict.get? d c).map (stopLink s) := by
  induction d with
  | nil => rfl
  | cons x xs ih =>
    obtain ⟨k, l⟩ := x
    simp only [stopAll, Dict.get?_cons, ih]
    split <;> simp

theorem wrun_inv {ls : List (WLabel × Answer)} {w : World} (h : WRun ls w) : WInv w := by
  induction h with
  | init => exact ⟨by simp [World.init], by simp [World.init], by simp [World.init]⟩
  | snoc _ hs ih =>
    rename_i ls w l a w' _
    obtain ⟨h1, h2, h3⟩ := ih
    cases l with
    | create a' h =>
      have hnew : (∀ sv, w.instances.get? a' = some sv → ∀ x, w.servers.get? sv = some x → x.stopped = true) → WInv (newServer w a' h) := by
        intro hst
        refine ⟨?_, ?_, ?_⟩ <;> simp only [newServer]
        · intro a s ha
          rw [Dict.get?_set] at ha
          split at ha
          · next hh => cases ha; exact ⟨_, by rw [Dict.get?_set, if_pos rfl], hh⟩
          · obtain ⟨sv, hsv, hadd⟩ := h1 _ _ ha
            have := h2 _ _ hsv
            refine ⟨sv, ?_, hadd⟩
            rw [Dict.get?_set, if_neg (fun hh => by rw [hh] at this; exact Nat.lt_irrefl _ this)]; exact hsv
        · intro s sv hsv
          rw [Dict.get?_set] at hsv
          split at hsv
          · next hh => rw [← hh]; exact Nat.lt_succ_self _
          · exact Nat.lt_succ_of_lt (h2 _ _ hsv)
        · intro s sv hsv hns
          rw [Dict.get?_set] at hsv
          split at hsv
          · next hh => cases hsv; subst hh; rw [Dict.get?_set, if_pos rfl]
          · have := h3 _ _ hsv hns
            rw [Dict.get?_set]
            split
            · next hh =>
              rw [← hh] at this
              have := hst _ this _ hsv
              rw [hns] at this; cases this
            · exact this
      simp only [wstep] at hs
      split at hs
      · next s hi =>
        split at hs
        · next sv hsv =>
          split at hs <;> cases hs
          · next hst => exact hnew (fun s' hs' x hx => by rw [hi] at hs'; cases hs'; rw [hsv] at hx; cases hx; exact hst)
          · exact ⟨h1, h2, h3⟩
        · cases hs
      · next hi => cases hs; exact hnew (fun s' hs' => by rw [hi] at hs'; cases hs')
    | stop s =>
      simp only [wstep] at hs
      split at hs <;> cases hs
      next sv hsv =>
      refine ⟨?_, ?_, ?_⟩ <;> simp only
      · intro a s' ha
        obtain ⟨sv', hsv', hadd⟩ := h1 _ _ ha
        rw [Dict.get?_set]
        split
        · next hh => subst hh; rw [hsv] at hsv'; cases hsv'; exact ⟨_, rfl, hadd⟩
        · exact ⟨sv', hsv', hadd⟩
      · intro s' sv' h'
        rw [Dict.get?_set] at h'
        split at h'
        · next hh => subst hh; exact h2 _ _ hsv
        · exact h2 _ _ h'
      · intro s' sv' h' hn
        rw [Dict.get?_set] at h'
        split at h'
        · cases h'; simp at hn
        · exact h3 _ _ h' hn
    | connect a' =>
      simp only [wstep] at hs
      repeat' split at hs
      all_goals first | (cases hs; done) | (cases hs; exact ⟨h1, h2, h3⟩)
    | begin c =>
      simp only [wstep] at hs
      repeat' split at hs
      all_goals first | (cases hs; done) | (cases hs; exact ⟨h1, h2, h3⟩)
    | finish c =>
      simp only [wstep] at hs
      repeat' split at hs
      all_goals first | (cases hs; done) | (cases hs; exact ⟨h1, h2, h3⟩)
    | close c =>
      simp only [wstep] at hs
      repeat' split at hs
      all_goals first | (cases hs; done) | (cases hs; exact ⟨h1, h2, h3⟩)
    | collect c =>
      simp only [wstep] at hs
      repeat' split at hs
      all_goals first | (cases hs; done) | (cases hs; exact ⟨h1, h2, h3⟩)

/-- **C51** (servers): at most one server per address is running -/
theorem one_server {ls : List (WLabel × Answer)} {w : World} (h : WRun ls w) {s1 s2 : Sid} {v1 v2 : Server}
    (h1 : w.servers.get? s1 = some v1) (h2 : w.servers.get? s2 = some v2) (ha : v1.addr = v2.addr)
    (hn1 : v1.stopped = false) (hn2 : v2.stopped = false) : s1 = s2 := by
  have hi := wrun_inv h
  have e1 := hi.newest _ _ h1 hn1
  have e2 := hi.newest _ _ h2 hn2
  rw [ha, e2] at e1; exact (Option.some.inj e1).symm

/-- **C51** (servers): a connection attempt reaches the server running at this address; there is none: KeyError or ConnectionError -/
theorem connect_spec {ls : List (WLabel × Answer)} {w w' : World} {a : Addr} {x : Answer} (h : WRun ls w) (hs : wstep w (.connect a) = some (w', x)) :
    (∃ s sv, w.servers.get? s = some sv ∧ sv.addr = a ∧ sv.stopped = false ∧ x = .link w.nextC ∧ w'.links.get? w.nextC = some ⟨s, .pending, false, false⟩) ∨
    ((∀ s sv, w.servers.get? s = some sv → sv.addr = a → sv.stopped = true) ∧ (x = .keyError ∨ x = .connectionError) ∧ w' = w) := by
  have hi := wrun_inv h
  simp only [wstep] at hs
  split at hs
  · next hn =>
    cases hs
    refine .inr ⟨fun s sv hsv ha => ?_, .inl rfl, rfl⟩
    rcases hb : sv.stopped
    · have := hi.newest _ _ hsv hb; rw [ha, hn] at this; cases this
    · rfl
  · next s hs' =>
    obtain ⟨sv, hsv, hadd⟩ := hi.inst _ _ hs'
    simp only [hsv] at hs
    split at hs <;> cases hs
    · next hst =>
      refine .inr ⟨fun s2 sv2 hsv2 ha => ?_, .inr rfl, rfl⟩
      rcases hb : sv2.stopped
      · have := hi.newest _ _ hsv2 hb
        rw [ha, hs'] at this; cases this
        rw [hsv] at hsv2; cases hsv2; rw [hst] at hb; cases hb
      · rfl
    · next hst => exact .inl ⟨s, sv, hsv, hadd, by simpa using hst, rfl, by simp [Dict.get?_set]⟩

/-- creating a server where one runs gives that one; the new handler is dropped -/
theorem create_running {ls : List (WLabel × Answer)} {w : World} {a : Addr} {hd : Handler} (h : WRun ls w) {s : Sid} {sv : Server}
    (hsv : w.servers.get? s = some sv) (ha : sv.addr = a) (hn : sv.stopped = false) :
    wstep w (.create a hd) = some (w, .server s) := by
  have hi := wrun_inv h
  have := hi.newest _ _ hsv hn
  rw [ha] at this
  simp [wstep, this, hsv, hn]

/-- stopping a server closes every connection whose handler is running -/
theorem stop_closes_partial {w w' : World} {s : Sid} {x : Answer} (hs : wstep w (.stop s) = some (w', x)) {c : Cid} {l : Link}
    (hl : w.links.get? c = some l) (hsv : l.server = s) (hr : l.registered = true) :
    ∃ l', w'.links.get? c = some l' ∧ l'.closed = true ∧ l'.task = .ended := by
  simp only [wstep] at hs
  split at hs <;> cases hs
  exact ⟨stopLink s l, by simp [stopAll_get, hl], by simp [stopLink, hsv, hr], by simp [stopLink, hsv]⟩

theorem wrun_of (ls : List (WLabel × Answer)) (c : World)
    (h : ls.foldlM (fun c (x : WLabel × Answer) => match wstep c x.1 with | some (c', evs) => if evs = x.2 then some c' else none | none => none) World.init = some c) :
    WRun ls c := by
  induction ls using List.reverseRecOn' generalizing c with
  | nil => cases h; exact .init
  | append_singleton l x ih =>
    rw [List.foldlM_append] at h
    rcases hh : l.foldlM (fun c (x : WLabel × Answer) => match wstep c x.1 with | some (c', evs) => if evs = x.2 then some c' else none | none => none) World.init with _ | t
    · simp [hh] at h
    · simp only [hh, Option.bind_eq_bind, Option.bind_some, List.foldlM_cons, List.foldlM_nil] at h
      rcases hs : wstep t x.1 with _ | ⟨c', evs⟩
      · simp [hs] at h
      · simp only [hs] at h
        split at h
        · next he => cases h; obtain ⟨l', e'⟩ := x; subst he; exact .snoc (ih t hh) hs
        · simp at h

/-- **refuted**: a connection made just before the server stops, whose handler has not started, is never closed by it: the client can send
into it for ever and nobody receives -/
theorem stop_leaves_open_refuted : ∃ w, WRun [(.create 1 0, .server 0), (.connect 1, .link 0), (.stop 0, .none)] w ∧
    w.links.get? 0 = some ⟨0, .ended, false, false⟩ := ⟨_, wrun_of _ _ rfl, rfl⟩

/-- a second `create` at the same address gives the first server, with the first handler -/
theorem handler_ignored_refuted : ∃ w, WRun [(.create 1 10, .server 0), (.create 1 11, .server 0)] w ∧
    w.servers.get? 0 = some ⟨1, 10, false⟩ := ⟨_, wrun_of _ _ rfl, rfl⟩

example : ∃ w, WRun [(.connect 1, .keyError), (.create 1 0, .server 0), (.connect 1, .link 0), (.begin 0, .none), (.stop 0, .none), (.connect 1, .connectionError),
    (.create 1 0, .server 1), (.connect 1, .link 1)] w ∧ w.links.get? 0 = some ⟨0, .ended, true, true⟩ := ⟨_, wrun_of _ _ rfl, rfl⟩

/-- a `recv` that was woken has its one message and waits no more -/
theorem wake_once {c c' : Conn} {s : Side} {r : Rid} {evs : List Ev} (h : step c (.wake s r) = some (c', evs)) :
    (∃ m, evs = [⟨s, .got m⟩]) ∧ r ∉ (c'.out s.other).waiting ∧ step c' (.wake s r) = none := by
  have hr : (∃ m, evs = [⟨s, .got m⟩]) ∧ r ∉ (c'.out s.other).waiting := by
    simp only [step] at h
    split at h
    · split at h
      · cases h
        exact ⟨⟨_, rfl⟩, by cases s <;> simp [Side.other, Conn.out, Conn.setOut]⟩
      · simp at h
    · simp at h
  exact ⟨hr.1, hr.2, by simp only [step, if_neg hr.2]⟩

/-- a running handler's connection is registered, so stopping its server closes it -/
theorem running_registered {ls : List (WLabel × Answer)} {w : World} (h : WRun ls w) :
    ∀ c l, w.links.get? c = some l → l.task = .running → l.registered = true := by
  induction h with
  | init => simp [World.init]
  | @snoc ls w l a w' _ hs ih =>
    cases l with
    | stop s =>
      simp only [wstep] at hs
      split at hs <;> cases hs
      intro c l hl ht
      rw [stopAll_get] at hl
      rcases hw : w.links.get? c with _ | l0
      · rw [hw] at hl; simp at hl
      · rw [hw] at hl
        simp only [Option.map_some, Option.some.injEq] at hl
        subst hl
        simp only [stopLink] at ht ⊢
        split at ht
        · simp at ht
        · next hn => rw [if_neg hn]; exact ih c l0 hw ht
    | _ =>
      simp only [wstep, newServer] at hs
      grind [Dict.get?_set]

/-- closing the client's end ends the handler's task and closes the channel -/
theorem close_ends {w w' : World} {c : Cid} {x : Answer} (h : wstep w (.close c) = some (w', x)) :
    ∃ l, w'.links.get? c = some l ∧ l.closed = true ∧ l.task = .ended := by
  simp only [wstep] at h
  split at h <;> cases h
  exact ⟨_, by simp only [Dict.get?_set, if_true]; rfl, rfl, rfl⟩

/-! ## Waiting receivers, from what was seen only -/

/-- does call `r` of `recv` at end `s` wait after these steps: it was called and showed nothing, and was neither woken nor cancelled since -/
def waits (s : Side) (r : Rid) : List (Label × List Ev) → Bool → Bool
  | [], b => b
  | (.recv s' r', []) :: rest, b => waits s r rest (b || (s' = s && r' = r))
  | (.wake s' r', _) :: rest, b => waits s r rest (b && !(s' = s && r' = r))
  | (.cancel s' r', _) :: rest, b => waits s r rest (b && !(s' = s && r' = r))
  | _ :: rest, b => waits s r rest b

theorem waits_append (s : Side) (r : Rid) (l1 l2 : List (Label × List Ev)) (b : Bool) :
    waits s r (l1 ++ l2) b = waits s r l2 (waits s r l1 b) := by
  induction l1 generalizing b with
  | nil => rfl
  | cons x xs ih =>
    obtain ⟨l, evs⟩ := x
    cases l <;> cases evs <;> simp only [List.cons_append, waits, ih]

/-- **C51** (no call is lost): a `recv` that found nothing waits until it is given a message or cancelled, and nothing else does -/
theorem waiting_iff {ls : List (Label × List Ev)} {c : Conn} (h : Run ls c) (s : Side) (r : Rid) :
    r ∈ (c.out s.other).waiting ↔ waits s r ls false = true := by
  induction h with
  | init => cases s <;> simp [Conn.init, Conn.out, Side.other, waits]
  | @snoc ls c l evs c' _ hs ih =>
    rw [waits_append]
    revert ih
    generalize waits s r ls false = b
    intro ih
    cases l with
    | send s' m =>
      simp only [step] at hs
      split at hs <;> cases hs
      · simpa [waits] using ih
      · rw [out_setOut]; simp only [waits, ← ih]; split
        · next hh => rw [hh]
        · rfl
    | recv s' r' =>
      simp only [step] at hs
      split at hs
      · cases hs; simpa [waits] using ih
      · split at hs
        · cases hs
        · split at hs <;> cases hs
          · rw [out_setOut]; simp only [waits, ← ih]; split
            · next hh => rw [hh]
            · rfl
          · rw [out_setOut]
            simp only [waits, Bool.or_eq_true, ← ih]
            cases s <;> cases s' <;> simp [Side.other, eq_comm]
    | wake s' r' =>
      simp only [step] at hs
      split at hs
      case isFalse => cases hs
      split at hs <;> cases hs
      rw [out_setOut]
      simp only [waits, Bool.and_eq_true, ← ih]
      cases s <;> cases s' <;> simp [Side.other, @eq_comm _ r']
    | cancel s' r' =>
      simp only [step] at hs
      split at hs <;> cases hs
      rw [out_setOut]
      simp only [waits, Bool.and_eq_true, ← ih]
      cases s <;> cases s' <;> simp [Side.other, @eq_comm _ r']
    | close s' =>
      cases hs
      cases s <;> simpa [waits, Conn.out, Side.other] using ih

/-- **C51** (no call is lost): `recv` on an open channel with nothing to receive waits -/
theorem recv_waits {ls : List (Label × List Ev)} {c : Conn} (h : Run ls c) (hc : c.closed = false) {s : Side} {r : Rid}
    (hr : waits s r ls false = false) (hm : accepted s.other ls = received s ls) :
    ∃ c', step c (.recv s r) = some (c', []) ∧ r ∈ (c'.out s.other).waiting := by
  have hd := delivered h s.other
  have hoo : s.other.other = s := by cases s <;> rfl
  rw [hoo, hm] at hd
  have hq : (c.out s.other).queue = [] := List.append_right_eq_self.mp hd
  have hr' : r ∉ (c.out s.other).waiting := fun hh => by rw [(waiting_iff h s r).mp hh] at hr; cases hr
  refine ⟨_, by simp only [step, hc, hq, hr', if_false, Bool.false_eq_true]; rfl, ?_⟩
  rw [out_setOut, if_pos rfl]; simp

example : waits .server 1 [(.recv .server 1, []), (.send .client 5, [⟨.client, .sent⟩])] false = true ∧
    waits .server 1 [(.recv .server 1, []), (.send .client 5, [⟨.client, .sent⟩]), (.wake .server 1, [⟨.server, .got 5⟩])] false = false := by decide

/-! ## Connections and handlers, over whole runs -/

structure LInv (ls : List (WLabel × Answer)) (w : World) : Prop where
  known : ∀ c, w.links.get? c ≠ none ↔ ∃ a, (WLabel.connect a, Answer.link c) ∈ ls
  below : ∀ c, w.links.get? c ≠ none → c < w.nextC
  live : ∀ c s r cl, w.links.get? c = some ⟨s, .pending, r, cl⟩ → ∃ sv, w.servers.get? s = some sv ∧ sv.stopped = false

theorem linv {ls : List (WLabel × Answer)} {w : World} (h : WRun ls w) : LInv ls w := by
  induction h with
  | init => exact ⟨by simp [World.init], by simp [World.init], by simp [World.init]⟩
  | @snoc ls w l a w' hr hs ih =>
    have hi := wrun_inv hr
    obtain ⟨h1, h2, h3⟩ := ih
    cases l with
    | create a' hd =>
      have hf := hi.fresh
      simp only [wstep, newServer] at hs
      refine ⟨?_, ?_, ?_⟩ <;> grind
    | connect a' =>
      simp only [wstep] at hs
      refine ⟨?_, ?_, ?_⟩ <;> grind
    | begin c =>
      simp only [wstep] at hs
      refine ⟨?_, ?_, ?_⟩ <;> grind
    | finish c =>
      simp only [wstep] at hs
      refine ⟨?_, ?_, ?_⟩ <;> grind
    | close c =>
      simp only [wstep] at hs
      refine ⟨?_, ?_, ?_⟩ <;> grind
    | collect c =>
      simp only [wstep] at hs
      refine ⟨?_, ?_, ?_⟩ <;> grind
    | stop s =>
      simp only [wstep] at hs
      split at hs <;> cases hs
      refine ⟨?_, ?_, ?_⟩
      · intro c
        have := h1 c
        simp only [stopAll_get, List.mem_append, List.mem_singleton, ne_eq, Option.map_eq_none_iff] at this ⊢
        rw [this]
        constructor
        · rintro ⟨a, ha⟩; exact ⟨a, .inl ha⟩
        · rintro ⟨a, ha | ha⟩
          · exact ⟨a, ha⟩
          · cases ha
      · intro c
        have := h2 c
        simp only [stopAll_get, ne_eq, Option.map_eq_none_iff] at this ⊢
        exact this
      · intro c s' r cl hc
        simp only [stopAll_get] at hc
        rcases hl : w.links.get? c with _ | ⟨s0, t0, r0, cl0⟩
        · rw [hl] at hc; cases hc
        · rw [hl] at hc
          simp only [Option.map_some, stopLink, Option.some.injEq] at hc
          split at hc
          · cases hc
          · next hn =>
            cases hc
            obtain ⟨sv, hsv, hst⟩ := h3 _ _ _ _ hl
            exact ⟨sv, by simp only [Dict.get?_set]; rw [if_neg (fun hh => hn hh.symm)]; exact hsv, hst⟩

/-- **C51** (connections): every connection made is a new one -/
theorem links_distinct {l1 : List (WLabel × Answer)} {w w' : World} {a : Addr} {c : Cid} (h : WRun l1 w)
    (hs : wstep w (.connect a) = some (w', .link c)) : (∀ a', (WLabel.connect a', Answer.link c) ∉ l1) := by
  have hi := linv h
  intro a' hm
  have hc : c = w.nextC := by
    simp only [wstep] at hs
    grind
  have := hi.below c ((hi.known c).mpr ⟨a', hm⟩)
  rw [hc] at this
  exact Nat.lt_irrefl _ this

/-- **C51** (connections): a connection whose handler has not been started belongs to a running server, and its handler is started,
with the server knowing the connection -/
theorem begins {ls : List (WLabel × Answer)} {w : World} (h : WRun ls w) {c : Cid} {l : Link}
    (hl : w.links.get? c = some l) (ht : l.task = .pending) :
    ∃ w', wstep w (.begin c) = some (w', .none) ∧ w'.links.get? c = some ⟨l.server, .running, true, l.closed⟩ := by
  obtain ⟨s, t, r, cl⟩ := l
  cases ht
  obtain ⟨sv, hsv, hst⟩ := (linv h).live _ _ _ _ hl
  exact ⟨_, by simp only [wstep, hl, hsv, hst, Bool.false_eq_true, if_false]; rfl, by simp [Dict.get?_set]⟩

/-- a running handler may return; then it has ended -/
theorem finishes {w : World} {c : Cid} {l : Link} (hl : w.links.get? c = some l) (ht : l.task = .running) :
    ∃ w', wstep w (.finish c) = some (w', .none) ∧ w'.links.get? c = some { l with task := .ended } := by
  obtain ⟨s, t, r, cl⟩ := l
  cases ht
  exact ⟨_, by simp only [wstep, hl]; rfl, by simp [Dict.get?_set]⟩

/-- **refuted**: when the handler has returned and its end of the connection was collected, stopping the server does not close the
connection either: the client goes on sending -/
theorem collected_stays_open_refuted : ∃ w, WRun [(.create 1 0, .server 0), (.connect 1, .link 0), (.begin 0, .none), (.finish 0, .none),
    (.collect 0, .none), (.stop 0, .none)] w ∧ w.links.get? 0 = some ⟨0, .ended, false, false⟩ := ⟨_, wrun_of _ _ rfl, rfl⟩

/-- … while the server still holds its end it is closed -/
example : ∃ w, WRun [(.create 1 0, .server 0), (.connect 1, .link 0), (.begin 0, .none), (.finish 0, .none), (.stop 0, .none)] w ∧
    w.links.get? 0 = some ⟨0, .ended, true, true⟩ := ⟨_, wrun_of _ _ rfl, rfl⟩

/-- **C51** (cancelled calls): a waiting `recv` can always be cancelled; it then waits no longer, and takes no message with it -/
theorem cancel_frees {ls : List (Label × List Ev)} {c : Conn} (h : Run ls c) {s : Side} {r : Rid} (hr : waits s r ls false = true) :
    ∃ c', step c (.cancel s r) = some (c', [⟨s, .cancelled⟩]) ∧ r ∉ (c'.out s.other).waiting ∧
      (∀ s', (c'.out s').queue = (c.out s').queue) ∧ c'.closed = c.closed := by
  have hr' := (waiting_iff h s r).mpr hr
  refine ⟨_, by simp only [step, hr', if_true]; rfl, ?_, ?_, closed_setOut _ _ _⟩
  · rw [out_setOut, if_pos rfl]; simp
  · intro s'; rw [out_setOut]; split
    · next hh => rw [hh]
    · rfl

end Xoscar.Dummy
