import Verif.Props.Store
/-!
# C52: responses, effects and waits of the rendezvous store
-/
namespace Xoscar.Store
open scoped List
attribute [local grind =] Dict.get?_set Dict.get?_erase

/-! ## Responses -/

def AllOk (cb : Sock → Bool) (ls : List Label) : Prop := ∀ l ∈ ls, Ok cb l

theorem inv_run {cb : Sock → Bool} {ls : List Label} {st : St} (h : Run ls st) (hok : AllOk cb ls) : Inv cb st := by
  induction h with
  | init => exact inv_init cb
  | snoc _ hs ih => exact inv_step (ih (fun l hl => hok l (by simp [hl]))) (hok _ (by simp)) hs

/-- **C52** (responses): what an operation of a client returned is what the server answered to this very operation -/
theorem responses_own {cb : Sock → Bool} {ls : List Label} {st : St} (h : Run ls st) (hok : AllOk cb ls) :
    ∀ e ∈ st.rets, (∀ k, e.req ≠ .watch k) → e ∈ st.lin := (inv_run h hok).rets

/-- **C52** (program order): when the answer of an operation is there, every operation its client issued before took effect -/
theorem answered_last {cb : Sock → Bool} {ls : List Label} {st : St} (h : Run ls st) (hok : AllOk cb ls) {s : Sock} (hs : cb s = false)
    (hi : inboxOf st s ≠ []) : reqsOf st s = [] := by
  have hp := (inv_run h hok).phase s hs
  simp only [Phase] at hp
  rcases hb : st.busy.get? s with _ | ⟨n, r⟩
  · rw [hb] at hp; exact absurd hp.1 hi
  · rw [hb] at hp
    rcases hp.2 with ⟨_, _, _, a, _⟩ | ⟨_, a, _⟩ | ⟨_, a, _⟩ | ⟨_, a, _⟩
    · exact absurd a hi
    · exact absurd a hi
    · exact a
    · exact absurd a hi

/-! ## What the server's work leaves alone -/

structure Frame (st st' : St) : Prop where
  reqs : st'.reqs = st.reqs
  next : st'.next = st.next
  busy : st'.busy = st.busy
  rets : st'.rets = st.rets
  lin : ∃ w, st'.lin = st.lin ++ w

theorem Frame.refl (st : St) : Frame st st := ⟨rfl, rfl, rfl, rfl, [], by simp⟩

theorem Frame.trans {a b c : St} (h1 : Frame a b) (h2 : Frame b c) : Frame a c := by
  obtain ⟨w1, e1⟩ := h1.lin
  obtain ⟨w2, e2⟩ := h2.lin
  exact ⟨h2.reqs.trans h1.reqs, h2.next.trans h1.next, h2.busy.trans h1.busy, h2.rets.trans h1.rets, w1 ++ w2, by rw [e2, e1]; simp⟩

theorem frame_wakeOne (st : St) (s : Sock) : Frame st (wakeOne st s) := by
  simp only [wakeOne]
  repeat' split
  all_goals exact ⟨rfl, rfl, rfl, rfl, by simp [record, send]⟩

theorem frame_wake (st : St) (k : Key) : Frame st (wake st k) := by
  have : ∀ (l : List Sock) (st : St), Frame st (l.foldl wakeOne st) := by
    intro l
    induction l with
    | nil => exact Frame.refl
    | cons s l ih => exact fun st => (frame_wakeOne st s).trans (ih _)
  obtain ⟨h1, h2, h3, h4, h5⟩ := this (waitersOf st k) st
  exact ⟨h1, h2, h3, h4, h5⟩

theorem frame_notify (st : St) (k : Key) (l : List Sock) : Frame st (notify k l st).1 := by
  obtain ⟨ib, h1, _⟩ := notify_spec k l st
  rw [h1]; exact ⟨rfl, rfl, rfl, rfl, [], by simp⟩

theorem frame_record (st : St) (store : Dict Key Val) (n : Tag) (r : Req) (o : Option Resp) : Frame st (record { st with store := store } n r o) :=
  ⟨rfl, rfl, rfl, rfl, _, rfl⟩

theorem frame_answer (st : St) (store : Dict Key Val) (w : List (Key × Sock)) (s : Sock) (n : Tag) (r : Req) (o : Resp) :
    Frame st (answer { st with store := store, watchers := w } s n r o) :=
  ⟨rfl, rfl, rfl, rfl, _, rfl⟩

theorem frame_doSet (st : St) (n : Tag) (k : Key) (v : Val) : Frame st (doSet st n k v).1 :=
  ((frame_record st _ n _ _).trans (frame_wake _ k)).trans (frame_notify _ k _)

theorem frame_doSets (st : St) (n : Tag) (kvs : List (Key × Val)) : Frame st (doSets n kvs st).1 := by
  induction kvs generalizing st with
  | nil => exact .refl _
  | cons x xs ih =>
    obtain ⟨k, v⟩ := x
    have := frame_doSet st n k v
    simp only [doSets]
    rcases hd : doSet st n k v with ⟨st', b⟩
    rw [hd] at this
    cases b
    · exact this
    · exact this.trans (ih st')

theorem frame_cset (st : St) (s : Sock) (n : Tag) (k : Key) (e v : Val) : Frame st (exec st s n (.cset k e v)).1 := by
  have key : Frame st (match notify k (watchersOf (record { st with store := st.store.set k v } n (.cset k e v) (some (.vec v))) k)
      (record { st with store := st.store.set k v } n (.cset k e v) (some (.vec v))) with
        | (st, true) => (send st s n (.vec v), true)
        | (st, false) => (st, false)).1 := by
    have h := (frame_record st (st.store.set k v) n (.cset k e v) (some (.vec v))).trans (frame_notify _ k (watchersOf (record { st with store := st.store.set k v } n (.cset k e v) (some (.vec v))) k))
    split
    · next hn => rw [hn] at h; exact h.trans ⟨rfl, rfl, rfl, rfl, [], by simp [send]⟩
    · next hn => rw [hn] at h; exact h
  simp only [exec]
  repeat' split
  all_goals first | exact key | exact frame_answer st st.store st.watchers s n _ _ | skip
  all_goals (next hn => simp only [hn] at key; exact key)

theorem frame_exec (st : St) (s : Sock) (n : Tag) (r : Req) : Frame st (exec st s n r).1 := by
  cases r with
  | set k v => exact frame_doSet st n k v
  | mset kvs => exact frame_doSets st n kvs
  | cset k e v => exact frame_cset st s n k e v
  | append k v => exact ((frame_record st _ n _ _).trans (frame_wake _ k)).trans (frame_notify _ k _)
  | add k d =>
    simp only [exec]
    split
    · exact .refl _
    · exact ((frame_answer st _ st.watchers s n _ _).trans (frame_wake _ k)).trans (frame_notify _ k _)
  | delete k =>
    simp only [exec]
    split
    · exact frame_answer st st.store st.watchers s n _ _
    · have h := frame_notify st k (watchersOf st k)
      split
      · next hn => rw [hn] at h; exact h.trans ⟨rfl, rfl, rfl, rfl, _, rfl⟩
      · next hn => rw [hn] at h; exact h
  | get k =>
    simp only [exec]
    split
    · exact frame_answer st st.store st.watchers s n _ _
    · exact .refl _
  | mget k =>
    simp only [exec]
    split
    · exact frame_answer st st.store st.watchers s n _ _
    · exact .refl _
  | check ks => exact frame_answer st st.store st.watchers s n _ _
  | numKeys => exact frame_answer st st.store st.watchers s n _ _
  | watch k => exact frame_answer st st.store _ s n _ _
  | wait ks =>
    simp only [exec]
    split
    · exact frame_answer st st.store st.watchers s n _ _
    · exact ⟨rfl, rfl, rfl, rfl, [], by simp⟩

theorem lin_step {st st' : St} {l : Label} (hs : step st l = some st') : ∃ w, st'.lin = st.lin ++ w := by
  cases l with
  | handle s =>
    simp only [step] at hs
    split at hs
    case isFalse => cases hs
    split at hs
    · cases hs
    · next n r rest hr =>
      have := (frame_exec { st with reqs := st.reqs.set s rest } s n r).lin
      rcases he : exec { st with reqs := st.reqs.set s rest } s n r with ⟨st2, b⟩
      rw [he] at this hs
      cases b <;> cases hs <;> exact this
  | _ =>
    simp only [step] at hs
    repeat' split at hs
    all_goals first | (cases hs; done) | (cases hs; exact ⟨[], by simp [drop]⟩)

/-! ## Each request takes effect at most once -/

/-- the requests the clients issued, in order.  The `i`-th of them (from 0) has the tag `i + 1` -/
def issued : List Label → List Req
  | [] => []
  | .invoke _ r :: ls => r :: issued ls
  | _ :: ls => issued ls

theorem issued_snoc (ls : List Label) (l : Label) : issued (ls ++ [l]) = issued ls ++ (match l with | .invoke _ r => [r] | _ => []) := by
  induction ls with
  | nil => cases l <;> rfl
  | cons x xs ih => cases x <;> simp [issued, ih]

/-- the entries of a request: none or one, for a multi set its single sets from the front -/
def EntriesOk (n : Tag) (es : List Entry) : Req → Prop
  | .mset kvs => es.map (·.req) <+: kvs.map (fun x => .set x.1 x.2)
  | r => es = [] ∨ ∃ o, es = [⟨n, r, o⟩]

/-- the request with this tag -/
def reqOf (rs : List Req) : Tag → Option Req
  | 0 => none
  | n + 1 => rs[n]?

def entries (lin : List Entry) (n : Tag) : List Entry := lin.filter (·.tag = n)

structure Uniq (rs : List Req) (st : St) : Prop where
  next : st.next = rs.length + 1
  pend : ∀ s, ∀ x ∈ reqsOf st s, reqOf rs x.1 = some x.2 ∧ entries st.lin x.1 = [] ∧ ∀ s' y, st.waitOf.get? s' = some y → y.1 ≠ x.1
  nodup : ∀ s, ((reqsOf st s).map (·.1)).Nodup
  disj : ∀ s s', s ≠ s' → ∀ x ∈ reqsOf st s, ∀ y ∈ reqsOf st s', x.1 ≠ y.1
  wait : ∀ s x, st.waitOf.get? s = some x → reqOf rs x.1 = some (.wait x.2) ∧ entries st.lin x.1 = []
  wdisj : ∀ s s' x y, s ≠ s' → st.waitOf.get? s = some x → st.waitOf.get? s' = some y → x.1 ≠ y.1
  ok : ∀ n, match reqOf rs n with | none => entries st.lin n = [] | some r => EntriesOk n (entries st.lin n) r

theorem entries_snoc (lin : List Entry) (e : Entry) (n : Tag) : entries (lin ++ [e]) n = entries lin n ++ if e.tag = n then [e] else [] := by
  simp only [entries, List.filter_append, List.filter_cons, List.filter_nil]
  by_cases h : e.tag = n <;> simp [h]

/-- nothing but the lists changed that do not matter here -/
theorem Uniq.congr {rs : List Req} {st st' : St} (h : Uniq rs st) (h1 : st'.reqs = st.reqs) (h2 : st'.next = st.next) (h3 : st'.waitOf = st.waitOf)
    (h4 : st'.lin = st.lin) : Uniq rs st' := by
  obtain ⟨a, b, c, d, e, f, g⟩ := h
  have hr : ∀ s, reqsOf st' s = reqsOf st s := reqsOf_congr h1
  exact ⟨by rw [h2, a], by simp only [hr, h3, h4]; exact b, by simp only [hr]; exact c, by simp only [hr]; exact d, by rw [h3, h4]; exact e,
    by rw [h3]; exact f, by rw [h4]; exact g⟩

/-- a request that is nowhere pending -/
structure Free (st : St) (n : Tag) : Prop where
  reqs : ∀ s, ∀ x ∈ reqsOf st s, x.1 ≠ n
  wait : ∀ s y, st.waitOf.get? s = some y → y.1 ≠ n

theorem Uniq.record {rs : List Req} {st : St} (h : Uniq rs st) {n : Tag} {r r' : Req} {o : Option Resp} (hf : Free st n) (hr : reqOf rs n = some r)
    (hk : EntriesOk n (entries st.lin n ++ [⟨n, r', o⟩]) r) : Uniq rs (record st n r' o) := by
  obtain ⟨a, b, c, d, e, f, g⟩ := h
  have hne : ∀ m, m ≠ n → entries (Store.record st n r' o).lin m = entries st.lin m := by
    intro m hm
    have hm' : ¬ n = m := fun hh => hm hh.symm
    simp only [Store.record, entries_snoc, hm', if_false, List.append_nil]
  refine ⟨a, ?_, c, d, ?_, f, ?_⟩
  · intro s x hx
    obtain ⟨p, q, t⟩ := b s x hx
    exact ⟨p, by rw [hne _ (hf.reqs s x hx)]; exact q, t⟩
  · intro s x hx
    obtain ⟨p, q⟩ := e s x hx
    exact ⟨p, by rw [hne _ (hf.wait s x hx)]; exact q⟩
  · intro m
    by_cases hm : m = n
    · subst hm
      have : entries (Store.record st m r' o).lin m = entries st.lin m ++ [⟨m, r', o⟩] := by simp only [Store.record, entries_snoc, if_true]
      rw [hr, this]; exact hk
    · rw [hne m hm]; exact g m

theorem uniq_wakeOne {rs : List Req} {st : St} (h : Uniq rs st) (s : Sock) : Uniq rs (wakeOne st s) := by
  simp only [wakeOne]
  split
  · split
    · next n ks hw =>
      obtain ⟨hr, he⟩ := h.wait s _ hw
      have h1 : Uniq rs (send { st with awaited := st.awaited.set s (dec (st.awaited.get? s)), waitOf := st.waitOf.erase s } s n (.byte 0)) := by
        obtain ⟨a, b, c, d, e, f, g⟩ := h
        refine ⟨a, ?_, c, d, ?_, ?_, g⟩
        · intro s' x hx
          obtain ⟨p, q, t⟩ := b s' x hx
          refine ⟨p, q, fun s2 y hy => ?_⟩
          simp only [send, Dict.get?_erase] at hy
          split at hy
          · cases hy
          · exact t s2 y hy
        · intro s2 x hx
          simp only [send, Dict.get?_erase] at hx
          split at hx
          · cases hx
          · exact e s2 x hx
        · intro s2 s3 x y hss hx hy
          simp only [send, Dict.get?_erase] at hx hy
          split at hx
          · cases hx
          · split at hy
            · cases hy
            · exact f s2 s3 x y hss hx hy
      refine h1.record (r := .wait ks) ⟨?_, ?_⟩ hr ?_
      · intro s' x hx hh
        exact (h.pend s' x hx).2.2 s _ hw hh.symm
      · intro s' y hy
        simp only [send, Dict.get?_erase] at hy
        split at hy
        · cases hy
        · next hne => exact fun hh => h.wdisj s s' _ _ hne hw hy hh.symm
      · have : entries (send { st with awaited := st.awaited.set s (dec (st.awaited.get? s)), waitOf := st.waitOf.erase s } s n (.byte 0)).lin n = [] := he
        rw [this]
        exact .inr ⟨_, rfl⟩
    · exact h.congr rfl rfl rfl rfl
  · exact h.congr rfl rfl rfl rfl

theorem free_wakeOne {st : St} {n : Tag} (h : Free st n) (s : Sock) : Free (wakeOne st s) n := by
  simp only [wakeOne]
  split
  · split
    · refine ⟨h.reqs, fun s' y hy => ?_⟩
      simp only [Store.record, send, Dict.get?_erase] at hy
      split at hy
      · cases hy
      · exact h.wait s' y hy
    · exact ⟨h.reqs, h.wait⟩
  · exact ⟨h.reqs, h.wait⟩

/-- waking does not touch the entries of a request that is not waiting -/
theorem entries_wakeOne {st : St} {n : Tag} (h : Free st n) (s : Sock) : entries (wakeOne st s).lin n = entries st.lin n := by
  simp only [wakeOne]
  split
  · split
    · next m ks hw =>
      have : ¬ m = n := h.wait s _ hw
      simp only [Store.record, send, entries_snoc, this, if_false, List.append_nil]
    · rfl
  · rfl

theorem uniq_wake {rs : List Req} {st : St} {n : Tag} (h : Uniq rs st) (hf : Free st n) (k : Key) :
    Uniq rs (wake st k) ∧ Free (wake st k) n ∧ entries (wake st k).lin n = entries st.lin n := by
  have : ∀ (l : List Sock) (st : St), Uniq rs st → Free st n → Uniq rs (l.foldl wakeOne st) ∧ Free (l.foldl wakeOne st) n ∧
      entries (l.foldl wakeOne st).lin n = entries st.lin n := by
    intro l
    induction l with
    | nil => exact fun st h hf => ⟨h, hf, rfl⟩
    | cons s l ih =>
      intro st h hf
      obtain ⟨a, b, c⟩ := ih _ (uniq_wakeOne h s) (free_wakeOne hf s)
      exact ⟨a, b, c.trans (entries_wakeOne hf s)⟩
  obtain ⟨a, b, c⟩ := this (waitersOf st k) st h hf
  exact ⟨a.congr rfl rfl rfl rfl, ⟨b.reqs, b.wait⟩, c⟩

theorem uniq_notify {rs : List Req} {st : St} {n : Tag} (h : Uniq rs st) (hf : Free st n) (k : Key) (l : List Sock) :
    Uniq rs (notify k l st).1 ∧ Free (notify k l st).1 n ∧ entries (notify k l st).1.lin n = entries st.lin n := by
  obtain ⟨ib, h1, _⟩ := notify_spec k l st
  rw [h1]; exact ⟨h.congr rfl rfl rfl rfl, ⟨hf.reqs, hf.wait⟩, rfl⟩

theorem uniq_doSet {rs : List Req} {st : St} {n : Tag} {r : Req} (h : Uniq rs st) (hf : Free st n) (hr : reqOf rs n = some r) (k : Key) (v : Val)
    (hk : EntriesOk n (entries st.lin n ++ [⟨n, .set k v, none⟩]) r) :
    Uniq rs (doSet st n k v).1 ∧ Free (doSet st n k v).1 n ∧ entries (doSet st n k v).1.lin n = entries st.lin n ++ [⟨n, .set k v, none⟩] := by
  have h1 := Uniq.record (st := { st with store := st.store.set k v }) (h.congr rfl rfl rfl rfl) (o := none) ⟨hf.reqs, hf.wait⟩ hr hk
  have f1 : Free (record { st with store := st.store.set k v } n (.set k v) none) n := ⟨hf.reqs, hf.wait⟩
  obtain ⟨h2, f2, e2⟩ := uniq_wake h1 f1 k
  obtain ⟨h3, f3, e3⟩ := uniq_notify h2 f2 k (watchersOf (wake (record { st with store := st.store.set k v } n (.set k v) none) k) k)
  refine ⟨h3, f3, ?_⟩
  simp only [doSet]
  rw [e3, e2]
  simp only [record, entries_snoc, if_true]

theorem uniq_doSets {rs : List Req} {n : Tag} {kvs : List (Key × Val)} (hr : reqOf rs n = some (.mset kvs)) (rest done : List (Key × Val))
    (hd : done ++ rest = kvs) (st : St) (h : Uniq rs st) (hf : Free st n) (he : (entries st.lin n).map (·.req) = done.map (fun x => .set x.1 x.2)) :
    Uniq rs (doSets n rest st).1 := by
  induction rest generalizing st done with
  | nil => exact h
  | cons x xs ih =>
    obtain ⟨k, v⟩ := x
    have hk : EntriesOk n (entries st.lin n ++ [⟨n, .set k v, none⟩]) (.mset kvs) := by
      show List.map _ _ <+: _
      rw [List.map_append, he, ← hd]
      refine ⟨xs.map (fun x => .set x.1 x.2), ?_⟩
      simp
    obtain ⟨a, b, c⟩ := uniq_doSet h hf hr k v hk
    simp only [doSets]
    rcases hdd : doSet st n k v with ⟨st', bb⟩
    rw [hdd] at a b c
    cases bb
    · exact a
    · exact ih (done ++ [(k, v)]) (by simp [← hd]) st' a b (by rw [c]; simp [he])

theorem uniq_answer {rs : List Req} {st : St} {n : Tag} {r : Req} (h : Uniq rs st) (hf : Free st n) (he : entries st.lin n = [])
    (hr : reqOf rs n = some r) (hm : ∀ kvs, r ≠ .mset kvs) (store : Dict Key Val) (w : List (Key × Sock)) (s : Sock) (o : Resp) :
    Uniq rs (answer { st with store := store, watchers := w } s n r o) ∧ Free (answer { st with store := store, watchers := w } s n r o) n := by
  refine ⟨Uniq.record (st := send { st with store := store, watchers := w } s n o) (h.congr rfl rfl rfl rfl) ⟨hf.reqs, hf.wait⟩ hr ?_, ⟨hf.reqs, hf.wait⟩⟩
  have : entries (send { st with store := store, watchers := w } s n o).lin n = [] := he
  rw [this]
  cases r <;> first | exact .inr ⟨_, rfl⟩ | exact absurd rfl (hm _)

theorem uniq_record {rs : List Req} {st : St} {n : Tag} {r : Req} (h : Uniq rs st) (hf : Free st n) (he : entries st.lin n = [])
    (hr : reqOf rs n = some r) (hm : ∀ kvs, r ≠ .mset kvs) (store : Dict Key Val) (o : Option Resp) :
    Uniq rs (record { st with store := store } n r o) ∧ Free (record { st with store := store } n r o) n := by
  refine ⟨Uniq.record (st := { st with store := store }) (h.congr rfl rfl rfl rfl) ⟨hf.reqs, hf.wait⟩ hr ?_, ⟨hf.reqs, hf.wait⟩⟩
  have : entries (St.lin { st with store := store }) n = [] := he
  rw [this]
  cases r <;> first | exact .inr ⟨_, rfl⟩ | exact absurd rfl (hm _)

theorem uniq_cset {rs : List Req} {st : St} {n : Tag} {k : Key} {e v : Val} (h : Uniq rs st) (hf : Free st n) (he : entries st.lin n = [])
    (hr : reqOf rs n = some (.cset k e v)) (s : Sock) : Uniq rs (exec st s n (.cset k e v)).1 := by
  have key : Uniq rs (match notify k (watchersOf (record { st with store := st.store.set k v } n (.cset k e v) (some (.vec v))) k)
      (record { st with store := st.store.set k v } n (.cset k e v) (some (.vec v))) with
        | (st, true) => (send st s n (.vec v), true)
        | (st, false) => (st, false)).1 := by
    obtain ⟨h1, f1⟩ := uniq_record h hf he hr (by simp) (st.store.set k v) (some (.vec v))
    obtain ⟨h2, _⟩ := uniq_notify h1 f1 k (watchersOf (record { st with store := st.store.set k v } n (.cset k e v) (some (.vec v))) k)
    split
    · next hn => rw [hn] at h2; exact h2.congr rfl rfl rfl rfl
    · next hn => rw [hn] at h2; exact h2
  have ans : ∀ o, Uniq rs (answer st s n (.cset k e v) o) := fun o => (uniq_answer h hf he hr (by simp) st.store st.watchers s o).1
  simp only [exec]
  repeat' split
  all_goals first | exact ans _ | (next hn => simp only [hn] at key; exact key)

theorem uniq_exec {rs : List Req} {st : St} {n : Tag} {r : Req} (h : Uniq rs st) (hf : Free st n) (he : entries st.lin n = [])
    (hr : reqOf rs n = some r) (s : Sock) : Uniq rs (exec st s n r).1 := by
  have ans : ∀ o, (∀ kvs, r ≠ .mset kvs) → Uniq rs (answer st s n r o) := fun o hm => (uniq_answer h hf he hr hm st.store st.watchers s o).1
  cases r with
  | set k v => exact (uniq_doSet h hf hr k v (by rw [he]; exact .inr ⟨_, rfl⟩)).1
  | mset kvs => exact uniq_doSets hr kvs [] rfl st h hf (by rw [he]; rfl)
  | cset k e v => exact uniq_cset h hf he hr s
  | append k v =>
    obtain ⟨h1, f1⟩ := uniq_record h hf he hr (by simp) (st.store.set k ((st.store.get? k).getD [] ++ v)) none
    obtain ⟨h2, f2, _⟩ := uniq_wake h1 f1 k
    exact (uniq_notify h2 f2 k _).1
  | add k d =>
    simp only [exec]
    split
    · exact h
    · obtain ⟨h1, f1⟩ := uniq_answer h hf he hr (by simp) (st.store.set k (toStr _)) st.watchers s (.int _)
      obtain ⟨h2, f2, _⟩ := uniq_wake h1 f1 k
      exact (uniq_notify h2 f2 k _).1
  | delete k =>
    simp only [exec]
    split
    · exact ans _ (by simp)
    · obtain ⟨h1, f1, e1⟩ := uniq_notify h hf k (watchersOf st k)
      split
      · next hn =>
        rw [hn] at h1 f1 e1
        exact (uniq_answer h1 f1 (e1.trans he) hr (by simp) _ _ s _).1
      · next hn => rw [hn] at h1; exact h1
  | get k =>
    simp only [exec]
    split
    · exact ans _ (by simp)
    · exact h
  | mget k =>
    simp only [exec]
    split
    · exact ans _ (by simp)
    · exact h
  | check ks => exact ans _ (by simp)
  | numKeys => exact ans _ (by simp)
  | watch k => exact (uniq_answer h hf he hr (by simp) st.store _ s _).1
  | wait ks =>
    simp only [exec]
    split
    · exact ans _ (by simp)
    · obtain ⟨a, b, c, d, e, f, g⟩ := h
      refine ⟨a, ?_, c, d, ?_, ?_, g⟩
      · intro s' x hx
        obtain ⟨p, q, t⟩ := b s' x hx
        refine ⟨p, q, fun s2 y hy => ?_⟩
        simp only [Dict.get?_set] at hy
        split at hy
        · cases hy; exact fun hh => hf.reqs s' x hx hh.symm
        · exact t s2 y hy
      · intro s2 x hx
        simp only [Dict.get?_set] at hx
        split at hx
        · cases hx; exact ⟨hr, he⟩
        · exact e s2 x hx
      · intro s2 s3 x y hss hx hy
        simp only [Dict.get?_set] at hx hy
        split at hx
        · split at hy
          · next h1 h2 => exact absurd (h1.symm.trans h2) hss
          · cases hx; exact fun hh => hf.wait s3 y hy hh.symm
        · split at hy
          · cases hy; exact hf.wait s2 x hx
          · exact f s2 s3 x y hss hx hy

theorem reqOf_append (rs : List Req) (r : Req) (n : Tag) : reqOf (rs ++ [r]) n = if n = rs.length + 1 then some r else reqOf rs n := by
  cases n with
  | zero => simp [reqOf]
  | succ n =>
    simp only [reqOf]
    split
    · next h => have h : n = rs.length := by omega
                subst h; simp
    · next h =>
      by_cases hl : n < rs.length
      · rw [List.getElem?_append_left hl]
      · rw [List.getElem?_eq_none (by simp; omega), List.getElem?_eq_none (by omega)]

theorem reqOf_lt {rs : List Req} {n : Tag} {r : Req} (h : reqOf rs n = some r) : n ≤ rs.length := by
  cases n with
  | zero => cases h
  | succ n =>
    simp only [reqOf] at h
    rcases Nat.lt_or_ge n rs.length with h' | h'
    · exact h'
    · rw [List.getElem?_eq_none h'] at h; cases h

/-- requests disappear: nothing else happens -/
theorem Uniq.shrink {rs : List Req} {st st' : St} (h : Uniq rs st) (h1 : ∀ s, (reqsOf st' s).Sublist (reqsOf st s)) (h2 : st'.next = st.next)
    (h3 : ∀ s x, st'.waitOf.get? s = some x → st.waitOf.get? s = some x) (h4 : st'.lin = st.lin) : Uniq rs st' := by
  obtain ⟨a, b, c, d, e, f, g⟩ := h
  refine ⟨by rw [h2, a], ?_, ?_, ?_, ?_, ?_, by rw [h4]; exact g⟩
  · intro s x hx
    obtain ⟨p, q, t⟩ := b s x ((h1 s).subset hx)
    exact ⟨p, by rw [h4]; exact q, fun s' y hy => t s' y (h3 s' y hy)⟩
  · intro s; exact (c s).sublist ((h1 s).map _)
  · intro s s' hss x hx y hy; exact d s s' hss x ((h1 s).subset hx) y ((h1 s').subset hy)
  · intro s x hx; rw [h4]; exact e s x (h3 s x hx)
  · intro s s' x y hss hx hy; exact f s s' x y hss (h3 s x hx) (h3 s' y hy)

theorem uniq_drop {rs : List Req} {st : St} (h : Uniq rs st) (s : Sock) : Uniq rs (drop st s) := by
  refine h.shrink (fun s' => ?_) rfl (fun s' x hx => ?_) rfl
  · have := reqsOf_set st s s' []
    have hd : reqsOf (drop st s) s' = reqsOf { st with reqs := st.reqs.set s [] } s' := rfl
    rw [hd, this]
    split
    · simp
    · exact List.Sublist.refl _
  · simp only [drop, Dict.get?_erase] at hx
    split at hx
    · cases hx
    · exact hx

theorem uniq_run {ls : List Label} {st : St} (h : Run ls st) : Uniq (issued ls) st := by
  induction h with
  | init =>
    refine ⟨rfl, by simp [reqsOf, init], by simp [reqsOf, init], by simp [reqsOf, init], by simp [init], by simp [init], ?_⟩
    intro n; cases n <;> simp [reqOf, issued, entries, init]
  | snoc _ hs ih =>
    rename_i ls l st st' _
    rw [issued_snoc]
    cases l with
    | handle s =>
      simp only [List.append_nil]
      simp only [step] at hs
      split at hs
      case isFalse => cases hs
      split at hs
      · cases hs
      · next n r rest hr =>
        obtain ⟨p, q, t⟩ := ih.pend s (n, r) (by rw [hr]; simp)
        have hset := fun s' => reqsOf_set st s s' rest
        have h1 : Uniq (issued ls) { st with reqs := st.reqs.set s rest } := by
          refine ih.shrink (fun s' => ?_) rfl (fun _ _ hx => hx) rfl
          rw [hset]
          split
          · next hh => subst hh; rw [hr]; simp
          · exact List.Sublist.refl _
        have hnd := ih.nodup s
        rw [hr] at hnd
        simp only [List.map_cons, List.nodup_cons] at hnd
        have f1 : Free { st with reqs := st.reqs.set s rest } n := by
          refine ⟨fun s' x hx => ?_, t⟩
          rw [hset] at hx
          split at hx
          · intro hh; exact hnd.1 (by rw [← hh]; exact List.mem_map_of_mem hx)
          · next hne => exact fun hh => ih.disj s s' hne (n, r) (by rw [hr]; simp) x hx hh.symm
        have := uniq_exec h1 f1 q p s
        rcases he : exec { st with reqs := st.reqs.set s rest } s n r with ⟨st2, b⟩
        rw [he] at this hs
        cases b <;> cases hs
        · exact uniq_drop this s
        · exact this
    | connect s =>
      simp only [List.append_nil]
      simp only [step] at hs
      split at hs <;> cases hs
      refine ih.shrink (fun s' => ?_) rfl (fun _ _ hx => hx) rfl
      simp only [reqsOf, Dict.get?_set]
      split
      · simp
      · exact List.Sublist.refl _
    | timeout s =>
      simp only [List.append_nil]
      simp only [step] at hs
      split at hs <;> cases hs
      exact ih.congr rfl rfl rfl rfl
    | ret s =>
      simp only [List.append_nil]
      simp only [step] at hs
      split at hs <;> cases hs
      exact ih.congr rfl rfl rfl rfl
    | disconnect s =>
      simp only [List.append_nil]
      simp only [step] at hs
      split at hs <;> cases hs
      exact (uniq_drop ih s).congr rfl rfl rfl rfl
    | invoke s r =>
      simp only [step] at hs
      split at hs <;> cases hs
      obtain ⟨a, b, c, d, e, f, g⟩ := ih
      have hset : ∀ s' bb nx, reqsOf { st with reqs := st.reqs.set s (reqsOf st s ++ [(st.next, r)]), busy := bb, next := nx } s' = if s = s' then reqsOf st s ++ [(st.next, r)] else reqsOf st s' := by
        intro s' bb nx; simp only [reqsOf, Dict.get?_set]; grind
      have hlt : ∀ s', ∀ x ∈ reqsOf st s', x.1 ≠ st.next := by
        intro s' x hx
        have := reqOf_lt (b s' x hx).1
        rw [a]; omega
      have hwt : ∀ s' y, st.waitOf.get? s' = some y → y.1 ≠ st.next := by
        intro s' y hy
        have := reqOf_lt (e s' y hy).1
        rw [a]; omega
      have hold : ∀ m r', reqOf (issued ls) m = some r' → reqOf (issued ls ++ [r]) m = some r' := by
        intro m r' hm
        rw [reqOf_append, if_neg (by have := reqOf_lt hm; omega)]; exact hm
      have hnew : entries st.lin st.next = [] := by
        have := g st.next
        have hn : reqOf (issued ls) st.next = none := by
          rcases hh : reqOf (issued ls) st.next with _ | r'
          · rfl
          · have := reqOf_lt hh; rw [a] at this; omega
        rw [hn] at this; exact this
      refine ⟨by simp [a], ?_, ?_, ?_, ?_, f, ?_⟩
      · intro s' x hx
        simp only [hset] at hx
        split at hx
        · simp only [List.mem_append, List.mem_singleton] at hx
          rcases hx with hx | rfl
          · obtain ⟨p, q, t⟩ := b s x hx
            exact ⟨hold _ _ p, q, t⟩
          · exact ⟨by rw [reqOf_append, if_pos (by rw [a])], hnew, hwt⟩
        · obtain ⟨p, q, t⟩ := b s' x hx
          exact ⟨hold _ _ p, q, t⟩
      · intro s'
        simp only [hset]
        split
        · simp only [List.map_append, List.map_cons, List.map_nil]
          rw [List.nodup_append]
          refine ⟨c s, by simp, ?_⟩
          intro m hm m' hm'
          simp only [List.mem_map] at hm
          obtain ⟨x, hx, rfl⟩ := hm
          simp only [List.mem_singleton] at hm'
          subst hm'; exact hlt s x hx
        · exact c s'
      · intro s1 s2 hss x hx y hy
        simp only [hset] at hx hy
        split at hx
        · split at hy
          · next h1 h2 => exact absurd (h1.symm.trans h2) hss
          · next h1 _ =>
            simp only [List.mem_append, List.mem_singleton] at hx
            rcases hx with hx | rfl
            · subst h1; exact d s s2 hss x hx y hy
            · exact fun hh => hlt s2 y hy hh.symm
        · split at hy
          · next _ h2 =>
            simp only [List.mem_append, List.mem_singleton] at hy
            rcases hy with hy | rfl
            · subst h2; exact d s1 s hss x hx y hy
            · exact hlt s1 x hx
          · exact d s1 s2 hss x hx y hy
      · intro s' x hx
        obtain ⟨p, q⟩ := e s' x hx
        exact ⟨hold _ _ p, q⟩
      · intro m
        rw [reqOf_append]
        by_cases hm : m = (issued ls).length + 1
        · rw [if_pos hm]
          have hm' : entries st.lin m = [] := by rw [hm, ← a]; exact hnew
          simp only [hm']
          cases r <;> first | exact .inl rfl | exact List.nil_prefix
        · rw [if_neg hm]; exact g m

/-- **C52** (at most once): a request took effect at most once, with its own arguments; a multi set did its single sets in order, from the first -/
theorem once {ls : List Label} {st : St} (h : Run ls st) {n : Nat} {r : Req} (hr : (issued ls)[n]? = some r) :
    EntriesOk (n + 1) (st.lin.filter (·.tag = n + 1)) r := by
  have := (uniq_run h).ok (n + 1)
  simp only [reqOf, hr] at this
  exact this

/-- nothing takes effect that was not asked for -/
theorem asked {ls : List Label} {st : St} (h : Run ls st) : ∀ e ∈ st.lin, ∃ n r, e.tag = n + 1 ∧ (issued ls)[n]? = some r := by
  intro e he
  have := (uniq_run h).ok e.tag
  rcases hr : reqOf (issued ls) e.tag with _ | r
  · rw [hr] at this
    have : e ∈ entries st.lin e.tag := by simp [entries, he]
    simp_all
  · rcases ht : e.tag with _ | n
    · rw [ht] at hr; cases hr
    · exact ⟨n, r, rfl, by rw [ht] at hr; exact hr⟩

/-- **C52** (real time): what took effect before an operation was started comes before it in the order of the map -/
theorem real_time {ls1 ls2 : List Label} {st1 st2 : St} (h1 : Run ls1 st1) (h2 : ls2.foldlM step st1 = some st2) :
    ∃ w, st2.lin = st1.lin ++ w ∧ (∀ e ∈ st1.lin, e.tag ≤ (issued ls1).length) := by
  have hl : ∃ w, st2.lin = st1.lin ++ w := by
    clear h1
    induction ls2 generalizing st1 with
    | nil => cases h2; exact ⟨[], by simp⟩
    | cons l ls ih =>
      rw [List.foldlM_cons] at h2
      rcases hst : step st1 l with _ | st'
      · rw [hst] at h2; cases h2
      · rw [hst] at h2
        obtain ⟨w1, e1⟩ := lin_step hst
        obtain ⟨w2, e2⟩ := ih h2
        exact ⟨w1 ++ w2, by rw [e2, e1]; simp⟩
  obtain ⟨w, hw⟩ := hl
  refine ⟨w, hw, fun e he => ?_⟩
  obtain ⟨n, r, h, hr⟩ := asked h1 e he
  have := reqOf_lt (n := n + 1) (rs := issued ls1) hr
  omega

/-! ## Waits -/

/-- the key had a value at some point of this history -/
def Existed (k : Key) (lin : List Entry) : Prop := ∃ l0 m, l0 <+: lin ∧ Hist (l0.filter (!·.isWait)) m ∧ m k ≠ none

theorem Existed.mono {k : Key} {l l' : List Entry} (h : Existed k l) (hl : l <+: l') : Existed k l' := by
  obtain ⟨l0, m, a, b, c⟩ := h
  exact ⟨l0, m, a.trans hl, b, c⟩

theorem MapOk.existed {st : St} (h : MapOk st) {k : Key} (hk : st.store.get? k ≠ none) : Existed k st.lin :=
  ⟨st.lin, _, List.prefix_refl _, h.2, hk⟩

/-- every wait in the history comes after each of its keys had a value -/
def WaitsOk (lin : List Entry) : Prop := ∀ l1 l2 e, lin = l1 ++ e :: l2 → ∀ ks, e.req = .wait ks → e.resp = some (.byte 0) ∧ ∀ k ∈ ks, Existed k l1

theorem WaitsOk.snoc {lin : List Entry} (h : WaitsOk lin) (e : Entry) (he : ∀ ks, e.req = .wait ks → e.resp = some (.byte 0) ∧ ∀ k ∈ ks, Existed k lin) : WaitsOk (lin ++ [e]) := by
  intro l1 l2 e' hl
  rcases List.eq_nil_or_concat l2 with rfl | ⟨l2', x, rfl⟩
  · obtain ⟨h1, h2⟩ := List.append_inj' hl (by simp)
    cases h2; subst h1; exact he
  · have : lin ++ [e] = (l1 ++ e' :: l2') ++ [x] := by rw [hl]; simp
    obtain ⟨h1, _⟩ := List.append_inj' this (by simp)
    exact h l1 l2' e' h1

structure WInv (st : St) : Prop where
  owner : ∀ x ∈ st.waiting, ∃ n ks, st.waitOf.get? x.2 = some (n, ks) ∧ x.1 ∈ ks
  keys : ∀ s n ks, st.waitOf.get? s = some (n, ks) → ∀ k ∈ ks, Existed k st.lin ∨ (k, s) ∈ st.waiting
  ok : WaitsOk st.lin

theorem WInv.congr {st st' : St} (h : WInv st) (h1 : st'.waiting = st.waiting) (h2 : st'.waitOf = st.waitOf) (h3 : st'.lin = st.lin) : WInv st' := by
  obtain ⟨a, b, c⟩ := h
  exact ⟨by rw [h1, h2]; exact a, by rw [h1, h2, h3]; exact b, by rw [h3]; exact c⟩

/-- something that is not a wait is recorded -/
theorem WInv.record {st : St} (h : WInv st) (n : Tag) (r : Req) (o : Option Resp) (hr : ∀ ks, r = .wait ks → o = some (.byte 0) ∧ ∀ k ∈ ks, Existed k st.lin) :
    WInv (record st n r o) := by
  refine ⟨h.owner, fun s m ks hw k hk => ?_, h.ok.snoc _ hr⟩
  rcases h.keys s m ks hw k hk with hh | hh
  · exact .inl (hh.mono (by simp [Store.record]))
  · exact .inr hh

theorem others_zero {w : List (Key × Sock)} {k : Key} {s : Sock} (h : others w k s = 0) : ∀ k', (k', s) ∈ w → k' = k := by
  intro k' hk
  rcases Classical.em (k' = k) with hh | hh
  · exact hh
  · exfalso
    simp only [others, List.count_eq_zero] at h
    apply h
    simp only [List.mem_map, List.mem_filter]
    exact ⟨(k', s), ⟨hk, by simpa using hh⟩, rfl⟩

theorem winv_wake {st : St} (h : WInv st) (hm : MapOk st) (hc : CountsOk st) {k : Key} (hk : st.store.get? k ≠ none) : WInv (wake st k) := by
  have hw := wake_spec k hc
  obtain ⟨ws, hws, hall⟩ := hw.lin
  have hex := hm.existed hk
  -- the keys of a socket that is answered
  have hans : ∀ s n ks, st.waitOf.get? s = some (n, ks) → others st.waiting k s = 0 → ∀ k' ∈ ks, Existed k' st.lin := by
    intro s n ks hs ho k' hk'
    rcases h.keys s n ks hs k' hk' with hh | hh
    · exact hh
    · rw [others_zero ho k' hh]; exact hex
  refine ⟨?_, ?_, ?_⟩
  · intro x hx
    rw [hw.waiting] at hx
    simp only [List.mem_filter, decide_eq_true_eq] at hx
    obtain ⟨n, ks, h1, h2⟩ := h.owner x hx.1
    refine ⟨n, ks, ?_, h2⟩
    rcases hw.each x.2 with ⟨a, _⟩ | ⟨_, _, _, _, _, _, ho⟩
    · rw [a, h1]
    · exact absurd (others_zero ho x.1 hx.1) hx.2
  · intro s n ks hs k' hk'
    rcases hw.each s with ⟨a, _⟩ | ⟨_, _, _, a, _⟩
    · rw [a] at hs
      rcases h.keys s n ks hs k' hk' with hh | hh
      · exact .inl (hh.mono (by rw [hws]; simp))
      · by_cases hkk : k' = k
        · subst hkk; exact .inl (hex.mono (by rw [hws]; simp))
        · right; rw [hw.waiting]; simp [hh, hkk]
    · rw [a] at hs; cases hs
  · rw [hws]
    clear hws
    induction ws using List.reverseRecOn' with
    | nil => simpa using h.ok
    | append_singleton l e ih =>
      rw [← List.append_assoc]
      refine (ih (fun e' he' => hall e' (by simp [he']))).snoc e ?_
      intro ks hks
      obtain ⟨s, n, ks', rfl, h1, h2⟩ := hall e (by simp)
      cases hks
      refine ⟨rfl, fun k' hk' => ?_⟩
      exact (hans s n ks h1 h2 k' hk').mono (by simp)

/-- registered keys have no value -/
def Missing (st : St) : Prop := ∀ x ∈ st.waiting, st.store.get? x.1 = none

theorem winv_notify {st : St} (h : WInv st) (k : Key) (l : List Sock) : WInv (notify k l st).1 := by
  obtain ⟨ib, h1, _⟩ := notify_spec k l st
  rw [h1]; exact h.congr rfl rfl rfl

theorem missing_notify {st : St} (h : Missing st) (k : Key) (l : List Sock) : Missing (notify k l st).1 := by
  obtain ⟨ib, h1, _⟩ := notify_spec k l st
  rw [h1]; exact h

/-- recording, waking, notifying -/
theorem winv_write {st st1 : St} (h : WInv st1) (hm : MapOk st1) (hc : CountsOk st1) {k : Key} {v : Val} (hs : st1.store = st.store.set k v)
    (hwt : st1.waiting = st.waiting) :
    WInv (notify k (watchersOf (wake st1 k) k) (wake st1 k)).1 ∧
      (Missing st → Missing (notify k (watchersOf (wake st1 k) k) (wake st1 k)).1) := by
  refine ⟨winv_notify (winv_wake h hm hc (by rw [hs]; simp [Dict.get?_set])) k _, fun hmi => missing_notify ?_ k _⟩
  intro x hx
  have hw := wake_spec k hc
  rw [hw.waiting] at hx
  simp only [List.mem_filter, decide_eq_true_eq] at hx
  have hne : ¬ k = x.1 := fun hh => hx.2 hh.symm
  rw [hw.store, hs, Dict.get?_set, if_neg hne]
  exact hmi x (hwt ▸ hx.1)

theorem winv_doSet {cb : Sock → Bool} {st : St} (h : WInv st) (hm : MapOk st) (hc : CountsOk st) (n : Tag) (k : Key) (v : Val)
    (hw : ∀ x ∈ st.watchers, cb x.2 = true ∧ x.2 ∈ st.opened) :
    WInv (doSet st n k v).1 ∧ (Missing st → Missing (doSet st n k v).1) ∧ MapOk (doSet st n k v).1 ∧ CountsOk (doSet st n k v).1 ∧
      ∀ x ∈ (doSet st n k v).1.watchers, cb x.2 = true ∧ x.2 ∈ (doSet st n k v).1.opened := by
  have h1 : WInv (record { st with store := st.store.set k v } n (.set k v) none) :=
    WInv.record (st := { st with store := st.store.set k v }) (h.congr rfl rfl rfl) n (.set k v) none (by simp)
  have m1 : MapOk (record { st with store := st.store.set k v } n (.set k v) none) :=
    hm.record (st' := { st with store := st.store.set k v }) (n := n) (r := .set k v) (o := none) (hm.1.set _ _) rfl rfl ⟨get_set_eq_upd _ _ _, rfl⟩
  obtain ⟨a, b⟩ := winv_write (st := st) h1 m1 hc (v := v) rfl rfl
  obtain ⟨e, c, _⟩ := eff_doSet cb hc hw n k v
  exact ⟨a, b, mapOk_doSet hm n k v, c, by rw [e.watchers, e.opened]; exact hw⟩

theorem winv_doSets {cb : Sock → Bool} (n : Tag) (kvs : List (Key × Val)) {st : St} (h : WInv st) (hm : MapOk st) (hc : CountsOk st)
    (hw : ∀ x ∈ st.watchers, cb x.2 = true ∧ x.2 ∈ st.opened) :
    WInv (doSets n kvs st).1 ∧ (Missing st → Missing (doSets n kvs st).1) := by
  induction kvs generalizing st with
  | nil => exact ⟨h, id⟩
  | cons x xs ih =>
    obtain ⟨k, v⟩ := x
    obtain ⟨a, b, c, d, e⟩ := winv_doSet h hm hc n k v hw
    simp only [doSets]
    rcases hdd : doSet st n k v with ⟨st', bb⟩
    rw [hdd] at a b c d e
    cases bb
    · exact ⟨a, b⟩
    · obtain ⟨p, q⟩ := ih a c d e
      exact ⟨p, fun hh => q (b hh)⟩

theorem winv_answer {st : St} (h : WInv st) (s : Sock) (n : Tag) (r : Req) (o : Resp) (store : Dict Key Val) (w : List (Key × Sock))
    (hr : ∀ ks, r = .wait ks → some o = some (.byte 0) ∧ ∀ k ∈ ks, Existed k st.lin) : WInv (answer { st with store := store, watchers := w } s n r o) :=
  WInv.record (st := send { st with store := store, watchers := w } s n o) (h.congr rfl rfl rfl) n r (some o) hr

theorem winv_cset {st : St} (h : WInv st) (s : Sock) (n : Tag) (k : Key) (e v : Val) : WInv (exec st s n (.cset k e v)).1 := by
  have key : WInv (match notify k (watchersOf (record { st with store := st.store.set k v } n (.cset k e v) (some (.vec v))) k)
      (record { st with store := st.store.set k v } n (.cset k e v) (some (.vec v))) with
        | (st, true) => (send st s n (.vec v), true)
        | (st, false) => (st, false)).1 := by
    have h1 : WInv (record { st with store := st.store.set k v } n (.cset k e v) (some (.vec v))) :=
      WInv.record (st := { st with store := st.store.set k v }) (h.congr rfl rfl rfl) n _ _ (by simp)
    have h2 := winv_notify h1 k (watchersOf (record { st with store := st.store.set k v } n (.cset k e v) (some (.vec v))) k)
    split
    · next hn => rw [hn] at h2; exact h2.congr rfl rfl rfl
    · next hn => rw [hn] at h2; exact h2
  have ans : ∀ o, WInv (answer st s n (.cset k e v) o) := fun o => winv_answer h s n _ o st.store st.watchers (by simp)
  simp only [exec]
  repeat' split
  all_goals first | exact ans _ | (next hn => simp only [hn] at key; exact key)

theorem winv_exec {cb : Sock → Bool} {st : St} (h : WInv st) (hm : MapOk st) (hc : CountsOk st) (hw : ∀ x ∈ st.watchers, cb x.2 = true ∧ x.2 ∈ st.opened)
    (s : Sock) (n : Tag) (r : Req) (hwo : (∃ ks, r = .wait ks) → st.waitOf.get? s = none) :
    WInv (exec st s n r).1 ∧ ((∀ k e v, r ≠ .cset k e v) → Missing st → Missing (exec st s n r).1) := by
  have ans : ∀ o, (∀ ks, r = .wait ks → some o = some (.byte 0) ∧ ∀ k ∈ ks, Existed k st.lin) →
      WInv (answer st s n r o) ∧ ((∀ k e v, r ≠ .cset k e v) → Missing st → Missing (answer st s n r o)) :=
    fun o hr => ⟨winv_answer h s n r o st.store st.watchers hr, fun _ hh => hh⟩
  cases r with
  | set k v =>
    obtain ⟨a, b, _⟩ := winv_doSet h hm hc n k v hw
    exact ⟨a, fun _ => b⟩
  | mset kvs =>
    obtain ⟨a, b⟩ := winv_doSets n kvs h hm hc hw
    exact ⟨a, fun _ => b⟩
  | cset k e v => exact ⟨winv_cset h s n k e v, fun hh => absurd rfl (hh k e v)⟩
  | append k v =>
    have h1 : WInv (record { st with store := st.store.set k ((st.store.get? k).getD [] ++ v) } n (.append k v) none) :=
      WInv.record (st := { st with store := st.store.set k ((st.store.get? k).getD [] ++ v) }) (h.congr rfl rfl rfl) n _ none (by simp)
    have m1 : MapOk (record { st with store := st.store.set k ((st.store.get? k).getD [] ++ v) } n (.append k v) none) :=
      hm.record (st' := { st with store := st.store.set k ((st.store.get? k).getD [] ++ v) }) (n := n) (r := .append k v) (o := none) (hm.1.set _ _) rfl rfl ⟨get_set_eq_upd _ _ _, rfl⟩
    obtain ⟨a, b⟩ := winv_write (st := st) h1 m1 hc (v := (st.store.get? k).getD [] ++ v) rfl rfl
    exact ⟨a, fun _ => b⟩
  | add k d =>
    have key : ∀ x, ((st.store.get? k = none ∧ x = wrap d) ∨ ∃ v y, st.store.get? k = some v ∧ stoll v = some y ∧ x = wrap (d + y)) →
        WInv (notify k (watchersOf (wake (answer { st with store := st.store.set k (toStr x) } s n (.add k d) (.int x)) k) k)
          (wake (answer { st with store := st.store.set k (toStr x) } s n (.add k d) (.int x)) k)).1 ∧
        ((∀ k' e v, Req.add k d ≠ .cset k' e v) → Missing st →
          Missing (notify k (watchersOf (wake (answer { st with store := st.store.set k (toStr x) } s n (.add k d) (.int x)) k) k)
          (wake (answer { st with store := st.store.set k (toStr x) } s n (.add k d) (.int x)) k)).1) := by
      intro x hx
      have h1 := winv_answer h s n (.add k d) (.int x) (st.store.set k (toStr x)) st.watchers (by simp)
      have m1 : MapOk (answer { st with store := st.store.set k (toStr x) } s n (.add k d) (.int x)) :=
        hm.answer (st' := { st with store := st.store.set k (toStr x) }) (r := .add k d) (o := .int x) (hm.1.set _ _) rfl rfl ⟨x, get_set_eq_upd _ _ _, rfl, hx⟩
      obtain ⟨a, b⟩ := winv_write (st := st) h1 m1 hc (v := toStr x) rfl rfl
      exact ⟨a, fun _ => b⟩
    simp only [exec]
    rcases hg : st.store.get? k with _ | v
    · exact key _ (.inl ⟨hg, rfl⟩)
    · rcases hst : stoll v with _ | y
      · simp only [hst, Option.map_none]; exact ⟨h, fun _ hh => hh⟩
      · simp only [hst, Option.map_some]; exact key _ (.inr ⟨v, y, hg, hst, rfl⟩)
  | delete k =>
    simp only [exec]
    split
    · exact ans _ (by simp)
    · have h1 := winv_notify h k (watchersOf st k)
      have h2 : Missing st → Missing (notify k (watchersOf st k) st).1 := fun hh => missing_notify hh k _
      split
      · next hn =>
        rw [hn] at h1 h2
        refine ⟨winv_answer h1 s n _ _ _ _ (by simp), fun _ hh => ?_⟩
        intro x hx
        have := h2 hh x hx
        simp only [answer, record, send, Dict.get?_erase]
        split
        · rfl
        · exact this
      · next hn => rw [hn] at h1 h2; exact ⟨h1, fun _ => h2⟩
  | get k =>
    simp only [exec]
    split
    · exact ans _ (by simp)
    · exact ⟨h, fun _ hh => hh⟩
  | mget k =>
    simp only [exec]
    split
    · exact ans _ (by simp)
    · exact ⟨h, fun _ hh => hh⟩
  | check ks => exact ans _ (by simp)
  | numKeys => exact ans _ (by simp)
  | watch k => exact ⟨winv_answer h s n _ _ st.store _ (by simp), fun _ hh => hh⟩
  | wait ks =>
    simp only [exec]
    split
    · next hall =>
      refine ans _ ?_
      intro ks' hks
      cases hks
      refine ⟨rfl, fun k hk => ?_⟩
      exact hm.existed ((hasAll_iff st ks).mp hall k hk)
    · have hwn := hwo ⟨ks, rfl⟩
      refine ⟨⟨?_, ?_, h.ok⟩, fun _ hh => ?_⟩
      · intro x hx
        simp only [List.mem_append, List.mem_map] at hx
        simp only [Dict.get?_set]
        rcases hx with hx | ⟨k, hk, rfl⟩
        · obtain ⟨m, ks', a, b⟩ := h.owner x hx
          have hne : ¬ s = x.2 := fun hh => by rw [← hh, hwn] at a; cases a
          rw [if_neg hne]; exact ⟨m, ks', a, b⟩
        · simp only [missing, List.mem_filter] at hk
          exact ⟨n, ks, by simp, hk.1⟩
      · intro s' m ks' hs' k hk
        simp only [Dict.get?_set] at hs'
        split at hs'
        · next hh =>
          subst hh; cases hs'
          rcases hg : st.store.get? k with _ | v
          · right
            simp only [List.mem_append, List.mem_map]
            exact .inr ⟨k, by simp [missing, hk, hg], rfl⟩
          · exact .inl (hm.existed (by rw [hg]; simp))
        · rcases h.keys s' m ks' hs' k hk with a | a
          · exact .inl a
          · exact .inr (by simp [a])
      · intro x hx
        simp only [List.mem_append, List.mem_map] at hx
        rcases hx with hx | ⟨k, hk, rfl⟩
        · exact hh x hx
        · simp only [missing, List.mem_filter] at hk
          simpa using hk.2

theorem winv_drop {st : St} (h : WInv st) (s : Sock) : WInv (drop st s) ∧ (Missing st → Missing (drop st s)) := by
  refine ⟨⟨?_, ?_, h.ok⟩, fun hh x hx => ?_⟩
  · intro x hx
    simp only [drop, List.mem_filter, decide_eq_true_eq] at hx
    have hne : ¬ s = x.2 := fun hh => hx.2 hh.symm
    simp only [drop, Dict.get?_erase, if_neg hne]
    exact h.owner x hx.1
  · intro s' n ks hs' k hk
    simp only [drop, Dict.get?_erase] at hs'
    split at hs'
    · cases hs'
    · next hne =>
      rcases h.keys s' n ks hs' k hk with a | a
      · exact .inl a
      · right; simp only [drop, List.mem_filter, decide_eq_true_eq]; exact ⟨a, fun hh => hne hh.symm⟩
  · simp only [drop, List.mem_filter] at hx
    exact hh x hx.1

theorem winv_run {cb : Sock → Bool} {ls : List Label} {st : St} (h : Run ls st) (hok : AllOk cb ls) :
    WInv st ∧ ((∀ k e v, Req.cset k e v ∉ issued ls) → Missing st) := by
  induction h with
  | init => exact ⟨⟨by simp [init], by simp [init], by intro l1 l2 e hl; simp [init] at hl⟩, fun _ => by intro x hx; simp [init] at hx⟩
  | snoc hrun hs ih =>
    rename_i ls l st st'
    have hok' : AllOk cb ls := fun l hl => hok l (by simp [hl])
    obtain ⟨ih1, ih2⟩ := ih hok'
    have hinv := inv_run hrun hok'
    have hsub : (∀ k e v, Req.cset k e v ∉ issued (ls ++ [l])) → (∀ k e v, Req.cset k e v ∉ issued ls) := by
      intro hh k e v hm; exact hh k e v (by rw [issued_snoc]; simp [hm])
    cases l with
    | handle s =>
      simp only [step] at hs
      split at hs
      case isFalse => cases hs
      split at hs
      · cases hs
      · next n r rest hr =>
        have hpend := (uniq_run hrun).pend s (n, r) (by rw [hr]; simp)
        have hwo : (∃ ks, r = .wait ks) → st.waitOf.get? s = none := by
          rintro ⟨ks, rfl⟩
          have hcb : cb s = false := by
            rcases hcb : cb s
            · rfl
            · obtain ⟨k, hk⟩ := (hinv.cbreq s (n, .wait ks) (by rw [hr]; simp)).mp hcb
              cases hk
          have hp := hinv.phase s hcb
          simp only [Phase] at hp
          rcases hb : st.busy.get? s with _ | ⟨n', r'⟩
          · rw [hb] at hp; exact hp.2.1
          · rw [hb] at hp
            rcases hp.2 with ⟨_, _, _, _, a⟩ | ⟨a, _⟩ | ⟨_, _, _, _, a⟩ | ⟨_, _, a, _⟩
            · exact a
            · rw [hr] at a; cases a
            · exact a
            · exact a
        obtain ⟨a, b⟩ := winv_exec (cb := cb) (st := { st with reqs := st.reqs.set s rest }) (ih1.congr rfl rfl rfl) ((mapOk_run hrun).congr rfl rfl) hinv.counts hinv.watch s n r hwo
        have hreq : r ∈ issued ls := by
          have hp := hpend.1
          cases n with
          | zero => cases hp
          | succ n => exact List.mem_of_getElem? hp
        have b' : (∀ k e v, Req.cset k e v ∉ issued (ls ++ [.handle s])) → Missing (exec { st with reqs := st.reqs.set s rest } s n r).1 := by
          intro hh
          refine b ?_ (ih2 (hsub hh))
          intro k e v hk; subst hk; exact hsub hh k e v hreq
        rcases he : exec { st with reqs := st.reqs.set s rest } s n r with ⟨st2, bb⟩
        rw [he] at a b' hs
        cases bb <;> cases hs
        · obtain ⟨p, q⟩ := winv_drop a s
          exact ⟨p, fun hh => q (b' hh)⟩
        · exact ⟨a, b'⟩
    | disconnect s =>
      simp only [step] at hs
      split at hs <;> cases hs
      obtain ⟨p, q⟩ := winv_drop ih1 s
      exact ⟨p.congr rfl rfl rfl, fun hh => q (ih2 (hsub hh))⟩
    | timeout s => exact (show False from hok (.timeout s) (by simp)).elim
    | connect s =>
      simp only [step] at hs
      split at hs <;> cases hs
      exact ⟨ih1.congr rfl rfl rfl, fun hh => ih2 (hsub hh)⟩
    | invoke s r =>
      simp only [step] at hs
      split at hs <;> cases hs
      exact ⟨ih1.congr rfl rfl rfl, fun hh => ih2 (hsub hh)⟩
    | ret s =>
      simp only [step] at hs
      split at hs <;> cases hs
      exact ⟨ih1.congr rfl rfl rfl, fun hh => ih2 (hsub hh)⟩

/-- **C52** (wait, safety): a wait is answered only after each of its keys had a value -/
theorem wait_after_keys {cb : Sock → Bool} {ls : List Label} {st : St} (h : Run ls st) (hok : AllOk cb ls) {l1 l2 : List Entry} {n : Tag}
    {ks : List Key} {o : Option Resp} (hl : st.lin = l1 ++ ⟨n, .wait ks, o⟩ :: l2) : ∀ k ∈ ks, Existed k l1 :=
  (winv_run h hok).1.ok l1 l2 _ hl ks rfl |>.2

/-- without deletions a key keeps a value -/
theorem hist_keeps {l1 l2 : List Entry} {m1 m2 : Map} (h1 : Hist l1 m1) (h2 : Hist (l1 ++ l2) m2) (hd : ∀ e ∈ l2, ∀ k, e.req ≠ .delete k) {k : Key}
    (hk : m1 k ≠ none) : m2 k ≠ none := by
  induction l2 using List.reverseRecOn' generalizing m2 with
  | nil =>
    simp only [List.append_nil] at h2
    clear hd
    -- histories determine the map
    have : ∀ {l m m'}, Hist l m → Hist l m' → m = m' := by
      intro l m m' ha
      induction ha generalizing m' with
      | nil =>
        intro hb
        generalize hL : ([] : List Entry) = L at hb
        cases hb with
        | nil => rfl
        | snoc _ _ => simp at hL
      | snoc ha hs ih =>
        rename_i l m m' e
        intro hb
        generalize hL : l ++ [e] = L at hb
        cases hb with
        | nil => simp at hL
        | snoc hb hs' =>
          obtain ⟨x1, x2⟩ := List.append_inj' hL (by simp)
          cases x2; subst x1
          have hmm := ih hb
          subst hmm
          clear ih ha hb hL
          obtain ⟨n, r, o⟩ := e
          cases r with
          | cset k' e v =>
            obtain ⟨p1, p2, p3⟩ := hs
            obtain ⟨q1, q2, q3⟩ := hs'
            rcases hg : m k' with _ | x
            · by_cases he : e = []
              · rw [(p1 (.inr ⟨hg, he⟩)).1, (q1 (.inr ⟨hg, he⟩)).1]
              · rw [(p3 hg he).1, (q3 hg he).1]
            · by_cases he : x = e
              · rw [(p1 (.inl (he ▸ hg))).1, (q1 (.inl (he ▸ hg))).1]
              · rw [(p2 x hg he).1, (q2 x hg he).1]
          | add k' d =>
            obtain ⟨x, p1, p2, _⟩ := hs
            obtain ⟨y, q1, q2, _⟩ := hs'
            simp only at p2 q2
            rw [p2] at q2; cases q2
            rw [p1, q1]
          | mset _ => exact hs.elim
          | _ => rw [hs.1, hs'.1]
    rw [← this h1 h2]; exact hk
  | append_singleton l e ih =>
    rw [← List.append_assoc] at h2
    generalize hL : l1 ++ l ++ [e] = L at h2
    cases h2 with
    | nil => simp at hL
    | snoc hb hs =>
      rename_i _ m e'
      obtain ⟨x1, x2⟩ := List.append_inj' hL (by simp)
      cases x2; subst x1
      have hm := ih hb (fun e' he' => hd e' (by simp [he']))
      have hd' := hd e (by simp)
      clear ih hb hL
      obtain ⟨n, r, o⟩ := e
      cases r with
      | cset k' e v =>
        obtain ⟨p1, p2, p3⟩ := hs
        have hupd : upd m k' (some v) k ≠ none := by
          simp only [upd]; split
          · simp
          · exact hm
        rcases hg : m k' with _ | x
        · by_cases he : e = []
          · rw [(p1 (.inr ⟨hg, he⟩)).1]; exact hupd
          · rw [(p3 hg he).1]; exact hm
        · by_cases he : x = e
          · rw [(p1 (.inl (he ▸ hg))).1]; exact hupd
          · rw [(p2 x hg he).1]; exact hm
      | add k' d =>
        obtain ⟨x, p1, _⟩ := hs
        rw [p1]; simp only [upd]; split
        · simp
        · exact hm
      | mset _ => exact hs.elim
      | delete k' => exact absurd rfl (hd' k')
      | set k' v =>
        rw [hs.1]; simp only [upd]; split
        · simp
        · exact hm
      | append k' v =>
        rw [hs.1]; simp only [upd]; split
        · simp
        · exact hm
      | _ => rw [hs.1]; exact hm

theorem hist_pre {l1 l2 : List Entry} {m : Map} (h : Hist (l1 ++ l2) m) : ∃ m1, Hist l1 m1 := hist_inits h

/-- without deletions the waits fit into the history of the map, each when all its keys have a value -/
theorem hist_waits (lin : List Entry) {m : Map} (h : Hist (lin.filter (!·.isWait)) m) (hw : WaitsOk lin) (hd : ∀ e ∈ lin, ∀ k, e.req ≠ .delete k) : Hist lin m := by
  induction lin using List.reverseRecOn' generalizing m with
  | nil => exact h
  | append_singleton l e ih =>
    have hw' : WaitsOk l := fun l1 l2 e' hl => hw l1 (l2 ++ [e]) e' (by rw [hl]; simp)
    have hd' : ∀ e ∈ l, ∀ k, e.req ≠ .delete k := fun e' he' => hd e' (by simp [he'])
    rcases hew : e.isWait
    · simp only [List.filter_append, List.filter_cons, hew, Bool.not_false, if_true, List.filter_nil] at h
      generalize hL : l.filter (!·.isWait) ++ [e] = L at h
      cases h with
      | nil => simp at hL
      | snoc hb hs =>
        obtain ⟨x1, x2⟩ := List.append_inj' hL (by simp)
        cases x2; subst x1
        exact .snoc (ih hb hw' hd') hs
    · simp only [List.filter_append, List.filter_cons, hew, Bool.not_true, Bool.false_eq_true, if_false, List.filter_nil, List.append_nil] at h
      refine .snoc (ih h hw' hd') ?_
      obtain ⟨n, r, o⟩ := e
      cases r with
      | wait ks =>
        refine ⟨rfl, ?_, (hw l [] _ rfl ks rfl).1⟩
        intro k hk
        obtain ⟨l0, m0, ⟨t, rfl⟩, b, c⟩ := (hw l [] _ rfl ks rfl).2 k hk
        refine hist_keeps (l2 := t.filter (!·.isWait)) b (by rw [← List.filter_append]; exact h) ?_ c
        intro e' he'
        simp only [List.mem_filter] at he'
        exact hd' e' (by simp [he'.1])
      | _ => cases hew

/-- what took effect was asked for, by itself or as part of a multi set -/
theorem asked_req {ls : List Label} {st : St} (h : Run ls st) : ∀ e ∈ st.lin, e.req ∈ issued ls ∨ ∃ k v, e.req = .set k v := by
  intro e he
  obtain ⟨n, r, ht, hr⟩ := asked h e he
  have hk := once h hr
  have hmem : e ∈ st.lin.filter (·.tag = n + 1) := by simp [he, ht]
  have key : (st.lin.filter (·.tag = n + 1) = [] ∨ ∃ o, st.lin.filter (·.tag = n + 1) = [⟨n + 1, r, o⟩]) → e.req ∈ issued ls := by
    rintro (h0 | ⟨o, h0⟩)
    · rw [h0] at hmem; cases hmem
    · rw [h0] at hmem
      simp only [List.mem_singleton] at hmem
      rw [hmem]; exact List.mem_of_getElem? hr
  cases r with
  | mset kvs =>
    right
    have hk : (st.lin.filter (·.tag = n + 1)).map (·.req) <+: kvs.map (fun x => Req.set x.1 x.2) := hk
    have := hk.subset (List.mem_map_of_mem hmem)
    simp only [List.mem_map] at this
    obtain ⟨x, _, hx⟩ := this
    exact ⟨x.1, x.2, hx.symm⟩
  | _ => exact .inl (key hk)

/-- **C52** (linearizable without deletions): all the responses, waits included, are those of an atomic map executing the same operations one
after the other; a wait returns when all its keys have a value.  Missing: with deletions a wait may return after a key it waited for is gone
again (`wait_after_delete`) -/
theorem waits_atomic_partial {cb : Sock → Bool} {ls : List Label} {st : St} (h : Run ls st) (hok : AllOk cb ls) (hd : ∀ k, Req.delete k ∉ issued ls) :
    Hist st.lin st.store.get? := by
  refine hist_waits st.lin (atomic_map h) (winv_run h hok).1.ok ?_
  intro e he k hk
  rcases asked_req h e he with hh | ⟨k', v, hh⟩
  · rw [hk] at hh; exact hd k hh
  · rw [hk] at hh; cases hh

/-- **C52** (wait, progress): a wait the server has read and not answered has a key without a value: no wait is left hanging once all its
keys are there.  Missing: a key created by compare-and-set does not wake its waiters (`wait_hangs`) -/
theorem wait_answered_partial {cb : Sock → Bool} {ls : List Label} {st : St} (h : Run ls st) (hok : AllOk cb ls) (hcs : ∀ k e v, Req.cset k e v ∉ issued ls)
    {s : Sock} {n : Tag} {ks : List Key} (hcb : cb s = false) (hb : st.busy.get? s = some (n, .wait ks)) (hr : reqsOf st s = []) (hi : inboxOf st s = []) :
    ∃ k ∈ ks, st.store.get? k = none := by
  have hinv := inv_run h hok
  obtain ⟨hw, hm⟩ := winv_run h hok
  have hp := hinv.phase s hcb
  simp only [Phase, hb] at hp
  rcases hp.2 with ⟨_, a, _⟩ | ⟨_, _, ⟨ks', hks, hwo⟩, _⟩ | ⟨_, _, a, _⟩ | ⟨_, _, _, _, a⟩
  · rw [hr] at a; simp at a
  · cases hks
    have hpos := ((hinv.counts s).1 _ hwo).2
    have : s ∈ st.waiting.map (·.2) := List.count_pos_iff.mp hpos
    simp only [List.mem_map] at this
    obtain ⟨x, hx, hxs⟩ := this
    obtain ⟨n', ks', h1, h2⟩ := hw.owner x hx
    rw [hxs, hwo] at h1; cases h1
    exact ⟨x.1, h2, hm hcs x hx⟩
  · rw [hi] at a; cases a
  · exact absurd rfl (a ks)

/-! ## Examples -/

theorem run_of (ls : List Label) (s : St) (h : ls.foldlM step init = some s) : Run ls s := by
  have : ∀ (ls2 ls1 : List Label) (s1 : St), Run ls1 s1 → ls2.foldlM step s1 = some s → Run (ls1 ++ ls2) s := by
    intro ls2
    induction ls2 with
    | nil => intro ls1 s1 h1 h2; cases h2; simpa using h1
    | cons l ls2 ih =>
      intro ls1 s1 h1 h2
      rw [List.foldlM_cons] at h2
      rcases hs : step s1 l with _ | s2
      · rw [hs] at h2; cases h2
      · rw [hs] at h2
        have := ih (ls1 ++ [l]) s2 (.snoc h1 hs) h2
        simpa using this
  simpa using this ls [] init .init h

/-- two clients: the second waits for two keys, the first sets them, both read; a third socket watches.  Meets the hypotheses of all theorems above -/
def demo : List Label :=
  [.connect 1, .connect 2, .connect 9, .invoke 9 (.watch 5), .handle 9, .ret 9, .invoke 2 (.wait [5, 6]), .handle 2, .invoke 1 (.set 5 ['a']),
   .invoke 1 (.add 6 3), .handle 1, .handle 1, .ret 1, .ret 2, .invoke 2 (.add 6 4), .handle 2, .ret 2, .invoke 1 (.mget [5, 6]), .handle 1, .ret 1]

example : AllOk (· == 9) demo := by
  intro l hl
  simp only [demo, List.mem_cons, List.not_mem_nil, or_false] at hl
  rcases hl with rfl | rfl | rfl | rfl | rfl | rfl | rfl | rfl | rfl | rfl | rfl | rfl | rfl | rfl | rfl | rfl | rfl | rfl | rfl | rfl <;> simp [Ok]


example : (demo.foldlM step init).map (·.rets) = some [⟨1, .watch 5, some (.byte 3)⟩, ⟨4, .add 6 3, some (.int 3)⟩, ⟨2, .wait [5, 6], some (.byte 0)⟩,
    ⟨5, .add 6 4, some (.int 7)⟩, ⟨6, .mget [5, 6], some (.vecs [['a'], ['7']])⟩] := by
  decide +kernel

/-- **refuted**: `set` returns before it took effect: another client asking afterwards does not see it -/
theorem set_not_visible : ∃ st, Run [.connect 1, .connect 2, .invoke 1 (.set 5 ['a']), .invoke 2 (.check [5]), .handle 2, .ret 2] st ∧
    st.busy.get? 1 = none ∧ st.rets = [⟨2, .check [5], some (.byte 1)⟩] :=
  ⟨_, run_of [.connect 1, .connect 2, .invoke 1 (.set 5 ['a']), .invoke 2 (.check [5]), .handle 2, .ret 2] _ rfl, by decide⟩

def badLin : List Entry := [⟨2, .set 5 ['a'], none⟩, ⟨3, .delete 5, some (.int 1)⟩, ⟨4, .set 6 ['b'], none⟩, ⟨1, .wait [5, 6], some (.byte 0)⟩]

theorem hist_snoc_inv {l : List Entry} {e : Entry} {m' : Map} (h : Hist (l ++ [e]) m') : ∃ m, Hist l m ∧ Spec m m' e.resp e.req := by
  generalize hL : l ++ [e] = L at h
  cases h with
  | nil => simp at hL
  | snoc h s =>
    obtain ⟨x1, x2⟩ := List.append_inj' hL rfl
    cases x2; subst x1
    exact ⟨_, h, s⟩

/-- no atomic map answers like this -/
theorem badLin_not_atomic : ¬ ∃ m, Hist badLin m := by
  rintro ⟨m, h⟩
  obtain ⟨m3, h, s4⟩ := hist_snoc_inv (l := [⟨2, .set 5 ['a'], none⟩, ⟨3, .delete 5, some (.int 1)⟩, ⟨4, .set 6 ['b'], none⟩]) h
  obtain ⟨m2, h, s3⟩ := hist_snoc_inv (l := [⟨2, .set 5 ['a'], none⟩, ⟨3, .delete 5, some (.int 1)⟩]) h
  obtain ⟨m1, h, s2⟩ := hist_snoc_inv (l := [⟨2, .set 5 ['a'], none⟩]) h
  have e4 := s4.2.1 5 (by simp)
  have e3 : m3 = upd m2 6 (some ['b']) := s3.1
  have e2 : m2 = upd m1 5 none := s2.1
  rw [e3, e2] at e4
  exact e4 rfl

/-- **refuted**: a wait for two keys returns although they never had a value at the same time, and one has none now -/
theorem wait_after_delete : ∃ st, Run [.connect 1, .connect 2, .invoke 2 (.wait [5, 6]), .handle 2, .invoke 1 (.set 5 ['a']), .handle 1,
      .invoke 1 (.delete 5), .handle 1, .ret 1, .invoke 1 (.set 6 ['b']), .handle 1, .ret 2] st ∧
    st.rets = [⟨3, .delete 5, some (.int 1)⟩, ⟨1, .wait [5, 6], some (.byte 0)⟩] ∧ st.store.get? 5 = none ∧ st.lin = badLin :=
  ⟨_, run_of [.connect 1, .connect 2, .invoke 2 (.wait [5, 6]), .handle 2, .invoke 1 (.set 5 ['a']), .handle 1,
      .invoke 1 (.delete 5), .handle 1, .ret 1, .invoke 1 (.set 6 ['b']), .handle 1, .ret 2] _ rfl, by decide⟩

/-- **refuted**: a wait hangs although its key is there: it was created by compare-and-set, which wakes nobody -/
theorem wait_hangs : ∃ st, Run [.connect 1, .connect 2, .invoke 2 (.wait [5]), .handle 2, .invoke 1 (.cset 5 [] ['a']), .handle 1, .ret 1] st ∧
    st.busy.get? 2 = some (1, .wait [5]) ∧ reqsOf st 2 = [] ∧ inboxOf st 2 = [] ∧ st.store.get? 5 = some ['a'] :=
  ⟨_, run_of [.connect 1, .connect 2, .invoke 2 (.wait [5]), .handle 2, .invoke 1 (.cset 5 [] ['a']), .handle 1, .ret 1] _ rfl, by decide⟩

/-- **refuted**: after a wait ran into its timeout, the connection is used on: its late answer is read as the answer of the next operation.
Here `check` says that key 7 exists -/
theorem stale_answer : ∃ st, Run [.connect 1, .connect 2, .invoke 2 (.wait [5]), .handle 2, .timeout 2, .invoke 1 (.set 5 ['a']), .handle 1,
      .invoke 2 (.check [7]), .handle 2, .ret 2] st ∧ st.rets = [⟨3, .check [7], some (.byte 0)⟩] ∧ st.store.get? 7 = none :=
  ⟨_, run_of [.connect 1, .connect 2, .invoke 2 (.wait [5]), .handle 2, .timeout 2, .invoke 1 (.set 5 ['a']), .handle 1,
      .invoke 2 (.check [7]), .handle 2, .ret 2] _ rfl, by decide⟩

/-- **refuted**: a second wait after a timed out one overwrites the count of the first: it returns although its key has no value -/
theorem second_wait_early : ∃ st, Run [.connect 1, .connect 2, .invoke 2 (.wait [5]), .handle 2, .timeout 2, .invoke 2 (.wait [6]), .handle 2,
      .invoke 1 (.set 5 ['a']), .handle 1, .ret 2] st ∧ st.rets = [⟨2, .wait [6], some (.byte 0)⟩] ∧ st.store.get? 6 = none :=
  ⟨_, run_of [.connect 1, .connect 2, .invoke 2 (.wait [5]), .handle 2, .timeout 2, .invoke 2 (.wait [6]), .handle 2,
      .invoke 1 (.set 5 ['a']), .handle 1, .ret 2] _ rfl, by decide⟩

/-- **refuted**: when a watcher is gone, the next client that sets its key loses its own connection -/
theorem dead_watcher : ∃ st, Run [.connect 1, .connect 9, .invoke 9 (.watch 5), .handle 9, .ret 9, .disconnect 9, .invoke 1 (.set 5 ['a']), .handle 1] st ∧
    1 ∉ st.opened ∧ st.store.get? 5 = some ['a'] :=
  ⟨_, run_of [.connect 1, .connect 9, .invoke 9 (.watch 5), .handle 9, .ret 9, .disconnect 9, .invoke 1 (.set 5 ['a']), .handle 1] _ rfl, by decide⟩

/-- **refuted**: the descriptor of a gone watcher is given to a new client, which then reads the watcher's update as its answer -/
theorem reused_watcher : ∃ st, Run [.connect 1, .connect 9, .invoke 9 (.watch 5), .handle 9, .ret 9, .disconnect 9, .connect 9, .invoke 1 (.set 5 ['a']),
      .handle 1, .invoke 9 (.get 5), .handle 9, .ret 9] st ∧ ⟨3, .get 5, some (.update 5)⟩ ∈ st.rets :=
  ⟨_, run_of [.connect 1, .connect 9, .invoke 9 (.watch 5), .handle 9, .ret 9, .disconnect 9, .connect 9, .invoke 1 (.set 5 ['a']),
      .handle 1, .invoke 9 (.get 5), .handle 9, .ret 9] _ rfl, by decide⟩

/-- **refuted**: a `get` of a key deleted after the wait before it ends the connection, without an answer -/
theorem get_lost : ∃ st, Run [.connect 1, .connect 2, .invoke 1 (.set 5 ['a']), .handle 1, .invoke 2 (.wait [5]), .handle 2, .ret 2,
      .invoke 1 (.delete 5), .handle 1, .invoke 2 (.get 5), .handle 2] st ∧ 2 ∉ st.opened ∧ inboxOf st 2 = [] ∧ st.busy.get? 2 = some (4, .get 5) :=
  ⟨_, run_of [.connect 1, .connect 2, .invoke 1 (.set 5 ['a']), .handle 1, .invoke 2 (.wait [5]), .handle 2, .ret 2,
      .invoke 1 (.delete 5), .handle 1, .invoke 2 (.get 5), .handle 2] _ rfl, by decide⟩

/-- **refuted**: an `add` on a value that is no number ends the connection -/
theorem add_lost : ∃ st, Run [.connect 1, .invoke 1 (.set 5 ['a']), .handle 1, .invoke 1 (.add 5 1), .handle 1] st ∧ 1 ∉ st.opened :=
  ⟨_, run_of [.connect 1, .invoke 1 (.set 5 ['a']), .handle 1, .invoke 1 (.add 5 1), .handle 1] _ rfl, by decide⟩

end Xoscar.Store
