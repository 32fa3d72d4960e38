import Verif.Proof.Store
/-!
# C52: the rendezvous store is an atomic map
-/
namespace Xoscar.Store
attribute [local grind =] Dict.get?_set Dict.get?_erase

/-! ## The map, whatever the clients do -/

def MapOk (st : St) : Prop := st.store.WF ∧ Hist (st.lin.filter (!·.isWait)) st.store.get?

theorem MapOk.congr {st st' : St} (h : MapOk st) (h1 : st'.store = st.store) (h2 : st'.lin.filter (!·.isWait) = st.lin.filter (!·.isWait)) : MapOk st' := by
  rw [MapOk, h1, h2]; exact h

theorem MapOk.record {st st' : St} (h : MapOk st) {n : Tag} {r : Req} {o : Option Resp} (hw : st'.store.WF) (hl : st'.lin = st.lin)
    (hr : Entry.isWait ⟨n, r, o⟩ = false) (hs : Spec st.store.get? st'.store.get? o r) : MapOk (record st' n r o) := by
  refine ⟨hw, ?_⟩
  simp only [Store.record, hl, List.filter_append, List.filter_cons, hr, Bool.not_false, if_true, List.filter_nil]
  exact .snoc h.2 hs

theorem MapOk.answer {st st' : St} (h : MapOk st) {s : Sock} {n : Tag} {r : Req} {o : Resp} (hw : st'.store.WF) (hl : st'.lin = st.lin)
    (hr : Entry.isWait ⟨n, r, some o⟩ = false) (hs : Spec st.store.get? st'.store.get? (some o) r) : MapOk (answer st' s n r o) :=
  h.record (st' := send st' s n o) hw hl hr hs

theorem MapOk.notify {st : St} (h : MapOk st) (k : Key) (l : List Sock) : MapOk (notify k l st).1 := by
  obtain ⟨ib, h1, _⟩ := notify_spec k l st
  rw [h1]; exact h

theorem MapOk.wake {st : St} (h : MapOk st) (k : Key) : MapOk (wake st k) := h.congr (wake_keeps st k).1 (wake_keeps st k).2.2

theorem mapOk_doSet {st : St} (h : MapOk st) (n : Tag) (k : Key) (v : Val) : MapOk (doSet st n k v).1 :=
  ((h.record (st' := { st with store := st.store.set k v }) (n := n) (r := .set k v) (o := none) (h.1.set _ _) rfl rfl
    ⟨get_set_eq_upd _ _ _, rfl⟩).wake k).notify k _

theorem mapOk_doSets {st : St} (h : MapOk st) (n : Tag) (kvs : List (Key × Val)) : MapOk (doSets n kvs st).1 := by
  induction kvs generalizing st with
  | nil => exact h
  | cons x xs ih =>
    obtain ⟨k, v⟩ := x
    have := mapOk_doSet h n k v
    simp only [doSets]
    rcases hd : doSet st n k v with ⟨st', b⟩
    rw [hd] at this
    cases b
    · exact this
    · exact ih this

theorem getAll_spec (st : St) (ks : List Key) (vs : List Val) (h : getAll st ks = some vs) : ks.map st.store.get? = vs.map some := by
  induction ks generalizing vs with
  | nil => simp [getAll] at h; subst h; rfl
  | cons k ks ih =>
    simp only [getAll] at h
    split at h
    · next v vs' hv hvs => cases h; simp [hv, ih _ hvs]
    · cases h

theorem hasAll_iff (st : St) (ks : List Key) : hasAll st ks = true ↔ ∀ k ∈ ks, st.store.get? k ≠ none := by
  simp only [hasAll, List.all_eq_true]
  constructor
  · intro hh k hk; have := hh k hk; rw [Option.isSome_iff_ne_none] at this; exact this
  · intro hh k hk; rw [Option.isSome_iff_ne_none]; exact hh k hk

theorem mapOk_exec {st : St} (h : MapOk st) (s : Sock) (n : Tag) (r : Req) : MapOk (exec st s n r).1 := by
  cases r with
  | set k v => exact mapOk_doSet h n k v
  | mset kvs => exact mapOk_doSets h n kvs
  | cset k e v =>
    have hset : ∀ (hm : st.store.get? k = some e ∨ (st.store.get? k = none ∧ e = [])), MapOk (record { st with store := st.store.set k v } n (.cset k e v) (some (.vec v))) := by
      intro hm
      refine h.record (h.1.set _ _) rfl rfl ⟨fun _ => ⟨get_set_eq_upd _ _ _, rfl⟩, ?_, ?_⟩
      · intro x hx hne; rw [hx] at hm; simp at hm; exact absurd hm hne
      · intro hx hne; rw [hx] at hm; simp at hm; exact absurd hm hne
    simp only [exec]
    rcases hg : st.store.get? k with _ | old
    · simp only
      split
      · next he =>
        have := (hset (.inr ⟨hg, he⟩)).notify k (watchersOf (record { st with store := st.store.set k v } n (.cset k e v) (some (.vec v))) k)
        rcases hn : notify k (watchersOf (record { st with store := st.store.set k v } n (.cset k e v) (some (.vec v))) k) (record { st with store := st.store.set k v } n (.cset k e v) (some (.vec v))) with ⟨st', b⟩
        rw [hn] at this
        cases b <;> exact this
      · next he =>
        refine h.answer h.1 rfl rfl ⟨?_, ?_, fun _ _ => ⟨rfl, rfl⟩⟩
        · rintro (hx | hx)
          · rw [hg] at hx; cases hx
          · exact absurd hx.2 he
        · intro x hx; rw [hg] at hx; cases hx
    · simp only
      split
      · next he =>
        have := (hset (.inl (he ▸ hg))).notify k (watchersOf (record { st with store := st.store.set k v } n (.cset k e v) (some (.vec v))) k)
        rcases hn : notify k (watchersOf (record { st with store := st.store.set k v } n (.cset k e v) (some (.vec v))) k) (record { st with store := st.store.set k v } n (.cset k e v) (some (.vec v))) with ⟨st', b⟩
        rw [hn] at this
        cases b <;> exact this
      · next he =>
        refine h.answer h.1 rfl rfl ⟨?_, fun x hx _ => ?_, ?_⟩
        · rintro (hx | hx)
          · rw [hg] at hx; cases hx; exact absurd rfl he
          · rw [hg] at hx; cases hx.1
        · rw [hg] at hx; cases hx; exact ⟨rfl, rfl⟩
        · intro hx; rw [hg] at hx; cases hx
  | get k =>
    simp only [exec]
    split
    · next v hv => exact h.answer h.1 rfl rfl ⟨rfl, v, hv, rfl⟩
    · exact h
  | add k d =>
    have key : ∀ x, ((st.store.get? k = none ∧ x = wrap d) ∨ ∃ v y, st.store.get? k = some v ∧ stoll v = some y ∧ x = wrap (d + y)) →
        MapOk (notify k (watchersOf (wake (answer { st with store := st.store.set k (toStr x) } s n (.add k d) (.int x)) k) k)
          (wake (answer { st with store := st.store.set k (toStr x) } s n (.add k d) (.int x)) k)).1 := by
      intro x hx
      exact ((h.answer (st' := { st with store := st.store.set k (toStr x) }) (r := .add k d) (o := .int x) (h.1.set _ _) rfl rfl
        ⟨x, get_set_eq_upd _ _ _, rfl, hx⟩).wake k).notify k _
    simp only [exec]
    rcases hg : st.store.get? k with _ | v
    · exact key _ (.inl ⟨hg, rfl⟩)
    · rcases hst : stoll v with _ | y
      · simp only [hst, Option.map_none]; exact h
      · simp only [hst, Option.map_some]; exact key _ (.inr ⟨v, y, hg, hst, rfl⟩)
  | check ks =>
    refine h.answer h.1 rfl rfl ⟨rfl, ?_⟩
    by_cases hh : hasAll st ks = true
    · rw [if_pos hh, if_pos ((hasAll_iff st ks).mp hh)]
    · rw [if_neg hh, if_neg (fun hc => hh ((hasAll_iff st ks).mpr hc))]
  | wait ks =>
    simp only [exec]
    split
    · exact h.congr rfl (by simp [answer, Store.record, send, Entry.isWait])
    · exact h
  | numKeys =>
    refine h.answer h.1 rfl rfl ⟨rfl, st.store.keys, h.1, fun k => ?_, ?_⟩
    · rw [← Dict.get?_isSome_iff, Option.isSome_iff_ne_none]
    · simp [Dict.keys]
  | delete k =>
    simp only [exec]
    rcases hg : st.store.get? k with _ | v
    · refine h.answer h.1 rfl rfl ⟨?_, by simp [hg]⟩
      funext x; simp only [upd]; split
      · next hx => subst hx; exact hg
      · rfl
    · have hn := h.notify k (watchersOf st k)
      obtain ⟨ib, h1, _⟩ := notify_spec k (watchersOf st k) st
      rcases hnn : notify k (watchersOf st k) st with ⟨st', b⟩
      rw [hnn] at hn h1
      simp only at h1
      cases b
      · exact hn
      · refine hn.answer (hn.1.erase k) rfl rfl ⟨get_erase_eq_upd _ _, ?_⟩
        rw [h1]; simp [hg]
  | append k v =>
    exact ((h.record (st' := { st with store := st.store.set k ((st.store.get? k).getD [] ++ v) }) (n := n) (r := .append k v) (o := none)
      (h.1.set _ _) rfl rfl ⟨get_set_eq_upd _ _ _, rfl⟩).wake k).notify k _
  | mget ks =>
    simp only [exec]
    split
    · next vs hvs => exact h.answer h.1 rfl rfl ⟨rfl, vs, getAll_spec st ks vs hvs, rfl⟩
    · exact h
  | watch k => exact h.answer (st' := { st with watchers := st.watchers ++ [(k, s)] }) h.1 rfl rfl ⟨rfl, rfl⟩

theorem mapOk_run {ls : List Label} {st : St} (h : Run ls st) : MapOk st := by
  induction h with
  | init => exact ⟨Dict.WF.nil, .nil⟩
  | snoc _ hs ih =>
    rename_i l st st' _
    cases l with
    | handle s =>
      simp only [step] at hs
      split at hs
      case isFalse => cases hs
      split at hs
      · cases hs
      · next n r rest hr =>
        have := mapOk_exec (st := { st with reqs := st.reqs.set s rest }) ih s n r
        rcases he : exec { st with reqs := st.reqs.set s rest } s n r with ⟨st2, b⟩
        rw [he] at this hs
        cases b <;> cases hs <;> exact this
    | _ =>
      simp only [step] at hs
      repeat' split at hs
      all_goals first | (cases hs; done) | (cases hs; exact ih)

/-- **C52** (atomic map): whatever the clients do, whichever connections break and however requests interleave, the responses the server
gave (waits apart) are those of an atomic map executing the same operations one after the other, and its content is that map -/
theorem atomic_map {ls : List Label} {st : St} (h : Run ls st) : Hist (st.lin.filter (!·.isWait)) st.store.get? := (mapOk_run h).2

/-! ## Numbers -/

/-- operations on `k` that are not `add` -/
def touches (k : Key) : Req → Bool
  | .set k' _ => k' = k
  | .cset k' _ _ => k' = k
  | .delete k' => k' = k
  | .append k' _ => k' = k
  | .mset kvs => kvs.any (·.1 = k)
  | _ => false

def delta (k : Key) (e : Entry) : Int := match e.req with
  | .add k' d => if k' = k then d else 0
  | _ => 0

def isAdd (k : Key) (e : Entry) : Bool := match e.req with
  | .add k' _ => k' = k
  | _ => false

def sumOf (k : Key) : List Entry → Int
  | [] => 0
  | e :: l => delta k e + sumOf k l

theorem sumOf_snoc (k : Key) (l : List Entry) (e : Entry) : sumOf k (l ++ [e]) = sumOf k l + delta k e := by
  induction l with
  | nil => simp [sumOf]
  | cons x xs ih => simp only [List.cons_append, sumOf, ih]; omega

theorem hist_sum {l : List Entry} {m : Map} (h : Hist l m) (k : Key) (hn : ∀ e ∈ l, touches k e.req = false) :
    (l.any (isAdd k) = true → m k = some (toStr (wrap (sumOf k l)))) ∧ (l.any (isAdd k) = false → m k = none ∧ sumOf k l = 0) := by
  induction h with
  | nil => exact ⟨by simp, fun _ => ⟨rfl, rfl⟩⟩
  | snoc _ hs ih =>
    rename_i l m m' e _
    obtain ⟨ih1, ih2⟩ := ih (fun e' he' => hn e' (by simp [he']))
    have hne := hn e (by simp)
    obtain ⟨n, r, o⟩ := e
    simp only at hs hne
    rw [sumOf_snoc, List.any_append]
    have same : ∀ (_ : m' k = m k) (_ : isAdd k ⟨n, r, o⟩ = false) (_ : delta k ⟨n, r, o⟩ = 0),
        ((l.any (isAdd k) || [Entry.mk n r o].any (isAdd k)) = true → m' k = some (toStr (wrap (sumOf k l + delta k ⟨n, r, o⟩)))) ∧
        ((l.any (isAdd k) || [Entry.mk n r o].any (isAdd k)) = false → m' k = none ∧ sumOf k l + delta k ⟨n, r, o⟩ = 0) := by
      intro h1 h2 h3
      simp only [List.any_cons, List.any_nil, h2, Bool.or_false, h3, Int.add_zero, h1]
      exact ⟨ih1, ih2⟩
    cases r with
    | set k' v =>
      simp only [touches, decide_eq_false_iff_not] at hne
      have hne' : ¬ k = k' := fun hh => hne hh.symm
      exact same (by rw [hs.1]; simp [upd, hne']) rfl rfl
    | get k' => exact same (by rw [hs.1]) rfl rfl
    | cset k' e v =>
      simp only [touches, decide_eq_false_iff_not] at hne
      have hne' : ¬ k = k' := fun hh => hne hh.symm
      refine same ?_ rfl rfl
      obtain ⟨h1, h2, h3⟩ := hs
      rcases hm : m k' with _ | x
      · by_cases he : e = []
        · rw [(h1 (.inr ⟨hm, he⟩)).1]; simp [upd, hne']
        · rw [(h3 hm he).1]
      · by_cases he : x = e
        · rw [(h1 (.inl (he ▸ hm))).1]; simp [upd, hne']
        · rw [(h2 x hm he).1]
    | add k' d =>
      by_cases hk : k' = k
      · subst hk
        obtain ⟨x, hm', ho, hx⟩ := hs
        have hadd : isAdd k' ⟨n, .add k' d, o⟩ = true := by simp [isAdd]
        have hdel : delta k' ⟨n, .add k' d, o⟩ = d := by simp [delta]
        simp only [List.any_cons, List.any_nil, hadd, Bool.or_false, Bool.or_true, hdel, hm', upd, if_true]
        refine ⟨fun _ => ?_, by simp⟩
        rcases hx with ⟨hnone, hx⟩ | ⟨v, y, hv, hy, hx⟩
        · rcases ha : l.any (isAdd k')
          · rw [hx, (ih2 ha).2]; simp
          · rw [ih1 ha] at hnone; cases hnone
        · rcases ha : l.any (isAdd k')
          · rw [(ih2 ha).1] at hv; cases hv
          · have h1 := ih1 ha
            rw [hv] at h1
            have h2 : v = toStr (wrap (sumOf k' l)) := Option.some.inj h1
            subst h2
            rw [stoll_toStr _ (inRange_wrap _)] at hy
            have := Option.some.inj hy
            subst this
            rw [hx, wrap_wrap_add, Int.add_comm]
      · have hk' : ¬ k = k' := fun hh => hk hh.symm
        obtain ⟨x, hm', _⟩ := hs
        refine same (by rw [hm']; simp [upd, hk']) (by simp [isAdd, hk]) (by simp [delta, hk])
    | check ks => exact same (by rw [hs.1]) rfl rfl
    | wait ks => exact same (by rw [hs.1]) rfl rfl
    | numKeys => exact same (by rw [hs.1]) rfl rfl
    | delete k' =>
      simp only [touches, decide_eq_false_iff_not] at hne
      have hne' : ¬ k = k' := fun hh => hne hh.symm
      exact same (by rw [hs.1]; simp [upd, hne']) rfl rfl
    | append k' v =>
      simp only [touches, decide_eq_false_iff_not] at hne
      have hne' : ¬ k = k' := fun hh => hne hh.symm
      exact same (by rw [hs.1]; simp [upd, hne']) rfl rfl
    | mget ks => exact same (by rw [hs.1]) rfl rfl
    | mset kvs => exact hs.elim
    | watch k' => exact same (by rw [hs.1]) rfl rfl

theorem hist_inits {l1 l2 : List Entry} {m : Map} (h : Hist (l1 ++ l2) m) : ∃ m1, Hist l1 m1 := by
  induction l2 using List.reverseRecOn' generalizing m with
  | nil => exact ⟨m, by simpa using h⟩
  | append_singleton l a ih =>
    rw [← List.append_assoc] at h
    generalize hl : l1 ++ l ++ [a] = L at h
    cases h with
    | nil => simp at hl
    | snoc hr _ =>
      obtain ⟨h1, _⟩ := List.append_inj' hl (by simp)
      subst h1; exact ih hr

/-- **C52** (add): every `add` on a counter key returns the sum of all increments done so far, its own included, whoever did them (in 64 bit
arithmetic) -/
theorem add_running_sum {ls : List Label} {st : St} (h : Run ls st) (k : Key) {l1 l2 : List Entry} {n : Tag} {d : Int} {o : Option Resp}
    (hl : st.lin.filter (!·.isWait) = l1 ++ ⟨n, .add k d, o⟩ :: l2) (hn : ∀ e ∈ l1, touches k e.req = false) :
    o = some (.int (wrap (sumOf k l1 + d))) := by
  have ha := atomic_map h
  rw [hl] at ha
  have : l1 ++ ⟨n, .add k d, o⟩ :: l2 = (l1 ++ [⟨n, .add k d, o⟩]) ++ l2 := by simp
  rw [this] at ha
  obtain ⟨m1, hm1⟩ := hist_inits ha
  generalize hL : l1 ++ [Entry.mk n (.add k d) o] = L at hm1
  cases hm1 with
  | nil => simp at hL
  | snoc hr hs =>
    rename_i l m e
    obtain ⟨h1, h2⟩ := List.append_inj' hL (by simp)
    cases h2
    subst h1
    obtain ⟨x, _, ho, hx⟩ := hs
    have hsum := hist_sum hr k hn
    simp only at ho
    rw [ho]
    congr 2
    rcases hx with ⟨hnone, hx⟩ | ⟨v, y, hv, hy, hx⟩
    · rcases ha : l1.any (isAdd k)
      · rw [hx, (hsum.2 ha).2]; simp
      · rw [hsum.1 ha] at hnone; cases hnone
    · rcases ha : l1.any (isAdd k)
      · rw [(hsum.2 ha).1] at hv; cases hv
      · have h1 := hsum.1 ha
        rw [hv] at h1
        have h2 : v = toStr (wrap (sumOf k l1)) := Option.some.inj h1
        subst h2
        rw [stoll_toStr _ (inRange_wrap _)] at hy
        have := Option.some.inj hy
        subst this
        rw [hx, wrap_wrap_add, Int.add_comm]

/-! ## The clients -/

/-- The conditions on a use of the store: no operation runs into its timeout; watches are made on sockets of their own (`callbackClient_`),
and these sockets stay -/
def Ok (cb : Sock → Bool) : Label → Prop
  | .timeout _ => False
  | .disconnect s => cb s = false
  | .invoke s r => cb s = true ↔ ∃ k, r = .watch k
  | _ => True

/-- where an operation of the client at socket `s` is -/
def Phase (st : St) (s : Sock) : Prop := match st.busy.get? s with
  | none => inboxOf st s = [] ∧ st.waitOf.get? s = none ∧ ∀ x ∈ reqsOf st s, x.2.silent = true
  | some (n, r) => r.silent = false ∧
    ((∃ front, reqsOf st s = front ++ [(n, r)] ∧ (∀ x ∈ front, x.2.silent = true) ∧ inboxOf st s = [] ∧ st.waitOf.get? s = none) ∨
     (reqsOf st s = [] ∧ inboxOf st s = [] ∧ (∃ ks, r = .wait ks ∧ st.waitOf.get? s = some (n, ks)) ∧ ¬ s ∉ st.opened) ∨
     (∃ o, reqsOf st s = [] ∧ inboxOf st s = [(n, o)] ∧ ⟨n, r, some o⟩ ∈ st.lin ∧ st.waitOf.get? s = none) ∨
     (reqsOf st s = [] ∧ inboxOf st s = [] ∧ st.waitOf.get? s = none ∧ s ∉ st.opened ∧ ∀ ks, r ≠ .wait ks))

structure Inv (cb : Sock → Bool) (st : St) : Prop where
  counts : CountsOk st
  watch : ∀ x ∈ st.watchers, cb x.2 = true ∧ x.2 ∈ st.opened
  phase : ∀ s, cb s = false → Phase st s
  cbreq : ∀ s, ∀ x ∈ reqsOf st s, cb s = true ↔ ∃ k, x.2 = .watch k
  rets : ∀ e ∈ st.rets, (∀ k, e.req ≠ .watch k) → e ∈ st.lin
  cbbusy : ∀ s, cb s = true → ∀ x, st.busy.get? s = some x → ∃ k, x.2 = .watch k
  silentOpen : ∀ s, s ∉ st.opened → reqsOf st s = []

/-- the effect of the server's work on the sockets in `D`: a wait may be answered, nothing else happens -/
structure Eff (D : Sock → Prop) (st st' : St) : Prop where
  opened : st'.opened = st.opened
  reqs : st'.reqs = st.reqs
  busy : st'.busy = st.busy
  rets : st'.rets = st.rets
  watchers : st'.watchers = st.watchers
  lin : ∀ e ∈ st.lin, e ∈ st'.lin
  each : ∀ s, D s → (st'.waitOf.get? s = st.waitOf.get? s ∧ inboxOf st' s = inboxOf st s) ∨
    ∃ n ks, st.waitOf.get? s = some (n, ks) ∧ st'.waitOf.get? s = none ∧ inboxOf st' s = inboxOf st s ++ [(n, .byte 0)] ∧
      ⟨n, .wait ks, some (.byte 0)⟩ ∈ st'.lin

theorem Eff.refl (D : Sock → Prop) (st : St) : Eff D st st := ⟨rfl, rfl, rfl, rfl, rfl, fun _ h => h, fun _ _ => .inl ⟨rfl, rfl⟩⟩

theorem Eff.trans {D : Sock → Prop} {a b c : St} (h1 : Eff D a b) (h2 : Eff D b c) : Eff D a c := by
  refine ⟨h2.opened.trans h1.opened, h2.reqs.trans h1.reqs, h2.busy.trans h1.busy, h2.rets.trans h1.rets, h2.watchers.trans h1.watchers,
    fun e he => h2.lin e (h1.lin e he), fun s hs => ?_⟩
  rcases h1.each s hs with ⟨p1, q1⟩ | ⟨n, ks, p1, q1, r1, t1⟩
  · rcases h2.each s hs with ⟨p2, q2⟩ | ⟨n, ks, p2, q2, r2, t2⟩
    · exact .inl ⟨p2.trans p1, q2.trans q1⟩
    · exact .inr ⟨n, ks, p1 ▸ p2, q2, by rw [r2, q1], t2⟩
  · rcases h2.each s hs with ⟨p2, q2⟩ | ⟨n2, ks2, p2, q2, r2, t2⟩
    · exact .inr ⟨n, ks, p1, p2.trans q1, q2.trans r1, h2.lin _ t1⟩
    · rw [q1] at p2; cases p2

theorem eff_record (D : Sock → Prop) (st : St) (store : Dict Key Val) (n : Tag) (r : Req) (o : Option Resp) :
    Eff D st (record { st with store := store } n r o) :=
  ⟨rfl, rfl, rfl, rfl, rfl, fun e he => by simp [record, he], fun _ _ => .inl ⟨rfl, rfl⟩⟩

theorem eff_wake (D : Sock → Prop) {st : St} (h : CountsOk st) (k : Key) : Eff D st (wake st k) ∧ CountsOk (wake st k) := by
  have hw := wake_spec k h
  refine ⟨⟨hw.opened, hw.reqs, hw.busy, hw.rets, hw.watchers, ?_, fun s _ => ?_⟩, hw.counts⟩
  · obtain ⟨ws, hws, _⟩ := hw.lin
    intro e he; rw [hws]; simp [he]
  · rcases hw.each s with h | ⟨n, ks, a, b, c, d, _⟩
    · exact .inl h
    · exact .inr ⟨n, ks, a, b, c, d⟩

theorem mem_watchersOf {st : St} {k : Key} {s : Sock} (h : s ∈ watchersOf st k) : ∃ x ∈ st.watchers, x.2 = s := by
  simp only [watchersOf, List.mem_map, List.mem_filter] at h
  obtain ⟨x, ⟨hx, _⟩, hs⟩ := h
  exact ⟨x, hx, hs⟩

theorem eff_notify (cb : Sock → Bool) {st : St} (h : ∀ x ∈ st.watchers, cb x.2 = true ∧ x.2 ∈ st.opened) (k : Key) :
    Eff (fun s => cb s = false) st (notify k (watchersOf st k) st).1 ∧ (notify k (watchersOf st k) st).2 = true ∧
      ((notify k (watchersOf st k) st).1.waiting = st.waiting ∧ (notify k (watchersOf st k) st).1.awaited = st.awaited ∧
        (notify k (watchersOf st k) st).1.waitOf = st.waitOf) := by
  obtain ⟨ib, h1, h2, h3⟩ := notify_spec k (watchersOf st k) st
  refine ⟨?_, h3 (fun s hs => ?_), by rw [h1]; exact ⟨rfl, rfl, rfl⟩⟩
  · rw [h1]
    refine ⟨rfl, rfl, rfl, rfl, rfl, fun _ he => he, fun s hs => .inl ⟨rfl, ?_⟩⟩
    refine h2 s (fun hm => ?_)
    obtain ⟨x, hx, rfl⟩ := mem_watchersOf hm
    rw [(h x hx).1] at hs; cases hs
  · obtain ⟨x, hx, rfl⟩ := mem_watchersOf hs
    exact (h x hx).2

theorem CountsOk.congr {st st' : St} (h : CountsOk st) (h1 : st'.waiting = st.waiting) (h2 : st'.awaited = st.awaited) (h3 : st'.waitOf = st.waitOf) : CountsOk st' := by
  rw [CountsOk, h1, h2, h3]; exact h

/-- record, wake, notify -/
theorem eff_write (cb : Sock → Bool) {st : St} (hc : CountsOk st) (hw : ∀ x ∈ st.watchers, cb x.2 = true ∧ x.2 ∈ st.opened) (k : Key) :
    Eff (fun s => cb s = false) st (notify k (watchersOf (wake st k) k) (wake st k)).1 ∧
      CountsOk (notify k (watchersOf (wake st k) k) (wake st k)).1 ∧ (notify k (watchersOf (wake st k) k) (wake st k)).2 = true := by
  obtain ⟨e1, c1⟩ := eff_wake (fun s => cb s = false) hc k
  have hw' : ∀ x ∈ (wake st k).watchers, cb x.2 = true ∧ x.2 ∈ (wake st k).opened := by rw [e1.watchers, e1.opened]; exact hw
  obtain ⟨e2, b2, w1, w2, w3⟩ := eff_notify cb hw' k
  exact ⟨e1.trans e2, c1.congr w1 w2 w3, b2⟩

theorem eff_doSet (cb : Sock → Bool) {st : St} (hc : CountsOk st) (hw : ∀ x ∈ st.watchers, cb x.2 = true ∧ x.2 ∈ st.opened) (n : Tag) (k : Key) (v : Val) :
    Eff (fun s => cb s = false) st (doSet st n k v).1 ∧ CountsOk (doSet st n k v).1 ∧ (doSet st n k v).2 = true := by
  obtain ⟨e, c, b⟩ := eff_write cb (st := record { st with store := st.store.set k v } n (.set k v) none) hc hw k
  exact ⟨(eff_record _ st _ n _ _).trans e, c, b⟩

theorem eff_doSets (cb : Sock → Bool) (n : Tag) (kvs : List (Key × Val)) {st : St} (hc : CountsOk st)
    (hw : ∀ x ∈ st.watchers, cb x.2 = true ∧ x.2 ∈ st.opened) :
    Eff (fun s => cb s = false) st (doSets n kvs st).1 ∧ CountsOk (doSets n kvs st).1 ∧ (doSets n kvs st).2 = true := by
  induction kvs generalizing st with
  | nil => exact ⟨.refl _ _, hc, rfl⟩
  | cons x xs ih =>
    obtain ⟨k, v⟩ := x
    obtain ⟨e, c, b⟩ := eff_doSet cb hc hw n k v
    simp only [doSets]
    rcases hd : doSet st n k v with ⟨st', b'⟩
    rw [hd] at e c b
    simp only at e c b
    subst b
    obtain ⟨e2, c2, b2⟩ := ih (st := st') c (by rw [e.watchers, e.opened]; exact hw)
    exact ⟨e.trans e2, c2, b2⟩

/-- what handling request `(n, r)` of socket `s` comes to -/
inductive Handled (cb : Sock → Bool) (st : St) (s : Sock) (n : Tag) (r : Req) : St → Bool → Prop
  | silent {st'} (hs : r.silent = true) (e : Eff (fun x => cb x = false) st st') (c : CountsOk st') : Handled cb st s n r st' true
  | answered {st'} (o : Resp) (hs : r.silent = false) (e : Eff (fun x => cb x = false ∧ x ≠ s) st st') (c : CountsOk st')
      (hi : inboxOf st' s = [(n, o)]) (hl : ⟨n, r, some o⟩ ∈ st'.lin) (hw : st'.waitOf.get? s = none) : Handled cb st s n r st' true
  | waiting {st'} (ks : List Key) (hr : r = .wait ks) (e : Eff (fun x => cb x = false ∧ x ≠ s) st st') (c : CountsOk st')
      (hi : inboxOf st' s = []) (hw : st'.waitOf.get? s = some (n, ks)) : Handled cb st s n r st' true
  | failed {st'} (hs : r.silent = false) (hw : ∀ ks, r ≠ .wait ks) (e : Eff (fun x => cb x = false) st st') (c : CountsOk st') : Handled cb st s n r st' false

theorem handled_answer {cb : Sock → Bool} {st st1 : St} {s : Sock} {n : Tag} {r : Req} {o : Resp} (hcb : cb s = false)
    (hi : inboxOf st s = []) (hw : st.waitOf.get? s = none) (hs : r.silent = false)
    (e : Eff (fun x => cb x = false) st st1) (c : CountsOk st1) {st' : St} (hst' : st' = send st1 s n o ∨ st' = answer st1 s n r o)
    (hl : ⟨n, r, some o⟩ ∈ st'.lin) : Handled cb st s n r st' true := by
  have hsame : st1.waitOf.get? s = none ∧ inboxOf st1 s = [] := by
    rcases e.each s hcb with ⟨a, b⟩ | ⟨_, _, a, _⟩
    · exact ⟨a.trans hw, b.trans hi⟩
    · rw [hw] at a; cases a
  have hib : ∀ s', inboxOf st' s' = if s = s' then inboxOf st1 s ++ [(n, o)] else inboxOf st1 s' := by
    intro s'
    rcases hst' with h | h <;> rw [h]
    · exact inboxOf_send st1 s s' n o
    · exact inboxOf_send st1 s s' n o
  have hrest : st'.opened = st1.opened ∧ st'.reqs = st1.reqs ∧ st'.busy = st1.busy ∧ st'.rets = st1.rets ∧ st'.watchers = st1.watchers ∧
      (∀ x ∈ st1.lin, x ∈ st'.lin) ∧ st'.waitOf = st1.waitOf ∧ st'.waiting = st1.waiting ∧ st'.awaited = st1.awaited := by
    rcases hst' with h | h <;> rw [h]
    · exact ⟨rfl, rfl, rfl, rfl, rfl, fun _ hx => hx, rfl, rfl, rfl⟩
    · exact ⟨rfl, rfl, rfl, rfl, rfl, fun _ hx => by simp [answer, record, send, hx], rfl, rfl, rfl⟩
  obtain ⟨h1, h2, h3, h4, h5, h6, h7, h8, h9⟩ := hrest
  refine .answered o hs ⟨h1.trans e.opened, h2.trans e.reqs, h3.trans e.busy, h4.trans e.rets, h5.trans e.watchers,
    fun x hx => h6 x (e.lin x hx), fun s' hs' => ?_⟩ (c.congr h8 h9 h7) ?_ hl (by rw [h7]; exact hsame.1)
  · rw [h7, hib, if_neg (fun hh => hs'.2 hh.symm)]
    rcases e.each s' hs'.1 with h | ⟨n', ks, a, b, c', d⟩
    · exact .inl h
    · exact .inr ⟨n', ks, a, b, c', h6 _ d⟩
  · rw [hib, if_pos rfl, hsame.2]; rfl

theorem total_append (w w' : List (Key × Sock)) (s : Sock) : total (w ++ w') s = total w s + total w' s := by simp [total]

theorem total_map (l : List Key) (s s' : Sock) : total (l.map (fun k => (k, s))) s' = if s = s' then l.length else 0 := by
  induction l with
  | nil => simp [total]
  | cons k l ih =>
    simp only [total, List.map_cons, List.count_cons, List.length_cons] at ih ⊢
    rw [ih]
    by_cases h : s = s' <;> simp [h]

theorem handled_exec {cb : Sock → Bool} {st : St} {s : Sock} {n : Tag} {r : Req} (hc : CountsOk st)
    (hw : ∀ x ∈ st.watchers, cb x.2 = true ∧ x.2 ∈ st.opened) (hcb : cb s = false) (hr : ∀ k, r ≠ .watch k)
    (hsil : r.silent = false → inboxOf st s = [] ∧ st.waitOf.get? s = none) :
    Handled cb st s n r (exec st s n r).1 (exec st s n r).2 := by
  cases r with
  | set k v =>
    obtain ⟨e, c, b⟩ := eff_doSet cb hc hw n k v
    simp only [exec, b]; exact .silent rfl e c
  | mset kvs =>
    obtain ⟨e, c, b⟩ := eff_doSets cb n kvs hc hw
    simp only [exec, b]; exact .silent rfl e c
  | append k v =>
    obtain ⟨e, c, b⟩ := eff_write cb (st := record { st with store := st.store.set k ((st.store.get? k).getD [] ++ v) } n (.append k v) none) hc hw k
    simp only [exec, b]; exact .silent rfl ((eff_record _ st _ n _ _).trans e) c
  | cset k e v =>
    obtain ⟨hi, hwo⟩ := hsil rfl
    have key : Handled cb st s n (.cset k e v)
        (match notify k (watchersOf (record { st with store := st.store.set k v } n (.cset k e v) (some (.vec v))) k) (record { st with store := st.store.set k v } n (.cset k e v) (some (.vec v))) with
          | (st, true) => (send st s n (.vec v), true)
          | (st, false) => (st, false)).1
        (match notify k (watchersOf (record { st with store := st.store.set k v } n (.cset k e v) (some (.vec v))) k) (record { st with store := st.store.set k v } n (.cset k e v) (some (.vec v))) with
          | (st, true) => (send st s n (.vec v), true)
          | (st, false) => (st, false)).2 := by
      have hrec := eff_record (fun x => cb x = false) st (st.store.set k v) n (.cset k e v) (some (.vec v))
      obtain ⟨e1, b1, w1, w2, w3⟩ := eff_notify cb (st := record { st with store := st.store.set k v } n (.cset k e v) (some (.vec v))) hw k
      have hlin := e1.lin ⟨n, .cset k e v, some (.vec v)⟩ (by simp [record])
      have hcc : CountsOk (notify k (watchersOf (record { st with store := st.store.set k v } n (.cset k e v) (some (.vec v))) k) (record { st with store := st.store.set k v } n (.cset k e v) (some (.vec v)))).1 :=
        hc.congr w1 w2 w3
      rcases hn : notify k (watchersOf (record { st with store := st.store.set k v } n (.cset k e v) (some (.vec v))) k) (record { st with store := st.store.set k v } n (.cset k e v) (some (.vec v))) with ⟨st1, b⟩
      rw [hn] at e1 b1 hlin hcc
      simp only at b1; subst b1
      exact handled_answer hcb hi hwo rfl (hrec.trans e1) hcc (.inl rfl) hlin
    simp only [exec]
    rcases hg : st.store.get? k with _ | old
    · simp only
      split
      · exact key
      · exact handled_answer hcb hi hwo rfl (.refl _ _) hc (.inr rfl) (by simp [exec, answer, record])
    · simp only
      split
      · exact key
      · exact handled_answer hcb hi hwo rfl (.refl _ _) hc (.inr rfl) (by simp [exec, answer, record])
  | get k =>
    obtain ⟨hi, hwo⟩ := hsil rfl
    simp only [exec]
    split
    · exact handled_answer hcb hi hwo rfl (.refl _ _) hc (.inr rfl) (by simp [exec, answer, record])
    · exact .failed rfl (by simp) (.refl _ _) hc
  | add k d =>
    obtain ⟨hi, hwo⟩ := hsil rfl
    have key : ∀ x, Handled cb st s n (.add k d)
        (notify k (watchersOf (wake (answer { st with store := st.store.set k (toStr x) } s n (.add k d) (.int x)) k) k)
          (wake (answer { st with store := st.store.set k (toStr x) } s n (.add k d) (.int x)) k)).1
        (notify k (watchersOf (wake (answer { st with store := st.store.set k (toStr x) } s n (.add k d) (.int x)) k) k)
          (wake (answer { st with store := st.store.set k (toStr x) } s n (.add k d) (.int x)) k)).2 := by
      intro x
      have h1 : Handled cb st s n (.add k d) (answer { st with store := st.store.set k (toStr x) } s n (.add k d) (.int x)) true :=
        handled_answer (st1 := { st with store := st.store.set k (toStr x) }) hcb hi hwo rfl
          ⟨rfl, rfl, rfl, rfl, rfl, fun _ h => h, fun _ _ => .inl ⟨rfl, rfl⟩⟩ hc (.inr rfl) (by simp [exec, answer, record])
      obtain ⟨e, c, b⟩ := eff_write cb (st := answer { st with store := st.store.set k (toStr x) } s n (.add k d) (.int x)) hc hw k
      rw [b]
      generalize answer { st with store := st.store.set k (toStr x) } s n (.add k d) (.int x) = st1 at *
      generalize (notify k (watchersOf (wake st1 k) k) (wake st1 k)).1 = st2 at *
      cases h1 with
      | silent hs _ _ => cases hs
      | waiting _ hr _ _ _ _ => cases hr
      | answered o _ e1 c1 hi1 hl1 hw1 =>
        refine .answered o rfl (e1.trans ⟨e.opened, e.reqs, e.busy, e.rets, e.watchers, e.lin, fun s' hs' => e.each s' hs'.1⟩) c ?_ (e.lin _ hl1) ?_
        · rcases e.each s hcb with ⟨_, b⟩ | ⟨_, _, a, _⟩
          · rw [b]; exact hi1
          · rw [hw1] at a; cases a
        · rcases e.each s hcb with ⟨a, _⟩ | ⟨_, _, a, _⟩
          · rw [a]; exact hw1
          · rw [hw1] at a; cases a
    simp only [exec]
    rcases hg : st.store.get? k with _ | v
    · exact key _
    · rcases hst : stoll v with _ | y
      · simp only [hst, Option.map_none]; exact .failed rfl (by simp) (.refl _ _) hc
      · simp only [hst, Option.map_some]; exact key _
  | check ks =>
    obtain ⟨hi, hwo⟩ := hsil rfl
    exact handled_answer hcb hi hwo rfl (.refl _ _) hc (.inr rfl) (by simp [exec, answer, record])
  | wait ks =>
    obtain ⟨hi, hwo⟩ := hsil rfl
    simp only [exec]
    split
    · exact handled_answer hcb hi hwo rfl (.refl _ _) hc (.inr rfl) (by simp [exec, answer, record])
    · next hall =>
      refine .waiting ks rfl ⟨rfl, rfl, rfl, rfl, rfl, fun _ h => h, fun s' hs' => .inl ⟨?_, rfl⟩⟩ ?_ hi (by simp [Dict.get?_set])
      · simp only [Dict.get?_set]; rw [if_neg (fun hh => hs'.2 hh.symm)]
      · have hpos : 0 < (missing st ks).length := by
          rcases hm : missing st ks with _ | ⟨a, l⟩
          · exfalso; apply hall
            rw [hasAll_iff]
            intro k hk hnone
            have : k ∈ missing st ks := by simp [missing, hk, hnone]
            rw [hm] at this; cases this
          · simp
        intro s'
        simp only [Dict.get?_set, total_append, total_map]
        have := hc s'
        by_cases hss : s = s'
        · subst hss
          have h0 := this.2 hwo
          simp only [if_true, h0, Nat.zero_add]
          exact ⟨fun _ _ => ⟨trivial, hpos⟩, fun hh => by cases hh⟩
        · simp only [hss, if_false, Nat.add_zero]; exact this
  | numKeys =>
    obtain ⟨hi, hwo⟩ := hsil rfl
    exact handled_answer hcb hi hwo rfl (.refl _ _) hc (.inr rfl) (by simp [exec, answer, record])
  | delete k =>
    obtain ⟨hi, hwo⟩ := hsil rfl
    simp only [exec]
    rcases hg : st.store.get? k with _ | v
    · exact handled_answer hcb hi hwo rfl (.refl _ _) hc (.inr rfl) (by simp [exec, answer, record])
    · obtain ⟨e1, b1, w1, w2, w3⟩ := eff_notify cb (st := st) hw k
      have hcc : CountsOk (notify k (watchersOf st k) st).1 := hc.congr w1 w2 w3
      rcases hn : notify k (watchersOf st k) st with ⟨st1, b⟩
      rw [hn] at e1 b1 hcc
      simp only at b1; subst b1
      refine handled_answer (st1 := { st1 with store := st1.store.erase k }) hcb hi hwo rfl ?_ hcc (.inr rfl) (by simp [exec, answer, record])
      exact ⟨e1.opened, e1.reqs, e1.busy, e1.rets, e1.watchers, e1.lin, e1.each⟩
  | mget ks =>
    obtain ⟨hi, hwo⟩ := hsil rfl
    simp only [exec]
    split
    · exact handled_answer hcb hi hwo rfl (.refl _ _) hc (.inr rfl) (by simp [exec, answer, record])
    · exact .failed rfl (by simp) (.refl _ _) hc
  | watch k => exact absurd rfl (hr k)

theorem reqsOf_set (st : St) (s s' : Sock) (l : List (Tag × Req)) : reqsOf { st with reqs := st.reqs.set s l } s' = if s = s' then l else reqsOf st s' := by
  simp only [reqsOf, Dict.get?_set]; grind

/-- a socket the server's work only touched by answering a wait stays in phase -/
theorem phase_of_eff {st st' : St} {s : Sock} (h : Phase st s) (ho : st'.opened = st.opened) (hb : st'.busy = st.busy) (hr : reqsOf st' s = reqsOf st s)
    (hl : ∀ e ∈ st.lin, e ∈ st'.lin)
    (he : (st'.waitOf.get? s = st.waitOf.get? s ∧ inboxOf st' s = inboxOf st s) ∨
      ∃ n ks, st.waitOf.get? s = some (n, ks) ∧ st'.waitOf.get? s = none ∧ inboxOf st' s = inboxOf st s ++ [(n, .byte 0)] ∧
      ⟨n, .wait ks, some (.byte 0)⟩ ∈ st'.lin) : Phase st' s := by
  simp only [Phase, hb, ho, hr] at h ⊢
  rcases hbs : st.busy.get? s with _ | ⟨n, r⟩
  · rw [hbs] at h
    simp only at h ⊢
    rcases he with ⟨h1, h2⟩ | ⟨n, ks, h1, _⟩
    · rw [h1, h2]; exact h
    · rw [h.2.1] at h1; cases h1
  · rw [hbs] at h
    simp only at h ⊢
    refine ⟨h.1, ?_⟩
    rcases he with ⟨h1, h2⟩ | ⟨n', ks, h1, h2, h3, h4⟩
    · rw [h1, h2]
      rcases h.2 with hh | hh | ⟨o, a, b, c, d⟩ | hh
      · exact .inl hh
      · exact .inr (.inl hh)
      · exact .inr (.inr (.inl ⟨o, a, b, hl _ c, d⟩))
      · exact .inr (.inr (.inr hh))
    · rcases h.2 with ⟨_, _, _, _, d⟩ | ⟨a, b, ⟨ks', c, d⟩, _⟩ | ⟨o, _, _, _, d⟩ | ⟨_, _, d, _⟩
      · rw [d] at h1; cases h1
      · rw [d] at h1; cases h1
        exact .inr (.inr (.inl ⟨.byte 0, a, by rw [h3, b]; rfl, c ▸ h4, h2⟩))
      · rw [d] at h1; cases h1
      · rw [d] at h1; cases h1

theorem countsOk_drop {st : St} (h : CountsOk st) (s : Sock) : CountsOk (drop st s) := by
  intro s'
  have := h s'
  simp only [drop, Dict.get?_erase]
  by_cases hss : s = s'
  · subst hss
    simp only [if_true]
    refine ⟨fun _ hh => (by cases hh), fun _ => ?_⟩
    simp [total, List.count_eq_zero]
  · have ht : total (st.waiting.filter (·.2 ≠ s)) s' = total st.waiting s' := by
      clear this h
      simp only [total]
      induction st.waiting with
      | nil => rfl
      | cons x xs ih =>
        by_cases hx : x.2 = s
        · have : ¬ x.2 = s' := fun hh => hss (hx.symm.trans hh)
          simp only [List.filter_cons, hx, ne_eq, not_true_eq_false, decide_false, Bool.false_eq_true, if_false, List.map_cons, List.count_cons]
          rw [ih]; simp [hss]
        · simp only [List.filter_cons, hx, ne_eq, not_false_eq_true, decide_true, if_true, List.map_cons, List.count_cons, ih]
    rw [ht]
    simp only [hss, if_false]
    exact this

theorem inv_init (cb : Sock → Bool) : Inv cb init := by
  refine ⟨?_, by simp [init], ?_, ?_, by simp [init], by simp [init], fun _ _ => rfl⟩
  · intro s; exact ⟨fun x hx => (by cases hx), fun _ => rfl⟩
  · intro s _; exact ⟨rfl, rfl, fun x hx => by simp [reqsOf, init] at hx⟩
  · intro s x hx; simp [reqsOf, init] at hx

theorem reqsOf_congr {st st' : St} (h : st'.reqs = st.reqs) (s : Sock) : reqsOf st' s = reqsOf st s := by simp [reqsOf, h]

theorem inv_handle {cb : Sock → Bool} {st st' : St} {s : Sock} (h : Inv cb st) (hs : step st (.handle s) = some st') : Inv cb st' := by
  obtain ⟨h1, h2, h3, h4, h5, h6, h7⟩ := h
  simp only [step] at hs
  split at hs
  case isFalse => cases hs
  next hopen =>
  split at hs
  · cases hs
  · next n r rest hr =>
    have hrq : ∀ s', reqsOf { st with reqs := st.reqs.set s rest } s' = if s = s' then rest else reqsOf st s' := fun s' => reqsOf_set st s s' rest
    have hreq : ∀ s', ∀ x ∈ reqsOf { st with reqs := st.reqs.set s rest } s', cb s' = true ↔ ∃ k, x.2 = .watch k := by
      intro s' x hx'
      rw [hrq] at hx'
      split at hx'
      · next hh => subst hh; exact h4 s x (by rw [hr]; simp [hx'])
      · exact h4 s' x hx'
    have hopn : ∀ s', s' ∉ st.opened → reqsOf { st with reqs := st.reqs.set s rest } s' = [] := by
      intro s' hs'
      rw [hrq, if_neg (by intro hh; subst hh; exact hs' hopen)]
      exact h7 s' hs'
    by_cases hcb : cb s = true
    · -- a watch
      obtain ⟨k, hk⟩ := (h4 s (n, r) (by rw [hr]; simp)).mp hcb
      simp only at hk; subst hk
      simp only [exec] at hs
      cases hs
      refine ⟨h1, ?_, ?_, ?_, ?_, h6, ?_⟩
      · intro x hx
        simp only [answer, record, send, List.mem_append, List.mem_singleton] at hx
        rcases hx with hx | rfl
        · exact h2 x hx
        · exact ⟨hcb, hopen⟩
      · intro s' hs'
        have hne : ¬ s = s' := fun hh => by rw [hh, hs'] at hcb; cases hcb
        refine phase_of_eff (h3 s' hs') rfl rfl ?_ (fun e he => by simp [answer, record, send, he]) (.inl ⟨rfl, ?_⟩)
        · have := hrq s'
          rw [if_neg hne] at this; exact this
        · have := inboxOf_send { st with reqs := st.reqs.set s rest, watchers := st.watchers ++ [(k, s)] } s s' n (.byte 3)
          rw [if_neg hne] at this; exact this
      · exact hreq
      · intro e he hne; have := h5 e he hne; simp [answer, record, send, this]
      · exact hopn
    · have hcb : cb s = false := by simpa using hcb
      have hph := h3 s hcb
      -- the request is the next of this client
      have hcase : (r.silent = true ∧ Phase { st with reqs := st.reqs.set s rest } s) ∨
          (r.silent = false ∧ st.busy.get? s = some (n, r) ∧ rest = [] ∧ inboxOf st s = [] ∧ st.waitOf.get? s = none) := by
        simp only [Phase] at hph ⊢
        rcases hb : st.busy.get? s with _ | ⟨n', r'⟩
        · rw [hb] at hph
          simp only at hph ⊢
          left
          refine ⟨hph.2.2 (n, r) (by rw [hr]; simp), hph.1, hph.2.1, ?_⟩
          rw [hrq, if_pos rfl]
          intro x hx; exact hph.2.2 x (by rw [hr]; simp [hx])
        · rw [hb] at hph
          simp only at hph ⊢
          rcases hph.2 with ⟨front, f1, f2, f3, f4⟩ | ⟨f1, _⟩ | ⟨_, f1, _⟩ | ⟨f1, _⟩
          · rw [hr] at f1
            rcases front with _ | ⟨x, xs⟩
            · simp at f1; obtain ⟨⟨e1, e2⟩, e3⟩ := f1; subst e1 e2 e3
              exact .inr ⟨hph.1, rfl, rfl, f3, f4⟩
            · simp at f1; obtain ⟨e1, e2⟩ := f1; subst e1
              left
              refine ⟨f2 (n, r) (by simp), hph.1, .inl ⟨xs, ?_, fun y hy => f2 y (by simp [hy]), f3, f4⟩⟩
              rw [hrq, if_pos rfl, e2]
          · rw [hr] at f1; cases f1
          · rw [hr] at f1; cases f1
          · rw [hr] at f1; cases f1
      have hnw : ∀ k, r ≠ .watch k := by
        intro k hk
        have := (h4 s (n, r) (by rw [hr]; simp)).mpr ⟨k, hk⟩
        rw [hcb] at this; cases this
      have hE := handled_exec (cb := cb) (st := { st with reqs := st.reqs.set s rest }) (s := s) (n := n) (r := r) h1 h2 hcb hnw
        (fun hsil => by
          rcases hcase with ⟨hh, _⟩ | ⟨_, _, _, a, b⟩
          · rw [hsil] at hh; cases hh
          · exact ⟨a, b⟩)
      have hph0 : ∀ s', cb s' = false → s' ≠ s → Phase { st with reqs := st.reqs.set s rest } s' := by
        intro s' hs' hne
        refine phase_of_eff (h3 s' hs') rfl rfl ?_ (fun _ he => he) (.inl ⟨rfl, rfl⟩)
        rw [hrq, if_neg (fun hh => hne hh.symm)]
      rcases he : exec { st with reqs := st.reqs.set s rest } s n r with ⟨st2, b⟩
      rw [he] at hE hs
      simp only at hE
      clear he
      generalize hp : { st with reqs := st.reqs.set s rest } = stp at *
      have hpb : stp.busy = st.busy := by rw [← hp]
      have hpo : stp.opened = st.opened := by rw [← hp]
      have hpw : stp.watchers = st.watchers := by rw [← hp]
      have hpr : stp.rets = st.rets := by rw [← hp]
      have hpl : stp.lin = st.lin := by rw [← hp]
      -- the parts common to all outcomes
      have common : ∀ (D : Sock → Prop) (st2 : St), Eff D stp st2 →
          (∀ x ∈ st2.watchers, cb x.2 = true ∧ x.2 ∈ st2.opened) ∧ (∀ s', ∀ x ∈ reqsOf st2 s', cb s' = true ↔ ∃ k, x.2 = .watch k) ∧
          (∀ e ∈ st2.rets, (∀ k, e.req ≠ .watch k) → e ∈ st2.lin) ∧ (∀ s', cb s' = true → ∀ x, st2.busy.get? s' = some x → ∃ k, x.2 = .watch k) ∧
          (∀ s', s' ∉ st2.opened → reqsOf st2 s' = []) := by
        intro D st2 e
        refine ⟨?_, ?_, ?_, ?_, ?_⟩
        · rw [e.watchers, e.opened, hpw, hpo]; exact h2
        · intro s' x hx; rw [reqsOf_congr e.reqs] at hx; exact hreq s' x hx
        · intro x hx hne; rw [e.rets, hpr] at hx; exact e.lin _ (hpl ▸ h5 x hx hne)
        · rw [e.busy, hpb]; exact h6
        · intro s' hs'; rw [reqsOf_congr e.reqs]; exact hopn s' (by rw [e.opened, hpo] at hs'; exact hs')
      cases hE with
      | silent hsil e c =>
        cases hs
        obtain ⟨k1, k2, k3, k4, k5⟩ := common _ _ e
        refine ⟨c, k1, fun s' hs' => ?_, k2, k3, k4, k5⟩
        refine phase_of_eff ?_ e.opened e.busy (reqsOf_congr e.reqs s') e.lin (e.each s' hs')
        by_cases hne : s' = s
        · subst hne
          rcases hcase with ⟨_, hh⟩ | ⟨hh, _⟩
          · exact hh
          · rw [hsil] at hh; cases hh
        · exact hph0 s' hs' hne
      | answered o hsil e c hi hl hw =>
        cases hs
        obtain ⟨k1, k2, k3, k4, k5⟩ := common _ _ e
        refine ⟨c, k1, fun s' hs' => ?_, k2, k3, k4, k5⟩
        by_cases hne : s' = s
        · subst hne
          rcases hcase with ⟨hh, _⟩ | ⟨_, hb, hrest, _⟩
          · rw [hsil] at hh; cases hh
          · simp only [Phase, e.busy, hpb, hb]
            refine ⟨hsil, .inr (.inr (.inl ⟨o, ?_, hi, hl, hw⟩))⟩
            rw [reqsOf_congr e.reqs, hrq, if_pos rfl, hrest]
        · exact phase_of_eff (hph0 s' hs' hne) e.opened e.busy (reqsOf_congr e.reqs s') e.lin (e.each s' ⟨hs', hne⟩)
      | waiting ks hrk e c hi hw =>
        cases hs
        obtain ⟨k1, k2, k3, k4, k5⟩ := common _ _ e
        refine ⟨c, k1, fun s' hs' => ?_, k2, k3, k4, k5⟩
        by_cases hne : s' = s
        · subst hne
          rcases hcase with ⟨hh, _⟩ | ⟨hsil, hb, hrest, _⟩
          · rw [hrk] at hh; cases hh
          · simp only [Phase, e.busy, hpb, hb]
            refine ⟨hsil, .inr (.inl ⟨?_, hi, ⟨ks, hrk, hw⟩, fun hh => hh (by rw [e.opened, hpo]; exact hopen)⟩)⟩
            rw [reqsOf_congr e.reqs, hrq, if_pos rfl, hrest]
        · exact phase_of_eff (hph0 s' hs' hne) e.opened e.busy (reqsOf_congr e.reqs s') e.lin (e.each s' ⟨hs', hne⟩)
      | failed hsil hnwait e c =>
        cases hs
        obtain ⟨k1, k2, k3, k4, k5⟩ := common _ _ e
        have hdr : ∀ s', reqsOf (drop st2 s) s' = if s = s' then [] else reqsOf st2 s' := fun s' => reqsOf_set st2 s s' []
        refine ⟨countsOk_drop c s, ?_, fun s' hs' => ?_, ?_, k3, k4, ?_⟩
        · intro x hx
          obtain ⟨a, b⟩ := k1 x hx
          refine ⟨a, ?_⟩
          simp only [drop, List.mem_filter, decide_eq_true_eq]
          exact ⟨b, fun hh => by rw [hh, hcb] at a; cases a⟩
        · by_cases hne : s' = s
          · subst hne
            rcases hcase with ⟨hh, _⟩ | ⟨_, hb, hrest, hin, hwn⟩
            · rw [hsil] at hh; cases hh
            · have hb2 : (drop st2 s').busy.get? s' = some (n, r) := by
                show st2.busy.get? s' = _
                rw [e.busy, hpb, hb]
              simp only [Phase, hb2]
              refine ⟨hsil, .inr (.inr (.inr ⟨by rw [hdr, if_pos rfl], ?_, ?_, ?_, hnwait⟩))⟩
              · show inboxOf st2 s' = []
                rcases e.each s' hcb with ⟨_, b⟩ | ⟨_, _, a, _⟩
                · rw [b]; rw [← hp]; exact hin
                · rw [← hp] at a; rw [show st.waitOf.get? s' = none from hwn] at a; cases a
              · simp [drop, Dict.get?_erase]
              · simp [drop]
          · have hph2 := phase_of_eff (hph0 s' hs' hne) e.opened e.busy (reqsOf_congr e.reqs s') e.lin (e.each s' hs')
            have hne' : ¬ s = s' := fun hh => hne hh.symm
            have hw' : (drop st2 s).waitOf.get? s' = st2.waitOf.get? s' := by simp [drop, Dict.get?_erase, hne']
            simp only [Phase, hw', hdr, if_neg hne'] at hph2 ⊢
            have hbb : (drop st2 s).busy = st2.busy := rfl
            have hbi : inboxOf (drop st2 s) s' = inboxOf st2 s' := rfl
            have hbl : (drop st2 s).lin = st2.lin := rfl
            have hbo : s' ∉ (drop st2 s).opened ↔ s' ∉ st2.opened := by simp [drop, hne]
            rw [hbb, hbi, hbl, hbo]; exact hph2
        · intro s' x hx
          rw [hdr] at hx
          split at hx
          · cases hx
          · exact k2 s' x hx
        · intro s' hs'
          rw [hdr]
          split
          · rfl
          · next hne =>
            apply k5 s'
            intro hh; apply hs'
            simp only [drop, List.mem_filter, decide_eq_true_eq]
            exact ⟨hh, fun hh' => hne hh'.symm⟩

theorem inv_step {cb : Sock → Bool} {st st' : St} {l : Label} (h : Inv cb st) (hok : Ok cb l) (hs : step st l = some st') : Inv cb st' := by
  cases l with
  | handle s => exact inv_handle h hs
  | timeout s => exact hok.elim
  | connect s =>
    obtain ⟨h1, h2, h3, h4, h5, h6, h7⟩ := h
    simp only [step] at hs
    split at hs <;> cases hs
    next hno =>
    have hdr : ∀ s', reqsOf { st with opened := st.opened ++ [s], reqs := st.reqs.set s [], inbox := st.inbox.set s [], busy := st.busy.erase s } s' = if s = s' then [] else reqsOf st s' := by
      intro s'; simp only [reqsOf, Dict.get?_set]; grind
    have hib : ∀ s', inboxOf { st with opened := st.opened ++ [s], reqs := st.reqs.set s [], inbox := st.inbox.set s [], busy := st.busy.erase s } s' = if s = s' then [] else inboxOf st s' := by
      intro s'; simp only [inboxOf, Dict.get?_set]; grind
    refine ⟨h1, fun x hx => ⟨(h2 x hx).1, by simp [(h2 x hx).2]⟩, fun s' hs' => ?_, ?_, h5, ?_, ?_⟩
    · have hp := h3 s' hs'
      simp only [Phase, hdr, hib, Dict.get?_erase] at hp ⊢
      by_cases hss : s = s'
      · subst hss
        simp only [if_true]
        refine ⟨trivial, ?_, by simp⟩
        rcases hb : st.busy.get? s with _ | ⟨n, r⟩
        · rw [hb] at hp; exact hp.2.1
        · rw [hb] at hp
          rcases hp.2 with ⟨_, _, _, _, a⟩ | ⟨_, _, _, hk⟩ | ⟨_, _, _, _, a⟩ | ⟨_, _, a, _⟩
          · exact a
          · exact absurd hno hk
          · exact a
          · exact a
      · simp only [hss, if_false]
        have hss' : ¬ s' = s := fun hh => hss hh.symm
        simpa [hss'] using hp
    · intro s' x hx
      rw [hdr] at hx
      split at hx
      · cases hx
      · exact h4 s' x hx
    · intro s' hs' x hx
      simp only [Dict.get?_erase] at hx
      split at hx
      · cases hx
      · exact h6 s' hs' x hx
    · intro s' hs'
      rw [hdr]
      split
      · rfl
      · exact h7 s' (fun hh => hs' (by simp [hh]))
  | invoke s r =>
    obtain ⟨h1, h2, h3, h4, h5, h6, h7⟩ := h
    simp only [step] at hs
    split at hs <;> cases hs
    next hop =>
    obtain ⟨hop, hbn⟩ := hop
    have hdr : ∀ s' b nx, reqsOf { st with reqs := st.reqs.set s (reqsOf st s ++ [(st.next, r)]), busy := b, next := nx } s' = if s = s' then reqsOf st s ++ [(st.next, r)] else reqsOf st s' := by
      intro s' b nx; simp only [reqsOf, Dict.get?_set]; grind
    have hok : cb s = true ↔ ∃ k, r = .watch k := hok
    refine ⟨h1, h2, fun s' hs' => ?_, ?_, h5, ?_, ?_⟩
    · have hp := h3 s' hs'
      by_cases hss : s = s'
      · subst hss
        simp only [Phase, hbn] at hp
        cases hsil : r.silent
        · simp only [Phase, hdr, if_true, Bool.false_eq_true, if_false, Dict.get?_set]
          exact ⟨hsil, .inl ⟨reqsOf st s, rfl, hp.2.2, hp.1, hp.2.1⟩⟩
        · simp only [Phase, hdr, if_true, hbn]
          refine ⟨hp.1, hp.2.1, ?_⟩
          intro x hx
          simp only [List.mem_append, List.mem_singleton] at hx
          rcases hx with hx | rfl
          · exact hp.2.2 x hx
          · exact hsil
      · have hbb : (if r.silent = true then st.busy else st.busy.set s (st.next, r)).get? s' = st.busy.get? s' := by
          split
          · rfl
          · simp [Dict.get?_set, hss]
        simp only [Phase, hdr, hss, if_false, hbb] at hp ⊢
        exact hp
    · intro s' x hx
      simp only [hdr] at hx
      split at hx
      · next hh =>
        subst hh
        simp only [List.mem_append, List.mem_singleton] at hx
        rcases hx with hx | rfl
        · exact h4 s x hx
        · exact hok
      · exact h4 s' x hx
    · intro s' hs' x hx
      cases hsil : r.silent
      · simp only [hsil, Bool.false_eq_true, if_false, Dict.get?_set] at hx
        split at hx
        · next hh => subst hh; cases hx; exact hok.mp hs'
        · exact h6 s' hs' x hx
      · simp only [hsil, if_true] at hx
        exact h6 s' hs' x hx
    · intro s' hs'
      simp only [hdr]
      split
      · next hh => subst hh; exact absurd hop hs'
      · exact h7 s' hs'
  | ret s =>
    obtain ⟨h1, h2, h3, h4, h5, h6, h7⟩ := h
    simp only [step] at hs
    split at hs <;> cases hs
    next n r x o rest hb hi =>
    have hib : ∀ s' b rt, inboxOf { st with inbox := st.inbox.set s rest, busy := b, rets := rt } s' = if s = s' then rest else inboxOf st s' := by
      intro s' b rt; simp only [inboxOf, Dict.get?_set]; grind
    have hrq : ∀ s' b rt ib, reqsOf { st with inbox := ib, busy := b, rets := rt } s' = reqsOf st s' := fun _ _ _ _ => rfl
    -- the operation was answered
    have hans : cb s = false → reqsOf st s = [] ∧ rest = [] ∧ ⟨n, r, some o⟩ ∈ st.lin ∧ st.waitOf.get? s = none := by
      intro hcb
      have hp := h3 s hcb
      simp only [Phase, hb] at hp
      rcases hp.2 with ⟨_, _, _, a, _⟩ | ⟨_, a, _⟩ | ⟨o', a, b, c, d⟩ | ⟨_, a, _⟩
      · rw [a] at hi; cases hi
      · rw [a] at hi; cases hi
      · rw [b] at hi; cases hi; exact ⟨a, rfl, c, d⟩
      · rw [a] at hi; cases hi
    refine ⟨h1, h2, fun s' hs' => ?_, h4, ?_, ?_, h7⟩
    · have hp := h3 s' hs'
      by_cases hss : s = s'
      · subst hss
        obtain ⟨a, b, c, d⟩ := hans hs'
        simp only [Phase, hib, if_true, Dict.get?_erase, hrq]
        exact ⟨b, d, by rw [a]; simp⟩
      · simp only [Phase, hib, hss, if_false, Dict.get?_erase, hrq] at hp ⊢
        exact hp
    · intro e he hne
      simp only [List.mem_append, List.mem_singleton] at he
      rcases he with he | rfl
      · exact h5 e he hne
      · rcases hcb : cb s
        · exact (hans hcb).2.2.1
        · obtain ⟨k, hk⟩ := h6 s hcb _ hb
          exact absurd hk (hne k)
    · intro s' hs' y hy
      simp only [Dict.get?_erase] at hy
      split at hy
      · cases hy
      · exact h6 s' hs' y hy
  | disconnect s =>
    obtain ⟨h1, h2, h3, h4, h5, h6, h7⟩ := h
    simp only [step] at hs
    split at hs <;> cases hs
    have hok : cb s = false := hok
    have hc := countsOk_drop h1 s
    generalize hst : ({ drop st s with busy := st.busy.erase s, inbox := st.inbox.set s [] } : St) = st2
    have e1 : st2.watchers = st.watchers := by rw [← hst]; rfl
    have e2 : st2.opened = st.opened.filter (· ≠ s) := by rw [← hst]; rfl
    have e3 : st2.busy = st.busy.erase s := by rw [← hst]
    have e4 : st2.waitOf = st.waitOf.erase s := by rw [← hst]; rfl
    have e5 : st2.rets = st.rets := by rw [← hst]; rfl
    have e6 : st2.lin = st.lin := by rw [← hst]; rfl
    have hdr : ∀ s', reqsOf st2 s' = if s = s' then [] else reqsOf st s' := by
      intro s'; rw [← hst]; simp only [reqsOf, drop, Dict.get?_set]; grind
    have hib : ∀ s', inboxOf st2 s' = if s = s' then [] else inboxOf st s' := by
      intro s'; rw [← hst]; simp only [inboxOf, drop, Dict.get?_set]; grind
    have hc2 : CountsOk st2 := by rw [← hst]; exact hc
    clear hst hc
    refine ⟨hc2, ?_, fun s' hs' => ?_, ?_, by rw [e5, e6]; exact h5, ?_, ?_⟩
    · intro x hx
      rw [e1] at hx
      obtain ⟨a, b⟩ := h2 x hx
      refine ⟨a, ?_⟩
      simp only [e2, List.mem_filter, decide_eq_true_eq]
      exact ⟨b, fun hh => by rw [hh, hok] at a; cases a⟩
    · have hp := h3 s' hs'
      by_cases hss : s = s'
      · subst hss
        simp only [Phase, hdr, hib, e3, e4, Dict.get?_erase, if_true]
        simp
      · have hss' : ¬ s' = s := fun hh => hss hh.symm
        simp only [Phase, hdr, hib, e2, e3, e4, e6, Dict.get?_erase, hss, if_false] at hp ⊢
        simpa [hss'] using hp
    · intro s' x hx
      rw [hdr] at hx
      split at hx
      · cases hx
      · exact h4 s' x hx
    · intro s' hs' x hx
      simp only [e3, Dict.get?_erase] at hx
      split at hx
      · cases hx
      · exact h6 s' hs' x hx
    · intro s' hs'
      rw [hdr]
      split
      · rfl
      · next hne =>
        apply h7 s'
        intro hh; apply hs'
        simp only [e2, List.mem_filter, decide_eq_true_eq]
        exact ⟨hh, fun hh' => hne hh'.symm⟩

/-! ## What fails -/

theorem isDigit_iff (c : Char) : c.isDigit = true ↔ '0' ≤ c ∧ c ≤ '9' := by
  simp only [Char.isDigit, Bool.and_eq_true, decide_eq_true_eq, Char.le_def]

theorem digits_split (v : Val) : ∃ rest, v = digits v ++ rest ∧ (∀ c ∈ digits v, c.isDigit = true) ∧ ∀ c, rest.head? = some c → ¬ c.isDigit = true := by
  induction v with
  | nil => exact ⟨[], rfl, by simp [digits], by simp⟩
  | cons c t ih =>
    obtain ⟨rest, h1, h2, h3⟩ := ih
    by_cases hc : c.isDigit = true
    · refine ⟨rest, ?_, ?_, h3⟩
      · simp only [digits, hc, if_true, List.cons_append]; rw [← h1]
      · simp only [digits, hc, if_true, List.mem_cons]; rintro x (rfl | hx); exact hc; exact h2 x hx
    · refine ⟨c :: t, by simp [digits, hc], by simp [digits, hc], ?_⟩
      intro x hx; simp at hx; rw [← hx]; exact hc

theorem digits_append (ds rest : List Char) (h : ∀ c ∈ ds, c.isDigit = true) (hr : ∀ c, rest.head? = some c → ¬ c.isDigit = true) :
    digits (ds ++ rest) = ds := by
  induction ds with
  | nil =>
    cases rest with
    | nil => rfl
    | cons c t => simp only [List.nil_append, digits]; rw [if_neg (hr c rfl)]
  | cons c t ih =>
    simp only [List.cons_append, digits]
    rw [if_pos (h c (by simp)), ih (fun x hx => h x (by simp [hx]))]

theorem value_eq (l : List Char) : value l = decimal l := by
  have : ∀ n, Nat.ofDigitChars 10 l n = l.foldl (fun n c => 10 * n + (c.toNat - 48)) n := by
    intro n
    simp [Nat.ofDigitChars]
  exact this 0

theorem inRange_iff (i : Int) : inRange i = true ↔ -(2 ^ 63 : Int) ≤ i ∧ i < (2 ^ 63 : Int) := by
  unfold inRange; rw [decide_eq_true_iff]
  have : (2 ^ 63 : Int) = 9223372036854775808 := by decide
  rw [this]

theorem dropWhile_blanks (blanks t : Val) (h : ∀ c ∈ blanks, c = ' ') (ht : ∀ c, t.head? = some c → c ≠ ' ') :
    (blanks ++ t).dropWhile (· == ' ') = t := by
  induction blanks with
  | nil =>
    cases t with
    | nil => rfl
    | cons c t =>
      have : (c == ' ') = false := by simpa using ht c rfl
      simp [List.dropWhile_cons, this]
  | cons c b ih =>
    have : c = ' ' := h c (by simp)
    simp only [List.cons_append, List.dropWhile_cons, this, beq_self_eq_true, if_true]
    exact ih (fun x hx => h x (by simp [hx]))

theorem blanks_split (v : Val) : ∃ b, v = b ++ v.dropWhile (· == ' ') ∧ ∀ c ∈ b, c = ' ' := by
  induction v with
  | nil => exact ⟨[], rfl, by simp⟩
  | cons c t ih =>
    obtain ⟨b, h1, h2⟩ := ih
    by_cases hc : c = ' '
    · refine ⟨c :: b, ?_, ?_⟩
      · rw [List.dropWhile_cons, if_pos (by simpa using hc), List.cons_append, ← h1]
      · intro x hx; rcases List.mem_cons.mp hx with h | h
        · rw [h]; exact hc
        · exact h2 x h
    · exact ⟨[], by rw [List.dropWhile_cons, if_neg (by simpa using hc)]; rfl, by simp⟩

/-- the value `add` finds is the number the text begins with; and without such a number it fails -/
theorem stoll_exact (v : Val) (i : Int) : stoll v = some i ↔ StartsWithInt v i := by
  constructor
  · intro h
    obtain ⟨b, hb, hbs⟩ := blanks_split v
    have key : ∀ (sign t : List Char), v.dropWhile (· == ' ') = sign ++ t → (sign = [] ∨ sign = ['+'] ∨ sign = ['-']) → digits t ≠ [] →
        i = (if sign = ['-'] then -(value (digits t) : Int) else value (digits t)) → inRange i = true → StartsWithInt v i := by
      intro sign t hst hsg hne hi hr
      obtain ⟨rest, h1, h2, h3⟩ := digits_split t
      refine ⟨b, sign, digits t, rest, ?_, hbs, hsg, hne, fun c hc => (isDigit_iff c).mp (h2 c hc), fun c hc hh => h3 c hc ((isDigit_iff c).mpr hh), ?_,
        (inRange_iff i).mp hr⟩
      · rw [List.append_assoc, ← h1, List.append_assoc, ← hst]; exact hb
      · rw [hi, value_eq]
    simp only [stoll] at h
    generalize hv : v.dropWhile (· == ' ') = w at h key
    split at h
    · rename_i r j hj
      split at h
      · rename_i hr
        injection h with h; subst h
        split at hj
        · rename_i t
          split at hj
          · cases hj
          · rename_i hne; injection hj with hj
            exact key ['-'] t rfl (.inr (.inr rfl)) hne (by rw [if_pos rfl]; exact hj.symm) hr
        · rename_i t
          split at hj
          · cases hj
          · rename_i hne; injection hj with hj
            exact key ['+'] t rfl (.inr (.inl rfl)) hne (by rw [if_neg (by decide)]; exact hj.symm) hr
        · split at hj
          · cases hj
          · rename_i hne; injection hj with hj
            exact key [] w rfl (.inl rfl) hne (by rw [if_neg (by decide)]; exact hj.symm) hr
      · cases h
    · cases h
  · rintro ⟨b, sign, ds, rest, hv, hb, hsg, hne, hds, hrest, hi, hlo, hhi⟩
    have hd : digits (ds ++ rest) = ds :=
      digits_append ds rest (fun c hc => (isDigit_iff c).mpr (hds c hc)) (fun c hc hh => hrest c hc ((isDigit_iff c).mp hh))
    have hr : inRange i = true := (inRange_iff i).mpr ⟨hlo, hhi⟩
    rcases ds with _ | ⟨c, ds⟩
    · exact absurd rfl hne
    have hc := hds c (by simp)
    have hcd : c.isDigit = true := (isDigit_iff c).mpr hc
    have hc1 : c ≠ ' ' := fun e => by rw [e] at hcd; exact absurd hcd (by decide)
    have hc2 : c ≠ '-' := fun e => by rw [e] at hcd; exact absurd hcd (by decide)
    have hc3 : c ≠ '+' := fun e => by rw [e] at hcd; exact absurd hcd (by decide)
    rcases hsg with rfl | rfl | rfl
    · have hw : v.dropWhile (· == ' ') = (c :: ds) ++ rest := by
        rw [hv, List.append_nil, List.append_assoc]
        exact dropWhile_blanks _ _ hb (fun x hx => by simp at hx; rw [← hx]; exact hc1)
      rw [if_neg (by decide)] at hi
      simp only [stoll, hw]
      split
      · rename_i r j hj
        split at hj
        · rename_i heq; injection heq with e _; exact absurd e hc2
        · rename_i heq; injection heq with e _; exact absurd e hc3
        · rw [hd, if_neg hne, value_eq, ← hi] at hj; injection hj with hj; rw [← hj, if_pos hr]
      · rename_i r hj
        split at hj
        · rename_i heq; injection heq with e _; exact absurd e hc2
        · rename_i heq; injection heq with e _; exact absurd e hc3
        · rw [hd, if_neg hne] at hj; cases hj
    · have hw : v.dropWhile (· == ' ') = '+' :: ((c :: ds) ++ rest) := by
        rw [hv, List.append_assoc, List.append_assoc]
        exact dropWhile_blanks _ _ hb (fun x hx => by simp at hx; rw [← hx]; decide)
      rw [if_neg (by decide)] at hi
      simp only [stoll, hw, hd]
      rw [if_neg hne, value_eq, ← hi]
      simp only [hr, if_true]
    · have hw : v.dropWhile (· == ' ') = '-' :: ((c :: ds) ++ rest) := by
        rw [hv, List.append_assoc, List.append_assoc]
        exact dropWhile_blanks _ _ hb (fun x hx => by simp at hx; rw [← hx]; decide)
      rw [if_pos rfl] at hi
      simp only [stoll, hw, hd]
      rw [if_neg hne, value_eq, ← hi]
      simp only [hr, if_true]
example : StartsWithInt [' ', '+', '4', '2', 'x'] 42 := ⟨[' '], ['+'], ['4', '2'], ['x'], rfl, by decide, by decide, by decide, by decide, by decide, by decide, by decide, by decide⟩
example : ¬ ∃ i, StartsWithInt ['+', '-', '1'] i := by
  rintro ⟨i, h⟩
  have := (stoll_exact _ _).mpr h
  rw [show stoll ['+', '-', '1'] = none from by decide] at this; cases this

/-- addition is in 64 bits: the result fits and differs from the true one by a multiple of 2^64 -/
theorem wrap_exact (i x : Int) : x = wrap i ↔ -(2 ^ 63 : Int) ≤ x ∧ x < (2 ^ 63 : Int) ∧ ∃ z : Int, x = i + 2 ^ 64 * z := by
  have h63 : (2 ^ 63 : Int) = 9223372036854775808 := by decide
  have h64 : (2 ^ 64 : Int) = 18446744073709551616 := by decide
  rw [h63, h64]
  unfold wrap
  constructor
  · rintro rfl
    refine ⟨by omega, by omega, -((i + 9223372036854775808) / 18446744073709551616), ?_⟩
    have := Int.emod_add_mul_ediv (i + 9223372036854775808) 18446744073709551616
    rw [Int.mul_neg]
    omega
  · rintro ⟨h1, h2, z, rfl⟩
    have : (i + 18446744073709551616 * z + 9223372036854775808) % 18446744073709551616 = (i + 9223372036854775808) % 18446744073709551616 := by
      rw [show i + 18446744073709551616 * z + 9223372036854775808 = i + 9223372036854775808 + 18446744073709551616 * z by omega, Int.add_mul_emod_self_left]
    rw [← this, Int.emod_eq_of_lt (by omega) (by omega)]
    omega

theorem notify_iff (k : Key) (l : List Sock) (st : St) : (notify k l st).2 = true ↔ ∀ s ∈ l, s ∈ st.opened := by
  induction l generalizing st with
  | nil => simp [notify]
  | cons s l ih =>
    simp only [notify]
    by_cases hs : s ∈ st.opened
    · rw [if_pos hs, ih]; simp [send, hs]
    · rw [if_neg hs]; simp [hs]

theorem wake_opened (st : St) (k : Key) : (wake st k).opened = st.opened := by
  have : ∀ (l : List Sock) (st : St), (l.foldl wakeOne st).opened = st.opened := by
    intro l
    induction l with
    | nil => intro st; rfl
    | cons s l ih =>
      intro st
      rw [List.foldl_cons, ih]
      simp only [wakeOne]
      split
      · split <;> rfl
      · rfl
  simp only [wake]; exact this _ _

theorem watchers_notify (st st' : St) (k : Key) (h1 : st'.watchers = st.watchers) (h2 : st'.opened = st.opened) :
    (notify k (watchersOf st' k) st').2 = false ↔ Blind st k := by
  have := notify_iff k (watchersOf st' k) st'
  rw [← Bool.not_eq_true, this]
  simp only [watchersOf, h1, h2, List.mem_map, List.mem_filter, decide_eq_true_eq, Blind]
  constructor
  · intro hh
    apply Classical.byContradiction
    intro hn
    apply hh
    rintro s ⟨⟨a, b⟩, ⟨hm, rfl⟩, rfl⟩
    apply Classical.byContradiction
    intro hs
    exact hn ⟨b, hm, hs⟩
  · rintro ⟨w, hm, hw⟩ hh
    exact hw (hh w ⟨(k, w), ⟨hm, rfl⟩, rfl⟩)

theorem doSet_fails (st : St) (n : Tag) (k : Key) (v : Val) : (doSet st n k v).2 = false ↔ Blind st k :=
  watchers_notify st _ k (wake_keeps _ k).2.1 (wake_opened _ k)

theorem doSet_same (st : St) (n : Tag) (k : Key) (v : Val) : (doSet st n k v).1.watchers = st.watchers ∧ (doSet st n k v).1.opened = st.opened := by
  simp only [doSet]
  obtain ⟨ib, h1, _⟩ := notify_spec k (watchersOf (wake (record { st with store := st.store.set k v } n (.set k v) none) k) k)
    (wake (record { st with store := st.store.set k v } n (.set k v) none) k)
  rw [h1]
  exact ⟨(wake_keeps _ k).2.1, wake_opened _ k⟩

theorem blind_congr {st st' : St} (h1 : st'.watchers = st.watchers) (h2 : st'.opened = st.opened) (k : Key) : Blind st' k ↔ Blind st k := by
  simp only [Blind, h1, h2]

theorem doSets_fails (n : Tag) (kvs : List (Key × Val)) (st : St) : (doSets n kvs st).2 = false ↔ ∃ k v, (k, v) ∈ kvs ∧ Blind st k := by
  induction kvs generalizing st with
  | nil => simp [doSets]
  | cons x l ih =>
    obtain ⟨k, v⟩ := x
    have hf := doSet_fails st n k v
    have hs := doSet_same st n k v
    simp only [doSets]
    rcases hd : doSet st n k v with ⟨st', b⟩
    rw [hd] at hf hs
    cases b
    · constructor
      · intro _; exact ⟨k, v, by simp, hf.mp rfl⟩
      · intro _; rfl
    · have hnb : ¬ Blind st k := fun h => by have := hf.mpr h; cases this
      dsimp only
      rw [ih]
      constructor
      · rintro ⟨k', v', hm, hb⟩; exact ⟨k', v', by simp [hm], (blind_congr hs.1 hs.2 k').mp hb⟩
      · rintro ⟨k', v', hm, hb⟩
        rcases List.mem_cons.mp hm with h | h
        · injection h with h1 h2; subst h1; exact absurd hb hnb
        · exact ⟨k', v', h, (blind_congr hs.1 hs.2 k').mpr hb⟩

theorem getAll_none (st : St) (ks : List Key) : getAll st ks = none ↔ ∃ k ∈ ks, st.store.get? k = none := by
  induction ks with
  | nil => simp [getAll]
  | cons k ks ih =>
    simp only [getAll]
    rcases hk : st.store.get? k with _ | v
    · simp [hk]
    · rcases hg : getAll st ks with _ | vs
      · have := ih.mp hg; simp [hk]; exact this
      · simp only [reduceCtorEq, List.mem_cons, false_iff]
        rintro ⟨k', h | h, hn⟩
        · subst h; rw [hk] at hn; cases hn
        · have := ih.mpr ⟨k', h, hn⟩; rw [hg] at this; cases this

theorem exec_fails (st : St) (s : Sock) (n : Tag) (r : Req) : (exec st s n r).2 = false ↔ Fails st r := by
  cases r with
  | set k v => exact doSet_fails st n k v
  | mset kvs => exact doSets_fails n kvs st
  | append k v => exact watchers_notify st _ k (wake_keeps _ k).2.1 (wake_opened _ k)
  | get k =>
    simp only [exec, Fails]
    rcases st.store.get? k with _ | v <;> simp
  | mget ks =>
    simp only [exec, Fails, ← getAll_none]
    rcases getAll st ks with _ | v <;> simp
  | cset k e v =>
    simp only [exec, Fails]
    rcases hk : st.store.get? k with _ | old
    · by_cases he : e = []
      · have hb := watchers_notify st (record { st with store := st.store.set k v } n (.cset k e v) (some (.vec v))) k rfl rfl
        dsimp only
        rw [if_pos he]
        rcases hn : notify k (watchersOf (record { st with store := st.store.set k v } n (.cset k e v) (some (.vec v))) k)
          (record { st with store := st.store.set k v } n (.cset k e v) (some (.vec v))) with ⟨st', b⟩
        rw [hn] at hb
        cases b <;> simp_all
      · simp [he]
    · by_cases he : old = e
      · have hb := watchers_notify st (record { st with store := st.store.set k v } n (.cset k e v) (some (.vec v))) k rfl rfl
        dsimp only
        rw [if_pos he]
        rcases hn : notify k (watchersOf (record { st with store := st.store.set k v } n (.cset k e v) (some (.vec v))) k)
          (record { st with store := st.store.set k v } n (.cset k e v) (some (.vec v))) with ⟨st', b⟩
        rw [hn] at hb
        cases b <;> simp_all
      · simp [he]
  | add k d =>
    simp only [exec, Fails]
    rcases hk : st.store.get? k with _ | v
    · dsimp only
      simp only [reduceCtorEq, false_and, exists_false, or_false]
      exact watchers_notify st _ k (wake_keeps _ k).2.1 (wake_opened _ k)
    · dsimp only
      rcases hst : stoll v with _ | i
      · have : ¬ ∃ i, StartsWithInt v i := by
          rintro ⟨i, h⟩; rw [← stoll_exact, hst] at h; cases h
        simp only [Option.map_none, Option.some.injEq, exists_eq_left', this, not_false_eq_true, or_true]
      · have : ∃ i, StartsWithInt v i := ⟨i, (stoll_exact v i).mp hst⟩
        simp only [Option.map_some, Option.some.injEq, exists_eq_left', this, not_true, or_false]
        exact watchers_notify st _ k (wake_keeps _ k).2.1 (wake_opened _ k)
  | delete k =>
    simp only [exec, Fails]
    rcases hk : st.store.get? k with _ | v
    · simp
    · dsimp only
      have := watchers_notify st st k rfl rfl
      rw [← this]
      rcases notify k (watchersOf st k) st with ⟨st', b⟩
      cases b <;> simp
  | check ks => simp [exec, Fails]
  | wait ks => simp only [exec, Fails]; split <;> simp
  | numKeys => simp [exec, Fails]
  | watch k => simp [exec, Fails]

/-- **C52** (failures): handling a request closes the connection of the one who asks exactly for: reading a key that is not there, adding to
a text without a number, and writing a key that somebody with a closed connection watches; no other connection is closed. -/
theorem closes_exact {st st' : St} {s : Sock} {n : Tag} {r : Req} {rest : List (Tag × Req)} (hq : reqsOf st s = (n, r) :: rest)
    (hs : step st (.handle s) = some st') :
    (s ∉ st'.opened ↔ Fails st r) ∧ ∀ x ∈ st.opened, x ≠ s → x ∈ st'.opened := by
  have hop : ∀ st : St, (exec st s n r).1.opened = st.opened := by
    intro st
    cases r with
    | set k v => exact (doSet_same st n k v).2
    | mset kvs =>
      simp only [exec]
      clear hq hs
      induction kvs generalizing st with
      | nil => rfl
      | cons x l ih =>
        obtain ⟨k, v⟩ := x
        have h2 := (doSet_same st n k v).2
        simp only [doSets]
        rcases hd : doSet st n k v with ⟨st1, b⟩
        rw [hd] at h2
        cases b
        · exact h2
        · exact (ih st1).trans h2
    | append k v =>
      simp only [exec]
      obtain ⟨ib, h1, _⟩ := notify_spec k (watchersOf (wake (record { st with store := st.store.set k ((st.store.get? k).getD [] ++ v) } n (.append k v) none) k) k)
        (wake (record { st with store := st.store.set k ((st.store.get? k).getD [] ++ v) } n (.append k v) none) k)
      rw [h1]; exact wake_opened _ k
    | get k => simp only [exec]; split <;> rfl
    | mget ks => simp only [exec]; split <;> rfl
    | cset k e v =>
      simp only [exec]
      obtain ⟨ib, h1, _⟩ := notify_spec k (watchersOf (record { st with store := st.store.set k v } n (.cset k e v) (some (.vec v))) k)
        (record { st with store := st.store.set k v } n (.cset k e v) (some (.vec v)))
      rcases hn : notify k (watchersOf (record { st with store := st.store.set k v } n (.cset k e v) (some (.vec v))) k)
        (record { st with store := st.store.set k v } n (.cset k e v) (some (.vec v))) with ⟨st1, b⟩
      rw [hn] at h1
      have h1 : st1 = { record { st with store := st.store.set k v } n (.cset k e v) (some (.vec v)) with inbox := ib } := h1
      subst h1
      split <;> (split <;> (try cases b) <;> rfl)
    | add k d =>
      simp only [exec]
      split
      · rfl
      · rename_i x _
        obtain ⟨ib, h1, _⟩ := notify_spec k (watchersOf (wake (answer { st with store := st.store.set k (toStr x) } s n (.add k d) (.int x)) k) k)
          (wake (answer { st with store := st.store.set k (toStr x) } s n (.add k d) (.int x)) k)
        rw [h1]; exact wake_opened _ k
    | delete k =>
      simp only [exec]
      split
      · rfl
      · obtain ⟨ib, h1, _⟩ := notify_spec k (watchersOf st k) st
        rcases hn : notify k (watchersOf st k) st with ⟨st1, b⟩
        rw [hn] at h1
        have h1 : st1 = { st with inbox := ib } := h1
        subst h1
        cases b <;> rfl
    | check ks => rfl
    | wait ks => simp only [exec]; split <;> rfl
    | numKeys => rfl
    | watch k => rfl
  simp only [step, hq] at hs
  split at hs
  · rename_i ho
    have hf := exec_fails { st with reqs := st.reqs.set s rest } s n r
    have hop := hop { st with reqs := st.reqs.set s rest }
    have hF : Fails { st with reqs := st.reqs.set s rest } r ↔ Fails st r := by cases r <;> exact Iff.rfl
    rw [hF] at hf
    rcases he : exec { st with reqs := st.reqs.set s rest } s n r with ⟨st1, b⟩
    rw [he] at hf hop hs
    replace hop : st1.opened = st.opened := hop
    cases b
    · injection hs with hs; subst hs
      refine ⟨⟨fun _ => hf.mp rfl, fun _ => by simp [drop]⟩, ?_⟩
      intro x hx hne; rw [← hop] at hx; simp [drop]; exact ⟨hx, hne⟩
    · injection hs with hs; subst hs
      rw [hop]
      refine ⟨⟨fun h => absurd ho h, fun h => ?_⟩, fun x hx _ => hx⟩
      have := hf.mpr h; cases this
  · cases hs

/-- What `add` stores is read as the number it returned. -/
theorem stored_number (x : Int) (h : -(2 ^ 63 : Int) ≤ x ∧ x < (2 ^ 63 : Int)) : StartsWithInt (toStr x) x :=
  (stoll_exact _ _).mp (stoll_toStr x ((inRange_iff x).mpr h))

/-- socket 1 watches key 5 and goes away; socket 2 is thrown out when it sets the key -/
def blindRun : List Label := [.connect 1, .connect 2, .invoke 1 (.watch 5), .handle 1, .disconnect 1, .invoke 2 (.mset [(4, []), (5, ['x'])])]
def blindSt : Option St := blindRun.foldlM step init
example : blindSt.map (fun st => (reqsOf st 2, st.opened, decide ((5, 1) ∈ st.watchers))) = some ([(2, .mset [(4, []), (5, ['x'])])], [2], true) := by decide
example : (blindSt.bind (fun st => step st (.handle 2))).map (·.opened) = some [] := by decide

end Xoscar.Store
