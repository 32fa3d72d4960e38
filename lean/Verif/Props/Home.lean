import Verif.Spec.Home
import Verif.Proof.Base
import Verif.Props.Addr
/-!
# C100: references and iterators lead back to their actor
-/
namespace Xoscar.Home

theorem dial_of {n : Net} (hw : n.WF) {m : Machine} {a : Addr} {q : Pool} (hq : q ∈ n.pools) (ht : n.target m a = some q.machine)
    (ha : q.accepts a = true) : n.dial m a = some q := by
  simp only [Net.dial, ht]
  rcases hf : n.pools.find? (fun p => p.machine = q.machine && p.accepts a) with _ | p
  · have := List.find?_eq_none.mp hf q hq
    simp [ha] at this
  · have hp := List.find?_some hf
    have hm := List.mem_of_find?_eq_some hf
    simp only [Bool.and_eq_true, decide_eq_true_eq, Pool.accepts] at hp ha
    have e := hw.ports p hm q hq hp.1 (hp.2.1.trans ha.1.symm)
    subst e; exact hf

theorem of_dial {n : Net} {m : Machine} {a : Addr} {q : Pool} (h : n.dial m a = some q) :
    q ∈ n.pools ∧ n.target m a = some q.machine ∧ q.accepts a = true := by
  simp only [Net.dial] at h
  split at h
  · cases h
  · next k hk =>
    have hp := List.find?_some h
    simp only [Bool.and_eq_true, decide_eq_true_eq] at hp
    exact ⟨List.mem_of_find?_eq_some h, by rw [hk, hp.1], hp.2⟩

/-- dialling its own bound address on its own machine finds a process -/
theorem dial_own {n : Net} (hw : n.WF) {q : Pool} (hq : q ∈ n.pools) : n.dial q.machine q.bind = some q := by
  refine dial_of hw hq ?_ ?_
  · rcases hb : q.bind.host with _ | _ | t
    · simp [Net.target, hb]
    · simp [Net.target, hb]
    · simp [Net.target, hb, hw.here q hq t hb]
  · rcases hb : q.bind.host with _ | _ | t <;> simp [Pool.accepts, hb]

theorem has_get {d : Dict Uid Actor} {u : Uid} (h : d.has u = true) : ∃ x, d.get? u = some x := by
  exact Option.isSome_iff_exists.mp ((Dict.get?_isSome_iff _ _).mpr ((Dict.has_iff _ _).mp h))

/-- what is answered is the bound address of a process of the pool asked which has the actor -/
theorem lookupMain_spec {n : Net} (hw : n.WF) {p : Pool} {a : Addr} {uid : Uid} {b : Addr} (hp : p ∈ n.pools) (hm : p.bind = p.main)
    (h : n.lookupMain p a uid = some b) : ∃ q ∈ n.pools, SamePool q p ∧ q.bind.host = p.bind.host ∧ q.bind = b ∧ q.actors.has uid = true := by
  simp only [Net.lookupMain] at h
  split at h
  · next hc => cases h; exact ⟨p, hp, ⟨rfl, rfl⟩, rfl, hc.1.symm, hc.2⟩
  · rcases hf : (n.members p).find? (fun q => q.actors.has uid) with _ | q
    · rw [hf] at h; cases h
    · rw [hf] at h; simp only [Option.map_some, Option.some.injEq] at h
      have hu := List.find?_some hf
      have hq := List.mem_of_find?_eq_some hf
      simp only [Net.members, List.mem_filter, Bool.and_eq_true, decide_eq_true_eq] at hq
      obtain ⟨r, hr, r1, r2, r3, r4⟩ := hw.main q hq.1
      have : r = p := hw.ports r hr p hp (r1.trans hq.2.1) (by rw [r2, hq.2.2])
      subst this
      exact ⟨q, hq.1, ⟨hq.2.1, hq.2.2.trans hm⟩, r4.symm, h, hu⟩

theorem main_of {n : Net} (hw : n.WF) {p : Pool} (hp : p ∈ n.pools) :
    ∃ q, n.dial p.machine p.main = some q ∧ q ∈ n.pools ∧ SamePool q p ∧ q.bind = q.main ∧ q.bind.host = p.bind.host := by
  obtain ⟨q, hq, r1, r2, r3, r4⟩ := hw.main p hp
  refine ⟨q, ?_, hq, ⟨r1, r3.trans r2⟩, r3.symm, r4⟩
  have := dial_own hw hq
  rwa [r1, r2] at this

theorem lookup_spec {n : Net} (hw : n.WF) {p : Pool} {a : Addr} {uid : Uid} {b : Addr} (hp : p ∈ n.pools)
    (h : n.lookup p a uid = some b) : ∃ q ∈ n.pools, SamePool q p ∧ q.bind.host = p.bind.host ∧ q.bind = b ∧ q.actors.has uid = true := by
  simp only [Net.lookup] at h
  split at h
  · next hm => exact lookupMain_spec hw hp hm h
  · split at h
    · next hu => cases h; exact ⟨p, hp, ⟨rfl, rfl⟩, rfl, rfl, hu⟩
    · obtain ⟨q, hd, hq, hs, hm, hh⟩ := main_of hw hp
      rw [hd] at h
      obtain ⟨r, hr, ⟨s1, s2⟩, hh', hb, hu⟩ := lookupMain_spec hw hq hm h
      exact ⟨r, hr, ⟨s1.trans hs.1, s2.trans hs.2⟩, hh'.trans hh, hb, hu⟩

/-- the answer, repaired, leads to the process from where it was asked for -/
theorem fixed_leads {n : Net} (hw : n.WF) {m : Machine} {a : Addr} {p q : Pool} (hd : n.dial m a = some p) (hq : q ∈ n.pools)
    (hm : q.machine = p.machine) (hh : q.bind.host = p.bind.host) :
    n.dial m (if q.bind ≠ a then fix q.bind a else q.bind) = some q ∧
    (∀ t, a.host = .ip t → (if q.bind ≠ a then fix q.bind a else q.bind).host = .ip t) := by
  obtain ⟨_, ht, ha⟩ := of_dial hd
  rw [← hm] at ht
  simp only [Pool.accepts, Bool.and_eq_true, decide_eq_true_eq, ← hh] at ha
  generalize hr : (if q.bind ≠ a then fix q.bind a else q.bind) = r
  have key : r.port = q.bind.port ∧ (q.bind.host = .any ∧ r.host = a.host ∨ q.bind.host ≠ .any ∧ r = q.bind) := by
    subst hr
    simp only [fix]
    by_cases e : q.bind = a
    · by_cases h' : q.bind.host = .any
      · simp [e, ← h']
      · rw [e] at h'; simp [e, h']
    · by_cases h' : q.bind.host = .any
      · by_cases h2 : a.host = .any
        · simp [e, h', h2]
        · simp [e, h', h2]
      · simp [e, h']
  obtain ⟨kp, kh⟩ := key
  rcases kh with ⟨k1, k2⟩ | ⟨k1, k2⟩
  · refine ⟨dial_of hw hq ?_ ?_, fun t h => k2.trans h⟩
    · simp only [Net.target, k2]; exact ht
    · simp [Pool.accepts, k1, kp]
  · subst k2
    rcases hb : q.bind.host with _ | _ | t
    · exact absurd hb k1
    · rw [hb] at ha
      have ha2 := of_decide_eq_true ha.2
      have htm : m = q.machine := by
        rcases ha2 with e | e <;> simpa [Net.target, e] using ht
      refine ⟨dial_of hw hq (by simp [Net.target, hb, htm]) (by simp [Pool.accepts, hb]), fun t h => ?_⟩
      rcases ha2 with e | e <;> rw [e] at h <;> cases h
    · rw [hb] at ha
      have ha2 := of_decide_eq_true ha.2
      refine ⟨dial_of hw hq (by simp [Net.target, hb, hw.here q hq t hb]) (by simp [Pool.accepts, hb]), fun t' h => ?_⟩
      rw [ha2] at h; exact h

theorem call_at {n : Net} {m : Machine} {a : Addr} {q : Pool} {uid : Uid} {x : Actor} (hd : n.dial m a = some q) (hx : q.actors.get? uid = some x) :
    n.call m a uid = some x := by
  simp only [Net.call, hd, hx]

/-- **C100** a reference obtained with `actor_ref` leads to an actor of the uid asked for, in the pool asked, from the machine it was obtained
on; and from every machine, if the address asked names a machine -/
theorem actorRef_leads {n : Net} (hw : n.WF) {m : Machine} {a : Addr} {uid : Uid} {r : Addr} (h : n.actorRef m a uid = some r) :
    ∃ p q x, n.dial m a = some p ∧ SamePool q p ∧ Lives n q uid x ∧ n.call m r uid = some x ∧
      ((∃ t, a.host = .ip t) → ∀ m', n.call m' r uid = some x) := by
  simp only [Net.actorRef] at h
  split at h
  · cases h
  · next p hd =>
    split at h
    · cases h
    · next b hb =>
      injection h with h
      obtain ⟨q, hq, hs, hh, rfl, hu⟩ := lookup_spec hw (of_dial hd).1 hb
      obtain ⟨x, hx⟩ := has_get hu
      obtain ⟨h1, h2⟩ := fixed_leads hw hd hq hs.1 hh
      rw [h] at h1 h2
      refine ⟨p, q, x, hd, hs, ⟨hq, hx⟩, call_at h1 hx, fun ⟨t, ht⟩ m' => call_at (q := q) ?_ hx⟩
      have := h2 t ht
      rw [← h1]
      simp only [Net.dial, Net.target, this]

/-- … and an actor that lives in the pool asked is found -/
theorem actorRef_finds {n : Net} (hw : n.WF) {m : Machine} {a : Addr} {uid : Uid} {p q : Pool} {x : Actor} (hd : n.dial m a = some p)
    (hs : SamePool q p) (hl : Lives n q uid x) : ∃ r, n.actorRef m a uid = some r := by
  have hp := (of_dial hd).1
  obtain ⟨o, ho1, ho2, ho3, ho4, ho5⟩ := main_of hw hp
  have has : q.actors.has uid = true := (Dict.has_iff _ _).mpr ((Dict.get?_isSome_iff _ _).mp (by rw [hl.2]; rfl))
  have found : ∀ b, ∃ r, n.lookupMain o b uid = some r := by
    intro b
    simp only [Net.lookupMain]
    split
    · exact ⟨_, rfl⟩
    · rcases hf : (n.members o).find? (fun q => q.actors.has uid) with _ | y
      · have := List.find?_eq_none.mp hf q (by
          simp only [Net.members, List.mem_filter, Bool.and_eq_true, decide_eq_true_eq]
          exact ⟨hl.1, hs.1.trans ho3.1.symm, hs.2.trans (ho3.2.symm.trans ho4.symm)⟩)
        simp [has] at this
      · exact ⟨y.bind, by rw [hf]; rfl⟩
  have : ∃ r, n.lookup p a uid = some r := by
    simp only [Net.lookup]
    split
    · next hm =>
      have : o = p := by
        have h1 := dial_own hw hp
        rw [hm, ho1] at h1; injection h1
      subst this
      exact found a
    · split
      · exact ⟨_, rfl⟩
      · rw [ho1]; exact found p.main
  obtain ⟨r, hr⟩ := this
  exact ⟨if r ≠ a then fix r a else r, by simp only [Net.actorRef, hd, hr]⟩

theorem put_mem {n : Net} {q p' : Pool} {uid : Uid} {x : Actor} :
    p' ∈ (n.put q uid x).pools ↔ ∃ p ∈ n.pools, p' = if p.machine = q.machine && p.bind = q.bind then { p with actors := p.actors.set uid x } else p := by
  simp only [Net.put, List.mem_map, eq_comm]

theorem put_same {n : Net} {q p' : Pool} {uid : Uid} {x : Actor} (h : p' ∈ (n.put q uid x).pools) :
    ∃ p ∈ n.pools, p'.machine = p.machine ∧ p'.bind = p.bind ∧ p'.main = p.main := by
  obtain ⟨p, hp, rfl⟩ := put_mem.mp h
  refine ⟨p, hp, ?_⟩
  split <;> exact ⟨rfl, rfl, rfl⟩

theorem put_mem_of {n : Net} (q : Pool) (uid : Uid) (x : Actor) {p : Pool} (h : p ∈ n.pools) :
    ∃ p' ∈ (n.put q uid x).pools, p'.machine = p.machine ∧ p'.bind = p.bind ∧ p'.main = p.main := by
  refine ⟨_, put_mem.mpr ⟨p, h, rfl⟩, ?_⟩
  split <;> exact ⟨rfl, rfl, rfl⟩

/-- creating an actor leaves the network as it can be -/
theorem put_wf {n : Net} (hw : n.WF) (q : Pool) (uid : Uid) (x : Actor) : (n.put q uid x).WF := by
  refine ⟨fun p hp r hr hm hb => ?_, fun p hp t ht => ?_, fun p hp => ?_⟩
  · obtain ⟨p0, hp0, rfl⟩ := put_mem.mp hp
    obtain ⟨r0, hr0, rfl⟩ := put_mem.mp hr
    have e : p0 = r0 := by
      apply hw.ports p0 hp0 r0 hr0
      · revert hm; split <;> split <;> exact id
      · revert hb; split <;> split <;> exact id
    subst e; rfl
  · obtain ⟨p0, hp0, e1, e2, _⟩ := put_same hp
    rw [e1]; rw [e2] at ht
    exact hw.here p0 hp0 t ht
  · obtain ⟨p0, hp0, e1, e2, e3⟩ := put_same hp
    obtain ⟨r, hr, r1, r2, r3, r4⟩ := hw.main p0 hp0
    obtain ⟨r', hr', f1, f2, f3⟩ := put_mem_of q uid x hr
    exact ⟨r', hr', by rw [f1, r1, e1], by rw [f2, r2, e3], by rw [f3, r3, f2], by rw [f2, r4, e2]⟩

/-- what `create_actor` does: one process of the pool dialled gets the new actor, and the reference has its bound address -/
theorem created {n n' : Net} (hw : n.WF) {m : Machine} {a : Addr} {pick : List Pool → Option Pool} (hpick : ∀ l q, pick l = some q → q ∈ l)
    {uid : Uid} {x : Actor} {r : Addr} (h : n.createActor m a pick uid x = some (n', r)) :
    ∃ p q, n.dial m a = some p ∧ SamePool q p ∧ q.bind.host = p.bind.host ∧ q.bind = r ∧ n' = n.put q uid x ∧ q ∈ n.pools ∧ n'.WF ∧
      Lives n' { q with actors := q.actors.set uid x } uid x := by
  simp only [Net.createActor] at h
  split at h
  · cases h
  · next p hd =>
    have hp := (of_dial hd).1
    have sub : ∀ q, (if p.bind = p.main then pick (n.members p) else some p) = some q → q ∈ n.pools ∧ SamePool q p ∧ q.bind.host = p.bind.host := by
      intro q hq
      split at hq
      · next hm =>
        have k := hpick _ _ hq
        simp only [Net.members, List.mem_filter, Bool.and_eq_true, decide_eq_true_eq] at k
        obtain ⟨o, ho, o1, o2, o3, o4⟩ := hw.main q k.1
        have : o = p := hw.ports o ho p hp (o1.trans k.2.1) (by rw [o2, k.2.2])
        subst this
        exact ⟨k.1, ⟨k.2.1, k.2.2.trans hm⟩, o4.symm⟩
      · cases hq; exact ⟨hp, ⟨rfl, rfl⟩, rfl⟩
    split at h
    · cases h
    · next q hq =>
      split at h
      · cases h
      · obtain ⟨s1, s2, s3⟩ := sub q hq
        cases h
        refine ⟨p, q, hd, s2, s3, rfl, rfl, s1, put_wf hw q uid x, put_mem.mpr ⟨q, s1, by simp⟩, by simp⟩

/-- **C100** creating an actor replaces none: every actor there was is still there, in the same process -/
theorem created_replaces_none {n n' : Net} (hw : n.WF) {m : Machine} {a : Addr} {pick : List Pool → Option Pool} (hpick : ∀ l q, pick l = some q → q ∈ l)
    {uid : Uid} {x : Actor} {r : Addr} (h : n.createActor m a pick uid x = some (n', r)) {p : Pool} {u : Uid} {y : Actor} (hl : Lives n p u y) :
    ∃ p', Lives n' p' u y ∧ p'.machine = p.machine ∧ p'.bind = p.bind := by
  obtain ⟨d, q, hd, hs, hh, hr, rfl, hq, hw', _⟩ := created hw hpick h
  have hfree : q.actors.has uid = false := by
    simp only [Net.createActor, hd] at h
    split at h
    · cases h
    · next q' hq' =>
      split at h
      · cases h
      · next hf =>
        have e1 : (n.put q' uid x).pools = (n.put q uid x).pools := by injection h with h; injection h with h _; rw [h]
        have hb : q'.bind = r := by injection h with h; injection h
        have hq2 : q' ∈ n.pools ∧ q'.machine = d.machine := by
          split at hq'
          · have k := hpick _ _ hq'
            simp only [Net.members, List.mem_filter, Bool.and_eq_true, decide_eq_true_eq] at k
            exact ⟨k.1, k.2.1⟩
          · cases hq'; exact ⟨(of_dial hd).1, rfl⟩
        have : q' = q := hw.ports q' hq2.1 q hq (hq2.2.trans hs.1.symm) (by rw [hb, hr])
        subst this; simpa using hf
  refine ⟨_, ⟨put_mem.mpr ⟨p, hl.1, rfl⟩, ?_⟩, ?_, ?_⟩
  · split
    · next hc =>
      simp only [Bool.and_eq_true, decide_eq_true_eq] at hc
      have : p = q := hw.ports p hl.1 q hq hc.1 (by rw [hc.2])
      subst this
      have : uid ≠ u := by
        rintro rfl
        have := (Dict.has_iff _ _).mpr ((Dict.get?_isSome_iff p.actors uid).mp (by rw [hl.2]; rfl))
        rw [hfree] at this; cases this
      simp [this, hl.2]
    · exact hl.2
  · split <;> rfl
  · split <;> rfl

/-- dialling the bound address from anywhere: the process itself, if bound to a host; else only from its own machine -/
theorem dial_bind {n : Net} (hw : n.WF) {q : Pool} (hq : q ∈ n.pools) (m : Machine) :
    n.dial m q.bind = some q ↔ (∃ t, q.bind.host = .ip t) ∨ m = q.machine := by
  constructor
  · intro h
    have := (of_dial h).2.1
    rcases hb : q.bind.host with _ | _ | t
    · simp only [Net.target, hb, Option.some.injEq] at this; exact .inr this
    · simp only [Net.target, hb, Option.some.injEq] at this; exact .inr this
    · exact .inl ⟨t, rfl⟩
  · rintro (⟨t, hb⟩ | rfl)
    · exact dial_of hw hq (by simp [Net.target, hb, hw.here q hq t hb]) (by simp [Pool.accepts, hb])
    · exact dial_own hw hq

/-- a call that reaches an actor reaches the pool dialled -/
theorem call_lives {n : Net} (hw : n.WF) {m : Machine} {a : Addr} {uid : Uid} {x : Actor} (h : n.call m a uid = some x) :
    ∃ p q, n.dial m a = some p ∧ SamePool q p ∧ Lives n q uid x := by
  simp only [Net.call] at h
  split at h
  · cases h
  · next p hd =>
    have hp := (of_dial hd).1
    split at h
    · next y hy => cases h; exact ⟨p, p, hd, ⟨rfl, rfl⟩, hp, hy⟩
    · split at h
      · next hm =>
        split at h
        · cases h
        · next b hb =>
          split at h
          · cases h
          · next q hq =>
            obtain ⟨q', hq', hs, _, rfl, _⟩ := lookupMain_spec hw hp hm hb
            have := dial_own hw hq'
            rw [hs.1, hq] at this; injection this with this; subst this
            exact ⟨p, q, hd, hs, hq', h⟩
      · cases h

/-- where a bound address leads, as far as the actor `x` of its process is concerned -/
theorem call_bind_iff {n : Net} (hw : n.WF) {q : Pool} {uid : Uid} {x : Actor} (hl : Lives n q uid x) (ho : Only n q uid x) (m : Machine) :
    n.call m q.bind uid = some x ↔ (∃ t, q.bind.host = .ip t) ∨ m = q.machine := by
  constructor
  · intro h
    obtain ⟨p, q', hd, hs, hl'⟩ := call_lives hw h
    obtain ⟨rfl, _⟩ := ho q' uid hl'
    have ht := (of_dial hd).2.1
    rw [← hs.1] at ht
    rcases hb : q'.bind.host with _ | _ | t
    · simp only [Net.target, hb, Option.some.injEq] at ht; exact .inr ht
    · simp only [Net.target, hb, Option.some.injEq] at ht; exact .inr ht
    · exact .inl ⟨t, rfl⟩
  · intro h
    exact call_at ((dial_bind hw hl.1 m).mpr h) hl.2

/-- **C100** (partly) the reference `create_actor` returns leads to the new actor from a machine iff the pool is bound to a particular host or
the machine is the pool's own.  Missing: pools bound to a wildcard, used from other machines. -/
theorem created_leads_partial {n n' : Net} (hw : n.WF) {m : Machine} {a : Addr} {pick : List Pool → Option Pool} (hpick : ∀ l q, pick l = some q → q ∈ l)
    {uid : Uid} {x : Actor} {r : Addr} (hnew : ∀ p u, ¬ Lives n p u x) (h : n.createActor m a pick uid x = some (n', r)) (m' : Machine) :
    n'.call m' r uid = some x ↔ (∃ t, r.host = .ip t) ∨ (∃ p, n.dial m a = some p ∧ m' = p.machine) := by
  obtain ⟨p, q, hd, hs, hh, rfl, rfl, hq, hw', hl⟩ := created hw hpick h
  have ho : Only (n.put q uid x) { q with actors := q.actors.set uid x } uid x := by
    rintro p' u ⟨hp', hu⟩
    obtain ⟨p0, hp0, rfl⟩ := put_mem.mp hp'
    split at hu
    · next hc =>
      simp only [Bool.and_eq_true, decide_eq_true_eq] at hc
      have : p0 = q := hw.ports p0 hp0 q hq hc.1 (by rw [hc.2])
      subst this
      simp only [Dict.get?_set] at hu
      split at hu
      · next e => exact ⟨by simp, e.symm⟩
      · exact absurd ⟨hp0, hu⟩ (hnew p0 u)
    · exact absurd ⟨hp0, hu⟩ (hnew p0 u)
  have := call_bind_iff hw' hl ho m'
  simp only at this
  rw [this]
  constructor
  · rintro (h | rfl)
    · exact .inl h
    · exact .inr ⟨p, hd, hs.1⟩
  · rintro (h | ⟨p', hp', rfl⟩)
    · exact .inl h
    · rw [hd] at hp'; cases hp'; exact .inr hs.1.symm

/-- **C100** asking again repairs it: `actor_ref` with the address the pool was reached under leads to the new actor — from every machine if
that address names a machine — unless another process of the pool has an actor of this uid too -/
theorem created_then_asked {n n' : Net} (hw : n.WF) {m : Machine} {a : Addr} {pick : List Pool → Option Pool} (hpick : ∀ l q, pick l = some q → q ∈ l)
    {uid : Uid} {x : Actor} {r : Addr} (h : n.createActor m a pick uid x = some (n', r))
    (hone : ∀ p q y, n.dial m a = some p → SamePool q p → ¬ Lives n q uid y) :
    ∃ r', n'.actorRef m a uid = some r' ∧ n'.call m r' uid = some x ∧ ((∃ t, a.host = .ip t) → ∀ m', n'.call m' r' uid = some x) := by
  obtain ⟨p, q, hd, hs, hh, rfl, rfl, hq, hw', hl⟩ := created hw hpick h
  obtain ⟨hp, ht, hacc⟩ := of_dial hd
  obtain ⟨p', hp', e1, e2, e3⟩ := put_mem_of q uid x hp
  have hd' : (n.put q uid x).dial m a = some p' := by
    refine dial_of hw' hp' (by rw [e1]; exact ht) ?_
    simp only [Pool.accepts, e2] at hacc ⊢; exact hacc
  obtain ⟨r', hr'⟩ := actorRef_finds hw' hd' (q := { q with actors := q.actors.set uid x }) ⟨hs.1.trans e1.symm, hs.2.trans e3.symm⟩ hl
  obtain ⟨p2, q2, y, hd2, hs2, hl2, hc1, hc2⟩ := actorRef_leads hw' hr'
  rw [hd'] at hd2; cases hd2
  have : y = x := by
    obtain ⟨hm2, hu2⟩ := hl2
    obtain ⟨q0, hq0, rfl⟩ := put_mem.mp hm2
    split at hu2
    · simpa using hu2.symm
    · next hc =>
      simp only [hc] at hs2
      exact absurd ⟨hq0, hu2⟩ (hone p q0 y hd ⟨hs2.1.trans e1, hs2.2.trans e3⟩)
  subst this
  exact ⟨r', hr', hc1, hc2⟩

/-- **C100** (partly) an iterator leads to the actor that returned it iff the actor's pool is bound to a particular host or the consumer is on
the actor's machine (the uid being used once in the pool).  Missing: the other consumers. -/
theorem iterator_leads_partial {n : Net} (hw : n.WF) {q : Pool} {uid : Uid} {x : Actor} (hl : Lives n q uid x) (ho : Only n q uid x)
    (hone : ∀ q' y, SamePool q' q → Lives n q' uid y → y = x) (m : Machine) :
    n.next m (iterOf q uid) = some x ↔ (∃ t, q.bind.host = .ip t) ∨ m = q.machine := by
  simp only [Net.next, iterOf]
  constructor
  · intro h
    split at h
    · cases h
    · next r hr =>
      obtain ⟨p, q', y, hd, hs, hl', hc, _⟩ := actorRef_leads hw hr
      rw [hc] at h; cases h
      obtain ⟨rfl, _⟩ := ho q' uid hl'
      have ht := (of_dial hd).2.1
      rw [← hs.1] at ht
      rcases hb : q'.bind.host with _ | _ | t
      · simp only [Net.target, hb, Option.some.injEq] at ht; exact .inr ht
      · simp only [Net.target, hb, Option.some.injEq] at ht; exact .inr ht
      · exact .inl ⟨t, rfl⟩
  · intro h
    have hd := (dial_bind hw hl.1 m).mpr h
    obtain ⟨r, hr⟩ := actorRef_finds hw hd ⟨rfl, rfl⟩ hl
    obtain ⟨p, q', y, hd', hs, hl', hc, _⟩ := actorRef_leads hw hr
    rw [hd] at hd'; cases hd'
    rw [hr]
    simp only [hc, hone q' y hs hl']

/-! ## two machines -/

/-- machine 0 (host `a`) has a pool bound to every interface, with one sub process; machine 1 (host `b`) has a pool just like it -/
def two (acts : Dict Uid Actor) (mine : Dict Uid Actor) : Net :=
  { pools := [⟨0, ⟨.any, 1⟩, ⟨.any, 1⟩, []⟩, ⟨0, ⟨.any, 2⟩, ⟨.any, 1⟩, acts⟩, ⟨1, ⟨.any, 1⟩, ⟨.any, 1⟩, mine⟩]
    owner := fun t => if t = ['a'] then some 0 else if t = ['b'] then some 1 else none }

theorem two_wf (acts mine : Dict Uid Actor) : (two acts mine).WF := by
  refine ⟨?_, ?_, ?_⟩
  · intro p hp q hq
    simp only [two, List.mem_cons, List.not_mem_nil, or_false] at hp hq
    rcases hp with rfl | rfl | rfl <;> rcases hq with rfl | rfl | rfl <;> simp
  · intro p hp t
    simp only [two, List.mem_cons, List.not_mem_nil, or_false] at hp
    rcases hp with rfl | rfl | rfl <;> simp
  · intro p hp
    simp only [two, List.mem_cons, List.not_mem_nil, or_false] at hp
    rcases hp with rfl | rfl | rfl <;> simp [two]

/-- the sub process -/
def second (ps : List Pool) : Option Pool := ps[1]?

/-- **C100 refuted** for `create_actor`: machine 1 creates an actor in the pool of machine 0, reached as `a:1`; the reference it gets leads
nowhere on machine 1 — with an actor of this uid in its own pool, to that one — while asking `actor_ref` for the same uid gives one that leads
to the new actor from everywhere -/
theorem created_refuted :
    (∃ n r, (two [] []).createActor 1 ⟨.ip ['a'], 1⟩ second 7 100 = some (n, r) ∧ n.call 1 r 7 = none ∧
      ∃ r', n.actorRef 1 ⟨.ip ['a'], 1⟩ 7 = some r' ∧ n.call 1 r' 7 = some 100 ∧ n.call 0 r' 7 = some 100) ∧
    (∃ n r, (two [] [(7, 55)]).createActor 1 ⟨.ip ['a'], 1⟩ List.head? 7 100 = some (n, r) ∧ n.call 1 r 7 = some 55) := by
  refine ⟨⟨_, _, rfl, by decide, _, rfl, by decide, by decide⟩, ⟨_, _, rfl, by decide⟩⟩

/-- **C100 refuted** for iterators: the consumer on machine 1 got the actor with `actor_ref`, its calls reach it, and the iterator one of them
returns leads nowhere, or to another actor -/
theorem iterator_refuted :
    ∃ q, Lives (two [(7, 100)] []) q 7 100 ∧
      (∃ r, (two [(7, 100)] []).actorRef 1 ⟨.ip ['a'], 1⟩ 7 = some r ∧ (two [(7, 100)] []).call 1 r 7 = some 100) ∧
      (two [(7, 100)] []).next 1 (iterOf q 7) = none ∧ (two [(7, 100)] []).next 0 (iterOf q 7) = some 100 ∧
      ∃ n : Net, n.WF ∧ Lives n ⟨0, ⟨.any, 1⟩, ⟨.any, 1⟩, [(7, 100)]⟩ 7 100 ∧ n.next 1 (iterOf ⟨0, ⟨.any, 1⟩, ⟨.any, 1⟩, [(7, 100)]⟩ 7) = some 55 := by
  refine ⟨⟨0, ⟨.any, 2⟩, ⟨.any, 1⟩, [(7, 100)]⟩, ⟨by simp [two], by decide⟩, ⟨_, rfl, by decide⟩, by decide, by decide,
    (two [] [(7, 55)]).put ⟨0, ⟨.any, 1⟩, ⟨.any, 1⟩, []⟩ 7 100, put_wf (two_wf _ _) _ _ _, ⟨by simp [Net.put, two, Dict.set], by decide⟩, by decide⟩

/-- the hypotheses of `created_leads_partial`, `created_then_asked` and `iterator_leads_partial` are met, by a call from another machine -/
example : (∀ l q, second l = some q → q ∈ l) ∧ (∀ p u, ¬ Lives (two [] [(7, 55)]) p u 100) ∧
    (two [] [(7, 55)]).dial 1 ⟨.ip ['a'], 1⟩ = some ⟨0, ⟨.any, 1⟩, ⟨.any, 1⟩, []⟩ ∧
    (∀ q y, SamePool q ⟨0, ⟨.any, 1⟩, ⟨.any, 1⟩, []⟩ → ¬ Lives (two [] [(7, 55)]) q 7 y) ∧
    Only (two [(7, 100)] [(7, 55)]) ⟨0, ⟨.any, 2⟩, ⟨.any, 1⟩, [(7, 100)]⟩ 7 100 := by
  refine ⟨fun l q h => ?_, ?_, rfl, ?_, ?_⟩
  · exact List.mem_of_getElem? h
  · rintro p u ⟨hp, hu⟩
    simp only [two, List.mem_cons, List.not_mem_nil, or_false] at hp
    rcases hp with rfl | rfl | rfl <;> simp [Dict.get?] at hu
  · rintro q y hs ⟨hq, hu⟩
    simp only [two, List.mem_cons, List.not_mem_nil, or_false] at hq
    rcases hq with rfl | rfl | rfl
    · simp [Dict.get?] at hu
    · simp [Dict.get?] at hu
    · simp [SamePool] at hs
  · rintro p u ⟨hp, hu⟩
    simp only [two, List.mem_cons, List.not_mem_nil, or_false] at hp
    rcases hp with rfl | rfl | rfl
    · simp [Dict.get?] at hu
    · simp only [Dict.get?] at hu
      split at hu
      · next h => exact ⟨rfl, h.symm⟩
      · cases hu
    · simp only [Dict.get?] at hu
      split at hu
      · injection hu with hu; exact absurd hu (by decide)
      · cases hu

/-! ## the repair on texts -/

/-- the text of a host -/
def Host.text : Host → List Char
  | .any => ['0', '.', '0', '.', '0', '.', '0']
  | .loop => ['1', '2', '7', '.', '0', '.', '0', '.', '1']
  | .ip t => t

/-- the text of an address -/
def Addr.text (a : Addr) : List Char := a.host.text ++ ':' :: Nat.toDigits 10 a.port

/-- a host other than the wildcard, without `:` and `/` -/
def Host.ok : Host → Prop
  | .any => True
  | .loop => True
  | .ip t => ':' ∉ t ∧ '/' ∉ t ∧ t ≠ ['0', '.', '0', '.', '0', '.', '0']

theorem text_port (a : Addr) : ':' ∉ Nat.toDigits 10 a.port ∧ '/' ∉ Nat.toDigits 10 a.port := by
  constructor <;> intro h <;> exact absurd (Nat.isDigit_of_mem_toDigits (by omega) (by omega) h) (by decide)

theorem any_text : "0.0.0.0".toList = ['0', '.', '0', '.', '0', '.', '0'] := rfl

theorem zero_iff (hex : List Char → Option Int) (a : Addr) (h : a.host.ok) : Xoscar.Addr.isZero hex a.text = some (decide (a.host = .any)) := by
  obtain ⟨p1, p2⟩ := text_port a
  rcases ha : a.host with _ | _ | t
  · simpa [Addr.text, ha, Host.text, Xoscar.Addr.hostPort] using Xoscar.Addr.isZero_v4 hex _ p2
  · simpa [Addr.text, ha, Host.text, Xoscar.Addr.hostPort] using
      Xoscar.Addr.isZero_plain_host hex ['1', '2', '7', '.', '0', '.', '0', '.', '1'] _ (by decide) (by decide) p1 p2 (by decide)
  · rw [ha] at h
    simpa [Addr.text, ha, Host.text, Xoscar.Addr.hostPort] using Xoscar.Addr.isZero_plain_host hex t _ h.1 h.2.1 p1 p2 (by rw [any_text]; exact h.2.2)

theorem text_inj {a b : Addr} (ha : a.host.ok) (hb : b.host.ok) (hl : ∀ h ∈ [a.host, b.host], h ≠ .ip Host.loop.text) (h : a.text = b.text) : a = b := by
  have key : a.host.text = b.host.text ∧ Nat.toDigits 10 a.port = Nat.toDigits 10 b.port := by
    have nc : ∀ x : Host, x.ok → ':' ∉ x.text := by
      intro x hx; rcases x with _ | _ | t
      · decide
      · decide
      · exact hx.1
    have e := congrArg (Xoscar.Addr.splitC ':') h
    simp only [Addr.text] at e
    rw [Xoscar.Addr.split_host_port (text_port a).1, Xoscar.Addr.split_host_port (text_port b).1,
      Xoscar.Addr.splitC_of_not_mem (nc _ ha), Xoscar.Addr.splitC_of_not_mem (nc _ hb)] at e
    simpa using e
  obtain ⟨k1, k2⟩ := key
  have hp : a.port = b.port := by
    have := congrArg (fun l => Nat.ofDigitChars 10 l 0) k2
    simpa using this
  obtain ⟨x, p⟩ := a
  obtain ⟨y, q⟩ := b
  simp only at hp ha hb hl k1
  subst hp
  have l1 := hl x (by simp)
  have l2 := hl y (by simp)
  rcases x with _ | _ | t <;> rcases y with _ | _ | t' <;> simp_all [Host.text, Host.ok]

/-- **C100**, C35: on the texts of addresses `fix_all_zero_ip` does what `fix` does -/
theorem fix_text (hex : List Char → Option Int) (a b : Addr) (ha : a.host.ok) (hb : b.host.ok)
    (hl : ∀ h ∈ [a.host, b.host], h ≠ .ip Host.loop.text) : Xoscar.Addr.fixAllZeroIp hex a.text b.text = some (fix a b).text := by
  by_cases e : a = b
  · subst e; simp [Xoscar.Addr.fixAllZeroIp, fix]
  · have e' : a.text ≠ b.text := fun h => e (text_inj ha hb hl h)
    simp only [fix, if_neg e]
    by_cases h1 : a.host = .any
    · by_cases h2 : b.host = .any
      · simp only [h1, h2, ne_eq, not_true_eq_false, if_false, if_true]
        exact Xoscar.Addr.fix_keeps_local hex _ _ (by rw [zero_iff hex a ha]; simp) (by rw [zero_iff hex b hb]; simp [h2])
      · simp only [h1, h2, ne_eq, not_true_eq_false, if_false]
        have za : Xoscar.Addr.isZero hex a.text = some true := by rw [zero_iff hex a ha]; simp [h1]
        have zb : Xoscar.Addr.isZero hex b.text = some false := by rw [zero_iff hex b hb]; simp [h2]
        exact Xoscar.Addr.fix_replaces hex _ _ _ _ (text_port a).1 (text_port b).1 za zb
    · simp only [h1, ne_eq, not_false_eq_true, if_true]
      exact Xoscar.Addr.fix_keeps_concrete hex _ _ (by rw [zero_iff hex a ha]; simp [h1])

example : (⟨.ip ['1', '0', '.', '0', '.', '0', '.', '5'], 7⟩ : Addr).host.ok ∧
    (∀ h ∈ [Host.any, .ip ['1', '0', '.', '0', '.', '0', '.', '5']], h ≠ .ip Host.loop.text) ∧
    fix ⟨.any, 7⟩ ⟨.ip ['1', '0', '.', '0', '.', '0', '.', '5'], 8⟩ = ⟨.ip ['1', '0', '.', '0', '.', '0', '.', '5'], 7⟩ := by
  refine ⟨by simp [Host.ok], by decide, by decide⟩

end Xoscar.Home
