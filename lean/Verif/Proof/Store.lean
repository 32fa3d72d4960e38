import Verif.Spec.Store
import Verif.Proof.Base
namespace Xoscar.Store
attribute [local grind =] Dict.get?_set Dict.get?_erase

theorem ext_map {m m' : Map} (h : ∀ k, m k = m' k) : m = m' := funext h

theorem get_set_eq_upd (d : Dict Key Val) (k : Key) (v : Val) : (d.set k v).get? = upd d.get? k (some v) := by
  funext x; simp only [Dict.get?_set, upd]; grind

theorem get_erase_eq_upd (d : Dict Key Val) (k : Key) : (d.erase k).get? = upd d.get? k none := by
  funext x; simp only [Dict.get?_erase, upd]; grind

/-! ### numbers -/

theorem digits_of_all {l : List Char} (h : ∀ c ∈ l, c.isDigit = true) : digits l = l := by
  induction l with
  | nil => rfl
  | cons c t ih => simp [digits, h c (by simp), ih (fun c hc => h c (by simp [hc]))]

theorem digits_toDigits (n : Nat) : digits (Nat.toDigits 10 n) = Nat.toDigits 10 n :=
  digits_of_all (fun _ hc => Nat.isDigit_of_mem_toDigits (by omega) (by omega) hc)

theorem stoll_nat (n : Nat) (h : inRange n = true) : stoll (Nat.toDigits 10 n) = some (n : Int) := by
  have hd : ∀ c ∈ Nat.toDigits 10 n, c.isDigit = true := fun _ hc => Nat.isDigit_of_mem_toDigits (by omega) (by omega) hc
  have hne : Nat.toDigits 10 n ≠ [] := Nat.toDigits_ne_nil
  have hv : value (Nat.toDigits 10 n) = n := Nat.ofDigitChars_ten_toDigits
  have hdig := digits_toDigits n
  generalize Nat.toDigits 10 n = l at *
  cases l with
  | nil => exact absurd rfl hne
  | cons c t =>
    have hc := hd c (by simp)
    have h1 : (c == ' ') = false := by
      rcases hh : c == ' '
      · rfl
      · rw [beq_iff_eq] at hh; subst hh; exact absurd hc (by decide)
    have h2 : c ≠ '-' := fun hh => by subst hh; exact absurd hc (by decide)
    have h3 : c ≠ '+' := fun hh => by subst hh; exact absurd hc (by decide)
    simp only [stoll, List.dropWhile_cons, h1, Bool.false_eq_true, if_false]
    split
    · next i hi =>
      split at hi
      · next heq => cases heq; exact absurd rfl h2
      · next heq => cases heq; exact absurd rfl h3
      · rw [hdig] at hi; simp only [reduceCtorEq, if_false, hv, Option.some.injEq] at hi; subst hi; simp [h]
    · next hi =>
      split at hi
      · next heq => cases heq; exact absurd rfl h2
      · next heq => cases heq; exact absurd rfl h3
      · rw [hdig] at hi; simp at hi

theorem stoll_neg (n : Nat) (h : inRange (-(n : Int)) = true) : stoll ('-' :: Nat.toDigits 10 n) = some (-(n : Int)) := by
  have hne : Nat.toDigits 10 n ≠ [] := Nat.toDigits_ne_nil
  have hv : value (Nat.toDigits 10 n) = n := Nat.ofDigitChars_ten_toDigits
  have h1 : ('-' == ' ') = false := by decide
  simp [stoll, List.dropWhile_cons, digits_toDigits, hv, hne, h]

/-- a number written by the store is read back -/
theorem stoll_toStr (x : Int) (h : inRange x = true) : stoll (toStr x) = some x := by
  have : toStr x = x.repr.toList := rfl
  rw [this, Int.repr_eq_if]
  split
  · next hx =>
    obtain ⟨n, rfl⟩ := Int.eq_ofNat_of_zero_le hx
    rw [Nat.toList_repr]; simpa using stoll_nat n h
  · next hx =>
    obtain ⟨n, hn⟩ := Int.eq_ofNat_of_zero_le (a := -x) (by omega)
    have : x = -(n : Int) := by omega
    subst this
    rw [String.toList_append, Nat.toList_repr]
    have h1 : "-".toList = ['-'] := by decide
    rw [h1]
    simpa using stoll_neg n h

theorem inRange_wrap (i : Int) : inRange (wrap i) = true := by
  unfold inRange wrap
  exact decide_eq_true ⟨by omega, by omega⟩

theorem wrap_wrap_add (a b : Int) : wrap (a + wrap b) = wrap (a + b) := by
  simp only [wrap]; omega

/-! ### waking -/

/-- entries of a socket for keys other than `k` -/
def others (w : List (Key × Sock)) (k : Key) (s : Sock) : Nat := ((w.filter (·.1 ≠ k)).map (·.2)).count s

def total (w : List (Key × Sock)) (s : Sock) : Nat := (w.map (·.2)).count s

theorem total_split (w : List (Key × Sock)) (k : Key) (s : Sock) :
    total w s = others w k s + ((w.filter (·.1 = k)).map (·.2)).count s := by
  induction w with
  | nil => rfl
  | cons x xs ih =>
    simp only [total, others] at ih
    by_cases hk : x.1 = k <;> by_cases hs : x.2 = s <;> simp [total, others, hk, hs, ih] <;> omega

/-- the counters agree with the registrations; `rest`: registrations for `k` not yet processed -/
def Counts (awaited : Dict Sock Nat) (waitOf : Dict Sock (Tag × List Key)) (count : Sock → Nat) : Prop :=
  ∀ s, (∀ x, waitOf.get? s = some x → awaited.get? s = some (count s) ∧ 0 < count s) ∧ (waitOf.get? s = none → count s = 0)

structure WakeRel (st0 : St) (k : Key) (rest : List Sock) (st : St) : Prop where
  store : st.store = st0.store
  waiting : st.waiting = st0.waiting
  watchers : st.watchers = st0.watchers
  opened : st.opened = st0.opened
  reqs : st.reqs = st0.reqs
  busy : st.busy = st0.busy
  rets : st.rets = st0.rets
  next : st.next = st0.next
  counts : Counts st.awaited st.waitOf (fun s => others st0.waiting k s + rest.count s)
  each : ∀ s, (st.waitOf.get? s = st0.waitOf.get? s ∧ inboxOf st s = inboxOf st0 s) ∨
    ∃ n ks, st0.waitOf.get? s = some (n, ks) ∧ st.waitOf.get? s = none ∧ inboxOf st s = inboxOf st0 s ++ [(n, .byte 0)] ∧
      ⟨n, .wait ks, some (.byte 0)⟩ ∈ st.lin ∧ others st0.waiting k s = 0
  lin : ∃ ws, st.lin = st0.lin ++ ws ∧ ∀ e ∈ ws, ∃ s n ks, e = ⟨n, .wait ks, some (.byte 0)⟩ ∧ st0.waitOf.get? s = some (n, ks) ∧
    others st0.waiting k s = 0

theorem inboxOf_send (st : St) (s s' : Sock) (n : Tag) (r : Resp) :
    inboxOf (send st s n r) s' = if s = s' then inboxOf st s ++ [(n, r)] else inboxOf st s' := by
  simp only [inboxOf, send, Dict.get?_set]; grind

theorem wakeRel_step {st0 st : St} {k : Key} {s : Sock} {rest : List Sock} (h : WakeRel st0 k (s :: rest) st) :
    WakeRel st0 k rest (wakeOne st s) := by
  obtain ⟨h1, h2, h3, h4, h5, h6, h7, h8, h9, h10, h11⟩ := h
  have hc := h9 s
  have hcnt : (s :: rest).count s = rest.count s + 1 := by simp
  rcases hw : st.waitOf.get? s with _ | ⟨n, ks⟩
  · have := hc.2 hw; simp only [hcnt] at this; omega
  · have ha := (hc.1 _ hw).1
    simp only [hcnt] at ha
    have hdec : dec (st.awaited.get? s) = others st0.waiting k s + rest.count s := by rw [ha]; rfl
    by_cases hz : others st0.waiting k s + rest.count s = 0
    · have hwo : wakeOne st s = record (send { st with awaited := st.awaited.set s 0, waitOf := st.waitOf.erase s } s n (.byte 0)) n (.wait ks) (some (.byte 0)) := by
        simp only [wakeOne, hdec, hz, if_true, hw]
      rw [hwo]
      refine ⟨h1, h2, h3, h4, h5, h6, h7, h8, ?_, ?_, ?_⟩
      · intro s'
        have := h9 s'
        simp only [record, send, Dict.get?_erase, Dict.get?_set]
        by_cases hss : s = s'
        · subst hss; simp; omega
        · simp only [hss, if_false]
          have hcc : (s :: rest).count s' = rest.count s' := by rw [List.count_cons]; simp [hss]
          simp only [hcc] at this; exact this
      · intro s'
        have hib : inboxOf (record (send { st with awaited := st.awaited.set s 0, waitOf := st.waitOf.erase s } s n (.byte 0)) n (.wait ks) (some (.byte 0))) s' = if s = s' then inboxOf st s ++ [(n, .byte 0)] else inboxOf st s' :=
          inboxOf_send { st with awaited := st.awaited.set s 0, waitOf := st.waitOf.erase s } s s' n (.byte 0)
        rw [hib]
        simp only [record, send, Dict.get?_erase]
        by_cases hss : s = s'
        · subst hss
          right
          rcases h10 s with ⟨hx, hy⟩ | ⟨n', ks', _, hx, _⟩
          · exact ⟨n, ks, by rw [← hx, hw], by simp, by simp [hy], by simp, by omega⟩
          · rw [hw] at hx; cases hx
        · simp only [hss, if_false]
          rcases h10 s' with hx | ⟨n', ks', ha, hb, hcc, hd, he⟩
          · exact .inl hx
          · exact .inr ⟨n', ks', ha, hb, hcc, by simp [hd], he⟩
      · obtain ⟨ws, hws, hall⟩ := h11
        refine ⟨ws ++ [⟨n, .wait ks, some (.byte 0)⟩], by simp [record, send, hws], ?_⟩
        intro e he
        simp only [List.mem_append, List.mem_singleton] at he
        rcases he with he | rfl
        · exact hall e he
        · rcases h10 s with ⟨hx, _⟩ | ⟨n', ks', _, hx, _⟩
          · exact ⟨s, n, ks, rfl, by rw [← hx, hw], by omega⟩
          · rw [hw] at hx; cases hx
    · have hwo : wakeOne st s = { st with awaited := st.awaited.set s (others st0.waiting k s + rest.count s) } := by
        simp only [wakeOne, hdec, hz, if_false]
      rw [hwo]
      refine ⟨h1, h2, h3, h4, h5, h6, h7, h8, ?_, h10, h11⟩
      intro s'
      have := h9 s'
      simp only [Dict.get?_set]
      by_cases hss : s = s'
      · subst hss; simp only [if_true]; refine ⟨fun x _ => ⟨trivial, by omega⟩, fun hn => by rw [hw] at hn; cases hn⟩
      · simp only [hss, if_false]
        have hcc : (s :: rest).count s' = rest.count s' := by rw [List.count_cons]; simp [hss]
        simp only [hcc] at this; exact this

theorem wakeRel_fold {st0 : St} {k : Key} (l : List Sock) {st : St} (h : WakeRel st0 k l st) : WakeRel st0 k [] (l.foldl wakeOne st) := by
  induction l generalizing st with
  | nil => exact h
  | cons s l ih => exact ih (wakeRel_step h)

/-- the counters of a state -/
def CountsOk (st : St) : Prop := Counts st.awaited st.waitOf (total st.waiting)

/-- what `wake` does -/
structure Woken (st0 : St) (k : Key) (st : St) : Prop where
  store : st.store = st0.store
  waiting : st.waiting = st0.waiting.filter (·.1 ≠ k)
  watchers : st.watchers = st0.watchers
  opened : st.opened = st0.opened
  reqs : st.reqs = st0.reqs
  busy : st.busy = st0.busy
  rets : st.rets = st0.rets
  next : st.next = st0.next
  counts : CountsOk st
  each : ∀ s, (st.waitOf.get? s = st0.waitOf.get? s ∧ inboxOf st s = inboxOf st0 s) ∨
    ∃ n ks, st0.waitOf.get? s = some (n, ks) ∧ st.waitOf.get? s = none ∧ inboxOf st s = inboxOf st0 s ++ [(n, .byte 0)] ∧
      ⟨n, .wait ks, some (.byte 0)⟩ ∈ st.lin ∧ others st0.waiting k s = 0
  lin : ∃ ws, st.lin = st0.lin ++ ws ∧ ∀ e ∈ ws, ∃ s n ks, e = ⟨n, .wait ks, some (.byte 0)⟩ ∧ st0.waitOf.get? s = some (n, ks) ∧
    others st0.waiting k s = 0

theorem wake_spec {st : St} (k : Key) (h : CountsOk st) : Woken st k (wake st k) := by
  have h0 : WakeRel st k (waitersOf st k) st := by
    refine ⟨rfl, rfl, rfl, rfl, rfl, rfl, rfl, rfl, ?_, fun s => .inl ⟨rfl, rfl⟩, ⟨[], by simp, by simp⟩⟩
    intro s
    have := h s
    rw [total_split st.waiting k s] at this
    exact this
  obtain ⟨h1, h2, h3, h4, h5, h6, h7, h8, h9, h10, h11⟩ := wakeRel_fold _ h0
  refine ⟨h1, by simp only [wake, h2], h3, h4, h5, h6, h7, h8, ?_, h10, h11⟩
  intro s
  have := h9 s
  simp only [wake, total, h2]
  simpa [others] using this

/-! without anything known about the counters -/

theorem wakeOne_keeps (st : St) (s : Sock) : (wakeOne st s).store = st.store ∧ (wakeOne st s).watchers = st.watchers ∧
    (wakeOne st s).lin.filter (!·.isWait) = st.lin.filter (!·.isWait) := by
  simp only [wakeOne]
  repeat' split
  all_goals simp [record, send, Entry.isWait]

theorem wake_keeps (st : St) (k : Key) : (wake st k).store = st.store ∧ (wake st k).watchers = st.watchers ∧
    (wake st k).lin.filter (!·.isWait) = st.lin.filter (!·.isWait) := by
  have : ∀ (l : List Sock) (st : St), (l.foldl wakeOne st).store = st.store ∧ (l.foldl wakeOne st).watchers = st.watchers ∧
      (l.foldl wakeOne st).lin.filter (!·.isWait) = st.lin.filter (!·.isWait) := by
    intro l
    induction l with
    | nil => intro st; exact ⟨rfl, rfl, rfl⟩
    | cons s l ih =>
      intro st
      obtain ⟨h1, h2, h3⟩ := ih (wakeOne st s)
      obtain ⟨g1, g2, g3⟩ := wakeOne_keeps st s
      exact ⟨h1.trans g1, h2.trans g2, h3.trans g3⟩
  exact this _ st

theorem notify_spec (k : Key) (l : List Sock) (st : St) : ∃ ib, (notify k l st).1 = { st with inbox := ib } ∧
    (∀ s, s ∉ l → (ib.get? s).getD [] = inboxOf st s) ∧ ((∀ s ∈ l, s ∈ st.opened) → (notify k l st).2 = true) := by
  induction l generalizing st with
  | nil => exact ⟨st.inbox, rfl, fun _ _ => rfl, fun _ => rfl⟩
  | cons s l ih =>
    simp only [notify]
    split
    · next hs =>
      obtain ⟨ib, h1, h2, h3⟩ := ih (send st s 0 (.update k))
      refine ⟨ib, h1, ?_, fun hh => h3 (fun s' hs' => hh s' (by simp [hs']))⟩
      intro s' hs'
      rw [h2 s' (fun hh => hs' (by simp [hh])), inboxOf_send, if_neg (fun hh => hs' (by simp [hh]))]
    · next hs => exact ⟨st.inbox, rfl, fun _ _ => rfl, fun hh => absurd (hh s (by simp)) hs⟩

end Xoscar.Store
