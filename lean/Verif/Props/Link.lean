import Verif.Spec.Link
import Verif.Props.Wire
import Verif.Proof.Link
/-!
# C82: a connection carries messages, end to end
-/
namespace Xoscar.Link
open Xoscar Xoscar.Serial
open scoped List

/-! ## lists -/

theorem Each.length {α β : Type} {R : α → β → Prop} {l : List α} {m : List β} (h : Each R l m) : l.length = m.length := by
  induction h with
  | nil => rfl
  | cons _ _ ih => simp [ih]

theorem Each.imp {α β : Type} {R S : α → β → Prop} (h : ∀ a b, R a b → S a b) {l : List α} {m : List β} (e : Each R l m) : Each S l m := by
  induction e with
  | nil => exact .nil
  | cons r _ ih => exact .cons (h _ _ r) ih

theorem Each.take {α β : Type} {R : α → β → Prop} {l : List α} {m : List β} (h : Each R l m) (k : Nat) : Each R (l.take k) (m.take k) := by
  induction h generalizing k with
  | nil => simp; exact .nil
  | cons r _ ih =>
    cases k with
    | zero => exact .nil
    | succ k => exact .cons r (ih k)

theorem Each.get {α β : Type} {R : α → β → Prop} {l : List α} {m : List β} (h : Each R l m) {t : Nat} {a : α} (ha : l[t]? = some a) :
    ∃ b, m[t]? = some b ∧ R a b := by
  induction h generalizing t with
  | nil => simp at ha
  | cons r _ ih =>
    cases t with
    | zero => simp at ha; subst ha; exact ⟨_, rfl, r⟩
    | succ t => simpa using ih (by simpa using ha)

theorem Each.map_right {α β γ : Type} {R : α → γ → Prop} {f : β → γ} {l : List α} {m : List β} (h : Each (fun a b => R a (f b)) l m) :
    Each R l (m.map f) := by
  induction h with
  | nil => exact .nil
  | cons r _ ih => exact .cons r ih

theorem Each.of_all {α β : Type} {R : α → β → Prop} (l : List α) (h : ∀ a ∈ l, ∃ b, R a b) : ∃ m, Each R l m := by
  induction l with
  | nil => exact ⟨[], .nil⟩
  | cons a l ih =>
    obtain ⟨b, hb⟩ := h a (List.mem_cons_self)
    obtain ⟨m, hm⟩ := ih (fun a ha => h a (List.mem_cons_of_mem _ ha))
    exact ⟨b :: m, .cons hb hm⟩

theorem Each.strengthen {α β : Type} {R : α → β → Prop} {l : List α} {m : List β} (h : Each R l m) {p : α → Prop} {q : β → Prop}
    (hp : ∀ a ∈ l, p a) (hq : ∀ b ∈ m, q b) : Each (fun a b => R a b ∧ p a ∧ q b) l m := by
  induction h with
  | nil => exact .nil
  | cons r _ ih =>
    exact .cons ⟨r, hp _ List.mem_cons_self, hq _ List.mem_cons_self⟩
      (ih (fun a ha => hp a (List.mem_cons_of_mem _ ha)) (fun b hb => hq b (List.mem_cons_of_mem _ hb)))

/-- a merge of lists can be read as a merge of lists related to them place by place -/
theorem lift {α : Type} {R : Item → α → Prop} (log : List (Nat × α)) : ∀ (f : Nat → List Item) (g : Nat → List α),
    (∀ t, Each R (f t) (g t)) → (∀ t, ((log.filter (fun e => e.1 == t)).map Prod.snd) <+: g t) →
    ∃ ilog : List (Nat × Item), Each (fun a b => a.1 = b.1 ∧ R a.2 b.2) ilog log ∧ ∀ t, ∃ rest, from_ t ilog ++ rest = f t := by
  induction log with
  | nil => intro f g _ _; exact ⟨[], .nil, fun t => ⟨f t, rfl⟩⟩
  | cons e log ih =>
    intro f g hfg hp
    obtain ⟨t, w⟩ := e
    have h0 := hp t
    simp only [List.filter_cons, beq_self_eq_true, if_true, List.map_cons] at h0
    obtain ⟨r0, hr0⟩ := h0
    have h1 := hfg t
    rw [← hr0, List.cons_append] at h1
    generalize hft : f t = ft at h1
    cases h1 with
    | @cons i _ fl _ hr hE =>
    obtain ⟨ilog, hi1, hi2⟩ := ih (fun t' => if t' = t then fl else f t') (fun t' => if t' = t then ((log.filter (fun e => e.1 == t)).map Prod.snd) ++ r0 else g t')
      (by
        intro t'
        by_cases h : t' = t
        · simp only [h, if_true]; exact hE
        · simp only [h, if_false]; exact hfg t')
      (by
        intro t'
        by_cases h : t' = t
        · subst h; simp
        · have h' : ¬ (t == t') = true := by simpa using fun e => h e.symm
          have := hp t'
          simp only [List.filter_cons, h', Bool.false_eq_true, if_false] at this
          simpa [h] using this)
    refine ⟨(t, i) :: ilog, .cons ⟨rfl, hr⟩ hi1, fun t' => ?_⟩
    obtain ⟨rest, hrest⟩ := hi2 t'
    by_cases h : t' = t
    · subst h
      simp only [if_true] at hrest
      refine ⟨rest, ?_⟩
      rw [hft]
      simp only [from_, List.filter_cons, beq_self_eq_true, if_true, List.map_cons, List.cons_append]
      simp only [from_] at hrest
      rw [hrest]
    · have h' : ¬ (t == t') = true := by simpa using fun e => h e.symm
      simp only [h, if_false] at hrest
      refine ⟨rest, ?_⟩
      simp only [from_, List.filter_cons, h', Bool.false_eq_true, if_false]
      exact hrest

theorem lift_length {α : Type} {R : Item → α → Prop} {ilog : List (Nat × Item)} {log : List (Nat × α)}
    (h : Each (fun a b => a.1 = b.1 ∧ R a.2 b.2) ilog log) (t : Nat) :
    (from_ t ilog).length = ((log.filter (fun e => e.1 == t)).map Prod.snd).length := by
  induction h with
  | nil => rfl
  | cons r _ ih =>
    simp only [from_, List.filter_cons, List.length_map] at *
    rw [r.1]
    split <;> simp [ih]

/-! ## the connection as senders, bytes and reader -/

theorem unpack_pack (r : PV × List Serial.Buf) : unpack (pack r) = r := by
  obtain ⟨h, bs⟩ := r
  simp only [unpack, pack, List.map_map, Prod.mk.injEq, true_and]
  conv => rhs; rw [← List.map_id bs]
  apply List.map_congr_left
  intro b _
  simp

theorem sstep_wire (pk : Wire.Pickle PV) (c : Nat) (st : Wire.SState PV) (t : Nat) : ∃ x, (Wire.sstep pk c st t).wire = st.wire ++ x := by
  unfold Wire.sstep
  split
  · exact ⟨[], by simp⟩
  · split
    · exact ⟨[], by simp⟩
    · split
      · exact ⟨[], by simp⟩
      · next ws _ => exact ⟨ws.flatten, by simp [Wire.foldl_append]⟩
    · exact ⟨[], by simp⟩

structure Inv (pk : Wire.Pickle PV) (c : Nat) (progs : List (List (PV × List Serial.Buf))) (st : St) : Prop where
  out : ∃ sched, st.out = Wire.srun pk c (Wire.startSenders (progs.map (·.map pack))) sched
  inn : ∃ evs, st.inn = Wire.rrun pk ⟨[], .idle, []⟩ evs ∧ Wire.dataOf evs = st.out.wire.take st.sent
  sent : st.sent ≤ st.out.wire.length

theorem dataOf_append (a b : List Wire.REv) : Wire.dataOf (a ++ b) = Wire.dataOf a ++ Wire.dataOf b := by simp [Wire.dataOf]

theorem inv_step {pk : Wire.Pickle PV} {c : Nat} {progs : List (List (PV × List Serial.Buf))} {st : St} (h : Inv pk c progs st) (l : Label) :
    Inv pk c progs (step pk c st l) := by
  obtain ⟨⟨sched, h1⟩, ⟨evs, h2, h3⟩, h4⟩ := h
  cases l with
  | send t =>
    obtain ⟨x, hx⟩ := sstep_wire pk c st.out t
    refine ⟨⟨sched ++ [t], by simp [step, h1, Wire.srun]⟩, ⟨evs, h2, ?_⟩, ?_⟩
    · simp only [step, hx]
      rw [List.take_append_of_le_length h4]; exact h3
    · simp only [step, hx, List.length_append]; omega
  | deliver n =>
    refine ⟨⟨sched, h1⟩, ⟨evs ++ [.data ((st.out.wire.drop st.sent).take n)], ?_, ?_⟩, ?_⟩
    · simp [step, h2, Wire.rrun]
    · rw [dataOf_append, h3]
      simp only [step, Wire.dataOf, List.map_cons, List.map_nil, List.flatten_cons, List.flatten_nil, List.append_nil]
      rw [List.take_add]
      congr 1
      rw [List.length_take, List.length_drop]
      by_cases hn : n ≤ st.out.wire.length - st.sent
      · rw [Nat.min_eq_left hn]
      · rw [Nat.min_eq_right (by omega), List.take_of_length_le (by simp; omega), List.take_of_length_le (by simp)]
    · simp only [step, List.length_take, List.length_drop]; omega
  | call =>
    refine ⟨⟨sched, h1⟩, ⟨evs ++ [.call], by simp [step, h2, Wire.rrun], ?_⟩, h4⟩
    rw [dataOf_append, h3]; simp [step, Wire.dataOf]
  | resume =>
    refine ⟨⟨sched, h1⟩, ⟨evs ++ [.resume], by simp [step, h2, Wire.rrun], ?_⟩, h4⟩
    rw [dataOf_append, h3]; simp [step, Wire.dataOf]

theorem inv_run (pk : Wire.Pickle PV) (c : Nat) (progs : List (List (PV × List Serial.Buf))) (ls : List Label) :
    Inv pk c progs (run pk c progs ls) := by
  have gen : ∀ (ls : List Label) (st : St), Inv pk c progs st → Inv pk c progs (ls.foldl (step pk c) st) := by
    intro ls
    induction ls with
    | nil => intro st h; exact h
    | cons l ls ih => intro st h; exact ih _ (inv_step h l)
  refine gen ls _ ⟨⟨[], by simp [init, Wire.srun, Wire.startSenders]⟩, ⟨[], rfl, rfl⟩, by simp [init]⟩

/-- the messages fit the frame format: the pickled header of each has fewer than 2^64 bytes, and the compression tag 16 bits -/
def Fits (pk : Wire.Pickle PV) (c : Nat) (progs : List (List (PV × List Serial.Buf))) : Prop :=
  c < 2 ^ 16 ∧ ∀ l ∈ progs, ∀ r ∈ l, (pk.dumps ⟨r.2.map (fun _ => false), r.2.map (·.size), r.1⟩).length < 2 ^ 64

theorem framable_all {pk : Wire.Pickle PV} {c : Nat} {progs : List (List (PV × List Serial.Buf))} (hf : Fits pk c progs) {t : Nat}
    {l : List (Wire.Msg PV)} (h : (progs.map (·.map pack))[t]? = some l) : Wire.framable pk c l = l := by
  rw [List.getElem?_map] at h
  obtain ⟨l0, hl0, rfl⟩ := Option.map_eq_some_iff.mp h
  unfold Wire.framable
  rw [List.filter_eq_self]
  intro m hm
  obtain ⟨r, hr, rfl⟩ := List.mem_map.mp hm
  rw [Wire.frame_isSome_iff]
  refine And.intro ?_ hf.1
  have e : (pack r).header = ⟨r.2.map (fun _ => false), r.2.map (·.size), r.1⟩ := by
    clear hf
    simp only [pack, Wire.Msg.header, List.map_map]
    rfl
  rw [e]
  exact hf.2 l0 (List.mem_of_getElem? hl0) r hr

/-- from the bytes to the messages: the core of C82 -/
theorem core {P : Pickler} {pk : Wire.Pickle PV} {c : Nat} {items : List (List Item)} {progs : List (List (PV × List Serial.Buf))}
    (hg : Each (Each (Gives P)) items progs) (hf : Fits pk c progs) (ls : List Label) :
    ∃ log : List (Nat × Item), Merge items log ∧
      ((∀ s ∈ (run pk c progs ls).out.senders, s.todo = []) → Complete items log) ∧
      (∃ k, Each (fun e r => Gives P e.2 r) (log.take k) (received (run pk c progs ls))) ∧
      (run pk c progs ls).inn.phase ≠ .dead ∧
      ((run pk c progs ls).sent = (run pk c progs ls).out.wire.length → ∃ more, Wire.dataOf more = [] ∧
        Each (fun e r => Gives P e.2 r) log ((Wire.rrun pk (run pk c progs ls).inn more).out.map unpack)) := by
  obtain ⟨⟨sched, h1⟩, ⟨evs, h2, h3⟩, h4⟩ := inv_run pk c progs ls
  generalize run pk c progs ls = st at *
  obtain ⟨log, hs, hlt, hpre, hcompl⟩ := Wire.concurrent_senders_whole_frames pk c (progs.map (·.map pack)) sched
  rw [← h1] at hs hcompl
  have hgl : items.length = progs.length := hg.length
  -- related place by place
  let R : Item → Wire.Msg PV → Prop := fun i w => ∃ r, Gives P i r ∧ w = pack r
  have hfg : ∀ t : Nat, Each R (items[t]?.getD []) ((progs.map (·.map pack))[t]?.getD []) := by
    intro t
    rcases hi : items[t]? with _ | l
    · have : progs[t]? = none := by rw [List.getElem?_eq_none_iff] at *; omega
      simp [this]; exact .nil
    · obtain ⟨b, hb, hE⟩ := hg.get hi
      simp only [List.getElem?_map, hb, Option.map_some, Option.getD_some]
      exact Each.map_right (hE.imp fun i r hr => ⟨r, hr, rfl⟩)
  have hp : ∀ t : Nat, ((log.filter (fun e => e.1 == t)).map Prod.snd) <+: (progs.map (·.map pack))[t]?.getD [] := by
    intro t
    rcases hi : (progs.map (·.map pack))[t]? with _ | l
    · have hle : (progs.map (·.map pack)).length ≤ t := by rw [List.getElem?_eq_none_iff] at hi; exact hi
      have : log.filter (fun e => e.1 == t) = [] := by
        rw [List.filter_eq_nil_iff]
        intro e he hee
        have := hlt e he
        simp only [beq_iff_eq] at hee
        omega
      rw [this]; simp
    · have := hpre t l hi
      rw [framable_all hf hi] at this
      rw [hi, Option.getD_some]
      exact this
  obtain ⟨ilog, hE, hrest⟩ := lift log _ _ hfg hp
  have hEu : Each (fun e r => Gives P e.2 r) ilog ((log.map Prod.snd).map unpack) := by
    rw [List.map_map]
    refine Each.map_right (hE.imp ?_)
    rintro a b ⟨_, r, hr, hb⟩
    simp only [Function.comp_apply, hb, unpack_pack]
    exact hr
  refine ⟨ilog, ⟨?_, ?_⟩, ?_, ?_, ?_, ?_⟩
  · intro e he
    have : ∀ (il : List (Nat × Item)) (lg : List (Nat × Wire.Msg PV)), Each (fun a b => a.1 = b.1 ∧ R a.2 b.2) il lg →
        (∀ e ∈ lg, e.1 < items.length) → ∀ e ∈ il, e.1 < items.length := by
      intro il lg h
      induction h with
      | nil => simp
      | cons r _ ih =>
        intro h e he
        rcases List.mem_cons.mp he with rfl | he
        · rw [r.1]; exact h _ List.mem_cons_self
        · exact ih (fun e he => h e (List.mem_cons_of_mem _ he)) e he
    refine this _ _ hE (fun e he => ?_) e he
    have := hlt e he
    simpa [hgl] using this
  · intro t l hl
    obtain ⟨rest, hr⟩ := hrest t
    rw [hl] at hr
    exact ⟨rest, by simpa using hr⟩
  · intro hd t l hl
    obtain ⟨rest, hr⟩ := hrest t
    rw [hl] at hr
    simp only [Option.getD_some] at hr
    obtain ⟨b, hb, hEb⟩ := hg.get hl
    have hb' : (progs.map (·.map pack))[t]? = some (b.map pack) := by simp [hb]
    have := hcompl hd t _ hb'
    rw [framable_all hf hb'] at this
    have hlen := lift_length hE t
    have h5 : ((log.filter (fun e => e.1 == t)).map Prod.snd).length = l.length := by
      have : (log.filter (fun e => e.1 == t)).map Prod.snd = b.map pack := this
      rw [this, List.length_map, hEb.length]
    have h6 := congrArg List.length hr
    rw [List.length_append, hlen, h5] at h6
    have : rest = [] := List.length_eq_zero_iff.mp (by omega)
    subst this
    simpa using hr
  · obtain ⟨⟨r, hr⟩, _⟩ := Wire.reader_prefix pk c _ _ hs evs (st.out.wire.drop st.sent) (by rw [h3]; simp)
    rw [← h2] at hr
    refine ⟨st.inn.out.length, ?_⟩
    have e1 : received st = ((log.map Prod.snd).map unpack).take st.inn.out.length := by
      rw [← hr, List.map_append, List.take_append_of_le_length (by simp), List.take_of_length_le (by simp)]
      rfl
    rw [e1]
    exact hEu.take _
  · obtain ⟨_, h⟩ := Wire.reader_prefix pk c _ _ hs evs (st.out.wire.drop st.sent) (by rw [h3]; simp)
    rw [h2]; exact h
  · intro hsent
    obtain ⟨more, hm1, hm2⟩ := Wire.reader_complete pk c _ _ hs evs (by rw [h3, hsent, List.take_length])
    refine ⟨more, hm1, ?_⟩
    have : Wire.rrun pk st.inn more = Wire.rrun pk ⟨[], .idle, []⟩ (evs ++ more) := by
      rw [h2]; simp [Wire.rrun]
    rw [this, hm2]
    exact hEu

/-! ## C82 -/

theorem isMessage_of_gives {P : Pickler} (hP : P.Law) {i : Item} (hi : i.Good) {r : PV × List Serial.Buf} (hr : Gives P i r) :
    IsMessage P i r := (message_roundtrip hP hi.root hi.supported hi.shape hi.protocol).2 r.1 r.2 hr

theorem from_mem {log : List (Nat × Item)} {e : Nat × Item} (h : e ∈ log) : e.2 ∈ from_ e.1 log := by
  simp only [from_, List.mem_map, List.mem_filter, beq_iff_eq]
  exact ⟨e, ⟨h, rfl⟩, rfl⟩

theorem merge_mem {items : List (List Item)} {log : List (Nat × Item)} (h : Merge items log) {e : Nat × Item} (he : e ∈ log) :
    ∃ l ∈ items, e.2 ∈ l := by
  have hlt := h.1 e he
  obtain ⟨rest, hr⟩ := h.2 e.1 _ (List.getElem?_eq_getElem hlt)
  exact ⟨_, List.getElem_mem hlt, by rw [← hr]; exact List.mem_append_left _ (from_mem he)⟩

/-- **C82**: any number of tasks send any messages over one connection, their sends interleaved in any way, the bytes arriving in
any pieces, any number of tasks receiving: at every moment the messages received are the first ones, in order, of a merge of
the messages sent, in which each task's messages are in its own order, none lost, repeated or invented; each message received is the one
that was sent: same class, same fields, equal payload. -/
theorem arrives {P : Pickler} (hP : P.Law) {pk : Wire.Pickle PV} {c : Nat} {items : List (List Item)}
    {progs : List (List (PV × List Serial.Buf))} (hgood : ∀ l ∈ items, ∀ i ∈ l, i.Good) (hg : Each (Each (Gives P)) items progs)
    (hf : Fits pk c progs) (ls : List Label) :
    ∃ log : List (Nat × Item), Merge items log ∧
      (∃ k, Each (fun e r => IsMessage P e.2 r) (log.take k) (received (run pk c progs ls))) ∧
      ((∀ s ∈ (run pk c progs ls).out.senders, s.todo = []) → Complete items log) := by
  obtain ⟨log, h1, h2, ⟨k, h3⟩, _⟩ := core hg hf ls
  refine ⟨log, h1, ⟨k, ?_⟩, h2⟩
  refine (h3.strengthen (p := fun e => e.2.Good) (q := fun _ => True) (fun e he => ?_) (fun _ _ => trivial)).imp
    (fun e r h => isMessage_of_gives hP h.2.1 h.1)
  obtain ⟨l, hl, hi⟩ := merge_mem h1 (List.mem_of_mem_take he)
  exact hgood l hl _ hi

/-- every list of such messages can be sent -/
theorem can_be_sent {P : Pickler} (hP : P.Law) {items : List (List Item)} (hgood : ∀ l ∈ items, ∀ i ∈ l, i.Good) :
    ∃ progs, Each (Each (Gives P)) items progs := by
  refine Each.of_all _ fun l hl => Each.of_all _ fun i hi => ?_
  have hi := hgood l hl i hi
  obtain ⟨⟨h, b, hs⟩, _⟩ := message_roundtrip (P := P) hP hi.root hi.supported hi.shape hi.protocol
  exact ⟨(h, b), hs⟩

/-- **C82**, a receiver that cannot load everything (it unpickles with `P'`): what it gets of each message is the message, every opaque
object in it loaded, or a report with that message's id; the messages after it are not disturbed. -/
theorem arrives_or_reported {P P' : Pickler} {pk : Wire.Pickle PV} {c : Nat} {items : List (List Item)}
    {progs : List (List (PV × List Serial.Buf))}
    (hfin : ∀ l ∈ items, ∀ i ∈ l, (∃ S : List Id, (∀ x ∈ i.msg.payload, x ∈ S) ∧ ∀ x ∈ S, ∀ y ∈ (i.heap x).kids, y ∈ S) ∧
      ∀ y ∈ i.msg.payload, ¬ Reach i.heap y i.mid)
    (hg : Each (Each (Gives P)) items progs) (hf : Fits pk c progs) (ls : List Label) :
    ∃ log : List (Nat × Item), Merge items log ∧
      (∃ k, Each (fun e r => IsReport P' e.2 r ∨ ∃ m' st, MsgOutcome P' r.1 r.2 (.ok (.msg m') st) ∧
          ∀ x ∈ e.2.msg.payload, ∀ y, Reach e.2.heap x y → ∀ u, e.2.heap y = .other u → P'.load (P.dump u) ≠ none)
        (log.take k) (received (run pk c progs ls))) ∧
      ((∀ s ∈ (run pk c progs ls).out.senders, s.todo = []) → Complete items log) := by
  obtain ⟨log, h1, h2, ⟨k, h3⟩, _⟩ := core hg hf ls
  refine ⟨log, h1, ⟨k, ?_⟩, h2⟩
  refine (h3.strengthen (p := fun e => (∃ S : List Id, (∀ x ∈ e.2.msg.payload, x ∈ S) ∧ ∀ x ∈ S, ∀ y ∈ (e.2.heap x).kids, y ∈ S) ∧
      ∀ y ∈ e.2.msg.payload, ¬ Reach e.2.heap y e.2.mid) (q := fun _ => True) (fun e he => ?_) (fun _ _ => trivial)).imp ?_
  · obtain ⟨l, hl, hi⟩ := merge_mem h1 (List.mem_of_mem_take he)
    exact hfin l hl _ hi
  · rintro e r ⟨hr, ⟨ha, hb⟩, _⟩
    obtain ⟨o, ho, ⟨m', st, rfl, hh⟩ | rfl⟩ := undecodable_reported_against_own_id (P' := P') ha hb hr
    · exact .inr ⟨m', st, ho, hh⟩
    · exact .inl ho

/-! ### nothing is stuck -/

theorem run_append (pk : Wire.Pickle PV) (c : Nat) (progs : List (List (PV × List Serial.Buf))) (a b : List Label) :
    run pk c progs (a ++ b) = b.foldl (step pk c) (run pk c progs a) := by simp [run]

/-- how far a sender is from its end -/
def left (s : Wire.Sender PV) : Nat := 2 * s.todo.length + (match s.phase with | .serializing => 1 | .draining => 0)

theorem sum_set {l : List (Wire.Sender PV)} {t : Nat} {s s' : Wire.Sender PV} (hs : l[t]? = some s) (h : left s' < left s) :
    ((l.set t s').map left).sum < (l.map left).sum := by
  induction l generalizing t with
  | nil => simp at hs
  | cons a l ih =>
    cases t with
    | zero => simp at hs; subst hs; simp; omega
    | succ t => simp at hs; have := ih hs; simp only [List.set_cons_succ, List.map_cons, List.sum_cons]; omega

theorem sstep_left (pk : Wire.Pickle PV) (c : Nat) (st : Wire.SState PV) {t : Nat} {s : Wire.Sender PV} (hs : st.senders[t]? = some s)
    (h : s.todo ≠ []) : ((Wire.sstep pk c st t).senders.map left).sum < (st.senders.map left).sum := by
  unfold Wire.sstep
  rw [hs]
  simp only
  split
  · next h0 => exact absurd h0 h
  · next m ms hp ht =>
    split
    · exact sum_set hs (by simp [left, hp, ht])
    · exact sum_set hs (by simp [left, hp, ht])
  · next m ms hp ht =>
    exact sum_set hs (by simp only [left, hp, ht, List.length_cons]; omega)

theorem le_sum {l : List Nat} {n : Nat} (h : n ∈ l) : n ≤ l.sum := by
  induction l with
  | nil => simp at h
  | cons a l ih =>
    rcases List.mem_cons.mp h with rfl | h
    · simp
    · have := ih h; simp; omega

theorem senders_finish (pk : Wire.Pickle PV) (c : Nat) : ∀ (n : Nat) (st : St), (st.out.senders.map left).sum ≤ n →
    ∃ ls : List Label, (∀ l ∈ ls, ∃ t, l = .send t) ∧ ∀ s ∈ (ls.foldl (step pk c) st).out.senders, s.todo = [] := by
  intro n
  induction n with
  | zero =>
    intro st h
    refine ⟨[], by simp, fun s hs => ?_⟩
    have h1 : left s ≤ (st.out.senders.map left).sum := le_sum (List.mem_map_of_mem hs)
    have h2 : 2 * s.todo.length ≤ left s := by simp [left]
    exact List.length_eq_zero_iff.mp (by omega)
  | succ n ih =>
    intro st h
    by_cases hd : ∀ s ∈ st.out.senders, s.todo = []
    · exact ⟨[], by simp, hd⟩
    · have : ∃ s ∈ st.out.senders, s.todo ≠ [] := by
        false_or_by_contra
        rename_i hn
        exact hd fun s hs => by
          false_or_by_contra
          rename_i h0
          exact hn ⟨s, hs, h0⟩
      obtain ⟨s, hs, h0⟩ := this
      obtain ⟨t, ht⟩ := List.getElem?_of_mem hs
      have hlt := sstep_left pk c st.out ht h0
      obtain ⟨ls, hl1, hl2⟩ := ih (step pk c st (.send t)) (by simp only [step]; omega)
      refine ⟨.send t :: ls, ?_, hl2⟩
      intro l hl
      rcases List.mem_cons.mp hl with rfl | hl
      · exact ⟨t, rfl⟩
      · exact hl1 l hl

theorem reads (pk : Wire.Pickle PV) (c : Nat) (more : List Wire.REv) (h : Wire.dataOf more = []) : ∀ st : St,
    ∃ ls : List Label, (∀ l ∈ ls, l = .call ∨ l = .resume) ∧ (ls.foldl (step pk c) st).inn = Wire.rrun pk st.inn more := by
  induction more with
  | nil => intro st; exact ⟨[], by simp, rfl⟩
  | cons e more ih =>
    intro st
    have h' : Wire.dataOf [e] = [] ∧ Wire.dataOf more = [] := by
      rw [show e :: more = [e] ++ more from rfl, dataOf_append] at h
      exact List.append_eq_nil_iff.mp h
    have go : ∀ l : Label, (l = .call ∨ l = .resume) → (step pk c st l).inn = Wire.rstep pk st.inn e →
        ∃ ls : List Label, (∀ l ∈ ls, l = .call ∨ l = .resume) ∧ (ls.foldl (step pk c) st).inn = Wire.rrun pk st.inn (e :: more) := by
      intro l hl hst
      obtain ⟨ls, h1, h2⟩ := ih h'.2 (step pk c st l)
      refine ⟨l :: ls, ?_, ?_⟩
      · intro x hx
        rcases List.mem_cons.mp hx with rfl | hx
        · exact hl
        · exact h1 x hx
      · rw [List.foldl_cons, h2, hst]; rfl
    cases e with
    | data bs =>
      have : bs = [] := by simpa [Wire.dataOf] using h'.1
      subst this
      obtain ⟨ls, h1, h2⟩ := ih h'.2 st
      refine ⟨ls, h1, ?_⟩
      rw [h2]
      simp [Wire.rrun, Wire.rstep]
    | call => exact go .call (.inl rfl) rfl
    | resume => exact go .resume (.inr rfl) rfl

/-- **C82**, nothing is stuck: at every moment the rest can still be sent, delivered and received, and then every message of every
task has arrived. -/
theorem all_arrive {P : Pickler} (hP : P.Law) {pk : Wire.Pickle PV} {c : Nat} {items : List (List Item)}
    {progs : List (List (PV × List Serial.Buf))} (hgood : ∀ l ∈ items, ∀ i ∈ l, i.Good) (hg : Each (Each (Gives P)) items progs)
    (hf : Fits pk c progs) (ls : List Label) :
    ∃ (more : List Label) (log : List (Nat × Item)), Merge items log ∧ Complete items log ∧
      Each (fun e r => IsMessage P e.2 r) log (received (run pk c progs (ls ++ more))) := by
  obtain ⟨l1, hl1, hd⟩ := senders_finish pk c _ (run pk c progs ls) (Nat.le_refl _)
  -- deliver everything
  have hdel : ∀ st : St, st.sent ≤ st.out.wire.length → (step pk c st (.deliver st.out.wire.length)).sent =
      (step pk c st (.deliver st.out.wire.length)).out.wire.length := by
    intro st h
    simp only [step, List.length_take, List.length_drop]; omega
  rw [← run_append] at hd
  obtain ⟨log, h1, h2, _, _, h5⟩ := core hg hf (ls ++ l1 ++ [.deliver (run pk c progs (ls ++ l1)).out.wire.length])
  have hrun : run pk c progs (ls ++ l1 ++ [.deliver (run pk c progs (ls ++ l1)).out.wire.length]) =
      step pk c (run pk c progs (ls ++ l1)) (.deliver (run pk c progs (ls ++ l1)).out.wire.length) := by
    rw [run_append]; rfl
  obtain ⟨more, hm1, hm2⟩ := h5 (by rw [hrun]; exact hdel _ (inv_run pk c progs _).sent)
  obtain ⟨l3, _, hl3⟩ := reads pk c more hm1 (run pk c progs (ls ++ l1 ++ [.deliver (run pk c progs (ls ++ l1)).out.wire.length]))
  rw [← run_append] at hl3
  refine ⟨l1 ++ [.deliver (run pk c progs (ls ++ l1)).out.wire.length] ++ l3, log, h1, h2 ?_, ?_⟩
  · rw [hrun]; exact hd
  · rw [← hl3] at hm2
    have e : received (run pk c progs (ls ++ (l1 ++ [.deliver (run pk c progs (ls ++ l1)).out.wire.length] ++ l3))) =
        (run pk c progs (ls ++ l1 ++ [.deliver (run pk c progs (ls ++ l1)).out.wire.length] ++ l3)).inn.out.map unpack := by
      simp [received, List.append_assoc]
    rw [e]
    refine (hm2.strengthen (p := fun e => e.2.Good) (q := fun _ => True) (fun e he => ?_) (fun _ _ => trivial)).imp
      (fun e r h => isMessage_of_gives hP h.2.1 h.1)
    obtain ⟨l, hl, hi⟩ := merge_mem h1 he
    exact hgood l hl _ hi

/-! ## Example -/

/-- the forwarded message of C05's example -/
def ex : Item := ⟨dagMsg, 9, fwd⟩

theorem ex_good : ex.Good := ⟨rfl, dagMsg_supported, .inl dagMsg_acyclic, rfl⟩

/-- what `serialize` gives for it -/
def exOut : PV × List Serial.Buf :=
  (.tup [.nat 32105, .nat 0, .nat 1, .bool false, .nat 12, .atom (.prim 77), .nat 0, .atom .none, .atom .none, .atom (.str "127.0.0.1:2"), .nat 7, .atom (.prim 77), .nat 0, .atom .none, .atom .none, .atom (.str "127.0.0.1:1"), .atom (.str "u"), .atom .none, .tup [.nat 5, .nat 1, .nat 4, .bool false, .list [.atom .none, .atom .none, .atom .none, .atom .none], .list [.nat 0, .nat 1, .nat 2, .nat 3], .atom .none, .tup [.nat 4, .nat 2, .nat 1, .bool false, .list [.atom (.str "a"), .atom .none], .list [.nat 1], .atom .none, .tup [.nat 6, .nat 3, .nat 0, .bool true]], .tup [.nat 7, .nat 2, .nat 0, .bool true], .tup [.nat 6, .nat 4, .nat 1, .bool false, .tup [.list [.atom (.str "a")], .list []], .tup [.list [.atom .none], .list [.nat 0]], .nat 0, .atom .none, .tup [.nat 7, .nat 2, .nat 0, .bool true]], .tup [.nat 0, .nat 5, .nat 7, .bool true]]],
    List.replicate 7 ByteArray.empty)

theorem exOut_fits : (codePickle.dumps ⟨exOut.2.map (fun _ => false), exOut.2.map (·.size), exOut.1⟩).length < 2 ^ 64 := by
  have hU : ∀ n, (U n).length = n + 1 := by intro n; simp [U]
  have : (codePickle.dumps ⟨exOut.2.map (fun _ => false), exOut.2.map (·.size), exOut.1⟩).length < 100000 := by
    have h1 : (encA (.prim 77)).length = 79 := by decide
    have h6 : (encA .none).length = 1 := by decide
    have h7 : ∀ l, (Us l).length = l.length + 1 + l.sum + l.length := by
      intro l
      simp only [Us, List.length_append, hU]
      induction l with
      | nil => rfl
      | cons a l ih => simp only [List.map_cons, List.flatten_cons, List.length_append, hU, List.sum_cons, List.length_cons]; simp only [Nat.add_assoc] at *; omega
    have hs : ∀ s : String, (encA (.str s)).length = (s.toList.map Char.toNat).length + 1 + (s.toList.map Char.toNat).sum +
        (s.toList.map Char.toNat).length + 1 := by
      intro s; simp only [encA, List.length_cons, h7]
    simp only [codePickle, dumps, exOut, enc, encs, List.length_append, List.length_cons, List.length_nil, hU, h1, h6, h7, hs]
    decide
  omega

/-- sent twice by one task and once by another, with a pickler for headers that satisfies the assumed law: the hypotheses are met -/
theorem ex_met : (∀ l ∈ [[ex, ex], [ex]], ∀ i ∈ l, i.Good) ∧
    ∃ progs, Each (Each (Gives unary)) [[ex, ex], [ex]] progs ∧ Fits codePickle 0 progs := by
  have hgood : ∀ l ∈ [[ex, ex], [ex]], ∀ i ∈ l, i.Good := by
    intro l hl i hi
    simp at hl
    rcases hl with rfl | rfl <;> simp at hi <;> subst hi <;> exact ex_good
  have hg : Gives unary ex exOut := ⟨60, rfl⟩
  refine ⟨hgood, [[exOut, exOut], [exOut]], .cons (.cons hg (.cons hg .nil)) (.cons (.cons hg .nil) .nil), by decide, ?_⟩
  intro l hl r hr
  have : r = exOut := by
    simp at hl
    rcases hl with rfl | rfl <;> simpa using hr
  subst this
  exact exOut_fits

end Xoscar.Link
