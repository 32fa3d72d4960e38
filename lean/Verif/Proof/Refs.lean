import Verif.Spec.Refs
import Verif.Proof.Base
import Verif.Props.CopyTo
namespace Xoscar.Refs
open Xoscar.CopyTo (Bytes Entry)

theorem get?_filter_val {κ : Type} [DecidableEq κ] (d : Dict κ Obj) (hw : d.WF) (o : Obj) (k : κ) (v : Obj) :
    Dict.get? (d.filter (fun e => e.2 != o)) k = some v ↔ d.get? k = some v ∧ v ≠ o := by
  induction d with
  | nil => simp [Dict.get?]
  | cons e d ih =>
    obtain ⟨k', v'⟩ := e
    have hw' : Dict.WF d := by
      simp only [Dict.WF, Dict.keys, List.map_cons, List.nodup_cons] at hw ⊢; exact hw.2
    have hk' : ∀ v, (k', v) ∉ d := by
      simp only [Dict.WF, Dict.keys, List.map_cons, List.nodup_cons, List.mem_map] at hw
      intro v hv; exact hw.1 ⟨_, hv, rfl⟩
    have ih := ih hw'
    rw [List.filter_cons]
    by_cases h : v' = o
    · subst h
      simp only [bne_self_eq_false, Bool.false_eq_true, if_false, ih, Dict.get?_cons]
      by_cases e : k' = k
      · subst e
        simp only [if_true]
        constructor
        · rintro ⟨h1, _⟩; exact absurd (Dict.mem_of_get? h1) (hk' _)
        · rintro ⟨h1, h2⟩; injection h1 with h1; exact absurd h1.symm h2
      · simp only [if_neg e]
    · have hb : ((k', v').2 != o) = true := by simpa using h
      rw [if_pos hb]
      simp only [Dict.get?_cons]
      by_cases e : k' = k
      · subst e
        simp only [if_true]
        constructor
        · intro h1; injection h1 with h1; subst h1; exact ⟨rfl, h⟩
        · intro h1; exact h1.1
      · simp only [if_neg e]; exact ih

theorem wf_filter {κ : Type} [DecidableEq κ] (d : Dict κ Obj) (hw : d.WF) (f : κ × Obj → Bool) : Dict.WF (d.filter f) := by
  simp only [Dict.WF, Dict.keys] at *
  exact hw.sublist (List.Sublist.map _ List.filter_sublist)

def WFs (s : State) : Prop := ∀ p, (s p).buffers.WF ∧ (s p).files.WF

theorem wf_step {weakly : Obj → Bool} {s : State} (h : WFs s) (e : Event) : WFs (step weakly s e) := by
  intro q
  cases e with
  | create p k a u o =>
    simp only [step, create]
    split
    · simp only
      split
      · next e => subst e; cases k
                  · exact ⟨(h q).1.set _ _, (h q).2⟩
                  · exact ⟨(h q).1, (h q).2.set _ _⟩
      · exact h q
    · exact h q
  | die p o =>
    simp only [step, die]
    split
    · next e => subst e; exact ⟨wf_filter _ (h q).1 _, wf_filter _ (h q).2 _⟩
    · exact h q

theorem wf_run {weakly : Obj → Bool} {s : State} (h : WFs s) (es : List Event) : WFs (run weakly s es) := by
  induction es generalizing s with
  | nil => exact h
  | cons e es ih => exact ih (wf_step h e)

theorem wf_empty : WFs empty := fun _ => ⟨Dict.WF.nil, Dict.WF.nil⟩

theorem lookup_create (weakly : Obj → Bool) (s : State) (p q : Pid) (k : Kind) (a : Addr) (u : Uid) (o : Obj) (r : Ref) :
    lookup (create weakly s p k a u o).1 q r =
      if weakly o = true ∧ q = p ∧ r = ⟨k, a, u⟩ then some o else lookup s q r := by
  obtain ⟨rk, ra, ru⟩ := r
  simp only [create]
  by_cases hw : weakly o = true
  · rw [if_pos hw]
    by_cases hq : q = p
    · subst hq
      simp only [lookup, if_true, hw, true_and, Ref.mk.injEq]
      cases k <;> cases rk <;> simp only [Dict.get?_set, Prod.mk.injEq] <;> grind
    · simp only [lookup, if_neg hq, hq, false_and, and_false, if_false]
  · rw [if_neg hw, if_neg (fun h => hw h.1)]

theorem lookup_die {s : State} (hs : WFs s) (p q : Pid) (o v : Obj) (r : Ref) :
    lookup (die s p o) q r = some v ↔ lookup s q r = some v ∧ ¬ (q = p ∧ v = o) := by
  obtain ⟨rk, ra, ru⟩ := r
  by_cases hq : q = p
  · subst hq
    cases rk <;> simp only [lookup, die, if_true, true_and]
    · exact get?_filter_val _ (hs q).1 _ _ _
    · exact get?_filter_val _ (hs q).2 _ _ _
  · have : die s p o q = s q := if_neg hq
    simp only [lookup, this, hq, false_and, not_false_eq_true, and_true]

theorem run_append (weakly : Obj → Bool) (s : State) (es : List Event) (e : Event) :
    run weakly s (es ++ [e]) = step weakly (run weakly s es) e := by simp [run]

theorem idsUsed_append (a b : List Event) : idsUsed (a ++ b) = idsUsed a ++ idsUsed b := by
  induction a with
  | nil => rfl
  | cons e a ih => cases e <;> simp [idsUsed, ih]

theorem mem_idsUsed {es : List Event} {u : Uid} : u ∈ idsUsed es ↔ ∃ p k a o, Event.create p k a u o ∈ es := by
  induction es with
  | nil => simp [idsUsed]
  | cons e es ih =>
    cases e with
    | create p k a u' o =>
      simp only [idsUsed, List.mem_cons, ih, Event.create.injEq]
      constructor
      · rintro (rfl | ⟨p, k, a, o, h⟩)
        · exact ⟨p, k, a, o, .inl ⟨rfl, rfl, rfl, rfl, rfl⟩⟩
        · exact ⟨p, k, a, o, .inr h⟩
      · rintro ⟨p, k, a, o, ⟨-, -, -, h, -⟩ | h⟩
        · exact .inl h
        · exact .inr ⟨p, k, a, o, h⟩
    | die p o => simp [idsUsed, ih]

theorem id_unique {es : List Event} (hn : (idsUsed es).Nodup) {p p' : Pid} {k k' : Kind} {a a' : Addr} {u : Uid} {o o' : Obj}
    (h : Event.create p k a u o ∈ es) (h' : Event.create p' k' a' u o' ∈ es) : p = p' ∧ k = k' ∧ a = a' ∧ o = o' := by
  induction es with
  | nil => cases h
  | cons e es ih =>
    have hn' : (idsUsed es).Nodup := by
      cases e with
      | create => simp only [idsUsed, List.nodup_cons] at hn; exact hn.2
      | die => exact hn
    rcases List.mem_cons.mp h with h1 | h1 <;> rcases List.mem_cons.mp h' with h2 | h2
    · rw [← h1] at h2; injection h2 with a b c d e; exact ⟨a.symm, b.symm, c.symm, e.symm⟩
    · subst h1
      simp only [idsUsed, List.nodup_cons] at hn
      exact absurd (mem_idsUsed.2 ⟨_, _, _, _, h2⟩) hn.1
    · subst h2
      simp only [idsUsed, List.nodup_cons] at hn
      exact absurd (mem_idsUsed.2 ⟨_, _, _, _, h1⟩) hn.1
    · exact ih hn' h1 h2

theorem NoRevival.init {es : List Event} {e : Event} (h : NoRevival (es ++ [e])) : NoRevival es := by
  intro b a p o he k ad u hm
  exact h b (a ++ [e]) p o (by rw [he]; simp) k ad u (List.mem_append_left _ hm)

theorem NoRevival.last {es : List Event} {p : Pid} {k : Kind} {a : Addr} {u : Uid} {o : Obj}
    (h : NoRevival (es ++ [Event.create p k a u o])) : Event.die p o ∉ es := by
  intro hd
  obtain ⟨b, c, rfl⟩ := List.append_of_mem hd
  exact h b (c ++ [Event.create p k a u o]) p o (by simp) k a u (by simp)

/-- what every reference leads to, after any history -/
theorem lookup_made (weakly : Obj → Bool) (es : List Event) (hn : (idsUsed es).Nodup) (hr : NoRevival es) (p : Pid) (r : Ref) (o : Obj) :
    lookup (run weakly empty es) p r = some o ↔ Made weakly es p r o := by
  induction es using List.reverseRecOn' generalizing p r o with
  | nil =>
    obtain ⟨k, a, u⟩ := r
    cases k <;> simp only [run, List.foldl_nil, empty, lookup, Dict.get?] <;>
      exact ⟨fun h => absurd h (by simp), fun h => absurd h.created (by simp)⟩
  | append_singleton es e ih =>
    have hn' : (idsUsed es).Nodup := by
      rw [idsUsed_append] at hn; exact (List.nodup_append.1 hn).1
    have ih := ih hn' hr.init
    rw [run_append]
    cases e with
    | create q k a u v =>
      have hnew : u ∉ idsUsed es := by
        rw [idsUsed_append] at hn
        intro hu
        exact (List.nodup_append.1 hn).2.2 u hu u (by simp [idsUsed]) rfl
      have hdead := hr.last
      rw [step, lookup_create]
      by_cases hc : weakly v = true ∧ p = q ∧ r = ⟨k, a, u⟩
      · rw [if_pos hc]
        obtain ⟨h1, rfl, rfl⟩ := hc
        constructor
        · intro h; injection h with h; subst h
          exact ⟨by simp, h1, by simpa using hdead⟩
        · intro h
          have := id_unique hn h.created (List.mem_append_right es (List.mem_singleton.2 rfl))
          rw [this.2.2.2]
      · rw [if_neg hc, ih]
        constructor
        · intro h; exact ⟨List.mem_append_left _ h.created, h.weak, by simpa using h.there⟩
        · intro h
          refine ⟨?_, h.weak, fun hm => h.there (List.mem_append_left _ hm)⟩
          rcases List.mem_append.1 h.created with h1 | h1
          · exact h1
          · simp only [List.mem_singleton, Event.create.injEq] at h1
            obtain ⟨a1, a2, a3, a4, a5⟩ := h1
            exact absurd ⟨a5 ▸ h.weak, a1, by cases r; simp only at a2 a3 a4; subst a2 a3 a4; rfl⟩ hc
    | die q v =>
      rw [step, lookup_die (wf_run wf_empty es), ih]
      constructor
      · rintro ⟨h, hne⟩
        refine ⟨List.mem_append_left _ h.created, h.weak, ?_⟩
        simp only [List.mem_append, List.mem_singleton, not_or, Event.die.injEq]
        exact ⟨h.there, fun h => hne h⟩
      · intro h
        have hth := h.there
        simp only [List.mem_append, List.mem_singleton, not_or, Event.die.injEq] at hth
        exact ⟨⟨by simpa using h.created, h.weak, hth.1⟩, hth.2⟩

/-! ## handlers -/

theorem put_same (h : Heap) (o : Obj) (b : Bytes) : h.put o b o = b := by simp [Heap.put]
theorem put_other (h : Heap) {o o' : Obj} (b : Bytes) (hne : o' ≠ o) : h.put o b o' = h o' := by simp [Heap.put, hne]

/-- only objects that entries lead to are written -/
theorem handleBuffers_touch (s : State) (p : Pid) (a : Addr) (es : List Entry) (h : Heap) (o : Obj)
    (hne : ∀ e ∈ es, lookup s p ⟨.buffer, a, e.uid⟩ ≠ some o) : (handleBuffers s p a h es).1 o = h o := by
  induction es generalizing h with
  | nil => rfl
  | cons e es ih =>
    simp only [handleBuffers]
    have h0 := hne e (by simp)
    rcases hl : lookup s p ⟨.buffer, a, e.uid⟩ with _ | v
    · rfl
    · simp only
      split
      · rw [ih _ (fun e he => hne e (List.mem_cons_of_mem _ he))]
        exact put_other _ _ (fun hh => h0 (by rw [hl, hh]))
      · rfl

theorem handleFiles_touch (s : State) (p : Pid) (a : Addr) (es : List (Uid × Bytes)) (h : Heap) (o : Obj)
    (hne : ∀ e ∈ es, lookup s p ⟨.file, a, e.1⟩ ≠ some o) : (handleFiles s p a h es).1 o = h o := by
  induction es generalizing h with
  | nil => rfl
  | cons e es ih =>
    simp only [handleFiles]
    have h0 := hne e (by simp)
    rcases hl : lookup s p ⟨.file, a, e.1⟩ with _ | v
    · rfl
    · simp only
      rw [ih _ (fun e he => hne e (List.mem_cons_of_mem _ he))]
      exact put_other _ _ (fun hh => h0 (by rw [hl, hh]))

theorem foldl_touch {β : Type} (f : Heap → β → Heap) (o : Obj) (bs : List β) (h : Heap)
    (hf : ∀ b ∈ bs, ∀ h, f h b o = h o) : bs.foldl f h o = h o := by
  induction bs generalizing h with
  | nil => rfl
  | cons b bs ih =>
    rw [List.foldl_cons, ih _ (fun b hb => hf b (List.mem_cons_of_mem _ hb)), hf b (by simp)]

/-! ## which uids the messages carry -/

theorem splitLoop_uids (bs uid fuel : Nat) (s : CopyTo.St) (start : Nat) (buf : Bytes) (P : Nat → Prop) (hu : P uid)
    (hb : ∀ e ∈ s.block, P e.uid) (hs : ∀ b ∈ s.sent, ∀ e ∈ b, P e.uid) :
    (∀ e ∈ (CopyTo.splitLoop bs uid fuel s start buf).1.block, P e.uid) ∧
    ∀ b ∈ (CopyTo.splitLoop bs uid fuel s start buf).1.sent, ∀ e ∈ b, P e.uid := by
  induction fuel generalizing s start buf with
  | zero => exact ⟨hb, hs⟩
  | succ n ih =>
    simp only [CopyTo.splitLoop]
    split
    · refine ih _ _ _ (by simp) ?_
      intro b hb'
      simp only [List.mem_append, List.mem_singleton] at hb'
      rcases hb' with h | rfl
      · exact hs b h
      · intro e he
        simp only [List.mem_append, List.mem_singleton] at he
        rcases he with h | rfl
        · exact hb e h
        · exact hu
    · exact ⟨hb, hs⟩

theorem addBuf_uids (bs : Nat) (s : CopyTo.St) (b : Nat × Bytes) (P : Nat → Prop) (hu : P b.1)
    (hb : ∀ e ∈ s.block, P e.uid) (hs : ∀ b ∈ s.sent, ∀ e ∈ b, P e.uid) :
    (∀ e ∈ (CopyTo.addBuf bs s b).block, P e.uid) ∧ ∀ m ∈ (CopyTo.addBuf bs s b).sent, ∀ e ∈ m, P e.uid := by
  obtain ⟨h1, h2⟩ := splitLoop_uids bs b.1 (b.2.length + 2) s 0 b.2 P hu hb hs
  unfold CopyTo.addBuf
  split
  · refine ⟨?_, hs⟩
    intro e he
    simp only [List.mem_append, List.mem_singleton] at he
    rcases he with h | rfl
    · exact hb e h
    · exact hu
  · simp only
    split
    · refine ⟨?_, h2⟩
      intro e he
      simp only [List.mem_append, List.mem_singleton] at he
      rcases he with h | rfl
      · exact h1 e h
      · exact hu
    · exact ⟨h1, h2⟩

theorem foldBuf_uids (bs : Nat) (bufs : List (Nat × Bytes)) (s : CopyTo.St) (P : Nat → Prop) (hu : ∀ b ∈ bufs, P b.1)
    (hb : ∀ e ∈ s.block, P e.uid) (hs : ∀ b ∈ s.sent, ∀ e ∈ b, P e.uid) :
    (∀ e ∈ (bufs.foldl (CopyTo.addBuf bs) s).block, P e.uid) ∧
    ∀ m ∈ (bufs.foldl (CopyTo.addBuf bs) s).sent, ∀ e ∈ m, P e.uid := by
  induction bufs generalizing s with
  | nil => exact ⟨hb, hs⟩
  | cons b bufs ih =>
    obtain ⟨h1, h2⟩ := addBuf_uids bs s b P (hu b (by simp)) hb hs
    exact ih _ (fun b hb => hu b (List.mem_cons_of_mem _ hb)) h1 h2

theorem blocks_uids (bs : Nat) (bufs : List (Nat × Bytes)) :
    ∀ m ∈ CopyTo.blocks bs bufs, ∀ e ∈ m, e.uid ∈ bufs.map Prod.fst := by
  obtain ⟨h1, h2⟩ := foldBuf_uids bs bufs ⟨0, [], []⟩ (· ∈ bufs.map Prod.fst)
    (fun b hb => List.mem_map_of_mem hb) (by simp) (by simp)
  intro m hm
  simp only [CopyTo.blocks] at hm
  split at hm
  · exact h2 m hm
  · simp only [List.mem_append, List.mem_singleton] at hm
    rcases hm with h | rfl
    · exact h2 m h
    · exact h1

theorem sentBuf_uids (bs : Nat) (bufs : List (Nat × Bytes)) :
    ∀ m ∈ (bufs.foldl (CopyTo.addBuf bs) ⟨0, [], []⟩).sent, ∀ e ∈ m, e.uid ∈ bufs.map Prod.fst :=
  (foldBuf_uids bs bufs ⟨0, [], []⟩ (· ∈ bufs.map Prod.fst) (fun b hb => List.mem_map_of_mem hb) (by simp) (by simp)).2

theorem foldFile_uids (bs : Nat) (fs : List (Nat × List Bytes)) (s : CopyTo.FSt) (P : Nat → Prop) (hu : ∀ f ∈ fs, P f.1)
    (hb : ∀ e ∈ s.block, P e.1) (hs : ∀ b ∈ s.sent, ∀ e ∈ b, P e.1) :
    (∀ e ∈ (fs.foldl (CopyTo.addFile bs) s).block, P e.1) ∧
    ∀ m ∈ (fs.foldl (CopyTo.addFile bs) s).sent, ∀ e ∈ m, P e.1 := by
  induction fs generalizing s with
  | nil => exact ⟨hb, hs⟩
  | cons f fs ih =>
    have : (∀ e ∈ (CopyTo.addFile bs s f).block, P e.1) ∧ ∀ m ∈ (CopyTo.addFile bs s f).sent, ∀ e ∈ m, P e.1 := by
      obtain ⟨uid, reads⟩ := f
      have hu := hu (uid, reads) (by simp)
      clear ih
      rename_i hu0
      clear hu0
      unfold CopyTo.addFile
      simp only at *
      induction reads generalizing s with
      | nil => exact ⟨hb, hs⟩
      | cons d ds ihd =>
        rw [List.foldl_cons]
        have hblk : ∀ e ∈ s.block ++ [(uid, d)], P e.1 := by
          intro e he
          simp only [List.mem_append, List.mem_singleton] at he
          rcases he with h | rfl
          · exact hb e h
          · exact hu
        refine ihd _ ?_ ?_
        · unfold CopyTo.addRead; simp only; split
          · simp
          · exact hblk
        · unfold CopyTo.addRead; simp only; split
          · intro b hb'
            simp only [List.mem_append, List.mem_singleton] at hb'
            rcases hb' with h | rfl
            · exact hs b h
            · exact hblk
          · exact hs
    exact ih _ (fun b hb => hu b (List.mem_cons_of_mem _ hb)) this.1 this.2

theorem fileBlocks_uids (bs : Nat) (fs : List (Nat × List Bytes)) :
    ∀ m ∈ CopyTo.fileBlocks bs fs, ∀ e ∈ m, e.1 ∈ fs.map Prod.fst := by
  obtain ⟨h1, h2⟩ := foldFile_uids bs fs ⟨[], 0, []⟩ (· ∈ fs.map Prod.fst)
    (fun b hb => List.mem_map_of_mem hb) (by simp) (by simp)
  intro m hm
  simp only [CopyTo.fileBlocks] at hm
  split at hm
  · simp only [List.mem_append, List.mem_singleton] at hm
    rcases hm with h | rfl
    · exact h2 m h
    · exact h1
  · exact h2 m hm

theorem sentFile_uids (bs : Nat) (fs : List (Nat × List Bytes)) :
    ∀ m ∈ (fs.foldl (CopyTo.addFile bs) ⟨[], 0, []⟩).sent, ∀ e ∈ m, e.1 ∈ fs.map Prod.fst :=
  (foldFile_uids bs fs ⟨[], 0, []⟩ (· ∈ fs.map Prod.fst) (fun b hb => List.mem_map_of_mem hb) (by simp) (by simp)).2

theorem leadingBuffers_uids (xs : List (Source × Ref)) : ∀ u ∈ (leadingBuffers xs).map Prod.fst, ∃ x ∈ xs, x.2.uid = u := by
  induction xs with
  | nil => simp [leadingBuffers]
  | cons x xs ih =>
    obtain ⟨s, r⟩ := x
    cases s with
    | file => simp [leadingBuffers]
    | buffer b =>
      simp only [leadingBuffers, List.map_cons, List.mem_cons]
      rintro u (rfl | h)
      · exact ⟨_, .inl rfl, rfl⟩
      · obtain ⟨x, hx, h⟩ := ih u h; exact ⟨x, .inr hx, h⟩

theorem leadingFiles_uids (xs : List (Source × Ref)) : ∀ u ∈ (leadingFiles xs).map Prod.fst, ∃ x ∈ xs, x.2.uid = u := by
  induction xs with
  | nil => simp [leadingFiles]
  | cons x xs ih =>
    obtain ⟨s, r⟩ := x
    cases s with
    | buffer => simp [leadingFiles]
    | file b =>
      simp only [leadingFiles, List.map_cons, List.mem_cons]
      rintro u (rfl | h)
      · exact ⟨_, .inl rfl, rfl⟩
      · obtain ⟨x, hx, h⟩ := ih u h; exact ⟨x, .inr hx, h⟩

theorem leadingBuffers_all (xs : List (Source × Ref)) :
    (leadingBuffers xs).length = xs.length ↔ ∀ x ∈ xs, Suits .buffer x.1 := by
  induction xs with
  | nil => simp [leadingBuffers]
  | cons x xs ih =>
    obtain ⟨s, r⟩ := x
    cases s with
    | buffer b => simp only [leadingBuffers, List.length_cons, Nat.add_right_cancel_iff, ih, List.forall_mem_cons, Suits, true_and]
    | file ds => simp [leadingBuffers, Suits]

theorem leadingFiles_all (xs : List (Source × Ref)) :
    (leadingFiles xs).length = xs.length ↔ ∀ x ∈ xs, Suits .file x.1 := by
  induction xs with
  | nil => simp [leadingFiles]
  | cons x xs ih =>
    obtain ⟨s, r⟩ := x
    cases s with
    | file b => simp only [leadingFiles, List.length_cons, Nat.add_right_cancel_iff, ih, List.forall_mem_cons, Suits, true_and]
    | buffer ds => simp [leadingFiles, Suits]

theorem check_ok (locals : List Source) (refs : List Ref) (block : Option Int) :
    CopyTo.check locals.length (refs.map (·.addr)) block = .ok ↔ ArgumentsOk locals refs block := by
  rw [CopyTo.copy_check]
  simp only [List.length_map, List.mem_map]
  constructor
  · rintro ⟨h1, h2, ⟨a, ha⟩, h4⟩
    refine ⟨?_, h1, ?_, h4⟩
    · intro h; subst h; simp only [List.length_nil] at h1; rw [h1] at h2; exact absurd h2 (Nat.lt_irrefl 0)
    · intro r hr r' hr'
      rw [ha _ ⟨r, hr, rfl⟩, ha _ ⟨r', hr', rfl⟩]
  · rintro ⟨h1, h2, h3, h4⟩
    rcases refs with _ | ⟨r, rs⟩
    · exact absurd rfl h1
    · refine ⟨h2, by rw [h2]; simp, ⟨r.addr, ?_⟩, h4⟩
      rintro x ⟨r', hr', rfl⟩
      exact h3 r' hr' r (by simp)

/-! ## simulation by C10's and C13's model -/

/-- the listed uids lead to different objects, and `r` has their contents -/
structure Sim (s : State) (p : Pid) (k : Kind) (a : Addr) (obj : Uid → Obj) (us : List Uid) (r : CopyTo.Remote) (h : Heap) : Prop where
  leads : ∀ u ∈ us, lookup s p ⟨k, a, u⟩ = some (obj u)
  inj : ∀ u ∈ us, ∀ u' ∈ us, obj u = obj u' → u = u'
  same : ∀ u ∈ us, r.get? u = some (h (obj u))

theorem Sim.put {s : State} {p : Pid} {k : Kind} {a : Addr} {obj : Uid → Obj} {us : List Uid} {r : CopyTo.Remote} {h : Heap}
    (hs : Sim s p k a obj us r h) {u : Uid} (hu : u ∈ us) (b : Bytes) :
    Sim s p k a obj us (r.set u b) (h.put (obj u) b) := by
  refine ⟨hs.leads, hs.inj, ?_⟩
  intro v hv
  rw [Dict.get?_set]
  by_cases e : u = v
  · subst e; rw [if_pos rfl, put_same]
  · rw [if_neg e, put_other _ _ (fun h => e (hs.inj v hv u hu h).symm), hs.same v hv]

theorem sim_block {s : State} {p : Pid} {a : Addr} {obj : Uid → Obj} {us : List Uid} {r : CopyTo.Remote} {h : Heap}
    (hs : Sim s p .buffer a obj us r h) (es : List Entry) (he : ∀ e ∈ es, e.uid ∈ us) :
    Sim s p .buffer a obj us (CopyTo.handleBlock r es).1 (handleBuffers s p a h es).1 := by
  induction es generalizing r h with
  | nil => exact hs
  | cons e es ih =>
    have hu := he e (by simp)
    simp only [CopyTo.handleBlock, CopyTo.writeEntry, handleBuffers, hs.same _ hu, hs.leads _ hu]
    by_cases hc : min (e.start + e.len) (h (obj e.uid)).length - min e.start (h (obj e.uid)).length = e.data.length
    · simp only [if_pos hc]
      exact ih (hs.put hu _) (fun e h => he e (List.mem_cons_of_mem _ h))
    · simp only [if_neg hc]
      exact hs

theorem sim_file {s : State} {p : Pid} {a : Addr} {obj : Uid → Obj} {us : List Uid} {r : CopyTo.Remote} {h : Heap}
    (hs : Sim s p .file a obj us r h) (es : List (Uid × Bytes)) (he : ∀ e ∈ es, e.1 ∈ us) :
    Sim s p .file a obj us (CopyTo.handleFileBlock r es).1 (handleFiles s p a h es).1 := by
  induction es generalizing r h with
  | nil => exact hs
  | cons e es ih =>
    have hu := he e (by simp)
    obtain ⟨u, d⟩ := e
    simp only [CopyTo.handleFileBlock, handleFiles, hs.same _ hu, hs.leads _ hu]
    exact ih (hs.put hu _) (fun e h => he e (List.mem_cons_of_mem _ h))

theorem sim_deliver {s : State} {p : Pid} {a : Addr} {obj : Uid → Obj} {us : List Uid} (bs : List (List Entry))
    (he : ∀ b ∈ bs, ∀ e ∈ b, e.uid ∈ us) (i : Nat) {r : CopyTo.Remote} {h : Heap} (hs : Sim s p .buffer a obj us r h) :
    Sim s p .buffer a obj us (CopyTo.deliver (fun _ => .up) i bs r).1 (bs.foldl (fun h b => (handleBuffers s p a h b).1) h) := by
  induction bs generalizing i r h with
  | nil => exact hs
  | cons b bs ih =>
    exact ih (fun b hb => he b (List.mem_cons_of_mem _ hb)) (i + 1) (sim_block hs b (he b (by simp)))

theorem sim_deliverFiles {s : State} {p : Pid} {a : Addr} {obj : Uid → Obj} {us : List Uid} (bs : List (List (Uid × Bytes)))
    (he : ∀ b ∈ bs, ∀ e ∈ b, e.1 ∈ us) (i : Nat) {r : CopyTo.Remote} {h : Heap} (hs : Sim s p .file a obj us r h) :
    Sim s p .file a obj us (CopyTo.deliverFiles (fun _ => .up) i bs r).1 (bs.foldl (fun h b => (handleFiles s p a h b).1) h) := by
  induction bs generalizing i r h with
  | nil => exact hs
  | cons b bs ih =>
    exact ih (fun b hb => he b (List.mem_cons_of_mem _ hb)) (i + 1) (sim_file hs b (he b (by simp)))

/-! ## zips -/

theorem leadingBuffers_zip {α : Type} (xs : List α) (f : α → Bytes) (g : α → Ref) :
    leadingBuffers ((xs.map (fun x => Source.buffer (f x))).zip (xs.map g)) = xs.map (fun x => ((g x).uid, f x)) := by
  induction xs with
  | nil => rfl
  | cons x xs ih => simp only [List.map_cons, List.zip_cons_cons, leadingBuffers, ih]

theorem leadingFiles_zip {α : Type} (xs : List α) (f : α → List Bytes) (g : α → Ref) :
    leadingFiles ((xs.map (fun x => Source.file (f x))).zip (xs.map g)) = xs.map (fun x => ((g x).uid, f x)) := by
  induction xs with
  | nil => rfl
  | cons x xs ih => simp only [List.map_cons, List.zip_cons_cons, leadingFiles, ih]

theorem copyTo_ok {pools : Addr → Option Pid} {s : State} {locals : List Source} {r : Ref} {rs : List Ref} {block : Option Int}
    {p : Pid} (hok : ArgumentsOk locals (r :: rs) block) (hp : pools r.addr = some p) (h : Heap) :
    copyTo pools s locals (r :: rs) block h =
      match r.kind with
      | .buffer => copyBuffers s p r.addr (CopyTo.effBlock (block.map Int.toNat)) (locals.zip (r :: rs)) h
      | .file => copyFiles s p r.addr (CopyTo.effBlock (block.map Int.toNat)) (locals.zip (r :: rs)) h := by
  have := (check_ok locals (r :: rs) block).2 hok
  simp only [copyTo, this, hp] <;> cases r.kind <;> rfl

theorem sim_exists {γ : Type} {weakly : Obj → Bool} {es : List Event} (hn : (idsUsed es).Nodup) (hr : NoRevival es) (k : Kind) (a : Addr)
    (p : Pid) (parts : List (γ × Ref × Obj)) (hk : ∀ x ∈ parts, x.2.1.kind = k ∧ x.2.1.addr = a)
    (hm : ∀ x ∈ parts, Made weakly es p x.2.1 x.2.2) (hd : (parts.map (·.2.2)).Nodup) (h : Heap) :
    ∃ obj r, Sim (run weakly empty es) p k a obj (parts.map (·.2.1.uid)) r h ∧ (∀ x ∈ parts, obj x.2.1.uid = x.2.2) ∧
      (∀ x ∈ parts, r.get? x.2.1.uid = some (h x.2.2)) ∧ (parts.map (·.2.1.uid)).Nodup ∧
      (∀ x ∈ parts, lookup (run weakly empty es) p ⟨k, a, x.2.1.uid⟩ = some x.2.2) := by
  have hlk : ∀ x ∈ parts, lookup (run weakly empty es) p ⟨k, a, x.2.1.uid⟩ = some x.2.2 := by
    intro x hx
    have := (lookup_made weakly es hn hr p x.2.1 x.2.2).2 (hm x hx)
    have e : x.2.1 = ⟨k, a, x.2.1.uid⟩ := by
      obtain ⟨h1, h2⟩ := hk x hx
      obtain ⟨_, ⟨k, ad, u⟩, _⟩ := x
      simp only at h1 h2; subst h1 h2; rfl
    rw [e] at this; exact this
  have hinj : ∀ x ∈ parts, ∀ y ∈ parts, x.2.1.uid = y.2.1.uid → x.2.2 = y.2.2 := by
    intro x hx y hy e
    have h1 := hlk x hx; have h2 := hlk y hy
    rw [e, h2] at h1; injection h1 with h1; exact h1.symm
  have hun : (parts.map (·.2.1.uid)).Nodup := by
    clear hm hk
    induction parts with
    | nil => simp
    | cons x xs ih =>
      simp only [List.map_cons, List.nodup_cons, List.mem_map, not_exists, not_and] at hd ⊢
      refine ⟨fun y hy e => hd.1 y hy ?_, ih hd.2 (fun y hy => hlk y (List.mem_cons_of_mem _ hy))
        (fun y hy z hz => hinj y (List.mem_cons_of_mem _ hy) z (List.mem_cons_of_mem _ hz))⟩
      exact hinj y (List.mem_cons_of_mem _ hy) x (by simp) e
  let obj : Uid → Obj := fun u => ((lookup (run weakly empty es) p ⟨k, a, u⟩).getD 0)
  have hobj : ∀ x ∈ parts, obj x.2.1.uid = x.2.2 := by
    intro x hx; simp only [obj, hlk x hx, Option.getD_some]
  let r : CopyTo.Remote := parts.map (fun x => (x.2.1.uid, h x.2.2))
  have hrg : ∀ x ∈ parts, r.get? x.2.1.uid = some (h x.2.2) := by
    intro x hx
    refine Dict.get?_of_mem ?_ (List.mem_map.2 ⟨x, hx, rfl⟩)
    simp only [Dict.WF, Dict.keys, r, List.map_map]
    exact hun
  refine ⟨obj, r, ⟨?_, ?_, ?_⟩, hobj, hrg, hun, hlk⟩
  · intro u hu; obtain ⟨x, hx, rfl⟩ := List.mem_map.1 hu
    rw [hlk x hx, hobj x hx]
  · intro u hu u' hu' e
    obtain ⟨x, hx, rfl⟩ := List.mem_map.1 hu
    obtain ⟨y, hy, rfl⟩ := List.mem_map.1 hu'
    rw [hobj x hx, hobj y hy] at e
    have : ∀ (l : List (γ × Ref × Obj)), (l.map (·.2.2)).Nodup → x ∈ l → y ∈ l → x = y := by
      intro l
      induction l with
      | nil => intro _ h; cases h
      | cons z l ih =>
        intro hd h1 h2
        simp only [List.map_cons, List.nodup_cons, List.mem_map, not_exists, not_and] at hd
        rcases List.mem_cons.1 h1 with e1 | h1' <;> rcases List.mem_cons.1 h2 with e2 | h2'
        · rw [e1, e2]
        · subst e1; exact absurd e.symm (hd.1 y h2')
        · subst e2; exact absurd e (hd.1 x h1')
        · exact ih hd.2 h1' h2'
    rw [this parts hd hx hy]
  · intro u hu; obtain ⟨x, hx, rfl⟩ := List.mem_map.1 hu
    rw [hrg x hx, hobj x hx]

end Xoscar.Refs
