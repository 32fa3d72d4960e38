import Verif.Proof.Refs
/-!
# C70: a buffer or file object reference leads to its own object

`es` is any history of `buffer_ref`, `file_object_ref` and of objects going away, in any number of processes, oldest event first.  The ids
are random; that no two are equal is the hypothesis `(idsUsed es).Nodup`.
-/
namespace Xoscar.Refs
open Xoscar.CopyTo (Bytes)

variable {weakly : Obj → Bool} {es : List Event}

/-- A reference leads to an object exactly if it was made for it, in this process, and the object is still there. -/
theorem leads_to_own (hn : (idsUsed es).Nodup) (hr : NoRevival es) (p : Pid) (r : Ref) (o : Obj) :
    lookup (run weakly empty es) p r = some o ↔ Made weakly es p r o := lookup_made weakly es hn hr p r o

/-- A reference made for `o` never leads to anything else, in any process, at any later time. -/
theorem leads_to_nothing_else (hn : (idsUsed es).Nodup) (hr : NoRevival es) {p q : Pid} {r : Ref} {o o' : Obj}
    (hc : Event.create p r.kind r.addr r.uid o ∈ es) (hl : lookup (run weakly empty es) q r = some o') : q = p ∧ o' = o := by
  have := id_unique hn ((lookup_made weakly es hn hr q r o').1 hl).created hc
  exact ⟨this.1, this.2.2.2⟩

/-- The answer to the creation: the reference asked for, or TypeError exactly for objects without weak references. -/
theorem create_answer (s : State) (p : Pid) (k : Kind) (a : Addr) (u : Uid) (o : Obj) :
    ((create weakly s p k a u o).2 = .ref ⟨k, a, u⟩ ↔ weakly o = true) ∧
    ((create weakly s p k a u o).2 = .typeError ↔ weakly o = false) ∧
    (weakly o = false → (create weakly s p k a u o).1 = s) := by
  unfold create
  cases h : weakly o <;> simp

/-- Whatever `copy_to` is called with and whatever it answers, it changes only objects for which one of the listed references was made,
in the process that listens at the address, and which are of the first reference's kind. -/
theorem copy_touches_only (hn : (idsUsed es).Nodup) (hr : NoRevival es) (pools : Addr → Option Pid) (locals : List Source)
    (refs : List Ref) (block : Option Int) (h : Heap) (o : Obj)
    (hch : (copyTo pools (run weakly empty es) locals refs block h).1 o ≠ h o) :
    ∃ first p, refs.head? = some first ∧ pools first.addr = some p ∧
      ∃ r ∈ refs, r.addr = first.addr ∧ Made weakly es p { r with kind := first.kind } o := by
  rcases refs with _ | ⟨r0, rs⟩
  · exfalso; apply hch; simp only [copyTo]
    split <;> first | rfl | (rename_i h; cases h) | skip
    all_goals rfl
  by_cases hok : ArgumentsOk locals (r0 :: rs) block
  case neg =>
    exfalso; apply hch
    have := mt (check_ok locals (r0 :: rs) block).1 hok
    simp only [copyTo]
    split <;> first | rfl | (rename_i hh _; exact absurd hh this) | (rename_i hh; exact absurd hh this)
  rcases hp : pools r0.addr with _ | p
  · exfalso; apply hch
    have hc := (check_ok locals (r0 :: rs) block).2 hok
    simp only [copyTo, hc, hp]
  rw [copyTo_ok hok hp] at hch
  refine ⟨r0, p, rfl, hp, ?_⟩
  apply Classical.byContradiction
  intro hno
  have hnone : ∀ u, (∃ x ∈ locals.zip (r0 :: rs), x.2.uid = u) →
      lookup (run weakly empty es) p ⟨r0.kind, r0.addr, u⟩ ≠ some o := by
    rintro u ⟨x, hx, rfl⟩ hl
    have hx2 : x.2 ∈ r0 :: rs := (List.of_mem_zip (a := x.1) (b := x.2) hx).2
    have ha := hok.one_address x.2 hx2 r0 (by simp)
    refine hno ⟨x.2, hx2, ha, ?_⟩
    have := (lookup_made weakly es hn hr p _ o).1 hl
    rw [← ha] at this
    exact this
  apply hch
  cases hk : r0.kind
  · simp only [hk] at hnone
    simp only [copyBuffers]
    split
    · refine foldl_touch _ o _ h (fun b hb h' => handleBuffers_touch _ p r0.addr b h' o (fun e he => ?_))
      exact hnone _ (leadingBuffers_uids _ _ (blocks_uids _ _ b hb e he))
    · refine foldl_touch _ o _ h (fun b hb h' => handleBuffers_touch _ p r0.addr b h' o (fun e he => ?_))
      exact hnone _ (leadingBuffers_uids _ _ (sentBuf_uids _ _ b hb e he))
  · simp only [hk] at hnone
    simp only [copyFiles]
    split
    · refine foldl_touch _ o _ h (fun b hb h' => handleFiles_touch _ p r0.addr b h' o (fun e he => ?_))
      exact hnone _ (leadingFiles_uids _ _ (fileBlocks_uids _ _ b hb e he))
    · refine foldl_touch _ o _ h (fun b hb h' => handleFiles_touch _ p r0.addr b h' o (fun e he => ?_))
      exact hnone _ (leadingFiles_uids _ _ (sentFile_uids _ _ b hb e he))

/-- Buffers: with references made in the process that listens at their address, for different buffers that are still there and large
enough, `copy_to` returns, every buffer starts with its source's bytes, keeps the rest, and nothing else changed. -/
theorem copy_reaches_buffers (hn : (idsUsed es).Nodup) (hr : NoRevival es) (pools : Addr → Option Pid) (a : Addr) (p : Pid)
    (hp : pools a = some p) (parts : List (Bytes × Ref × Obj)) (hne : parts ≠ [])
    (hk : ∀ x ∈ parts, x.2.1.kind = .buffer ∧ x.2.1.addr = a) (hm : ∀ x ∈ parts, Made weakly es p x.2.1 x.2.2)
    (hd : (parts.map (·.2.2)).Nodup) (block : Option Int) (hb : ∀ b, block = some b → 0 < b) (h : Heap)
    (hsz : ∀ x ∈ parts, x.1.length ≤ (h x.2.2).length) :
    let out := copyTo pools (run weakly empty es) (parts.map (fun x => .buffer x.1)) (parts.map (·.2.1)) block h
    out.2 = .returned ∧
    (∀ x ∈ parts, out.1 x.2.2 = x.1 ++ (h x.2.2).drop x.1.length) ∧
    ∀ o, o ∉ parts.map (·.2.2) → out.1 o = h o := by
  intro out
  have hok : ArgumentsOk (parts.map (fun x => Source.buffer x.1)) (parts.map (·.2.1)) block := by
    refine ⟨by simpa using hne, by simp, ?_, hb⟩
    intro r hr' r' hr''
    obtain ⟨x, hx, rfl⟩ := List.mem_map.1 hr'
    obtain ⟨y, hy, rfl⟩ := List.mem_map.1 hr''
    rw [(hk x hx).2, (hk y hy).2]
  have hout : out = ((CopyTo.blocks (CopyTo.effBlock (block.map Int.toNat)) (parts.map (fun x => (x.2.1.uid, x.1)))).foldl
      (fun h b => (handleBuffers (run weakly empty es) p a h b).1) h, .returned) := by
    obtain ⟨x, xs, rfl⟩ := List.exists_cons_of_ne_nil hne
    simp only [out, List.map_cons] at hok ⊢
    rw [copyTo_ok hok (by rw [(hk x (by simp)).2]; exact hp), (hk x (by simp)).1]
    have hl := leadingBuffers_zip (x :: xs) (fun x => x.1) (·.2.1)
    simp only [List.map_cons] at hl
    simp only [copyBuffers, hl, (hk x (by simp)).2]
    rw [if_pos (by simp)]
  obtain ⟨obj, r, sim, hobj, hrg, hun, hlk⟩ := sim_exists hn hr .buffer a p parts hk hm hd h
  have hsim := sim_deliver (CopyTo.blocks (CopyTo.effBlock (block.map Int.toNat)) (parts.map (fun x => (x.2.1.uid, x.1))))
    (fun b hb e he => by
      have := blocks_uids _ _ b hb e he
      rw [List.map_map] at this; exact this) 0 sim
  obtain ⟨-, hw, -⟩ := CopyTo.copy_delivers (block.map Int.toNat) (parts.map (fun x => (x.2.1.uid, x.1))) r (by rw [List.map_map]; exact hun) (by
    intro b hb
    obtain ⟨x, hx, rfl⟩ := List.mem_map.1 hb
    exact ⟨_, hrg x hx, hsz x hx⟩)
  rw [hout]
  refine ⟨rfl, ?_, ?_⟩
  · intro x hx
    obtain ⟨old, h1, h2⟩ := hw _ (List.mem_map.2 ⟨x, hx, rfl⟩)
    simp only at h1 h2
    rw [hrg x hx] at h1; injection h1 with h1; subst h1
    have h3 := hsim.same x.2.1.uid (List.mem_map.2 ⟨x, hx, rfl⟩)
    simp only [CopyTo.copyToBuffers] at h2
    rw [h2, hobj x hx] at h3; injection h3 with h3
    exact h3.symm
  · intro o ho
    refine foldl_touch _ o _ h (fun b hb h' => handleBuffers_touch _ p a b h' o (fun e he hl => ho ?_))
    have := blocks_uids _ _ b hb e he
    rw [List.map_map] at this
    obtain ⟨x, hx, hxe⟩ := List.mem_map.1 this
    simp only [Function.comp_apply] at hxe
    rw [← hxe, hlk x hx] at hl; injection hl with hl
    exact List.mem_map.2 ⟨x, hx, hl⟩

/-- File objects: likewise every file has grown by exactly its source's bytes.  (`reads` are the non-empty results of `read`.) -/
theorem copy_reaches_files (hn : (idsUsed es).Nodup) (hr : NoRevival es) (pools : Addr → Option Pid) (a : Addr) (p : Pid)
    (hp : pools a = some p) (parts : List (List Bytes × Ref × Obj)) (hne : parts ≠ [])
    (hk : ∀ x ∈ parts, x.2.1.kind = .file ∧ x.2.1.addr = a) (hm : ∀ x ∈ parts, Made weakly es p x.2.1 x.2.2)
    (hd : (parts.map (·.2.2)).Nodup) (block : Option Int) (hb : ∀ b, block = some b → 0 < b) (h : Heap)
    (hrd : ∀ x ∈ parts, ∀ d ∈ x.1, d ≠ []) :
    let out := copyTo pools (run weakly empty es) (parts.map (fun x => .file x.1)) (parts.map (·.2.1)) block h
    out.2 = .returned ∧
    (∀ x ∈ parts, out.1 x.2.2 = h x.2.2 ++ x.1.flatten) ∧
    ∀ o, o ∉ parts.map (·.2.2) → out.1 o = h o := by
  intro out
  have hok : ArgumentsOk (parts.map (fun x => Source.file x.1)) (parts.map (·.2.1)) block := by
    refine ⟨by simpa using hne, by simp, ?_, hb⟩
    intro r hr' r' hr''
    obtain ⟨x, hx, rfl⟩ := List.mem_map.1 hr'
    obtain ⟨y, hy, rfl⟩ := List.mem_map.1 hr''
    rw [(hk x hx).2, (hk y hy).2]
  have hout : out = ((CopyTo.fileBlocks (CopyTo.effBlock (block.map Int.toNat)) (parts.map (fun x => (x.2.1.uid, x.1)))).foldl
      (fun h b => (handleFiles (run weakly empty es) p a h b).1) h, .returned) := by
    obtain ⟨x, xs, rfl⟩ := List.exists_cons_of_ne_nil hne
    simp only [out, List.map_cons] at hok ⊢
    rw [copyTo_ok hok (by rw [(hk x (by simp)).2]; exact hp), (hk x (by simp)).1]
    have hl := leadingFiles_zip (x :: xs) (fun x => x.1) (·.2.1)
    simp only [List.map_cons] at hl
    simp only [copyFiles, hl, (hk x (by simp)).2]
    rw [if_pos (by simp)]
  obtain ⟨obj, r, sim, hobj, hrg, hun, hlk⟩ := sim_exists hn hr .file a p parts hk hm hd h
  have hsim := sim_deliverFiles (CopyTo.fileBlocks (CopyTo.effBlock (block.map Int.toNat)) (parts.map (fun x => (x.2.1.uid, x.1))))
    (fun b hb e he => by
      have := fileBlocks_uids _ _ b hb e he
      rw [List.map_map] at this; exact this) 0 sim
  obtain ⟨-, hw, -⟩ := CopyTo.copy_files_delivers (block.map Int.toNat) (parts.map (fun x => (x.2.1.uid, x.1))) r (by rw [List.map_map]; exact hun) (by
    intro b hb
    obtain ⟨x, hx, rfl⟩ := List.mem_map.1 hb
    exact hrd x hx) (by
    intro b hb
    obtain ⟨x, hx, rfl⟩ := List.mem_map.1 hb
    exact ⟨_, hrg x hx⟩)
  rw [hout]
  refine ⟨rfl, ?_, ?_⟩
  · intro x hx
    obtain ⟨old, h1, h2⟩ := hw _ (List.mem_map.2 ⟨x, hx, rfl⟩)
    simp only at h1 h2
    rw [hrg x hx] at h1; injection h1 with h1; subst h1
    have h3 := hsim.same x.2.1.uid (List.mem_map.2 ⟨x, hx, rfl⟩)
    simp only [CopyTo.copyToFiles] at h2
    rw [h2, hobj x hx] at h3; injection h3 with h3
    exact h3.symm
  · intro o ho
    refine foldl_touch _ o _ h (fun b hb h' => handleFiles_touch _ p a b h' o (fun e he hl => ho ?_))
    have := fileBlocks_uids _ _ b hb e he
    rw [List.map_map] at this
    obtain ⟨x, hx, hxe⟩ := List.mem_map.1 this
    simp only [Function.comp_apply] at hxe
    rw [← hxe, hlk x hx] at hl; injection hl with hl
    exact List.mem_map.2 ⟨x, hx, hl⟩

/-- `copy_to` answers by its arguments alone: it returns exactly if they pass the checks, somebody listens at the address and every source
suits the first reference. -/
theorem copy_returns (s : State) (pools : Addr → Option Pid) (locals : List Source) (refs : List Ref) (block : Option Int) (h : Heap) :
    (copyTo pools s locals refs block h).2 = .returned ↔
      ArgumentsOk locals refs block ∧ ∃ first, refs.head? = some first ∧ (pools first.addr).isSome ∧ ∀ x ∈ locals, Suits first.kind x := by
  by_cases hok : ArgumentsOk locals refs block
  case neg =>
    constructor
    · intro hret
      have := mt (check_ok locals refs block).1 hok
      simp only [copyTo] at hret
      exfalso
      split at hret <;> first | (cases hret; done) | (rename_i hh _; exact absurd hh this) | (rename_i hh; exact absurd hh this)
    · rintro ⟨h, _⟩; exact absurd h hok
  rcases refs with _ | ⟨r0, rs⟩
  · exact absurd rfl hok.some
  rcases hp : pools r0.addr with _ | p
  · have hc := (check_ok locals (r0 :: rs) block).2 hok
    simp only [copyTo, hc, hp]
    constructor
    · intro h; cases h
    · rintro ⟨_, f, hf, hs, _⟩
      simp only [List.head?_cons, Option.some.injEq] at hf; subst hf
      rw [hp] at hs; cases hs
  have hz : ∀ k, (∀ x ∈ locals.zip (r0 :: rs), Suits k x.1) ↔ ∀ x ∈ locals, Suits k x := by
    intro k
    have e : (locals.zip (r0 :: rs)).map Prod.fst = locals := List.map_fst_zip (by rw [hok.same_length]; exact Nat.le_refl _)
    constructor
    · intro h x hx
      rw [← e] at hx
      obtain ⟨y, hy, rfl⟩ := List.mem_map.1 hx
      exact h y hy
    · intro h x hx
      exact h x.1 (by rw [← e]; exact List.mem_map_of_mem hx)
  rw [copyTo_ok hok hp]
  simp only [hok, true_and, List.head?_cons, Option.some.injEq]
  have red : (∃ first, r0 = first ∧ (pools first.addr).isSome = true ∧ ∀ x ∈ locals, Suits first.kind x) ↔
      ∀ x ∈ locals, Suits r0.kind x := by
    constructor
    · rintro ⟨_, rfl, _, h⟩; exact h
    · intro h; exact ⟨r0, rfl, by simp [hp], h⟩
  rw [red, ← hz]
  cases hk : r0.kind
  · simp only [copyBuffers, ← leadingBuffers_all]
    split <;> simp_all
  · simp only [copyFiles, ← leadingFiles_all]
    split <;> simp_all

/-- The refusals: ValueError when there is nothing to copy, AssertionError for the other bad arguments, an error when nobody listens -
in all three cases nothing is written -, TypeError for a file given for a buffer, AttributeError for a buffer given for a file. -/
theorem copy_refusals (s : State) (pools : Addr → Option Pid) (locals : List Source) (refs : List Ref) (block : Option Int) (h : Heap) :
    (locals = [] ∨ refs = [] → copyTo pools s locals refs block h = (h, .valueError)) ∧
    (locals ≠ [] → refs ≠ [] → ¬ ArgumentsOk locals refs block → copyTo pools s locals refs block h = (h, .assertError)) ∧
    (ArgumentsOk locals refs block → ∀ first, refs.head? = some first →
      (pools first.addr = none → copyTo pools s locals refs block h = (h, .noConnection)) ∧
      ((pools first.addr).isSome → (∃ x ∈ locals, ¬ Suits first.kind x) →
        (copyTo pools s locals refs block h).2 = if first.kind = .buffer then .typeError else .attributeError)) := by
  refine ⟨?_, ?_, ?_⟩
  · intro he
    have : CopyTo.check locals.length (refs.map (·.addr)) block = .valueError := by
      unfold CopyTo.check
      rw [if_pos]
      rcases he with rfl | rfl
      · exact .inl rfl
      · exact .inr rfl
    simp only [copyTo, this]
  · intro h1 h2 hno
    have hc := mt (check_ok locals refs block).1 hno
    have hv : CopyTo.check locals.length (refs.map (·.addr)) block ≠ .valueError := by
      unfold CopyTo.check
      rw [if_neg (by
        rintro (e | e)
        · exact h1 (List.length_eq_zero_iff.1 e)
        · rw [List.length_map] at e; exact h2 (List.length_eq_zero_iff.1 e))]
      grind
    have : CopyTo.check locals.length (refs.map (·.addr)) block = .assertError := by
      rcases hx : CopyTo.check locals.length (refs.map (·.addr)) block
      · exact absurd hx hc
      · exact absurd hx hv
      · exact hx
    simp only [copyTo, this]
  · intro hok first hf
    rcases refs with _ | ⟨r0, rs⟩
    · cases hf
    simp only [List.head?_cons, Option.some.injEq] at hf; subst hf
    refine ⟨fun hp => ?_, fun hp hx => ?_⟩
    · have hc := (check_ok locals (r0 :: rs) block).2 hok
      simp only [copyTo, hc, hp]
    · obtain ⟨p, hp⟩ := Option.isSome_iff_exists.1 hp
      obtain ⟨x, hx, hnx⟩ := hx
      obtain ⟨i, hi, rfl⟩ := List.getElem_of_mem hx
      have hz : (locals[i], (r0 :: rs)[i]'(by rw [← hok.same_length]; exact hi)) ∈ locals.zip (r0 :: rs) := by
        rw [← List.getElem_zip (h := by rw [List.length_zip, ← hok.same_length]; simpa using hi)]
        exact List.getElem_mem _
      rw [copyTo_ok hok hp]
      cases hk : r0.kind
      · rw [hk] at hnx
        simp only [copyBuffers]
        rw [if_neg (fun e => hnx ((leadingBuffers_all _).1 e _ hz))]; rfl
      · rw [hk] at hnx
        simp only [copyFiles]
        rw [if_neg (fun e => hnx ((leadingFiles_all _).1 e _ hz))]; rfl

/-- The pool's answer to a block of buffer writes is a success exactly if every entry leads to a buffer there and fits into it. -/
theorem buffers_answer (s : State) (p : Pid) (a : Addr) (es : List CopyTo.Entry) (h : Heap) :
    (handleBuffers s p a h es).2 = true ↔
      ∀ e ∈ es, ∃ o, lookup s p ⟨.buffer, a, e.uid⟩ = some o ∧ ((h o).drop e.start |>.take e.len).length = e.data.length := by
  induction es generalizing h with
  | nil => simp [handleBuffers]
  | cons e es ih =>
    rcases hl : lookup s p ⟨.buffer, a, e.uid⟩ with _ | o
    · simp [handleBuffers, hl]
    · by_cases hc : (min (e.start + e.len) (h o).length) - (min e.start (h o).length) = e.data.length
      · simp only [handleBuffers, hl]
        rw [if_pos hc, ih]
        have hlen : ∀ o', (h.put o ((h o).take e.start ++ e.data ++ (h o).drop (e.start + e.len)) o').length = (h o').length := by
          intro o'
          unfold Heap.put
          split
          · rename_i ho; subst ho
            simp only [List.length_append, List.length_take, List.length_drop]
            omega
          · rfl
        have hself : ((h o).drop e.start |>.take e.len).length = e.data.length := by
          simp only [List.length_take, List.length_drop]; omega
        constructor
        · intro hh e' he'
          rcases List.mem_cons.1 he' with rfl | he'
          · exact ⟨o, hl, hself⟩
          · obtain ⟨o', h1, h2⟩ := hh e' he'
            refine ⟨o', h1, ?_⟩
            rw [← h2]
            simp only [List.length_take, List.length_drop, hlen]
        · intro hh e' he'
          obtain ⟨o', h1, h2⟩ := hh e' (by simp [he'])
          refine ⟨o', h1, ?_⟩
          rw [← h2]
          simp only [List.length_take, List.length_drop, hlen]
      · simp only [handleBuffers, hl]
        rw [if_neg hc]
        constructor
        · intro h; cases h
        · intro hh
          exfalso
          obtain ⟨o', h1, h2⟩ := hh e (by simp)
          rw [hl] at h1
          injection h1 with h1
          subst h1
          simp only [List.length_take, List.length_drop] at h2
          omega

/-- … and to a block of file writes exactly if every entry leads to a file there. -/
theorem files_answer (s : State) (p : Pid) (a : Addr) (es : List (Uid × Bytes)) (h : Heap) :
    (handleFiles s p a h es).2 = true ↔ ∀ e ∈ es, ∃ o, lookup s p ⟨.file, a, e.1⟩ = some o := by
  induction es generalizing h with
  | nil => simp [handleFiles]
  | cons e es ih =>
    rcases hl : lookup s p ⟨.file, a, e.1⟩ with _ | o
    · simp [handleFiles, hl]
    · simp only [handleFiles, hl, ih]
      simp [hl]

/-- **Refuted**: "when `copy_to` returns, the references' objects have the data".  It returns whether or not the reference still leads
anywhere; an object that is gone (a reference does not keep it) is not written, and nothing tells the caller. -/
theorem reference_does_not_keep_refuted (hn : (idsUsed es).Nodup) (hr : NoRevival es) (pools : Addr → Option Pid) (p : Pid) (r : Ref)
    (o : Obj) (hc : Event.create p r.kind r.addr r.uid o ∈ es) (hd : Event.die p o ∈ es) (hp : pools r.addr = some p) (x : Source)
    (hx : Suits r.kind x) (h : Heap) :
    (copyTo pools (run weakly empty es) [x] [r] none h).2 = .returned ∧
    ∀ o', (copyTo pools (run weakly empty es) [x] [r] none h).1 o' = h o' := by
  refine ⟨(copy_returns _ _ _ _ _ _).2 ⟨⟨by simp, rfl, by simp, fun _ h => by cases h⟩, r, rfl, by simp [hp], by simpa using hx⟩, ?_⟩
  intro o'
  apply Classical.byContradiction
  intro hch
  obtain ⟨f, q, hf, hq, r', hr', -, hm⟩ := copy_touches_only hn hr pools [x] [r] none h o' hch
  simp only [List.head?_cons, Option.some.injEq] at hf; subst hf
  simp only [List.mem_singleton] at hr'; subst hr'
  rw [hp] at hq; injection hq with hq; subst hq
  have := id_unique hn hm.created hc
  rw [this.2.2.2] at hm
  exact hm.there hd

/-- **Refuted**: a reference made with the address of another pool than the one in whose process the buffer is.  `buffer_ref` accepts it
and `copy_to` returns, but nothing is written. -/
theorem foreign_address_refuted (hn : (idsUsed es).Nodup) (hr : NoRevival es) (pools : Addr → Option Pid) (p q : Pid) (r : Ref) (o : Obj)
    (hc : Event.create p r.kind r.addr r.uid o ∈ es) (hp : pools r.addr = some q) (hpq : q ≠ p) (x : Source)
    (hx : Suits r.kind x) (h : Heap) :
    (copyTo pools (run weakly empty es) [x] [r] none h).2 = .returned ∧
    ∀ o', (copyTo pools (run weakly empty es) [x] [r] none h).1 o' = h o' := by
  refine ⟨(copy_returns _ _ _ _ _ _).2 ⟨⟨by simp, rfl, by simp, fun _ h => by cases h⟩, r, rfl, by simp [hp], by simpa using hx⟩, ?_⟩
  intro o'
  apply Classical.byContradiction
  intro hch
  obtain ⟨f, q', hf, hq, r', hr', -, hm⟩ := copy_touches_only hn hr pools [x] [r] none h o' hch
  simp only [List.head?_cons, Option.some.injEq] at hf; subst hf
  simp only [List.mem_singleton] at hr'; subst hr'
  rw [hp] at hq; injection hq with hq; subst hq
  exact hpq (id_unique hn hm.created hc).1

/-- **Refuted**: a list with references of both kinds (the signature allows it).  The first one's kind is used for all: `copy_to` returns,
and no reference of the other kind has received anything. -/
theorem mixed_kinds_refuted (hn : (idsUsed es).Nodup) (hr : NoRevival es) (pools : Addr → Option Pid) (p : Pid) (first : Ref)
    (rest : List Ref) (locals : List Source) (block : Option Int) (hok : ArgumentsOk locals (first :: rest) block)
    (hs : ∀ x ∈ locals, Suits first.kind x) (hp : pools first.addr = some p)
    (hall : ∀ r ∈ first :: rest, ∃ o, Event.create p r.kind r.addr r.uid o ∈ es) (r : Ref) (hr' : r ∈ rest)
    (hk : r.kind ≠ first.kind) (o : Obj) (ho : ∀ r' ∈ first :: rest, Event.create p r'.kind r'.addr r'.uid o ∈ es → r' = r) (h : Heap) :
    (copyTo pools (run weakly empty es) locals (first :: rest) block h).2 = .returned ∧
    (copyTo pools (run weakly empty es) locals (first :: rest) block h).1 o = h o := by
  refine ⟨(copy_returns _ _ _ _ _ _).2 ⟨hok, first, rfl, by simp [hp], hs⟩, ?_⟩
  apply Classical.byContradiction
  intro hch
  obtain ⟨f, q, hf, hq, r', hr'', ha, hm⟩ := copy_touches_only hn hr pools locals (first :: rest) block h o hch
  simp only [List.head?_cons, Option.some.injEq] at hf; subst hf
  rw [hp] at hq; injection hq with hq; subst hq
  obtain ⟨o2, h2⟩ := hall r' hr''
  have e := id_unique hn hm.created h2
  simp only at e
  rw [← e.2.2.2, ← e.2.1] at h2
  have e2 := ho r' hr'' (by rw [e.2.1] at h2; exact h2)
  subst e2
  exact hk e.2.1.symm

/-! ## a history that meets the hypotheses: three buffers in two processes, one of them gone, and a file -/

def sample : List Event :=
  [Event.create 1 .buffer "a" 100 10, Event.create 2 .buffer "b" 101 11, Event.create 1 .buffer "a" 102 12,
   Event.die 1 12, Event.create 1 .file "a" 103 13]

def samplePools : Addr → Option Pid := fun a => if a = "a" then some 1 else if a = "b" then some 2 else none

theorem sample_ok : (idsUsed sample).Nodup ∧ NoRevival sample := by
  refine ⟨by decide, ?_⟩
  intro b c p o he k a u hm
  have hm0 : Event.create p k a u o ∈ sample := by rw [he]; simp [hm]
  have hd0 : Event.die p o ∈ sample := by rw [he]; simp
  simp only [sample, List.mem_cons, Event.die.injEq, reduceCtorEq, false_or, List.not_mem_nil, or_false, Event.create.injEq] at hm0 hd0
  obtain ⟨rfl, rfl⟩ := hd0
  rcases hm0 with ⟨-, -, -, -, h⟩ | ⟨-, -, -, -, h⟩ | ⟨-, rfl, rfl, rfl, -⟩ | ⟨-, -, -, -, h⟩
  · exact absurd h (by decide)
  · exact absurd h (by decide)
  · have hb : b ≠ [] ∧ True := ⟨by rintro rfl; simp [sample] at he, trivial⟩
    have : ∀ (b c : List Event), sample = b ++ [Event.die 1 12] ++ c → c = [Event.create 1 .file "a" 103 13] := by
      intro b c he
      rcases b with _ | ⟨x1, _ | ⟨x2, _ | ⟨x3, _ | ⟨x4, _ | ⟨x5, b⟩⟩⟩⟩⟩ <;> simp [sample] at he
      exact he.2.2.2.symm
    rw [this b c he] at hm
    simp at hm
  · exact absurd h (by decide)

example : Made (fun _ => true) sample 1 ⟨.buffer, "a", 100⟩ 10 := ⟨by decide, rfl, by decide⟩

/-- the buffer 10 in process 1 receives the data -/
example : (copyTo samplePools (run (fun _ => true) empty sample) [.buffer [1, 2, 3]] [⟨.buffer, "a", 100⟩] (some 2) (fun _ => [0, 0, 0, 9])).1 10 =
    [1, 2, 3, 9] := by decide

/-- the file reference in the second place: success, nothing written to the file -/
def sampleOut : Heap × Result :=
  copyTo samplePools (run (fun _ => true) empty sample) [.buffer [1, 2, 3], .buffer [4]] [⟨.buffer, "a", 100⟩, ⟨.file, "a", 103⟩] none
    (fun _ => [0, 0, 0, 9])

example : sampleOut.2 = .returned ∧ sampleOut.1 10 = [1, 2, 3, 9] ∧ sampleOut.1 13 = [0, 0, 0, 9] := by decide

end Xoscar.Refs
