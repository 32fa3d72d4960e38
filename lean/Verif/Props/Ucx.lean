import Verif.Spec.Ucx
import Verif.Proof.Base
import Verif.Proof.Wire
import Verif.Props.Wire
/-!
# C74: UCX channels carry messages and copies whole and in order
-/
namespace Xoscar.Ucx
open Xoscar.Wire (Bytes Buf Header Pickle Msg prelude headerLength)

variable {H : Type}

theorem put_nonempty (e : Bool) {b : Bytes} (h : b ≠ []) : put e b = [b] := by
  cases b with
  | nil => exact absurd rfl h
  | cons x xs => simp [put]

theorem puts_nonempty (e : Bool) (bs : List Bytes) (h : ∀ b ∈ bs, b ≠ []) : (bs.map (put e)).flatten = bs := by
  induction bs with
  | nil => rfl
  | cons b bs ih =>
    simp only [List.map_cons, List.flatten_cons, put_nonempty e (h b List.mem_cons_self), ih (fun x hx => h x (List.mem_cons_of_mem _ hx))]
    rfl

theorem recvFrame_cons (f : Bytes) (fs : List Bytes) : recvFrame f.length (f :: fs) = .ok f fs := by simp [recvFrame]

theorem recvBufs_ok (bs : List Buf) (hb : ∀ b ∈ bs, b.data ≠ []) (fs : List Bytes) :
    recvBufs (bs.map (fun b => (b.cuda, b.data.length))) (bs.map Buf.data ++ fs) = .ok bs fs := by
  induction bs with
  | nil => rfl
  | cons b bs ih =>
    have h0 : b.data.length ≠ 0 := fun hc => hb b List.mem_cons_self (List.length_eq_zero_iff.mp hc)
    simp only [List.map_cons, List.cons_append, recvBufs, if_neg h0, recvFrame_cons, ih (fun x hx => hb x (List.mem_cons_of_mem _ hx))]

/-- the first two frames of a message -/
theorem recv_header (p : Pickle H) (m : Msg H) {bs : List Bytes} (h : buffersOf p m = some bs) :
    ∃ pre, bs = pre :: p.dumps m.header :: m.bufs.map Buf.data ∧ pre ≠ [] ∧ pre.length = 11 ∧
      headerLength pre = some (p.dumps m.header).length ∧
      ∀ fs, recv p (pre :: p.dumps m.header :: fs) =
        (match recvBufs (m.bufs.map (fun b => (b.cuda, b.data.length))) fs with
         | .wait => .wait | .broken => .broken | .ok bs fs3 => .ok ⟨m.rest, bs⟩ fs3) := by
  unfold buffersOf at h
  split at h
  · cases h
  · rename_i pre hp
    injection h with h
    have hl := Wire.prelude_length hp
    have hh := Wire.headerLength_prelude hp
    refine ⟨pre, h.symm, ?_, hl, hh, ?_⟩
    · intro hc; rw [hc] at hl; cases hl
    · intro fs
      have h11 : recvFrame 11 (pre :: p.dumps m.header :: fs) = .ok pre (p.dumps m.header :: fs) := by
        simp [recvFrame, hl]
      simp only [recv, h11, hh, recvFrame_cons, p.round, Wire.zip_header]
      rfl

theorem recv_ok (p : Pickle H) (m : Msg H) (hb : ∀ b ∈ m.bufs, b.data ≠ []) {bs : List Bytes} (h : buffersOf p m = some bs)
    (fs : List Bytes) : recv p (bs ++ fs) = .ok m fs := by
  obtain ⟨pre, rfl, _, _, _, hr⟩ := recv_header p m h
  have := hr (m.bufs.map Buf.data ++ fs)
  rw [recvBufs_ok m.bufs hb fs] at this
  exact this

/-- the data of a copy goes into the buffers -/
theorem recvInto_ok (refs : List Ref) (raw : List Bytes) (mem : Mem)
    (hs : refs.map (fun r => (mem.get? r).map List.length) = raw.map (fun b => some b.length)) (fs : List Bytes) :
    ∃ mem', recvInto refs mem (raw ++ fs) = (mem', .ok () fs) ∧ ∀ r, mem'.get? r = written mem.get? (refs.zip raw) r := by
  induction refs generalizing raw mem with
  | nil =>
    cases raw with
    | nil => exact ⟨mem, rfl, fun r => rfl⟩
    | cons b raw => cases hs
  | cons r refs ih =>
    cases raw with
    | nil => cases hs
    | cons b raw =>
      simp only [List.map_cons, List.cons.injEq] at hs
      obtain ⟨h1, h2⟩ := hs
      rcases hr : mem.get? r with _ | old
      · rw [hr] at h1; cases h1
      · rw [hr] at h1
        have hlen : old.length = b.length := by injection h1
        have h2' : refs.map (fun r' => ((mem.set r b).get? r').map List.length) = raw.map (fun b => some b.length) := by
          rw [← h2]
          apply List.map_congr_left
          intro r' _
          rw [Dict.get?_set]
          split
          · rename_i heq; subst heq; rw [hr]; simp [hlen]
          · rfl
        obtain ⟨mem', he, hc⟩ := ih raw (mem.set r b) h2'
        refine ⟨mem', ?_, ?_⟩
        · simp only [List.cons_append, recvInto, hr, Option.getD_some, hlen, recvFrame_cons]
          exact he
        · intro x
          rw [hc x]
          have : (fun x => (mem.set r b).get? x) = (fun x => if x = r then some b else mem.get? x) := by
            funext y; rw [Dict.get?_set]; by_cases h : r = y
            · simp [h]
            · rw [if_neg h, if_neg (fun e => h e.symm)]
          show written (mem.set r b).get? (refs.zip raw) x = written mem.get? ((r :: refs).zip (b :: raw)) x
          simp only [List.zip_cons_cons, written]
          exact congrArg (fun c => written c (refs.zip raw) x) this

theorem all_registered (refs : List Ref) (raw : List Bytes) (mem : Mem)
    (hs : refs.map (fun r => (mem.get? r).map List.length) = raw.map (fun b => some b.length)) : refs.all (fun r => mem.has r) = true := by
  induction refs generalizing raw with
  | nil => rfl
  | cons r refs ih =>
    cases raw with
    | nil => cases hs
    | cons b raw =>
      simp only [List.map_cons, List.cons.injEq] at hs
      rw [List.all_cons, ih raw hs.2, Bool.and_true]
      rcases hr : mem.get? r with _ | old
      · rw [hr] at hs; cases hs.1
      · simp [Dict.has, hr]

/-- sizes of buffers do not change -/
theorem written_sizes (refs : List Ref) (raw : List Bytes) (c : Content)
    (hs : refs.map (fun r => (c r).map List.length) = raw.map (fun b => some b.length)) (x : Ref) :
    (written c (refs.zip raw) x).map List.length = (c x).map List.length := by
  induction refs generalizing raw c with
  | nil => cases raw <;> rfl
  | cons r refs ih =>
    cases raw with
    | nil => rfl
    | cons b raw =>
      simp only [List.map_cons, List.cons.injEq] at hs
      simp only [List.zip_cons_cons, written]
      rw [ih]
      · by_cases h : x = r
        · rw [if_pos h, h, hs.1]; rfl
        · rw [if_neg h]
      · rw [← hs.2]
        apply List.map_congr_left
        intro y _
        by_cases h : y = r
        · rw [if_pos h, h, hs.1]; rfl
        · rw [if_neg h]

theorem fits_congr {copyRefs : Msg H → Option (List Ref)} {c c' : Content} {j : Job H} (h : Fits copyRefs c j)
    (hc : ∀ r, (c' r).map List.length = (c r).map List.length) : Fits copyRefs c' j := by
  refine ⟨h.nonempty, h.plain, ?_, h.rawNonempty⟩
  intro refs hr
  rw [← h.sizes refs hr]
  exact List.map_congr_left (fun r _ => hc r)

theorem expected_congr (copyRefs : Msg H → Option (List Ref)) (c c' : Content) (h : ∀ r, c r = c' r) (js : List (Job H)) :
    expected copyRefs c js = expected copyRefs c' js := by
  have : c = c' := funext h
  rw [this]

/-- Jobs that fit are carried whole and in order, whatever UCX does with empty frames: every message is handled, every copy writes exactly its
data into its buffers, and the connection stays open with nothing left over. -/
theorem delivers_partial (p : Pickle H) (hd : ∀ h, p.dumps h ≠ []) (copyRefs : Msg H → Option (List Ref)) (e : Bool) (js : List (Job H))
    (mem : Mem) (ev : List (Event H)) (hf : ∀ j ∈ js, Fits copyRefs mem.get? j) (frames : List (List Bytes))
    (hfr : js.map (jobFrames p e) = frames.map some) (fuel : Nat) (hfuel : js.length < fuel) :
    ∃ mem', serve p copyRefs fuel ⟨mem, ev⟩ frames.flatten = (⟨mem', ev ++ (expected copyRefs mem.get? js).2⟩, []) ∧
      ∀ r, mem'.get? r = (expected copyRefs mem.get? js).1 r := by
  induction js generalizing mem ev frames fuel with
  | nil =>
    cases frames with
    | cons f fs => cases hfr
    | nil =>
      rcases fuel with _ | fuel
      · cases hfuel
      · exact ⟨mem, by simp [serve, recv, recvFrame, expected], fun r => rfl⟩
  | cons j js ih =>
    cases frames with
    | nil => cases hfr
    | cons f frames =>
      rcases fuel with _ | fuel
      · cases hfuel
      simp only [List.map_cons, List.cons.injEq] at hfr
      obtain ⟨h1, h2⟩ := hfr
      have hj := hf j List.mem_cons_self
      rcases hb : buffersOf p j.message with _ | bs
      · simp only [jobFrames, jobBuffers, hb] at h1; cases h1
      have hne : ∀ b ∈ bs ++ j.raw, b ≠ [] := by
        obtain ⟨pre, rfl, hpre, _⟩ := recv_header p j.message hb
        intro b hb'
        simp only [List.cons_append, List.mem_cons, List.mem_append, List.mem_map] at hb'
        rcases hb' with rfl | rfl | ⟨x, hx, rfl⟩ | hx
        · exact hpre
        · exact hd _
        · exact hj.nonempty x hx
        · exact hj.rawNonempty b hx
      have hfeq : f = bs ++ j.raw := by
        simp only [jobFrames, jobBuffers, hb, Option.map_some] at h1
        rw [puts_nonempty e _ hne] at h1
        injection h1 with h1; exact h1.symm
      have hrec : recv p ((f :: frames).flatten) = .ok j.message (j.raw ++ frames.flatten) := by
        rw [List.flatten_cons, hfeq, List.append_assoc]
        exact recv_ok p j.message hj.nonempty hb _
      have hlen : js.length < fuel := by simp only [List.length_cons] at hfuel; omega
      simp only [serve, hrec]
      rcases hc : copyRefs j.message with _ | refs
      · rw [hj.plain hc, List.nil_append]
        obtain ⟨mem', he, hm⟩ := ih mem (ev ++ [.message j.message]) (fun x hx => hf x (List.mem_cons_of_mem _ hx)) frames h2 fuel hlen
        refine ⟨mem', ?_, ?_⟩
        · simp only [expected, hc]
          rw [he, List.append_assoc]; rfl
        · intro r; simp only [expected, hc]; exact hm r
      · have hs := hj.sizes refs hc
        obtain ⟨mem1, hi1, hw⟩ := recvInto_ok refs j.raw mem hs frames.flatten
        simp only [all_registered refs j.raw mem hs, if_true, hi1]
        have hfit : ∀ x ∈ js, Fits copyRefs mem1.get? x := by
          intro x hx
          refine fits_congr (hf x (List.mem_cons_of_mem _ hx)) (fun r => ?_)
          rw [hw r]; exact written_sizes refs j.raw _ hs r
        obtain ⟨mem', he, hm⟩ := ih mem1 (ev ++ [.copied true]) hfit frames h2 fuel hlen
        have hcg := expected_congr copyRefs mem1.get? (written mem.get? (refs.zip j.raw)) hw js
        refine ⟨mem', ?_, ?_⟩
        · simp only [expected, hc]
          rw [he, hcg, List.append_assoc]; rfl
        · intro r; simp only [expected, hc]; rw [hm r, hcg]

/-- A copy reported as done has been written completely, whatever was sent. -/
theorem done_means_written (refs : List Ref) (mem mem' : Mem) (fs fs' : List Bytes) (h : recvInto refs mem fs = (mem', .ok () fs')) :
    ∃ data, fs = data ++ fs' ∧ data.length = refs.length ∧ ∀ r, mem'.get? r = written mem.get? (refs.zip data) r := by
  induction refs generalizing mem fs with
  | nil =>
    simp only [recvInto, Prod.mk.injEq, Got.ok.injEq, true_and] at h
    exact ⟨[], by simp [h.2], rfl, fun r => by rw [h.1]; rfl⟩
  | cons r refs ih =>
    simp only [recvInto] at h
    cases fs with
    | nil => simp only [recvFrame, Prod.mk.injEq] at h; cases h.2
    | cons f fs =>
      by_cases hl : f.length = ((mem.get? r).getD []).length
      · simp only [recvFrame, if_pos hl] at h
        obtain ⟨data, h1, h2, h3⟩ := ih (mem.set r f) fs h
        refine ⟨f :: data, by simp [h1], by simp [h2], fun x => ?_⟩
        rw [h3 x]
        have : (fun x => (mem.set r f).get? x) = (fun x => if x = r then some f else mem.get? x) := by
          funext y; rw [Dict.get?_set]; by_cases h : r = y
          · simp [h]
          · rw [if_neg h, if_neg (fun e => h e.symm)]
        simp only [List.zip_cons_cons, written]
        exact congrArg (fun c => written c (refs.zip data) x) this
      · simp only [recvFrame, if_neg hl, Prod.mk.injEq] at h; cases h.2

/-! ## Concurrent senders -/

def framesOf (e : Bool) (bs : List Bytes) : List Bytes := (bs.map (put e)).flatten

theorem started_append (as : List Act) (a : Act) : startedBufs (as ++ [a]) = startedBufs as ++ startedBufs [a] := by
  induction as with
  | nil => rfl
  | cons x as ih => cases x <;> simp only [List.cons_append, startedBufs, ih, List.append_assoc]

/-- Sends never interleave: as long as no send is cancelled, what is on the wire is the sends in the order they were started, the last one
possibly unfinished; and with nobody left to send exactly all of them. -/
theorem senders_whole_partial {e : Bool} {as : List Act} {s : Conn} (h : Sends e as s) (hc : Act.cancel ∉ as) :
    s.wire ++ (framesOf e (match s.holder with | some h => h.2 | none => []) ++ (s.waiting.map (fun w => framesOf e w.2)).flatten) =
    ((startedBufs as).map (framesOf e)).flatten := by
  induction h with
  | init => rfl
  | @snoc as a s s' hr hs ih =>
    have ih := ih (fun hx => hc (List.mem_append.mpr (.inl hx)))
    rw [started_append, List.map_append, List.flatten_append, ← ih]
    obtain ⟨waiting, holder, wire⟩ := s
    cases a with
    | start t bs =>
      simp only [act] at hs; injection hs with hs; subst hs
      simp [startedBufs]
    | grant =>
      cases holder with
      | some h => simp only [act] at hs; cases hs
      | none =>
        cases waiting with
        | nil => simp only [act] at hs; cases hs
        | cons w ws => simp only [act] at hs; injection hs with hs; subst hs; simp [startedBufs, framesOf]
    | next =>
      rcases holder with _ | ⟨t, _ | ⟨b, bs⟩⟩
      · simp only [act] at hs; cases hs
      · simp only [act] at hs; cases hs
      · simp only [act] at hs; injection hs with hs; subst hs; simp [startedBufs, framesOf]
    | done =>
      rcases holder with _ | ⟨t, _ | ⟨b, bs⟩⟩
      · simp only [act] at hs; cases hs
      · simp only [act] at hs; injection hs with hs; subst hs; simp [startedBufs, framesOf]
      · simp only [act] at hs; cases hs
    | cancel => exact absurd (by simp) hc

/-- Together: tasks that send jobs over one connection, in any interleaving: when all are done the receiver has done every job, in the order
they were started. -/
theorem concurrent_delivers_partial (p : Pickle H) (hd : ∀ h, p.dumps h ≠ []) (copyRefs : Msg H → Option (List Ref)) (e : Bool)
    (js : List (Job H)) (mem : Mem) (hf : ∀ j ∈ js, Fits copyRefs mem.get? j) {as : List Act} {wire : List Bytes}
    (h : Sends e as ⟨[], none, wire⟩) (hc : Act.cancel ∉ as) (hj : (startedBufs as).map some = js.map (jobBuffers p)) :
    ∃ mem', serve p copyRefs (js.length + 1) ⟨mem, []⟩ wire = (⟨mem', (expected copyRefs mem.get? js).2⟩, []) ∧
      ∀ r, mem'.get? r = (expected copyRefs mem.get? js).1 r := by
  have hw := senders_whole_partial h hc
  simp only [framesOf, List.map_nil, List.flatten_nil, List.append_nil] at hw
  have hfr : js.map (jobFrames p e) = ((startedBufs as).map (framesOf e)).map some := by
    have : js.map (jobFrames p e) = (js.map (jobBuffers p)).map (fun o => o.map (framesOf e)) := by
      rw [List.map_map]; rfl
    rw [this, ← hj, List.map_map, List.map_map]; rfl
  have := delivers_partial p hd copyRefs e js mem [] hf _ hfr (js.length + 1) (Nat.lt_succ_self _)
  rw [List.nil_append] at this
  rw [hw]
  exact this

/-! ## What breaks a connection -/

theorem serve_frame_broken (p : Pickle H) (copyRefs : Msg H → Option (List Ref)) (fuel : Nat) (s : Pool H) (f : Bytes) (fs : List Bytes)
    (hf : f.length ≠ 11) : serve p copyRefs (fuel + 1) s (f :: fs) = (⟨s.mem, s.events ++ [.closed]⟩, []) := by
  simp only [serve, recv, recvFrame, if_neg hf]

/-- Data of another version of the protocol (or no message at all) closes the connection, without anything being handled. -/
theorem foreign_data_closes (p : Pickle H) (copyRefs : Msg H → Option (List Ref)) (fuel : Nat) (s : Pool H) (f : Bytes) (fs : List Bytes)
    (hf : f.length = 11) (hv : headerLength f = none) :
    serve p copyRefs (fuel + 1) s (f :: fs) = (⟨s.mem, s.events ++ [.closed]⟩, []) := by
  simp only [serve, recv, recvFrame, if_pos hf, hv]

theorem recvBufs_trailing_empty (bs : List Buf) (hb : ∀ b ∈ bs, b.data ≠ []) (c : Bool) (fs : List Bytes) :
    recvBufs ((bs ++ [(⟨c, []⟩ : Buf)]).map (fun b => (b.cuda, b.data.length))) (bs.map Buf.data ++ fs) = .ok (bs ++ [⟨false, []⟩]) fs := by
  induction bs with
  | nil => rfl
  | cons b bs ih =>
    have h0 : b.data.length ≠ 0 := fun hc => hb b List.mem_cons_self (List.length_eq_zero_iff.mp hc)
    simp only [List.map_cons, List.cons_append, recvBufs, if_neg h0, recvFrame_cons, ih (fun x hx => hb x (List.mem_cons_of_mem _ hx))]

/-- **Refuted**: "every message arrives": the receiver skips empty buffers but the sender sends them.  After a message whose last buffer is empty the
connection breaks, and what was sent after it is lost. -/
theorem empty_buffer_breaks_refuted (p : Pickle H) (hd : ∀ h, p.dumps h ≠ []) (copyRefs : Msg H → Option (List Ref)) (m : Msg H) (bs : List Buf)
    (hm : m.bufs = bs ++ [⟨false, []⟩]) (hb : ∀ b ∈ bs, b.data ≠ []) (hc : copyRefs m = none) (fr rest : List Bytes)
    (hf : jobFrames p true ⟨m, []⟩ = some fr) (mem : Mem) (fuel : Nat) :
    serve p copyRefs (fuel + 2) ⟨mem, []⟩ (fr ++ rest) = (⟨mem, [.message m, .closed]⟩, []) := by
  rcases hbo : buffersOf p m with _ | b
  · simp only [jobFrames, jobBuffers, hbo] at hf; cases hf
  obtain ⟨pre, rfl, hpre, _, _, hr⟩ := recv_header p m hbo
  have hfr : fr = pre :: p.dumps m.header :: (bs.map Buf.data ++ [[]]) := by
    have hall : ∀ x ∈ pre :: p.dumps m.header :: bs.map Buf.data, x ≠ [] := by
      intro x hx
      simp only [List.mem_cons, List.mem_map] at hx
      rcases hx with rfl | rfl | ⟨y, hy, rfl⟩
      · exact hpre
      · exact hd _
      · exact hb y hy
    simp only [jobFrames, jobBuffers, hbo, Option.map_some, List.append_nil, Option.some.injEq] at hf
    rw [← hf, hm]
    have : (pre :: p.dumps m.header :: List.map Buf.data (bs ++ [⟨false, []⟩])) = (pre :: p.dumps m.header :: bs.map Buf.data) ++ [[]] := by simp
    rw [this, List.map_append, List.flatten_append, puts_nonempty true _ hall]
    rfl
  have hrec : recv p (fr ++ rest) = .ok m ([] :: rest) := by
    have h1 : fr ++ rest = pre :: p.dumps m.header :: (bs.map Buf.data ++ ([] :: rest)) := by rw [hfr]; simp
    rw [h1, hr, hm, recvBufs_trailing_empty bs hb]
    have : m = ⟨m.rest, m.bufs⟩ := rfl
    rw [this, hm]
  simp only [serve, hrec, hc]
  have := serve_frame_broken p copyRefs fuel ⟨mem, [Event.message m]⟩ [] rest (by simp)
  simpa [serve] using this

/-- … and if UCX does not send empty buffers, copying into an empty registered buffer is never answered. -/
theorem empty_copy_hangs_refuted (p : Pickle H) (hd : ∀ h, p.dumps h ≠ []) (copyRefs : Msg H → Option (List Ref)) (m : Msg H)
    (hb : ∀ b ∈ m.bufs, b.data ≠ []) (r : Ref) (hc : copyRefs m = some [r]) (mem : Mem) (hr : mem.get? r = some []) (fr : List Bytes)
    (hf : jobFrames p false ⟨m, [[]]⟩ = some fr) (fuel : Nat) : serve p copyRefs (fuel + 1) ⟨mem, []⟩ fr = (⟨mem, []⟩, []) := by
  rcases hbo : buffersOf p m with _ | b
  · simp only [jobFrames, jobBuffers, hbo] at hf; cases hf
  have hall : ∀ x ∈ b, x ≠ [] := by
    obtain ⟨pre, rfl, hpre, _⟩ := recv_header p m hbo
    intro x hx
    simp only [List.mem_cons, List.mem_map] at hx
    rcases hx with rfl | rfl | ⟨y, hy, rfl⟩
    · exact hpre
    · exact hd _
    · exact hb y hy
  have hfr : fr = b := by
    simp only [jobFrames, jobBuffers, hbo, Option.map_some, Option.some.injEq] at hf
    rw [← hf, List.map_append, List.flatten_append, puts_nonempty false _ hall]
    simp [put]
  have hrec : recv p fr = .ok m [] := by
    have := recv_ok p m hb hbo []
    rw [List.append_nil] at this; rw [hfr]; exact this
  have hreg : ([r].all (fun r => mem.has r)) = true := by simp [Dict.has, hr]
  simp only [serve, hrec, hc, hreg, if_true, recvInto, recvFrame]

/-- **Refuted**: "a copy that fails harms nobody else, and its caller is told": a copy request naming an unregistered buffer is answered with an
error, but its data is still on the wire: it is taken for a message and the connection breaks (and the caller does not look at the answer). -/
theorem unknown_buffer_breaks_refuted (p : Pickle H) (copyRefs : Msg H → Option (List Ref)) (m : Msg H)
    (hb : ∀ b ∈ m.bufs, b.data ≠ []) (refs : List Ref) (hc : copyRefs m = some refs) (mem : Mem)
    (hr : refs.all (fun r => mem.has r) = false) (b : List Bytes) (hbo : buffersOf p m = some b) (d : Bytes) (hd : d.length ≠ 11)
    (rest : List Bytes) (fuel : Nat) :
    serve p copyRefs (fuel + 2) ⟨mem, []⟩ (b ++ d :: rest) = (⟨mem, [.copied false, .closed]⟩, []) ∧ copyToReturns false = none := by
  refine ⟨?_, rfl⟩
  have hrec := recv_ok p m hb hbo (d :: rest)
  have := serve_frame_broken p copyRefs fuel ⟨mem, [Event.copied false]⟩ d rest hd
  simp only [serve, hrec, hc, hr, Bool.false_eq_true, if_false]
  simpa [serve] using this

/-- The same for data that has not the size of its buffer: the copy is refused, nothing is written, and the connection breaks. -/
theorem size_mismatch_breaks (p : Pickle H) (copyRefs : Msg H → Option (List Ref)) (m : Msg H) (hb : ∀ b ∈ m.bufs, b.data ≠ []) (r : Ref)
    (hc : copyRefs m = some [r]) (mem : Mem) (old : Bytes) (hr : mem.get? r = some old) (b : List Bytes) (hbo : buffersOf p m = some b)
    (d : Bytes) (hd : d.length ≠ old.length) (rest : List Bytes) (fuel : Nat) :
    serve p copyRefs (fuel + 1) ⟨mem, []⟩ (b ++ d :: rest) = (⟨mem, [.copied false, .closed]⟩, []) := by
  have hrec := recv_ok p m hb hbo (d :: rest)
  have hreg : ([r].all (fun r => mem.has r)) = true := by simp [Dict.has, hr]
  simp only [serve, hrec, hc, hreg, if_true, recvInto, hr, Option.getD_some, recvFrame, if_neg hd, List.nil_append]

theorem sends_of (e : Bool) (as0 as : List Act) (s0 s : Conn) (h0 : Sends e as0 s0) (h : as.foldlM (act e) s0 = some s) :
    Sends e (as0 ++ as) s := by
  induction as generalizing as0 s0 with
  | nil => simp only [List.foldlM_nil] at h; injection h with h; subst h; simpa using h0
  | cons a as ih =>
    simp only [List.foldlM_cons] at h
    rcases hl : act e s0 a with _ | s1
    · rw [hl] at h; cases h
    · rw [hl] at h
      have := ih (as0 ++ [a]) s1 (Sends.snoc h0 hl) h
      simpa using this

/-- **Refuted**: "cancelling one call does not affect others": a send cancelled after its first buffer leaves the connection open with half a message
in it; the next message, of any task, breaks it. -/
theorem cancelled_send_breaks_refuted (p : Pickle H) (copyRefs : Msg H → Option (List Ref)) (m1 m2 : Msg H) (b1 b2 : List Bytes)
    (h1 : buffersOf p m1 = some b1) (h2 : buffersOf p m2 = some b2) (hd : ∀ h, p.dumps h ≠ []) (hn2 : ∀ b ∈ m2.bufs, b.data ≠ [])
    (hl : (p.dumps m1.header).length ≠ 11) (e : Bool) (mem : Mem) (fuel : Nat) :
    ∃ as wire, Sends e as ⟨[], none, wire⟩ ∧ startedBufs as = [b1, b2] ∧ Act.done ∈ as ∧
      serve p copyRefs (fuel + 1) ⟨mem, []⟩ wire = (⟨mem, [.closed]⟩, []) := by
  obtain ⟨pre1, rfl, hp1, hp1l, hh1, _⟩ := recv_header p m1 h1
  obtain ⟨pre2, hb2, hp2, hp2l, _, _⟩ := recv_header p m2 h2
  have hall : ∀ x ∈ b2, x ≠ [] := by
    rw [hb2]
    intro x hx
    simp only [List.mem_cons, List.mem_map] at hx
    rcases hx with rfl | rfl | ⟨y, hy, rfl⟩
    · exact hp2
    · exact hd _
    · exact hn2 y hy
  have hrun : ∀ (bs : List Bytes) (as : List Act) (w : List Bytes), (∀ x ∈ bs, x ≠ []) → Sends e as ⟨[], some (2, bs), w⟩ →
      Sends e (as ++ List.replicate bs.length .next) ⟨[], some (2, []), w ++ bs⟩ := by
    intro bs
    induction bs with
    | nil => intro as w _ h; simpa using h
    | cons x bs ih =>
      intro as w hx h
      have hs : act e ⟨[], some (2, x :: bs), w⟩ .next = some ⟨[], some (2, bs), w ++ [x]⟩ := by
        simp only [act, put_nonempty e (hx x List.mem_cons_self)]
      have := ih (as ++ [.next]) (w ++ [x]) (fun y hy => hx y (List.mem_cons_of_mem _ hy)) (Sends.snoc h hs)
      simpa [List.replicate_succ] using this
  have s1 : Sends e [.start 1 (pre1 :: p.dumps m1.header :: m1.bufs.map Buf.data), .start 2 b2, .grant, .next, .cancel, .grant]
      ⟨[], some (2, b2), [pre1]⟩ := by
    have := sends_of e [] [.start 1 (pre1 :: p.dumps m1.header :: m1.bufs.map Buf.data), .start 2 b2, .grant, .next, .cancel, .grant]
      ⟨[], none, []⟩ ⟨[], some (2, b2), [pre1]⟩ Sends.init
      (by simp [List.foldlM, act, put_nonempty e hp1])
    exact this
  have s2 := hrun b2 _ _ hall s1
  have s3 := Sends.snoc (a := .done) (s' := ⟨[], none, [pre1] ++ b2⟩) s2 rfl
  refine ⟨_, _, s3, ?_, by simp, ?_⟩
  · have : ∀ n, startedBufs (List.replicate n Act.next ++ [.done]) = [] := by
      intro n; induction n with
      | zero => rfl
      | succ n ih => simp only [List.replicate_succ, List.cons_append, startedBufs, ih]
    simp only [List.cons_append, List.nil_append, List.append_assoc, startedBufs, this]
  · have h11 : recvFrame 11 (pre1 :: b2) = .ok pre1 b2 := by simp [recvFrame, hp1l]
    have hbr : recvFrame (p.dumps m1.header).length b2 = .broken := by
      rw [hb2]; simp only [recvFrame]; rw [if_neg]; intro hc; rw [hp2l] at hc; exact hl hc.symm
    simp only [List.cons_append, List.nil_append, serve, recv, h11, hh1, hbr]

/-! ## Parts of messages -/

theorem recvBufs_part (bs : List Buf) (hb : ∀ b ∈ bs, b.data ≠ []) (k : Nat) (hk : k < bs.length) (fs : List Bytes)
    (hf : fs = [] ∨ ∃ f rest, fs = f :: rest ∧ ∀ b, bs[k]? = some b → f.length ≠ b.data.length) :
    recvBufs (bs.map (fun b => (b.cuda, b.data.length))) ((bs.map Buf.data).take k ++ fs) = if fs = [] then .wait else .broken := by
  induction bs generalizing k with
  | nil => cases hk
  | cons b bs ih =>
    have h0 : b.data.length ≠ 0 := fun hc => hb b List.mem_cons_self (List.length_eq_zero_iff.mp hc)
    cases k with
    | zero =>
      rcases hf with rfl | ⟨f, rest, rfl, hl⟩
      · simp only [List.map_cons, List.take_zero, List.nil_append, recvBufs, if_neg h0, recvFrame, if_true]
      · have := hl b rfl
        simp only [List.map_cons, List.take_zero, List.nil_append, recvBufs, if_neg h0, recvFrame, if_neg this, reduceCtorEq, if_false]
    | succ k =>
      have := ih (fun x hx => hb x (List.mem_cons_of_mem _ hx)) k (by simpa using hk) (by simpa using hf)
      simp only [List.map_cons, List.take_succ_cons, List.cons_append, recvBufs, if_neg h0, recvFrame_cons, this]
      by_cases hfs : fs = []
      · simp only [if_pos hfs]
      · simp only [if_neg hfs]

/-- The frames of a message: eleven bytes (the version, the length of the header, no compression), the header, the buffers. -/
theorem format (p : Pickle H) (m : Msg H) (bs : List Bytes) (h : buffersOf p m = some bs) :
    ∃ l, bs = ([1] ++ l ++ [0, 0]) :: p.dumps m.header :: m.bufs.map Buf.data ∧ l.length = 8 ∧
      Wire.unle l = (p.dumps m.header).length := by
  unfold buffersOf at h
  split at h
  · cases h
  · rename_i pre hp
    injection h with h
    refine ⟨Wire.le 8 (p.dumps m.header).length, ?_, Wire.le_length 8 _, ?_⟩
    · rw [← h]
      rw [(Wire.prelude_some hp).1]
      rfl
    · exact Wire.unle_le 8 _ (Wire.prelude_some hp).2.1

/-- A part of a message is waited for, and not handled. -/
theorem part_waits (p : Pickle H) (m : Msg H) (hb : ∀ b ∈ m.bufs, b.data ≠ []) (bs : List Bytes)
    (h : buffersOf p m = some bs) (k : Nat) (hk : k < bs.length) (copyRefs : Msg H → Option (List Ref)) (s : Pool H) (fuel : Nat) :
    recv p (bs.take k) = .wait ∧ serve p copyRefs (fuel + 1) s (bs.take k) = (s, bs.take k) := by
  have key : recv p (bs.take k) = .wait := by
    obtain ⟨pre, rfl, _, hl, hh, hr⟩ := recv_header p m h
    rcases k with _ | _ | k
    · rfl
    · have h11 : recvFrame 11 [pre] = .ok pre [] := by simp [recvFrame, hl]
      simp only [List.take_succ_cons, List.take_zero, recv, h11, hh]
      rfl
    · simp only [List.take_succ_cons]
      rw [hr]
      have := recvBufs_part m.bufs hb k (by simpa using hk) [] (.inl rfl)
      rw [List.append_nil] at this
      rw [this]; rfl
  exact ⟨key, by simp only [serve, key]⟩

/-- A frame of another size than announced, anywhere in a message, closes the connection; the message is not handled. -/
theorem wrong_size_closes (p : Pickle H) (m : Msg H) (hb : ∀ b ∈ m.bufs, b.data ≠ []) (bs : List Bytes) (h : buffersOf p m = some bs) (k : Nat)
    (hk : k < bs.length) (f : Bytes) (hf : some f.length ≠ (bs[k]?).map List.length) (rest : List Bytes)
    (copyRefs : Msg H → Option (List Ref)) (s : Pool H) (fuel : Nat) :
    serve p copyRefs (fuel + 1) s (bs.take k ++ f :: rest) = (⟨s.mem, s.events ++ [.closed]⟩, []) := by
  have key : recv p (bs.take k ++ f :: rest) = .broken := by
    obtain ⟨pre, rfl, _, hl, hh, hr⟩ := recv_header p m h
    rcases k with _ | _ | k
    · have : f.length ≠ 11 := by intro hc; apply hf; simp [hl, hc]
      simp only [List.take_zero, List.nil_append, recv, recvFrame, if_neg this]
    · have h11 : recvFrame 11 (pre :: f :: rest) = .ok pre (f :: rest) := by simp [recvFrame, hl]
      have : f.length ≠ (p.dumps m.header).length := by intro hc; apply hf; simp [hc]
      simp only [List.take_succ_cons, List.take_zero, List.cons_append, List.nil_append, recv, h11, hh]
      simp only [recvFrame, if_neg this]
    · simp only [List.take_succ_cons, List.cons_append]
      rw [hr]
      have := recvBufs_part m.bufs hb k (by simpa using hk) (f :: rest) (.inr ⟨f, rest, rfl, ?_⟩)
      · rw [this]; rfl
      · intro b hbk hc
        apply hf
        simp [hbk, hc]
  simp only [serve, key]

/-- A header that does not decode closes the connection, without anything being handled. -/
theorem undecodable_closes (p : Pickle H) (f hd : Bytes) (hf : f.length = 11) (hv : headerLength f = some hd.length) (hl : p.loads hd = none)
    (rest : List Bytes) (copyRefs : Msg H → Option (List Ref)) (s : Pool H) (fuel : Nat) :
    serve p copyRefs (fuel + 1) s (f :: hd :: rest) = (⟨s.mem, s.events ++ [.closed]⟩, []) := by
  have h11 : recvFrame 11 (f :: hd :: rest) = .ok f (hd :: rest) := by simp [recvFrame, hf]
  simp only [serve, recv, h11, hv, recvFrame_cons, hl]

/-- A copy request naming an unregistered buffer is answered with an error after the earlier answers, writes nothing, and what follows is taken
for messages. -/
theorem unknown_buffer_answer (p : Pickle H) (copyRefs : Msg H → Option (List Ref)) (m : Msg H)
    (hb : ∀ b ∈ m.bufs, b.data ≠ []) (refs : List Ref) (hc : copyRefs m = some refs) (s : Pool H)
    (r : Ref) (hr : r ∈ refs) (hn : s.mem.get? r = none) (b : List Bytes) (hbo : buffersOf p m = some b) (rest : List Bytes) (fuel : Nat) :
    serve p copyRefs (fuel + 1) s (b ++ rest) = serve p copyRefs fuel ⟨s.mem, s.events ++ [.copied false]⟩ rest := by
  have hrec := recv_ok p m hb hbo rest
  have hall : refs.all (fun r => s.mem.has r) = false := by
    rw [List.all_eq_false]
    exact ⟨r, hr, by simp [Dict.has, hn]⟩
  simp only [serve, hrec, hc, hall, Bool.false_eq_true, if_false]

/-! ## Concrete cases -/

/-- in the examples a message starting with 99 is a copy request for the buffers named after it -/
def exRefs (m : Msg Bytes) : Option (List Ref) := match m.rest with | 99 :: rs => some (rs.map UInt8.toNat) | _ => none
def exSay : Msg Bytes := ⟨[7], [⟨false, [1, 2, 3]⟩, ⟨true, [9]⟩]⟩
def exCopy : Msg Bytes := ⟨[99, 5, 6], []⟩
def exMem : Mem := [(5, [0, 0]), (6, [0, 0, 0]), (8, [])]
def exJobs : List (Job Bytes) := [⟨exSay, []⟩, ⟨exCopy, [[1, 2], [3, 4, 5]]⟩, ⟨exSay, []⟩]

theorem toy_dumps : ∀ h, Wire.toyPickle.dumps h ≠ [] := by
  intro h hc
  have := congrArg List.length hc
  simp [Wire.toyPickle, Wire.toyDumps] at this

theorem exFits : ∀ j ∈ exJobs, Fits exRefs exMem.get? j := by
  intro j hj
  simp only [exJobs, List.mem_cons, List.not_mem_nil, or_false] at hj
  have say : Fits exRefs exMem.get? ⟨exSay, []⟩ := by
    refine ⟨by decide, fun _ => rfl, fun refs h => ?_, by simp⟩
    have : exRefs exSay = none := by decide
    rw [this] at h; cases h
  rcases hj with rfl | rfl | rfl
  · exact say
  · refine ⟨by decide, fun h => ?_, fun refs h => ?_, by decide⟩
    · have : exRefs exCopy = some [5, 6] := by decide
      rw [this] at h; cases h
    · have : exRefs exCopy = some [5, 6] := by decide
      rw [this] at h; injection h with h; subst h; decide
  · exact say

example : (expected exRefs exMem.get? exJobs).2 = [.message exSay, .copied true, .message exSay] ∧
    (expected exRefs exMem.get? exJobs).1 6 = some [3, 4, 5] := by decide
example : ∃ frames : List (List Bytes), exJobs.map (jobFrames Wire.toyPickle true) = frames.map some ∧
    ((serve Wire.toyPickle exRefs 4 ⟨exMem, []⟩ frames.flatten).1.events = [.message exSay, .copied true, .message exSay]) :=
  ⟨(exJobs.map (jobFrames Wire.toyPickle true)).map (·.getD []), by decide, by decide⟩
example : (List.replicate 11 (2 : UInt8)).length = 11 ∧ headerLength (List.replicate 11 2) = none := by decide
/-- two tasks sending at once -/
example : (([.start 1 [[1], [2]], .grant, .next, .start 2 [[3]], .next, .done, .grant, .next, .done] : List Act).foldlM (act true)
    ⟨[], none, []⟩) = some ⟨[], none, [[1], [2], [3]]⟩ := by decide
example : Wire.Msg.bufs (⟨[7], [⟨false, [1]⟩, ⟨false, []⟩]⟩ : Msg Bytes) = [⟨false, [1]⟩] ++ [⟨false, []⟩] ∧
    (jobFrames Wire.toyPickle true ⟨⟨[7], [⟨false, [1]⟩, ⟨false, []⟩]⟩, []⟩).isSome = true := by decide
example : exRefs ⟨[99, 8], []⟩ = some [8] ∧ exMem.get? 8 = some [] ∧
    (jobFrames Wire.toyPickle false ⟨⟨[99, 8], []⟩, [[]]⟩).isSome = true := by decide
example : ([7].all (fun r => exMem.has r)) = false ∧ (buffersOf Wire.toyPickle ⟨[99, 7], []⟩).isSome = true := by decide
example : (Wire.toyPickle.dumps (Msg.header exCopy)).length ≠ 11 ∧ (buffersOf Wire.toyPickle exCopy).isSome = true := by decide

example : ∃ bs, buffersOf Wire.toyPickle exSay = some bs ∧ bs.length = 4 ∧ recv Wire.toyPickle (bs.take 3) = .wait :=
  ⟨(buffersOf Wire.toyPickle exSay).getD [], by decide, by decide, by decide⟩
example : headerLength ([1, 1] ++ List.replicate 9 0) = some ([0] : Bytes).length ∧ Wire.toyPickle.loads [0] = none := by decide

end Xoscar.Ucx
