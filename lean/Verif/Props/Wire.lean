import Verif.Proof.Wire
/-!
# C07 Wire framing round trip; C08 Concurrent senders do not interleave frames
-/
namespace Xoscar.Wire
open scoped List
variable {H : Type}

/-! ## C07 -/

/-- Bytes on the wire for a sequence of sends. -/
def stream (p : Pickle H) (c : Nat) (ms : List (Msg H)) : Option Bytes :=
  match ms with
  | [] => some []
  | m :: ms => match frame p c m, stream p c ms with
    | some f, some s => some (f ++ s)
    | _, _ => none

/-- **C07**: everything written for a sequence of messages is read back as exactly that sequence
(headers and buffers with their boundaries), leaving exactly what follows in the stream. -/
theorem send_recv_stream (p : Pickle H) (c : Nat) (ms : List (Msg H)) (s t : Bytes)
    (h : stream p c ms = some s) : recvN p ms.length (s ++ t) = .ok ms t := by
  induction ms generalizing s with
  | nil => simp only [stream, Option.some.injEq] at h; subst h; rfl
  | cons m ms ih =>
    simp only [stream] at h
    split at h
    · next f s' hf hs' =>
      cases h
      simp only [List.length_cons, recvN, List.append_assoc, recv_frame hf, ih _ hs']
    · cases h

/-- A message can be framed iff its pickled header has fewer than 2^64 bytes and the compression
tag fits 16 bits; buffer count and sizes are not restricted. -/
theorem frame_isSome_iff (p : Pickle H) (c : Nat) (m : Msg H) :
    (frame p c m).isSome ↔ (p.dumps m.header).length < 2 ^ 64 ∧ c < 2 ^ 16 := by
  unfold frame writes prelude pack
  have e8 : 256 ^ 8 = 2 ^ 64 := by decide
  have e2 : 256 ^ 2 = 2 ^ 16 := by decide
  rw [e8, e2, if_pos (by decide : version < 256 ^ 1)]
  by_cases h1 : (p.dumps m.header).length < 2 ^ 64 <;> by_cases h2 : c < 2 ^ 16 <;>
    simp only [h1, h2, if_true, if_false] <;> simp

theorem readCuda_short (chunk : Nat) (size fuel : Nat) (acc s : Bytes)
    (hf : size ≤ acc.length + fuel) (h : acc.length + s.length < size) :
    readCuda chunk size fuel acc s = .more ∨ chunk = 0 := by
  induction fuel generalizing acc s with
  | zero => omega
  | succ f ih =>
    by_cases hc : chunk = 0
    · exact .inr hc
    left
    simp only [readCuda]
    rw [if_pos (by omega)]
    obtain ⟨n, hdef⟩ : ∃ n, n = if acc.length + chunk < size then chunk else size - acc.length := ⟨_, rfl⟩
    simp only [← hdef]
    have hn0 : 0 < n := by rw [hdef]; split <;> omega
    unfold readExactly
    split
    · next c s' he =>
      split at he
      · next hle =>
        cases he
        rcases ih (acc ++ s.take n) (s.drop n) (by simp; omega) (by simp; omega) with h | h
        · exact h
        · exact absurd h hc
      · cases he
    · rfl
    · next he => split at he <;> cases he
    · next he => split at he <;> cases he

theorem readBuf_short (c : Bool) (n : Nat) (s : Bytes) (h : s.length < n) : readBuf c n s = .more := by
  unfold readBuf
  cases c
  · simp only [Bool.false_eq_true, if_false, readExactly, if_neg (Nat.not_le.mpr h)]
  · simp only [if_true]
    rcases readCuda_short cudaChunk n n [] s (by simp) (by simpa using h) with h | h
    · rw [h]
    · simp [cudaChunk] at h

theorem readBufs_short (bs : List Buf) (k : Nat) (h : k < ((bs.map Buf.data).flatten).length) :
    readBufs (bs.map (fun b => (b.cuda, b.data.length))) ((bs.map Buf.data).flatten.take k) = .more := by
  induction bs generalizing k with
  | nil => simp at h
  | cons b bs ih =>
    simp only [List.map_cons, List.flatten_cons, List.length_append] at h
    simp only [List.map_cons, List.flatten_cons, readBufs]
    by_cases hk : k < b.data.length
    · rw [readBuf_short]; rw [List.length_take]; omega
    · rw [List.take_append, List.take_of_length_le (by omega : b.data.length ≤ k), readBuf_ok]
      simp only [ih _ (by omega : k - b.data.length < _)]

/-- **C07**, truncation: a connection that breaks inside a frame never yields a message (nor a
mis-parsed one): the reader keeps waiting / gets IncompleteReadError. -/
theorem truncated_frame (p : Pickle H) (c : Nat) (m : Msg H) (f : Bytes) (h : frame p c m = some f)
    (k : Nat) (hk : k < f.length) : recv p (f.take k) = .more := by
  obtain ⟨pre, hp, rfl⟩ := frame_some h
  have hl := prelude_length hp
  unfold recv getHeader
  by_cases h1 : k < 11
  · rw [readExactly, if_neg (by simp; omega)]
  · rw [List.take_append, List.take_of_length_le (by omega : pre.length ≤ k), hl,
      readExactly_append' pre _ hl.symm]
    simp only [headerLength_prelude hp]
    simp only [List.length_append] at hk
    by_cases h2 : k - 11 < (p.dumps m.header).length
    · rw [readExactly, if_neg (by simp; omega)]
    · rw [List.take_append, List.take_of_length_le (by omega : _ ≤ k - 11), readExactly_append]
      simp only [p.round, zip_header]
      rw [readBufs_short _ _ (by omega)]

/-- **C07**, foreign version: a frame whose first byte is not the version byte is refused with
EOFError whatever follows. -/
theorem foreign_version_refused (p : Pickle H) (b : UInt8) (s : Bytes) (hs : 10 ≤ s.length)
    (hb : b ≠ 1) : recv p (b :: s) = .eof := by
  have : b.toNat ≠ 1 := fun e => hb (UInt8.toNat_inj.mp (by simpa using e))
  unfold recv getHeader readExactly
  rw [if_pos (by simp; omega)]
  simp [headerLength, unle, version, this]

/-- `get_size` of a stream starting with a frame is the frame's length. -/
theorem size_of_frame (p : Pickle H) (c : Nat) (m : Msg H) (f t : Bytes) (h : frame p c m = some f) :
    ∃ r, getSize p (f ++ t) = .ok f.length r := by
  obtain ⟨pre, hp, rfl⟩ := frame_some h
  unfold getSize
  rw [List.append_assoc, readExactly_append' pre _ (prelude_length hp).symm]
  simp only [headerLength_prelude hp, List.append_assoc, readExactly_append, p.round]
  refine ⟨(m.bufs.map Buf.data).flatten ++ t, ?_⟩
  congr 1
  simp [prelude_length hp, Msg.header, List.length_flatten, Function.comp_def]
  omega

/-! ## The chunked reader -/

/-- the bytes that arrive in a history of reader events -/
def dataOf (evs : List REv) : Bytes :=
  (evs.map (fun | .data bs => bs | _ => [])).flatten

/-- the remaining stream `s` is what the suspended `recv` and the following ones will need to
produce exactly the messages `r` -/
def Expect (p : Pickle H) (c : Nat) : RPhase H → List (Msg H) → Bytes → Prop
  | .idle, r, s => stream p c r = some s
  | .prelude, r, s => stream p c r = some s
  | .header n, r, s => ∃ m r' s', r = m :: r' ∧ stream p c r' = some s' ∧
      n = (p.dumps m.header).length ∧
      s = p.dumps m.header ++ ((m.bufs.map Buf.data).flatten ++ s')
  | .bufs rest done todo, r, s => ∃ bs r' s', r = ⟨rest, done ++ bs⟩ :: r' ∧
      stream p c r' = some s' ∧ todo = bs.map (fun b => (b.cuda, b.data.length)) ∧
      s = (bs.map Buf.data).flatten ++ s'
  | .dead, _, _ => False

theorem take_of_prefix {a b x y : Bytes} (h : a ++ b = x ++ y) (hl : x.length ≤ a.length) :
    ∃ z, a = x ++ z ∧ y = z ++ b := by
  obtain ⟨z, hz⟩ : x <+: a := List.prefix_of_prefix_length_le ⟨y, h.symm⟩ ⟨b, rfl⟩ hl
  subst hz
  refine ⟨z, rfl, ?_⟩
  rw [List.append_assoc] at h
  exact (List.append_cancel_left h).symm

theorem readExactly_cases (n : Nat) (s : Bytes) :
    (n ≤ s.length ∧ readExactly n s = .ok (s.take n) (s.drop n)) ∨
    (s.length < n ∧ readExactly n s = .more) := by
  unfold readExactly; split
  · exact .inl ⟨‹_›, rfl⟩
  · exact .inr ⟨by omega, rfl⟩

/-- invariant of the reader -/
theorem reader_step (p : Pickle H) (c : Nat) (ms : List (Msg H)) (st : RState H) (ev : REv)
    (fut : Bytes)
    (h : ∃ r, st.out ++ r = ms ∧ Expect p c st.phase r (st.buf ++ (dataOf [ev] ++ fut))) :
    ∃ r, (rstep p st ev).out ++ r = ms ∧
      Expect p c (rstep p st ev).phase r ((rstep p st ev).buf ++ fut) := by
  obtain ⟨r, hr, he⟩ := h
  cases ev with
  | data bs =>
    refine ⟨r, hr, ?_⟩
    simpa [rstep, dataOf] using he
  | call =>
    simp only [dataOf, List.map_cons, List.map_nil, List.flatten_cons, List.flatten_nil,
      List.nil_append] at he
    simp only [rstep]
    split
    · next hp => rw [hp] at he; exact ⟨r, hr, he⟩
    · exact ⟨r, hr, he⟩
  | resume =>
    simp only [dataOf, List.map_cons, List.map_nil, List.flatten_cons, List.flatten_nil,
      List.nil_append] at he
    simp only [rstep]
    split
    · next hp => exact ⟨r, hr, he⟩
    · next hp => exact ⟨r, hr, he⟩
    · next hp =>
      rw [hp] at he
      rcases readExactly_cases 11 st.buf with ⟨hl, e⟩ | ⟨hl, e⟩
      · rw [e]; simp only
        simp only [Expect] at he
        cases r with
        | nil =>
          simp only [stream, Option.some.injEq] at he
          have := congrArg List.length he; simp at this; omega
        | cons m r' =>
          simp only [stream] at he
          split at he
          · next f s' hf hs' =>
            simp only [Option.some.injEq] at he
            obtain ⟨pre, hpre, rfl⟩ := frame_some hf
            have hl11 := prelude_length hpre
            simp only [List.append_assoc] at he
            obtain ⟨z, hz, hz2⟩ := take_of_prefix he.symm (by omega)
            have e1 : List.take 11 st.buf = pre := by
              rw [hz, ← hl11, List.take_left']; rfl
            have e2 : List.drop 11 st.buf = z := by
              rw [hz, ← hl11, List.drop_left']; rfl
            rw [e1, e2, headerLength_prelude hpre]
            exact ⟨m :: r', hr, m, r', s', rfl, hs', rfl, by rw [← hz2]⟩
          · cases he
      · rw [e]; simp only; refine ⟨r, hr, ?_⟩; simp only [hp]; exact he
    · next n hp =>
      rw [hp] at he
      obtain ⟨m, r', s', rfl, hs', rfl, hs⟩ := he
      rcases readExactly_cases (p.dumps m.header).length st.buf with ⟨hl, e⟩ | ⟨hl, e⟩
      · rw [e]; simp only
        obtain ⟨z, hz, hz2⟩ := take_of_prefix hs hl
        have e1 : List.take (p.dumps m.header).length st.buf = p.dumps m.header := by
          rw [hz, List.take_left']; rfl
        have e2 : List.drop (p.dumps m.header).length st.buf = z := by
          rw [hz, List.drop_left']; rfl
        rw [e1, e2, p.round]; simp only [zip_header]
        exact ⟨m :: r', hr, m.bufs, r', s', rfl, hs', rfl, hz2.symm⟩
      · rw [e]; simp only
        refine ⟨m :: r', hr, ?_⟩
        rw [hp]
        exact ⟨m, r', s', rfl, hs', rfl, hs⟩
    · next rest done hp =>
      rw [hp] at he
      obtain ⟨bs, r', s', rfl, hs', hb, hs⟩ := he
      have : bs = [] := by simpa using hb.symm
      subst this
      refine ⟨r', by simpa using hr, ?_⟩
      simp only [List.map_nil, List.flatten_nil, List.nil_append] at hs
      simp only [Expect, hs, hs']
    · next rest done cu n l hp =>
      rw [hp] at he
      obtain ⟨bs, r', s', rfl, hs', hb, hs⟩ := he
      cases bs with
      | nil => simp at hb
      | cons b bs =>
        simp only [List.map_cons, List.cons.injEq, Prod.mk.injEq] at hb
        obtain ⟨⟨rfl, rfl⟩, rfl⟩ := hb
        simp only [List.map_cons, List.flatten_cons, List.append_assoc] at hs
        by_cases hl : b.data.length ≤ st.buf.length
        · obtain ⟨z, hz, hz2⟩ := take_of_prefix hs hl
          rw [hz, readBuf_ok]; simp only
          exact ⟨_, hr, bs, r', s', by simp, hs', rfl, hz2.symm⟩
        · rw [readBuf_short _ _ _ (by omega)]; simp only
          refine ⟨_, hr, ?_⟩
          rw [hp]
          exact ⟨b :: bs, r', s', rfl, hs', rfl, by simpa using hs⟩

theorem reader_run (p : Pickle H) (c : Nat) (ms : List (Msg H)) (evs : List REv) (st : RState H)
    (fut : Bytes)
    (h : ∃ r, st.out ++ r = ms ∧ Expect p c st.phase r (st.buf ++ (dataOf evs ++ fut))) :
    ∃ r, (rrun p st evs).out ++ r = ms ∧
      Expect p c (rrun p st evs).phase r ((rrun p st evs).buf ++ fut) := by
  induction evs generalizing st with
  | nil => simpa [rrun, dataOf] using h
  | cons e es ih =>
    have := reader_step p c ms st e (dataOf es ++ fut) (by
      simpa [dataOf] using h)
    exact ih _ this

/-- **C07**, incremental: however the bytes of a stream of frames arrive (any chunking, any
interleaving of arrivals, `recv` calls and resumptions, any number of concurrent `recv` calls
serialised by the receive lock), what has been received is a prefix of what was sent, and the
reader never dies of a parse error. -/
theorem reader_prefix (p : Pickle H) (c : Nat) (ms : List (Msg H)) (s : Bytes)
    (hs : stream p c ms = some s) (evs : List REv) (fut : Bytes) (hd : dataOf evs ++ fut = s) :
    (rrun p ⟨[], .idle, []⟩ evs).out <+: ms ∧ (rrun p ⟨[], .idle, []⟩ evs).phase ≠ .dead := by
  obtain ⟨r, hr, he⟩ := reader_run p c ms evs ⟨[], .idle, []⟩ fut ⟨ms, rfl, by simp [Expect, hd, hs]⟩
  refine ⟨⟨r, hr⟩, ?_⟩
  intro hp; rw [hp] at he; exact he

/-- liveness of one phase: with all bytes there, some more call/resume events finish everything -/
theorem reader_finish (p : Pickle H) (c : Nat) (r : List (Msg H)) :
    ∀ (st : RState H), Expect p c st.phase r st.buf →
      ∃ evs, dataOf evs = [] ∧ (rrun p st evs).out = st.out ++ r := by
  -- finishing the buffers of the current message
  have hbufs : ∀ (r' : List (Msg H)) (s' : Bytes),
      (∀ (st : RState H), Expect p c st.phase r' st.buf → st.phase = .idle →
        ∃ evs, dataOf evs = [] ∧ (rrun p st evs).out = st.out ++ r') →
      ∀ (bs done : List Buf) (rest : H) (out : List (Msg H)), stream p c r' = some s' →
      ∃ evs, dataOf evs = [] ∧
        (rrun p ⟨(bs.map Buf.data).flatten ++ s',
          .bufs rest done (bs.map (fun b => (b.cuda, b.data.length))), out⟩ evs).out =
          out ++ (⟨rest, done ++ bs⟩ :: r') := by
    intro r' s' ih bs
    induction bs with
    | nil =>
      intro done rest out hs'
      obtain ⟨evs, h0, h1⟩ := ih ⟨s', .idle, out ++ [⟨rest, done⟩]⟩ hs' rfl
      exact ⟨.resume :: evs, by simpa [dataOf] using h0, by
        simp only [rrun, List.foldl_cons] at *
        simpa [rstep] using h1⟩
    | cons b bs ihb =>
      intro done rest out hs'
      obtain ⟨evs, h0, h1⟩ := ihb (done ++ [b]) rest out hs'
      refine ⟨.resume :: evs, by simpa [dataOf] using h0, ?_⟩
      simp only [rrun, List.foldl_cons] at *
      simp only [rstep, List.map_cons, List.flatten_cons, List.append_assoc, readBuf_ok]
      simpa using h1
  -- from an idle reader
  have hidle : ∀ (r : List (Msg H)) (st : RState H), Expect p c st.phase r st.buf → st.phase = .idle →
      ∃ evs, dataOf evs = [] ∧ (rrun p st evs).out = st.out ++ r := by
    intro r
    induction r with
    | nil => intro st _ _; exact ⟨[], rfl, by simp [rrun]⟩
    | cons m r ih =>
      intro st he hp
      obtain ⟨buf, ph, out⟩ := st
      cases hp
      simp only [Expect, stream] at he
      split at he
      · next f s' hf hs' =>
        cases he
        obtain ⟨pre, hpre, rfl⟩ := frame_some hf
        obtain ⟨evs, h0, h1⟩ := hbufs r s' ih m.bufs [] m.rest out hs'
        refine ⟨.call :: .resume :: .resume :: evs, by simpa [dataOf] using h0, ?_⟩
        simp only [rrun, List.foldl_cons] at *
        have e1 : rstep p (rstep p (rstep p ⟨pre ++ (p.dumps m.header ++ (m.bufs.map Buf.data).flatten) ++ s',
            .idle, out⟩ .call) .resume) .resume =
            ⟨(m.bufs.map Buf.data).flatten ++ s',
          .bufs m.rest [] (m.bufs.map (fun b => (b.cuda, b.data.length))), out⟩ := by
          simp only [rstep, List.append_assoc, readExactly_append' pre _ (prelude_length hpre).symm,
            headerLength_prelude hpre, readExactly_append, p.round, zip_header]
          rfl
        rw [e1, h1]; rfl
      · cases he
  intro st he
  obtain ⟨buf, ph, out⟩ := st
  cases ph with
  | idle => exact hidle r _ he rfl
  | prelude =>
    cases r with
    | nil => exact ⟨[], rfl, by simp [rrun]⟩
    | cons m r =>
      simp only [Expect, stream] at he
      split at he
      · next f s' hf hs' =>
        cases he
        obtain ⟨pre, hpre, rfl⟩ := frame_some hf
        obtain ⟨evs, h0, h1⟩ := hbufs r s' (hidle r) m.bufs [] m.rest out hs'
        refine ⟨.resume :: .resume :: evs, by simpa [dataOf] using h0, ?_⟩
        simp only [rrun, List.foldl_cons] at *
        have e1 : rstep p (rstep p ⟨pre ++ (p.dumps m.header ++ (m.bufs.map Buf.data).flatten) ++ s',
            .prelude, out⟩ .resume) .resume =
            ⟨(m.bufs.map Buf.data).flatten ++ s',
          .bufs m.rest [] (m.bufs.map (fun b => (b.cuda, b.data.length))), out⟩ := by
          simp only [rstep, List.append_assoc, readExactly_append' pre _ (prelude_length hpre).symm,
            headerLength_prelude hpre, readExactly_append, p.round, zip_header]
          rfl
        rw [e1, h1]; rfl
      · cases he
  | header n =>
    obtain ⟨m, r', s', rfl, hs', rfl, rfl⟩ := he
    obtain ⟨evs, h0, h1⟩ := hbufs r' s' (hidle r') m.bufs [] m.rest out hs'
    refine ⟨.resume :: evs, by simpa [dataOf] using h0, ?_⟩
    simp only [rrun, List.foldl_cons] at *
    have e1 : rstep p ⟨p.dumps m.header ++ ((m.bufs.map Buf.data).flatten ++ s'),
        .header (p.dumps m.header).length, out⟩ .resume =
        ⟨(m.bufs.map Buf.data).flatten ++ s',
      .bufs m.rest [] (m.bufs.map (fun b => (b.cuda, b.data.length))), out⟩ := by
      simp only [rstep, readExactly_append, p.round, zip_header]
      rfl
    rw [e1, h1]; rfl
  | bufs rest done todo =>
    obtain ⟨bs, r', s', rfl, hs', rfl, rfl⟩ := he
    exact hbufs r' s' (hidle r') bs done rest out hs'
  | dead => exact he.elim

/-- **C07**, completeness: from any point of any history, once all bytes have arrived, further
`recv` calls deliver all the remaining messages. -/
theorem reader_complete (p : Pickle H) (c : Nat) (ms : List (Msg H)) (s : Bytes)
    (hs : stream p c ms = some s) (evs : List REv) (hd : dataOf evs = s) :
    ∃ more, dataOf more = [] ∧ (rrun p ⟨[], .idle, []⟩ (evs ++ more)).out = ms := by
  obtain ⟨r, hr, he⟩ := reader_run p c ms evs ⟨[], .idle, []⟩ [] ⟨ms, rfl, by simp [Expect, hd, hs]⟩
  rw [List.append_nil] at he
  obtain ⟨more, h0, h1⟩ := reader_finish p c r _ he
  refine ⟨more, h0, ?_⟩
  rw [← hr, ← h1]; simp [rrun]

/-! ## C08 -/

/-- messages of a task that can be framed (the others make `send` raise struct.error) -/
def framable (p : Pickle H) (c : Nat) (l : List (Msg H)) : List (Msg H) :=
  l.filter (fun m => (frame p c m).isSome)

/-- the messages of task `t` in a log -/
def ofTask (t : Nat) (log : List (Nat × Msg H)) : List (Msg H) :=
  (log.filter (fun e => e.1 == t)).map Prod.snd

/-- the messages a sender has not yet written -/
def unsent (s : Sender H) : List (Msg H) :=
  match s.phase with
  | .serializing => s.todo
  | .draining => s.todo.tail

theorem stream_append (p : Pickle H) (c : Nat) (a b : List (Msg H)) (x y : Bytes)
    (ha : stream p c a = some x) (hb : stream p c b = some y) : stream p c (a ++ b) = some (x ++ y) := by
  induction a generalizing x with
  | nil => simp only [stream, Option.some.injEq] at ha; subst ha; simpa using hb
  | cons m a ih =>
    simp only [stream] at ha
    split at ha
    · next f s hf hs => cases ha; simp [stream, hf, ih _ hs]
    · cases ha

def SInv (p : Pickle H) (c : Nat) (progs : List (List (Msg H))) (st : SState H)
    (log : List (Nat × Msg H)) : Prop :=
  stream p c (log.map Prod.snd) = some st.wire ∧
  st.senders.length = progs.length ∧
  (∀ (t : Nat) s prog, st.senders[t]? = some s → progs[t]? = some prog →
    ofTask t log ++ framable p c (unsent s) = framable p c prog) ∧
  (∀ e ∈ log, e.1 < progs.length)

theorem sstep_inv (p : Pickle H) (c : Nat) (progs : List (List (Msg H))) (st : SState H)
    (log : List (Nat × Msg H)) (h : SInv p c progs st log) (t : Nat) :
    ∃ log', SInv p c progs (sstep p c st t) log' := by
  obtain ⟨h1, h2, h3, h4⟩ := h
  unfold sstep
  split
  · exact ⟨log, h1, h2, h3, h4⟩
  · next s hs =>
    have ht : t < st.senders.length := by
      rw [List.getElem?_eq_some_iff] at hs; exact hs.1
    split
    · exact ⟨log, h1, h2, h3, h4⟩
    · next m ms hph htodo =>
      split
      · next hw =>
        refine ⟨log, h1, by simpa using h2, ?_, h4⟩
        intro t' s' prog ht' hp
        simp only [List.getElem?_set, ht, if_true] at ht'
        split at ht'
        · next e =>
          subst e; simp only [Option.some.injEq] at ht'; subst ht'
          have := h3 t s prog hs hp
          rw [← this]; congr 1
          have hn : frame p c m = none := by simp [frame, hw]
          simp [unsent, hph, htodo, framable, hn]
        · exact h3 t' s' prog ht' hp
      · next ws hw =>
        have hf := writes_of_frame hw
        refine ⟨log ++ [(t, m)], ?_, by simpa using h2, ?_, ?_⟩
        · rw [foldl_append, List.map_append]
          refine stream_append p c _ _ _ _ h1 ?_
          simp [stream, hf]
        · intro t' s' prog ht' hp
          simp only [List.getElem?_set, ht, if_true] at ht'
          split at ht'
          · next e =>
            subst e; simp only [Option.some.injEq] at ht'; subst ht'
            have := h3 t s prog hs hp
            rw [← this]
            simp [unsent, hph, htodo, framable, hf, ofTask]
          · next e =>
            have hne : (t == t') = false := by simpa using e
            have := h3 t' s' prog ht' hp
            rw [← this]; simp [ofTask, hne]
        · intro e he
          rcases List.mem_append.mp he with he | he
          · exact h4 e he
          · simp at he; subst he; simp; omega
    · next m ms hph htodo =>
      refine ⟨log, h1, by simpa using h2, ?_, h4⟩
      intro t' s' prog ht' hp
      simp only [List.getElem?_set, ht, if_true] at ht'
      split at ht'
      · next e =>
        subst e; simp only [Option.some.injEq] at ht'; subst ht'
        have := h3 t s prog hs hp
        rw [← this]; simp [unsent, hph, htodo]
      · exact h3 t' s' prog ht' hp

/-- a channel on which tasks with the given programs are about to send -/
def startSenders (progs : List (List (Msg H))) : SState H :=
  ⟨[], progs.map (fun l => ⟨l, .serializing⟩)⟩

theorem srun_inv (p : Pickle H) (c : Nat) (progs : List (List (Msg H))) (sched : List Nat) :
    ∃ log, SInv p c progs (srun p c (startSenders progs) sched) log := by
  have hstart : SInv p c progs (startSenders progs) [] := by
    refine ⟨rfl, by simp [startSenders], ?_, by simp⟩
    intro t s prog hs hp
    simp only [startSenders, List.getElem?_map, hp, Option.map_some, Option.some.injEq] at hs
    subst hs; simp [ofTask, unsent]
  unfold srun
  have gen : ∀ (sched : List Nat) (st : SState H) log, SInv p c progs st log →
      ∃ log, SInv p c progs (sched.foldl (sstep p c) st) log := by
    intro sched
    induction sched with
    | nil => intro st log h; exact ⟨log, h⟩
    | cons t ts ih =>
      intro st log h
      obtain ⟨log', h'⟩ := sstep_inv p c progs st log h t
      exact ih _ log' h'
  exact gen sched _ _ hstart

/-- **C08**: whatever the interleaving of the sending tasks, the bytes on the wire are the
concatenation of whole frames of a merge `log` of the tasks' messages: every task's messages
appear in its own order, none twice, none invented; and when all tasks have finished none is
missing. -/
theorem concurrent_senders_whole_frames (p : Pickle H) (c : Nat) (progs : List (List (Msg H)))
    (sched : List Nat) :
    ∃ log : List (Nat × Msg H),
      stream p c (log.map Prod.snd) = some (srun p c (startSenders progs) sched).wire ∧
      (∀ e ∈ log, e.1 < progs.length) ∧
      (∀ (t : Nat) prog, progs[t]? = some prog → ofTask t log <+: framable p c prog) ∧
      ((∀ s ∈ (srun p c (startSenders progs) sched).senders, s.todo = []) →
        ∀ (t : Nat) prog, progs[t]? = some prog → ofTask t log = framable p c prog) := by
  obtain ⟨log, h1, h2, h3, h4⟩ := srun_inv p c progs sched
  have hlt : ∀ (t : Nat) prog, progs[t]? = some prog →
      ∃ s, (srun p c (startSenders progs) sched).senders[t]? = some s := by
    intro t prog hp
    rw [List.getElem?_eq_some_iff] at hp
    obtain ⟨ht, _⟩ := hp
    exact ⟨_, List.getElem?_eq_getElem (by omega)⟩
  refine ⟨log, h1, h4, ?_, ?_⟩
  · intro t prog hp
    obtain ⟨s, hs⟩ := hlt t prog hp
    exact ⟨_, h3 t s prog hs hp⟩
  · intro hd t prog hp
    obtain ⟨s, hs⟩ := hlt t prog hp
    have h := h3 t s prog hs hp
    have : s.todo = [] := hd s (List.mem_of_getElem? hs)
    rw [← h]; simp [unsent, this, framable]; cases s.phase <;> simp

/-! ### with cancelled sends -/

def SInvC (p : Pickle H) (c : Nat) (progs : List (List (Msg H))) (st : SState H) (log : List (Nat × Msg H)) : Prop :=
  stream p c (log.map Prod.snd) = some st.wire ∧ st.senders.length = progs.length ∧
  (∀ (t : Nat) s prog, st.senders[t]? = some s → progs[t]? = some prog → ofTask t log ++ framable p c (unsent s) <+ framable p c prog) ∧
  (∀ e ∈ log, e.1 < progs.length)

theorem sstep_invC (p : Pickle H) (c : Nat) (progs : List (List (Msg H))) (st : SState H)
    (log : List (Nat × Msg H)) (h : SInvC p c progs st log) (t : Nat) :
    ∃ new, (∀ e ∈ new, e.1 = t) ∧ SInvC p c progs (sstep p c st t) (log ++ new) := by
  obtain ⟨h1, h2, h3, h4⟩ := h
  have stay : ∃ new : List (Nat × Msg H), (∀ e ∈ new, e.1 = t) ∧ SInvC p c progs st (log ++ new) :=
    ⟨[], by simp, by rw [List.append_nil]; exact ⟨h1, h2, h3, h4⟩⟩
  unfold sstep
  split
  · exact stay
  · next s hs =>
    have ht : t < st.senders.length := by
      rw [List.getElem?_eq_some_iff] at hs; exact hs.1
    split
    · exact stay
    · next m ms hph htodo =>
      split
      · next hw =>
        refine ⟨[], by simp, ?_⟩
        rw [List.append_nil]
        refine ⟨h1, by simpa using h2, ?_, h4⟩
        intro t' s' prog ht' hp
        simp only [List.getElem?_set, ht, if_true] at ht'
        split at ht'
        · next e =>
          subst e; simp only [Option.some.injEq] at ht'; subst ht'
          have := h3 t s prog hs hp
          have hn : frame p c m = none := by simp [frame, hw]
          simpa [unsent, hph, htodo, framable, hn] using this
        · exact h3 t' s' prog ht' hp
      · next ws hw =>
        have hf := writes_of_frame hw
        refine ⟨[(t, m)], by simp, ?_, by simpa using h2, ?_, ?_⟩
        · rw [foldl_append, List.map_append]
          refine stream_append p c _ _ _ _ h1 ?_
          simp [stream, hf]
        · intro t' s' prog ht' hp
          simp only [List.getElem?_set, ht, if_true] at ht'
          split at ht'
          · next e =>
            subst e; simp only [Option.some.injEq] at ht'; subst ht'
            have := h3 t s prog hs hp
            simpa [unsent, hph, htodo, framable, hf, ofTask] using this
          · next e =>
            have hne : (t == t') = false := by simpa using e
            have := h3 t' s' prog ht' hp
            simpa [ofTask, hne] using this
        · intro e he
          rcases List.mem_append.mp he with he | he
          · exact h4 e he
          · simp at he; subst he; simp; omega
    · next m ms hph htodo =>
      refine ⟨[], by simp, ?_⟩
      rw [List.append_nil]
      refine ⟨h1, by simpa using h2, ?_, h4⟩
      intro t' s' prog ht' hp
      simp only [List.getElem?_set, ht, if_true] at ht'
      split at ht'
      · next e =>
        subst e; simp only [Option.some.injEq] at ht'; subst ht'
        have := h3 t s prog hs hp
        simpa [unsent, hph, htodo] using this
      · exact h3 t' s' prog ht' hp

theorem scancel_invC (p : Pickle H) (c : Nat) (progs : List (List (Msg H))) (st : SState H)
    (log : List (Nat × Msg H)) (h : SInvC p c progs st log) (t : Nat) : SInvC p c progs (scancel st t) log := by
  obtain ⟨h1, h2, h3, h4⟩ := h
  unfold scancel
  split
  · exact ⟨h1, h2, h3, h4⟩
  · next s hs =>
    have ht : t < st.senders.length := by
      rw [List.getElem?_eq_some_iff] at hs; exact hs.1
    refine ⟨h1, by simpa using h2, ?_, h4⟩
    intro t' s' prog ht' hp
    simp only [List.getElem?_set, ht, if_true] at ht'
    split at ht'
    · next e =>
      subst e; simp only [Option.some.injEq] at ht'; subst ht'
      refine List.Sublist.trans (List.Sublist.append (List.Sublist.refl _) ?_) (h3 t s prog hs hp)
      have e1 : unsent (⟨s.todo.tail, .serializing⟩ : Sender H) = s.todo.tail := rfl
      rw [e1]
      rcases hph : s.phase with _ | _
      · have e2 : unsent s = s.todo := by simp [unsent, hph]
        rw [e2]; exact (List.tail_sublist _).filter _
      · have e2 : unsent s = s.todo.tail := by simp [unsent, hph]
        rw [e2]; exact List.Sublist.refl _
    · exact h3 t' s' prog ht' hp

/-- **C08**, with cancelled sends: whatever the interleaving of the sending tasks and whenever their sends are cancelled, the bytes on the
wire are whole frames; of each task's messages some may be missing, those there are in its order and none is twice. -/
theorem cancelled_senders_whole_frames (p : Pickle H) (c : Nat) (progs : List (List (Msg H))) (evs : List SEv) :
    ∃ log : List (Nat × Msg H),
      stream p c (log.map Prod.snd) = some (srunC p c (startSenders progs) evs).wire ∧
      (∀ e ∈ log, e.1 < progs.length) ∧
      ∀ (t : Nat) prog, progs[t]? = some prog → ofTask t log <+ framable p c prog := by
  have hstart : SInvC p c progs (startSenders progs) [] := by
    refine ⟨rfl, by simp [startSenders], ?_, by simp⟩
    intro t s prog hs hp
    simp only [startSenders, List.getElem?_map, hp, Option.map_some, Option.some.injEq] at hs
    subst hs; simp [ofTask, unsent]
  have gen : ∀ (evs : List SEv) (st : SState H) log, SInvC p c progs st log → ∃ log, SInvC p c progs (srunC p c st evs) log := by
    intro evs
    induction evs with
    | nil => intro st log h; exact ⟨log, h⟩
    | cons e evs ih =>
      intro st log h
      cases e with
      | go t =>
        obtain ⟨new, _, h'⟩ := sstep_invC p c progs st log h t
        exact ih _ _ h'
      | cancel t => exact ih _ _ (scancel_invC p c progs st log h t)
  obtain ⟨log, h1, h2, h3, h4⟩ := gen evs _ _ hstart
  refine ⟨log, h1, h4, ?_⟩
  intro t prog hp
  have ht : t < progs.length := by rw [List.getElem?_eq_some_iff] at hp; exact hp.1
  have hs := h3 t _ prog (List.getElem?_eq_getElem (by omega)) hp
  exact (List.sublist_append_left _ _).trans hs

/-- **C08**: a cancelled send takes nothing from the others: what a cancellation does to the wire is nothing, and to the other tasks nothing -/
theorem cancel_touches_one (st : SState H) (t : Nat) : (scancel st t).wire = st.wire ∧
    ∀ t', t' ≠ t → (scancel st t).senders[t']? = st.senders[t']? := by
  unfold scancel
  split
  · exact ⟨rfl, fun _ _ => rfl⟩
  · refine ⟨rfl, fun t' h => ?_⟩
    simp only [List.getElem?_set]
    rw [if_neg (fun e => h e.symm)]

/-- **C08**, end to end: a receiver reading that wire gets exactly the messages of the merge. -/
theorem concurrent_senders_received (p : Pickle H) (c : Nat) (progs : List (List (Msg H)))
    (sched : List Nat) :
    ∃ log : List (Nat × Msg H),
      recvN p log.length (srun p c (startSenders progs) sched).wire = .ok (log.map Prod.snd) [] ∧
      (∀ (t : Nat) prog, progs[t]? = some prog → ofTask t log <+: framable p c prog) := by
  obtain ⟨log, h1, _, h3, _⟩ := concurrent_senders_whole_frames p c progs sched
  refine ⟨log, ?_, h3⟩
  have := send_recv_stream p c (log.map Prod.snd) _ [] h1
  simpa using this

/-! ## Non-vacuity: a concrete pickler (unary numbers) and concrete runs -/

/-- encode one header: for each buffer a flag byte (2/3) and its size in unary; 0; then `rest` -/
def toyDumps (h : Header Bytes) : Bytes :=
  h.isCuda.map (fun b => if b then 3 else 2) ++ [0] ++
    (h.sizes.map (fun n => List.replicate n (1 : UInt8) ++ [0])).flatten ++ [2] ++ h.rest

def toyFlags : Bytes → List Bool × Bytes
  | [] => ([], [])
  | b :: s => if b = 0 then ([], s) else ((b == 3) :: (toyFlags s).1, (toyFlags s).2)

/-- reads unary sizes until the byte 2; `k` counts the ones seen -/
def toySizes : Nat → Bytes → Option (List Nat × Bytes)
  | _, [] => none
  | k, b :: s =>
    if b = 2 then some ([], s)
    else if b = 1 then toySizes (k + 1) s
    else (toySizes 0 s).map (fun r => (k :: r.1, r.2))

def toyLoads (b : Bytes) : Option (Header Bytes) :=
  (toySizes 0 (toyFlags b).2).map (fun r => ⟨(toyFlags b).1, r.1, r.2⟩)

theorem toySizes_unary (n k : Nat) (s : Bytes) :
    toySizes k (List.replicate n (1 : UInt8) ++ s) = toySizes (k + n) s := by
  induction n generalizing k with
  | zero => rfl
  | succ n ih =>
    rw [List.replicate_succ, List.cons_append, toySizes]
    simp only [show ¬ ((1 : UInt8) = 2) by decide, if_false, if_true]
    rw [ih]; congr 1; omega

theorem toySizes_all (ns : List Nat) (rest : Bytes) :
    toySizes 0 ((ns.map (fun n => List.replicate n (1 : UInt8) ++ [0])).flatten ++ [2] ++ rest) =
      some (ns, rest) := by
  induction ns with
  | nil => simp [toySizes]
  | cons n ns ih =>
    simp only [List.map_cons, List.flatten_cons, List.append_assoc] at *
    rw [toySizes_unary]
    simp only [List.singleton_append, toySizes, show ¬ ((0 : UInt8) = 2) by decide,
      show ¬ ((0 : UInt8) = 1) by decide, if_false]
    rw [show ([2] ++ rest : Bytes) = 2 :: rest from rfl] at ih
    rw [ih]; simp

theorem toyFlags_all (bs : List Bool) (s : Bytes) :
    toyFlags (bs.map (fun b => if b then 3 else 2) ++ [0] ++ s) = (bs, s) := by
  induction bs with
  | nil => simp [toyFlags]
  | cons b bs ih =>
    simp only [List.map_cons, List.cons_append]
    rw [toyFlags, ih]
    cases b <;> simp <;> decide

/-- a concrete pickler satisfying the assumed law -/
def toyPickle : Pickle Bytes where
  dumps := toyDumps
  loads := toyLoads
  round := by
    intro h
    unfold toyDumps toyLoads
    have e := toyFlags_all h.isCuda
      ((h.sizes.map (fun n => List.replicate n (1 : UInt8) ++ [0])).flatten ++ [2] ++ h.rest)
    have e' : List.map (fun b => if b = true then (3 : UInt8) else 2) h.isCuda ++ [0] ++
        (h.sizes.map (fun n => List.replicate n (1 : UInt8) ++ [0])).flatten ++ [2] ++ h.rest =
        List.map (fun b => if b = true then (3 : UInt8) else 2) h.isCuda ++ [0] ++
        ((h.sizes.map (fun n => List.replicate n (1 : UInt8) ++ [0])).flatten ++ [2] ++ h.rest) := by
      simp
    rw [e', e]; simp only
    rw [toySizes_all]; rfl

def exMsg1 : Msg Bytes := ⟨[7, 7], [⟨false, [1, 2, 3]⟩, ⟨false, []⟩, ⟨true, [9]⟩]⟩
def exMsg2 : Msg Bytes := ⟨[], []⟩

example : (stream toyPickle 0 [exMsg1, exMsg2]).isSome = true := by decide
example : (frame toyPickle 0 exMsg1).map List.length = some 29 := by decide
/-- a reader fed in two pieces, with the `recv` called before any byte arrived -/
example : (rrun toyPickle ⟨[], .idle, []⟩ ([.call, .data (((frame toyPickle 0 exMsg1).getD []).take 15),
    .resume, .data (((frame toyPickle 0 exMsg1).getD []).drop 15), .resume, .resume, .resume,
    .resume, .resume, .resume])).out = [exMsg1] := by decide

/-- The guarantee does not extend to `recv` calls cancelled half-way (e.g. by `wait_for`): the
cancelled call has consumed the prelude, releases the lock, and the next `recv` mis-parses the
stream (here: refused as foreign version). -/
theorem cancelled_recv_desync :
    ∃ evs : List REv, dataOf evs = (stream toyPickle 0 [exMsg1]).getD [] ∧
      (rstep toyPickle (rstep toyPickle (cancelRecv (rrun toyPickle ⟨[], .idle, []⟩ evs)) .call)
        .resume).phase matches .dead := by
  refine ⟨[.data ((stream toyPickle 0 [exMsg1]).getD []), .call, .resume], by decide, ?_⟩
  decide

/-- two senders, interleaved: both frames are on the wire, in the order of their writes -/
example : (srun toyPickle 0 (startSenders [[exMsg1, exMsg2], [exMsg2]]) [1, 0, 1, 0, 0]).wire =
    (stream toyPickle 0 [exMsg2, exMsg1, exMsg2]).getD [] := by decide

/-- the second task's send is cancelled before it has written, the first one's after -/
example : (srunC toyPickle 0 (startSenders [[exMsg1, exMsg2], [exMsg2]]) [.go 0, .cancel 1, .cancel 0, .go 0, .go 1]).wire =
    (stream toyPickle 0 [exMsg1, exMsg2]).getD [] := by decide

end Xoscar.Wire
