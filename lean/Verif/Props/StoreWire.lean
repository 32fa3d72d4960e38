import Verif.Proof.StoreWire
/-!
# C84: requests and answers of the collective store cross the wire
-/
namespace Xoscar.StoreWire
attribute [local grind =] Dict.get?_set Dict.get?_erase

/-! ## One message -/

/-- **C84** (requests): what an operation writes is read by the server as this operation, whatever follows on the stream -/
theorem request_roundtrip {r : Req} (h : r.Ok) (rest : Bytes) : query (r.wire ++ rest) = .ok r rest := (reads_query h).full rest

/-- **C84** (requests): as long as a part is missing the server waits for it; it never takes the part for something else -/
theorem request_waits {r : Req} (h : r.Ok) {x y : Bytes} (hw : x ++ y = r.wire) (hy : y ≠ []) : query x = .more := (reads_query h).part x y hw hy

/-- **C84** (answers): what the server writes is read by the client that expects this kind of answer as this answer, whatever follows -/
theorem response_roundtrip {r : Resp} (h : r.Ok) (rest : Bytes) : readResp r.kind (r.bytes ++ rest) = .ok r rest := (reads_resp h).full rest

/-- **C84** (answers): as long as a part is missing the client waits for it -/
theorem response_waits {r : Resp} (h : r.Ok) {x y : Bytes} (hw : x ++ y = r.bytes) (hy : y ≠ []) : readResp r.kind x = .more := (reads_resp h).part x y hw hy

/-- two operations never write the same bytes -/
theorem wire_injective {r1 r2 : Req} (h1 : r1.Ok) (h2 : r2.Ok) (h : r1.wire = r2.wire) : r1 = r2 := by
  have e1 := request_roundtrip h1 []
  have e2 := request_roundtrip h2 []
  rw [h, e2] at e1
  exact (Res.ok.inj e1).1.symm

example : query ((Req.mset [([107], [1, 2, 3]), ([], [])]).wire ++ [9]) = .ok (.mset [([107], [1, 2, 3]), ([], [])]) [9] := by decide
example : query ((Req.add [107] (-2)).wire.take 17) = .more := by decide
example : (Req.add [107] (-2)).wire = [3, 1, 0, 0, 0, 0, 0, 0, 0, 107, 254, 255, 255, 255, 255, 255, 255, 255] := by decide

/-! ## Connections -/

/-- the server reads a request exactly if one was written -/
theorem request_exact (b : Bytes) (r : Req) (rest : Bytes) : query b = .ok r rest ↔ r.Ok ∧ b = r.wire ++ rest := by
  constructor
  · intro h
    obtain ⟨w, ⟨h1, rfl⟩, h2⟩ := exact_query.sound _ _ _ h
    exact ⟨h1, h2⟩
  · rintro ⟨h, rfl⟩; exact request_roundtrip h rest

/-- it waits for more exactly if what is there can become a request -/
theorem waits_iff (b : Bytes) : query b = .more ↔ ∃ (y : Bytes) (r : Req), y ≠ [] ∧ r.Ok ∧ b ++ y = r.wire := by
  constructor
  · intro h
    obtain ⟨y, r, h1, h2, h3⟩ := exact_query.more _ h
    exact ⟨y, r, h1, h2, h3⟩
  · rintro ⟨y, r, h1, h2, h3⟩; exact request_waits h2 h3 h1

/-- and refuses exactly what cannot -/
theorem refused_iff (b : Bytes) : query b = .bad ↔ ∀ (m : Bytes) (r : Req) (rest : Bytes), r.Ok → b ++ m ≠ r.wire ++ rest := by
  constructor
  · intro h m r rest hr he
    have := exact_query.bad _ m h
    rw [he, request_roundtrip hr] at this
    cases this
  · intro h
    cases hq : query b with
    | bad => rfl
    | ok r rest =>
      obtain ⟨h1, h2⟩ := (request_exact _ _ _).mp hq
      exact absurd (by rw [List.append_nil]; exact h2) (h [] r rest h1)
    | more =>
      obtain ⟨y, r, _, h2, h3⟩ := (waits_iff _).mp hq
      exact absurd (by rw [List.append_nil]; exact h3) (h y r [] h2)

/-- a client that writes what is no request loses its connection; nothing else happens -/
theorem refused_dropped {st : St} {s : Sock} {c : Conn} (hb : st.blocked = none) (hc : st.conns.get? s = some c) (hn : c.net ≠ [])
    (hr : ∀ (m : Bytes) (r : Req) (rest : Bytes), r.Ok → c.net ++ m ≠ r.wire ++ rest) :
    ∃ st', step st (.poll s) = some st' ∧ st'.blocked = none ∧ st'.conns.get? s = none ∧ ∀ s', s' ≠ s → st'.conns.get? s' = st.conns.get? s' := by
  refine ⟨{ conns := st.conns.erase s, blocked := none }, ?_, rfl, ?_, ?_⟩
  · simp only [step, hb, hc, if_pos (Or.inl hn : c.net ≠ [] ∨ _), serve, (refused_iff _).mpr hr]
  · simp [Dict.get?_erase]
  · intro s' h'; simp [Dict.get?_erase, Ne.symm h']

/-- e.g. an unknown type -/
theorem unknown_refused (c : UInt8) (h : 12 ≤ c.toNat) (b : Bytes) : query (c :: b) = .bad := by
  rw [refused_iff]
  intro m r rest _ he
  rw [wire_eq] at he
  have : c = r.code := by injection he
  subst this
  cases r <;> simp [Req.code] at h

example : query [2, 255, 255, 255, 255, 255, 255, 255, 255] = .bad := by decide
example : query [2, 255, 255, 255, 255, 255, 255, 255] = .more := by decide
example : query [2, 1, 0, 0, 0, 0, 0, 0, 0, 65, 9] = .ok (.get [65]) [9] := by decide

/-- **C84** (order): however the bytes are cut and delayed and whatever the other connections do, the server has read, of each connection,
exactly its first operations, in order -/
theorem handled_prefix {ls : List Label} {st : St} (h : Run ls st) (hok : AllOk ls) {s : Sock} {c : Conn} (hc : st.conns.get? s = some c) :
    c.handled <+: c.asked := by
  obtain ⟨todo, h1, _⟩ := ((inv_run h hok).1 s c hc).bytes
  exact ⟨todo, h1.symm⟩

/-- **C84** (none missing): and if no bytes are under way, all of them -/
theorem handled_all {ls : List Label} {st : St} (h : Run ls st) (hok : AllOk ls) {s : Sock} {c : Conn} (hc : st.conns.get? s = some c) :
    (c.net = [] ∧ c.toSend = []) ↔ c.handled = c.asked := by
  obtain ⟨todo, h1, h2⟩ := ((inv_run h hok).1 s c hc).bytes
  constructor
  · rintro ⟨e1, e2⟩
    rw [e1, e2] at h2
    cases todo with
    | nil => simpa using h1.symm
    | cons r t => simp [wires, wire_ne] at h2
  · intro he
    rw [he] at h1
    have : todo = [] := List.append_right_eq_self.mp h1.symm
    subst this
    simpa [wires] using h2

/-- **C84** (no connection is given up): the server drops a connection only after its client closed it, and after everything it had asked
was handled -/
theorem dropped_done {ls : List Label} {st st' : St} {l : Label} (h : Run ls st) (hok : AllOk ls) (hs : step st l = some st') {s : Sock} {c : Conn}
    (hc : st.conns.get? s = some c) (hd : st'.conns.get? s = none) : c.closed = true ∧ c.handled = c.asked := by
  have hi := (inv_run h hok).1
  have hserve : ∀ (s0 : Sock) (c0 : Conn), st.conns.get? s0 = some c0 → st' = serve st s0 c0 → c.closed = true ∧ c.handled = c.asked := by
    intro s0 c0 hc0 he
    rcases serve_cases (st := st) (s := s0) (hi s0 c0 hc0) with ⟨r, todo, -, -, ⟨rest, -, -, e⟩ | ⟨-, -, e⟩⟩ | ⟨e1, -, -, e⟩
    · rw [he, e] at hd; simp only [Dict.get?_set] at hd; grind
    · rw [he, e] at hd; simp only at hd; rw [hc] at hd; cases hd
    · rw [he, e] at hd
      split at hd
      · next hcl =>
        simp only [Dict.get?_erase] at hd
        split at hd
        · next hh => subst hh; rw [hc] at hc0; cases hc0; exact ⟨hcl, e1.symm⟩
        · rw [hc] at hd; cases hd
      · simp only at hd; rw [hc] at hd; cases hd
  cases l with
  | poll s0 =>
    simp only [step] at hs
    split at hs
    · next c0 hb hc0 =>
      split at hs
      · exact hserve s0 c0 hc0 (Option.some.inj hs).symm
      · cases hs
    · cases hs
  | resume =>
    simp only [step] at hs
    split at hs
    · next s0 hb =>
      split at hs
      · next c0 hc0 => exact hserve s0 c0 hc0 (Option.some.inj hs).symm
      · cases hs
    · cases hs
  | _ => simp only [step] at hs; grind

/-- the server is blocked only in a connection whose operations are not all handled -/
theorem blocked_unfinished {ls : List Label} {st : St} (h : Run ls st) (hok : AllOk ls) {s : Sock} (hb : st.blocked = some s) :
    ∃ c, st.conns.get? s = some c ∧ c.handled ≠ c.asked := by
  induction h generalizing s with
  | init => simp [init] at hb
  | @snoc ls l st st' hr hs ih =>
    have hok' : AllOk ls := fun s r hm => hok s r (by simp [hm])
    have ih := @ih hok'
    have hi := inv_run hr hok'
    have hserve : ∀ (s0 : Sock) (c0 : Conn), st.conns.get? s0 = some c0 → (c0.net ≠ [] ∨ (c0.closed ∧ c0.toSend = []) ∨ c0.handled ≠ c0.asked) →
        st' = serve st s0 c0 → ∃ c, st'.conns.get? s = some c ∧ c.handled ≠ c.asked := by
      intro s0 c0 hc0 hcond he
      rcases serve_cases (st := st) (s := s0) (hi.1 s0 c0 hc0) with ⟨r, todo, ha, -, ⟨rest, -, -, e⟩ | ⟨-, -, e⟩⟩ | ⟨e1, e2, e3, e⟩
      · rw [he, e] at hb; cases hb
      · rw [he, e] at hb ⊢
        cases hb
        refine ⟨c0, hc0, fun hh => ?_⟩
        rw [hh] at ha; have := List.append_right_eq_self.mp ha.symm; cases this
      · rw [he, e] at hb
        rcases hcond with hcond | hcond | hcond
        · exact absurd e2 hcond
        · rw [if_pos hcond.1] at hb; cases hb
        · exact absurd e1.symm hcond
    cases l with
    | poll s0 =>
      simp only [step] at hs
      split at hs
      · next c0 hb hc0 =>
        split at hs
        · next hcond => exact hserve s0 c0 hc0 (by rcases hcond with h | h; exact .inl h; exact .inr (.inl h)) (Option.some.inj hs).symm
        · cases hs
      · cases hs
    | resume =>
      simp only [step] at hs
      split at hs
      · next s0 hb0 =>
        obtain ⟨c, hc, hne⟩ := ih hb0
        rw [hc] at hs
        exact hserve s0 c hc (.inr (.inr hne)) (Option.some.inj hs).symm
      · cases hs
    | ask s0 r =>
      simp only [step] at hs
      split at hs
      · next c0 hc0 =>
        split at hs <;> cases hs
        obtain ⟨c, hc, hne⟩ := ih hb
        simp only [Dict.get?_set]
        split
        · next hh =>
          subst hh
          refine ⟨_, rfl, fun he => ?_⟩
          obtain ⟨todo, e, _⟩ := (hi.1 _ _ hc0).bytes
          simp only at he
          rw [e] at he
          have := congrArg List.length he
          simp at this
        · exact ⟨c, hc, hne⟩
      · cases hs
    | connect s0 =>
      simp only [step] at hs
      split at hs <;> cases hs
      next hn =>
      obtain ⟨c, hc, hne⟩ := ih hb
      refine ⟨c, ?_, hne⟩
      simp only [Dict.get?_set]
      rw [if_neg (fun hh => by rw [hh, hc] at hn; cases hn)]; exact hc
    | carry s0 n =>
      obtain ⟨c, hc, hne⟩ := ih (s := s) (by simp only [step] at hs; grind)
      simp only [step] at hs
      grind
    | close s0 =>
      obtain ⟨c, hc, hne⟩ := ih (s := s) (by simp only [step] at hs; grind)
      simp only [step] at hs
      grind

/-- **C84** (served): when everything a client wrote has reached the server, one `recv` (if it was blocked there) or one `poll` handles its
next operation, and the server is free again -/
theorem served {ls : List Label} {st : St} (h : Run ls st) (hok : AllOk ls) {s : Sock} {c : Conn} (hc : st.conns.get? s = some c)
    (hb : st.blocked = none ∨ st.blocked = some s) (ht : c.toSend = []) {r : Req} {todo : List Req} (hr : c.asked = c.handled ++ r :: todo) :
    ∃ l st' c', (l = .poll s ∨ l = .resume) ∧ step st l = some st' ∧ st'.blocked = none ∧ st'.conns.get? s = some c' ∧
      c'.handled = c.handled ++ [r] ∧ c'.asked = c.asked ∧ c'.toSend = [] ∧
      ∀ s', s' ≠ s → st'.conns.get? s' = st.conns.get? s' := by
  have hi := (inv_run h hok).1 s c hc
  obtain ⟨todo', e1, e2⟩ := hi.bytes
  rw [hr] at e1
  have e1 := List.append_cancel_left e1
  subst e1
  have hne : c.net ≠ [] := by
    intro hh
    rw [hh, ht] at e2
    simp [wires, wire_ne] at e2
  have hserve : ∃ rest, serve st s c = { conns := st.conns.set s { c with net := rest, handled := c.handled ++ [r] }, blocked := none } := by
    rcases serve_cases (st := st) (s := s) hi with ⟨r', todo', ha, -, ⟨rest, -, -, e⟩ | ⟨-, h2, -⟩⟩ | ⟨h1, -, -, -⟩
    · rw [hr] at ha
      have := List.append_cancel_left ha
      cases this
      exact ⟨rest, e⟩
    · exact absurd ht h2
    · rw [h1] at hr; have := List.append_right_eq_self.mp hr.symm; cases this
  obtain ⟨rest, he⟩ := hserve
  have fin : ∀ l, (l = .poll s ∨ l = .resume) → step st l = some (serve st s c) → ∃ l st' c', (l = .poll s ∨ l = .resume) ∧ step st l = some st' ∧
      st'.blocked = none ∧ st'.conns.get? s = some c' ∧ c'.handled = c.handled ++ [r] ∧ c'.asked = c.asked ∧ c'.toSend = [] ∧
      ∀ s', s' ≠ s → st'.conns.get? s' = st.conns.get? s' := by
    intro l hl hs
    refine ⟨l, _, { c with net := rest, handled := c.handled ++ [r] }, hl, hs, ?_, ?_, rfl, rfl, ht, ?_⟩
    · rw [he]
    · rw [he]; simp [Dict.get?_set]
    · intro s' hs'; rw [he]; simp only [Dict.get?_set]; rw [if_neg (fun hh => hs' hh.symm)]
  rcases hb with hb | hb
  · exact fin (.poll s) (.inl rfl) (by simp [step, hb, hc, hne])
  · exact fin .resume (.inr rfl) (by simp [step, hb, hc])

/-! ## A client that stops halfway -/

/-- **refuted**: a client that stops in the middle of an operation (its process is stopped, or its host or its network is lost) keeps the
server from serving anybody else: nothing that the others and the server do changes this -/
theorem stalled_client_refuted {st st' : St} {ls : List Label} {a : Sock} {ca : Conn} (hb : st.blocked = some a) (ha : st.conns.get? a = some ca)
    (hq : query ca.net = .more) (hcl : ca.closed = false) (hs : Steps st ls st') (hl : ∀ l ∈ ls, l.of a = false) :
    st'.blocked = some a ∧ ∀ s c, st.conns.get? s = some c → ∃ c', st'.conns.get? s = some c' ∧ c'.handled = c.handled := by
  suffices H : st'.blocked = some a ∧ st'.conns.get? a = some ca ∧ ∀ s c, st.conns.get? s = some c → ∃ c', st'.conns.get? s = some c' ∧ c'.handled = c.handled by
    exact ⟨H.1, H.2.2⟩
  induction hs with
  | nil s => exact ⟨hb, ha, fun s c hc => ⟨c, hc, rfl⟩⟩
  | @cons s s1 s2 l ls hst _ ih =>
    have hself : serve s a ca = { s with blocked := some a } := by simp [serve, hq, hcl]
    have hl0 := hl l (by simp)
    have h1 : s1.blocked = some a ∧ s1.conns.get? a = some ca ∧ ∀ x c, s.conns.get? x = some c → ∃ c', s1.conns.get? x = some c' ∧ c'.handled = c.handled := by
      cases l with
      | poll s0 => simp only [step, hb] at hst; cases hst
      | resume =>
        simp only [step, hb, ha, hself] at hst
        cases hst
        exact ⟨rfl, ha, fun x c hc => ⟨c, hc, rfl⟩⟩
      | connect s0 =>
        simp only [Label.of, decide_eq_false_iff_not] at hl0
        simp only [step] at hst
        refine ⟨by grind, by grind, by grind⟩
      | ask s0 r =>
        simp only [Label.of, decide_eq_false_iff_not] at hl0
        simp only [step] at hst
        refine ⟨by grind, by grind, by grind⟩
      | carry s0 n =>
        simp only [Label.of, decide_eq_false_iff_not] at hl0
        simp only [step] at hst
        refine ⟨by grind, by grind, by grind⟩
      | close s0 =>
        simp only [Label.of, decide_eq_false_iff_not] at hl0
        simp only [step] at hst
        refine ⟨by grind, by grind, by grind⟩
    obtain ⟨g1, g2, g3⟩ := ih h1.1 h1.2.1 (fun l hm => hl l (by simp [hm]))
    refine ⟨g1, g2, fun x c hc => ?_⟩
    obtain ⟨c1, hc1, e1⟩ := h1.2.2 x c hc
    obtain ⟨c2, hc2, e2⟩ := g3 x c1 hc1
    exact ⟨c2, hc2, e2.trans e1⟩

theorem run_of (ls : List Label) (s : St) (h : ls.foldlM step init = some s) : Run ls s := by
  have : ∀ (ls2 ls1 : List Label) (s1 : St), Run ls1 s1 → ls2.foldlM step s1 = some s → Run (ls1 ++ ls2) s := by
    intro ls2
    induction ls2 with
    | nil => intro ls1 s1 h1 h2; cases h2; simpa using h1
    | cons l ls2 ih =>
      intro ls1 s1 h1 h2
      simp only [List.foldlM_cons] at h2
      rcases hs : step s1 l with _ | s2
      · simp [hs] at h2
      · simp only [hs, Option.bind_eq_bind, Option.bind_some] at h2
        have := ih (ls1 ++ [l]) s2 (.snoc h1 hs) h2
        simpa using this
  simpa using this ls [] init .init h

/-- client 1 has sent 5 of the bytes of its operation when it stops; client 2's operation is there and stays there -/
example : ∃ st c1 c2, Run [.connect 1, .connect 2, .ask 1 (.set [107] [1]), .carry 1 5, .poll 1, .ask 2 (.get [107]), .carry 2 10] st ∧ st.blocked = some 1 ∧
    st.conns.get? 1 = some c1 ∧ query c1.net = .more ∧ c1.closed = false ∧ st.conns.get? 2 = some c2 ∧ c2.handled = [] ∧ query c2.net = .ok (.get [107]) [] :=
  ⟨_, _, _, run_of _ _ rfl, rfl, rfl, by decide, rfl, rfl, rfl, by decide⟩

/-- two clients, bytes arriving in pieces -/
example : ∃ st, Run [.connect 1, .connect 2, .ask 1 (.set [107] [1]), .ask 2 (.numKeys), .carry 1 5, .carry 2 1, .poll 1, .carry 1 14, .resume, .poll 2,
    .close 1, .poll 1] st ∧ st.conns.get? 1 = none ∧ st.conns.get? 2 = some ⟨[], [], false, [.numKeys], [.numKeys]⟩ :=
  ⟨_, run_of _ _ rfl, rfl, rfl⟩

/-! ## A read that timed out halfway -/

/-- **refuted**: a client whose `recv` timed out after the length of an answer was read takes the rest of it for the next answer: whatever
`v` is, there is an answer whose rest is read as `v` -/
theorem half_answer_refuted {v : Bytes} (h : Fits v) (next : Bytes) :
    ∃ late : Resp, late.bytes = le 8 (le 8 v.length ++ v).length ++ (Resp.vec v).bytes ∧
      readResp .vec ((late.bytes.drop 8) ++ next) = .ok (.vec v) next := by
  refine ⟨.vec (le 8 v.length ++ v), rfl, ?_⟩
  have : (Resp.vec (le 8 v.length ++ v)).bytes.drop 8 = (Resp.vec v).bytes := by
    simp only [Resp.bytes]
    exact List.drop_left' (le_length 8 _)
  rw [this]
  exact response_roundtrip (r := .vec v) h next

/-! ## The thread waiting for updates -/

def work (ps : List Peek) : Worker × Nat := ps.foldl turn (.running, 0)

theorem turn_stays (w : Worker) (n : Nat) (ps : List Peek) (h : w ≠ .running) : ps.foldl turn (w, n) = (w, n) := by
  induction ps with
  | nil => rfl
  | cons p ps ih => cases w <;> cases p <;> simp_all [turn]

/-- **C84** (updates): up to the stop every update is handled once, as long as the connection is not reset -/
theorem updates_handled (ps : List Peek) (h : .reset ∉ ps) :
    work ps = (if .stop ∈ ps then .ended else .running, ((ps.takeWhile (· ≠ .stop)).filter (· = .message)).length) := by
  have key : ∀ (ps : List Peek) (n : Nat), .reset ∉ ps → ps.foldl turn (.running, n) =
      (if .stop ∈ ps then .ended else .running, n + ((ps.takeWhile (· ≠ .stop)).filter (· = .message)).length) := by
    intro ps
    induction ps with
    | nil => intro n _; rfl
    | cons p ps ih =>
      intro n hn
      simp only [List.mem_cons, not_or] at hn
      cases p with
      | stop => simp [turn, turn_stays]
      | message => simp [turn, ih _ hn.2]; omega
      | eof => simp [turn, ih _ hn.2]
      | reset => exact absurd rfl hn.1
  have := key ps 0 h
  simpa [work] using this

/-- **refuted**: a reset connection ends the whole process of the client (`std::terminate`), whatever it was doing -/
theorem reset_terminates_refuted (ps qs : List Peek) (h : .stop ∉ ps) : (work (ps ++ .reset :: qs)).1 = .terminated := by
  have key : ∀ (ps : List Peek) (n : Nat), .stop ∉ ps → ((ps ++ .reset :: qs).foldl turn (.running, n)).1 = .terminated := by
    intro ps
    induction ps with
    | nil => intro n _; simp [turn, turn_stays]
    | cons p ps ih =>
      intro n hn
      simp only [List.mem_cons, not_or] at hn
      cases p with
      | stop => exact absurd rfl hn.1
      | message => simpa [turn] using ih _ hn.2
      | eof => simpa [turn] using ih _ hn.2
      | reset => simp [turn, turn_stays]
  exact key ps 0 h

/-- **refuted**: once the server has closed the connection the thread never waits again: every turn finds the end of the stream, for ever -/
theorem server_gone_spins_refuted (n : Nat) : work (List.replicate n .eof) = (.running, 0) := by
  have := updates_handled (List.replicate n .eof) (by simp)
  rw [this]
  have : Peek.stop ∉ List.replicate n Peek.eof := by simp
  rw [if_neg this]
  congr 1
  have : (List.filter (fun x : Peek => decide (x = .message)) ((List.replicate n Peek.eof).takeWhile (· ≠ .stop))) = [] := by
    rw [List.filter_eq_nil_iff]
    intro a ha
    have := (List.takeWhile_sublist _).subset ha
    simp at this
    simp [this.2]
  rw [this]; rfl

example : work [.message, .eof, .message, .stop, .message] = (.ended, 2) := by decide

end Xoscar.StoreWire
