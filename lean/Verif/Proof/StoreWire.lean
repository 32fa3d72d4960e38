import Verif.Spec.StoreWire
import Verif.Proof.Base
namespace Xoscar.StoreWire
attribute [local grind =] Dict.get?_set Dict.get?_erase

/-! ## Numbers -/

theorem le_length (n x : Nat) : (le n x).length = n := by
  induction n generalizing x with
  | zero => rfl
  | succ n ih => simp [le, ih]

theorem unle_le (n x : Nat) (h : x < 256 ^ n) : unle (le n x) = x := by
  induction n generalizing x with
  | zero => simp at h; subst h; rfl
  | succ n ih =>
    simp only [le, unle]
    rw [ih (x / 256) (by rw [Nat.pow_succ] at h; exact Nat.div_lt_of_lt_mul (by rw [Nat.mul_comm]; exact h))]
    have : (UInt8.ofNat (x % 256)).toNat = x % 256 := by simp
    rw [this]; exact Nat.mod_add_div x 256

theorem pow8 : (256 : Nat) ^ 8 = 18446744073709551616 := by decide

theorem toInt_ofInt {i : Int} (h : -9223372036854775808 ≤ i ∧ i < 9223372036854775808) : toInt (ofInt i) = i := by
  have key : ∀ n : Nat, n < 18446744073709551616 → (n : Int) = i % 18446744073709551616 → toInt (le 8 n) = i := by
    intro n hn he
    have hu : unle (le 8 n) = n := unle_le 8 n (Nat.lt_of_lt_of_eq hn pow8.symm)
    unfold toInt
    rw [hu]
    by_cases hc : (n : Int) < 9223372036854775808
    · rw [if_pos hc]; omega
    · rw [if_neg hc]; omega
  have h0 : 0 ≤ i % 18446744073709551616 := Int.emod_nonneg _ (by decide)
  have h1 : i % 18446744073709551616 < 18446744073709551616 := Int.emod_lt_of_pos _ (by decide)
  exact key _ (by omega) (Int.toNat_of_nonneg h0)

/-! ## Reading back what was written -/

theorem recvN_append {n : Nat} {a b : Bytes} (h : a.length = n) : recvN n (a ++ b) = .ok a b := by
  subst h; simp [recvN]

theorem recvN_short {n : Nat} {a : Bytes} (h : a.length < n) : recvN n a = .more := by
  simp [recvN, Nat.not_le.mpr h]

theorem recvSize_append {n : Nat} {b : Bytes} (h : n < 18446744073709551616) : recvSize (le 8 n ++ b) = .ok n b := by
  rw [recvSize, recvN_append (le_length 8 n)]
  simp only [Res.bind]
  rw [unle_le _ _ (by rw [pow8]; exact h)]

theorem recvI64_append {i : Int} {b : Bytes} (h : -9223372036854775808 ≤ i ∧ i < 9223372036854775808) : recvI64 (ofInt i ++ b) = .ok i b := by
  rw [recvI64, recvN_append (a := ofInt i) (le_length 8 _)]
  simp only [Res.bind, toInt_ofInt h]

/-- bytes that are read as `a` wherever they stand, while a proper initial part of them is waited for -/
structure Reads {α : Type} (p : Bytes → Res α) (w : Bytes) (a : α) : Prop where
  full : ∀ rest, p (w ++ rest) = .ok a rest
  part : ∀ x y, x ++ y = w → y ≠ [] → p x = .more

theorem reads_N {n : Nat} {a : Bytes} (h : a.length = n) : Reads (recvN n) a a := by
  refine ⟨fun rest => recvN_append h, fun x y hxy hy => recvN_short ?_⟩
  subst h
  rw [← hxy, List.length_append]
  have : 0 < y.length := List.length_pos_iff.mpr hy
  omega

/-- one after the other -/
theorem Reads.bind {α β : Type} {p : Bytes → Res α} {w1 : Bytes} {a : α} {q : α → Bytes → Res β} {w2 : Bytes} {b : β}
    (h1 : Reads p w1 a) (h2 : Reads (q a) w2 b) : Reads (fun s => (p s).bind q) (w1 ++ w2) b := by
  refine ⟨fun rest => ?_, fun x y hxy hy => ?_⟩
  · rw [List.append_assoc, h1.full]; exact h2.full rest
  · rcases List.append_eq_append_iff.mp hxy with ⟨c, e1, e2⟩ | ⟨c, e1, e2⟩
    · by_cases hc : c = []
      · subst hc
        simp only [List.append_nil] at e1; subst e1
        have := h1.full []
        rw [List.append_nil] at this
        simp only [List.nil_append] at e2
        subst e2
        simp only [this, Res.bind]
        exact h2.part [] y (by simp) hy
      · simp only [h1.part x c e1.symm hc, Res.bind]
    · simp only [e1, h1.full, Res.bind]
      exact h2.part c y e2.symm hy

theorem reads_pure {α : Type} (a : α) : Reads (fun s => .ok a s) [] a := by
  refine ⟨fun rest => rfl, fun x y hxy hy => ?_⟩
  simp only [List.append_eq_nil_iff] at hxy
  exact absurd hxy.2 hy

/-- the last part -/
theorem Reads.last {α β : Type} {p : Bytes → Res α} {w : Bytes} {a : α} (f : α → β) (h : Reads p w a) :
    Reads (fun s => (p s).bind fun x rest => .ok (f x) rest) w (f a) := by
  have := Reads.bind h (q := fun x rest => .ok (f x) rest) (reads_pure (f a))
  rwa [List.append_nil] at this

theorem reads_size {n : Nat} (h : n < 18446744073709551616) : Reads recvSize (le 8 n) n := by
  refine ⟨fun rest => recvSize_append h, fun x y hxy hy => ?_⟩
  rw [recvSize, (reads_N (le_length 8 n)).part x y hxy hy]; rfl

theorem reads_i64 {i : Int} (h : -9223372036854775808 ≤ i ∧ i < 9223372036854775808) : Reads recvI64 (ofInt i) i := by
  refine ⟨fun rest => recvI64_append h, fun x y hxy hy => ?_⟩
  rw [recvI64, (reads_N (a := ofInt i) (le_length 8 _)).part x y hxy hy]; rfl

theorem str_flatten (s : Bytes) : (str s).flatten = le 8 s.length ++ s := by simp [str]

theorem reads_str {s : Bytes} (h : Fits s) : Reads recvStr (le 8 s.length ++ s) s := by
  have h' : s.length < 9223372036854775808 := h
  refine Reads.bind (reads_size (by omega)) ?_
  refine ⟨fun rest => ?_, fun x y hxy hy => ?_⟩
  · simp only [if_pos h']; exact (reads_N rfl).full rest
  · simp only [if_pos h']; exact (reads_N rfl).part x y hxy hy

theorem reads_strs {ss : List Bytes} (h : ∀ s ∈ ss, Fits s) : Reads (recvStrs ss.length) (ss.flatMap (fun s => le 8 s.length ++ s)) ss := by
  induction ss with
  | nil => exact reads_pure []
  | cons s ss ih =>
    rw [List.flatMap_cons, List.length_cons]
    exact Reads.bind (reads_str (h s (by simp))) (Reads.last (s :: ·) (ih (fun x hx => h x (by simp [hx]))))

theorem reads_pairs {ss : List (Bytes × Bytes)} (h : ∀ s ∈ ss, Fits s.1 ∧ Fits s.2) :
    Reads (recvPairs ss.length) (ss.flatMap (fun x => (le 8 x.1.length ++ x.1) ++ (le 8 x.2.length ++ x.2))) ss := by
  induction ss with
  | nil => exact reads_pure []
  | cons s ss ih =>
    obtain ⟨k, v⟩ := s
    rw [List.flatMap_cons, List.length_cons, List.append_assoc]
    exact Reads.bind (reads_str (h (k, v) (by simp)).1) (Reads.bind (reads_str (h (k, v) (by simp)).2)
      (Reads.last ((k, v) :: ·) (ih (fun x hx => h x (by simp [hx])))))

theorem sendBuffer_flatten (buf : Bytes) (ps : List Bytes) : (sendBuffer buf ps).flatten = buf ++ ps.flatten := by
  induction ps generalizing buf with
  | nil =>
    simp only [sendBuffer]
    split
    · simp
    · next h => have : buf = [] := by simpa using h
                simp [this]
  | cons p ps ih =>
    simp only [sendBuffer]
    split <;> simp [ih]

theorem wire_eq (r : Req) : r.wire = r.code :: r.parts.flatten := by
  simp [Req.wire, Req.writes, sendBuffer_flatten]

theorem flat_strs (ks : List Bytes) : (ks.flatMap str).flatten = ks.flatMap (fun s => le 8 s.length ++ s) := by
  induction ks with
  | nil => rfl
  | cons k ks ih => simp [str] at ih ⊢; exact ih

theorem flat_pairs (ks : List (Bytes × Bytes)) : (ks.flatMap (fun x => str x.1 ++ str x.2)).flatten =
    ks.flatMap (fun x => (le 8 x.1.length ++ x.1) ++ (le 8 x.2.length ++ x.2)) := by
  induction ks with
  | nil => rfl
  | cons k ks ih => simp [str] at ih ⊢; exact ih

theorem reads_args {r : Req} (h : r.Ok) : Reads (recvArgs r.code) r.parts.flatten r := by
  cases r with
  | set k v =>
    simp only [Req.parts, List.flatten_append, str_flatten]
    exact Reads.bind (reads_str h.1) (Reads.last (Req.set k) (reads_str h.2))
  | cset k e v =>
    simp only [Req.parts, List.flatten_append, str_flatten]
    rw [List.append_assoc]
    exact Reads.bind (reads_str h.1) (Reads.bind (reads_str h.2.1) (Reads.last (Req.cset k e) (reads_str h.2.2)))
  | get k =>
    simp only [Req.parts, str_flatten]
    exact Reads.last Req.get (reads_str h)
  | add k d =>
    simp only [Req.parts, List.flatten_append, str_flatten, List.flatten_cons, List.flatten_nil, List.append_nil]
    exact Reads.bind (reads_str h.1) (Reads.last (Req.add k) (reads_i64 h.2))
  | check ks =>
    simp only [Req.parts, List.flatten_cons, flat_strs]
    exact Reads.bind (reads_size h.1) (Reads.last Req.check (reads_strs h.2))
  | wait ks =>
    simp only [Req.parts, List.flatten_cons, flat_strs]
    exact Reads.bind (reads_size h.1) (Reads.last Req.wait (reads_strs h.2))
  | numKeys => exact reads_pure Req.numKeys
  | watch k =>
    simp only [Req.parts, str_flatten]
    exact Reads.last Req.watch (reads_str h)
  | delete k =>
    simp only [Req.parts, str_flatten]
    exact Reads.last Req.delete (reads_str h)
  | append k v =>
    simp only [Req.parts, List.flatten_append, str_flatten]
    exact Reads.bind (reads_str h.1) (Reads.last (Req.append k) (reads_str h.2))
  | mget ks =>
    simp only [Req.parts, List.flatten_cons, flat_strs]
    exact Reads.bind (reads_size h.1) (Reads.last Req.mget (reads_strs h.2))
  | mset kvs =>
    simp only [Req.parts, List.flatten_cons, flat_pairs]
    exact Reads.bind (reads_size h.1) (Reads.last Req.mset (reads_pairs h.2))

theorem reads_query {r : Req} (h : r.Ok) : Reads query r.wire r := by
  have ha := reads_args h
  rw [wire_eq]
  refine ⟨fun rest => ha.full rest, fun x y hxy hy => ?_⟩
  cases x with
  | nil => rfl
  | cons c x =>
    simp only [List.cons_append, List.cons.injEq] at hxy
    rw [hxy.1]
    exact ha.part x y hxy.2 hy

theorem reads_resp {r : Resp} (h : r.Ok) : Reads (readResp r.kind) r.bytes r := by
  cases r with
  | byte b => exact Reads.last (fun x : Bytes => Resp.byte (x.headD 0)) (reads_N (n := 1) (a := [b]) rfl)
  | int i => exact Reads.last Resp.int (reads_i64 h)
  | vec v => exact Reads.last Resp.vec (reads_str h)
  | vecs vs => exact Reads.last Resp.vecs (reads_strs h)

/-! ## Connections -/

def wires (rs : List Req) : Bytes := rs.flatMap Req.wire

theorem wires_append (a b : List Req) : wires (a ++ b) = wires a ++ wires b := by simp [wires]

theorem wire_ne (r : Req) : r.wire ≠ [] := by rw [wire_eq]; simp

/-- a connection in order: what is under way is what was asked and not handled -/
structure COk (c : Conn) : Prop where
  ok : ∀ r ∈ c.asked, r.Ok
  bytes : ∃ todo, c.asked = c.handled ++ todo ∧ c.net ++ c.toSend = wires todo

def Inv (st : St) : Prop := (∀ s c, st.conns.get? s = some c → COk c) ∧
  (∀ s, st.blocked = some s → ∃ c, st.conns.get? s = some c)

theorem serve_cases {st : St} {s : Sock} {c : Conn} (h : COk c) :
    (∃ r todo, c.asked = c.handled ++ r :: todo ∧ c.net ++ c.toSend = r.wire ++ wires todo ∧
      ((∃ rest, c.net = r.wire ++ rest ∧ rest ++ c.toSend = wires todo ∧
          serve st s c = { conns := st.conns.set s { c with net := rest, handled := c.handled ++ [r] }, blocked := none }) ∨
       (c.net.length < r.wire.length ∧ c.toSend ≠ [] ∧ serve st s c = { st with blocked := some s }))) ∨
    (c.asked = c.handled ∧ c.net = [] ∧ c.toSend = [] ∧
      serve st s c = if c.closed then { conns := st.conns.erase s, blocked := none } else { st with blocked := some s }) := by
  obtain ⟨todo, h1, h2⟩ := h.bytes
  cases todo with
  | nil =>
    simp only [wires, List.flatMap_nil, List.append_eq_nil_iff] at h2
    refine .inr ⟨by simpa using h1, h2.1, h2.2, ?_⟩
    simp [serve, h2.1, query, h2.2]
  | cons r todo =>
    left
    have hr : r.Ok := h.ok r (by rw [h1]; simp)
    have hq := reads_query hr
    have h2' : c.net ++ c.toSend = r.wire ++ wires todo := by rw [h2]; simp [wires]
    refine ⟨r, todo, h1, h2', ?_⟩
    rcases List.append_eq_append_iff.mp h2' with ⟨x, e1, e2⟩ | ⟨x, e1, e2⟩
    · by_cases hx : x = []
      · subst hx
        simp only [List.append_nil] at e1
        simp only [List.nil_append] at e2
        refine .inl ⟨[], by simp [e1], by simpa using e2, ?_⟩
        have := hq.full []
        rw [List.append_nil, e1] at this
        simp [serve, this]
      · have hm := hq.part c.net x e1.symm hx
        have hts : c.toSend ≠ [] := by rw [e2]; simp [hx]
        refine .inr ⟨?_, hts, ?_⟩
        · rw [e1, List.length_append]; have : 0 < x.length := List.length_pos_iff.mpr hx
          omega
        · simp [serve, hm, hts]
    · refine .inl ⟨x, e1, e2.symm, ?_⟩
      simp [serve, e1, hq.full]

theorem inv_serve {st : St} {s : Sock} {c : Conn} (h : Inv st) (hc : st.conns.get? s = some c) : Inv (serve st s c) := by
  obtain ⟨h1, h2⟩ := h
  rcases serve_cases (st := st) (s := s) (h1 s c hc) with ⟨r, todo, ha, -, ⟨rest, hn, hrest, he⟩ | ⟨-, -, he⟩⟩ | ⟨-, -, -, he⟩
  · rw [he]
    refine ⟨fun s' c' hc' => ?_, by simp⟩
    simp only [Dict.get?_set] at hc'
    split at hc'
    · cases hc'
      exact ⟨(h1 s c hc).ok, todo, by simp [ha], hrest⟩
    · exact h1 _ _ hc'
  · rw [he]; exact ⟨h1, fun s' hs' => by cases hs'; exact ⟨c, hc⟩⟩
  · rw [he]
    split
    · refine ⟨fun s' c' hc' => ?_, by simp⟩
      simp only [Dict.get?_erase] at hc'
      split at hc'
      · cases hc'
      · exact h1 _ _ hc'
    · exact ⟨h1, fun s' hs' => by cases hs'; exact ⟨c, hc⟩⟩

theorem inv_step {st st' : St} {l : Label} (h : Inv st) (hl : ∀ s r, l = .ask s r → r.Ok) (hs : step st l = some st') : Inv st' := by
  obtain ⟨h1, h2⟩ := h
  have upd : ∀ (s : Sock) (c c' : Conn), st.conns.get? s = some c → COk c' → Inv { st with conns := st.conns.set s c' } := by
    intro s c c' hc hok
    refine ⟨fun s' x hx => ?_, fun s' hb => ?_⟩
    · simp only [Dict.get?_set] at hx
      split at hx
      · cases hx; exact hok
      · exact h1 _ _ hx
    · obtain ⟨x, hx⟩ := h2 s' hb
      simp only [Dict.get?_set]
      split
      · exact ⟨_, rfl⟩
      · exact ⟨x, hx⟩
  cases l with
  | connect s =>
    simp only [step] at hs
    split at hs <;> cases hs
    next hn =>
    refine ⟨fun s' x hx => ?_, fun s' hb => ?_⟩
    · simp only [Dict.get?_set] at hx
      split at hx
      · cases hx; exact ⟨by simp, [], rfl, rfl⟩
      · exact h1 _ _ hx
    · obtain ⟨x, hx⟩ := h2 s' hb
      simp only [Dict.get?_set]
      split
      · exact ⟨_, rfl⟩
      · exact ⟨x, hx⟩
  | ask s r =>
    simp only [step] at hs
    split at hs
    · next c hc =>
      split at hs <;> cases hs
      obtain ⟨todo, e1, e2⟩ := (h1 s c hc).bytes
      refine upd s c _ hc ⟨?_, todo ++ [r], ?_, ?_⟩
      · intro x hx
        simp only [List.mem_append, List.mem_singleton] at hx
        rcases hx with hx | rfl
        · exact (h1 s c hc).ok x hx
        · exact hl s x rfl
      · simp [e1]
      · rw [wires_append, ← e2]; simp [wires, Req.wire]
    · cases hs
  | carry s n =>
    simp only [step] at hs
    split at hs
    · next c hc =>
      split at hs <;> cases hs
      obtain ⟨todo, e1, e2⟩ := (h1 s c hc).bytes
      exact upd s c _ hc ⟨(h1 s c hc).ok, todo, e1, by simpa [List.append_assoc] using e2⟩
    · cases hs
  | close s =>
    simp only [step] at hs
    split at hs <;> cases hs
    next c hc => exact upd s c _ hc ⟨(h1 s c hc).ok, (h1 s c hc).bytes⟩
  | poll s =>
    simp only [step] at hs
    split at hs
    · next c hb hc =>
      split at hs <;> cases hs
      exact inv_serve ⟨h1, h2⟩ hc
    · cases hs
  | resume =>
    simp only [step] at hs
    split at hs
    · split at hs <;> cases hs
      next c hc => exact inv_serve ⟨h1, h2⟩ hc
    · cases hs

theorem inv_run {ls : List Label} {st : St} (h : Run ls st) (hok : AllOk ls) : Inv st := by
  induction h with
  | init => exact ⟨by simp [init], by simp [init]⟩
  | snoc _ hs ih =>
    refine inv_step (ih (fun s r hm => hok s r (by simp [hm]))) (fun s r he => ?_) hs
    subst he; exact hok s r (by simp)

theorem run_append {ls ls' : List Label} {s s' : St} (h : Run ls s) (h' : Steps s ls' s') : Run (ls ++ ls') s' := by
  induction h' generalizing ls with
  | nil => simpa using h
  | cons hs _ ih => have := ih (.snoc h hs); simpa using this

/-! ## What is read was written -/

theorem le_unle (b : Bytes) : le b.length (unle b) = b := by
  induction b with
  | nil => rfl
  | cons x t ih =>
    simp only [List.length_cons, le, unle]
    have h1 : (x.toNat + 256 * unle t) % 256 = x.toNat := by
      have := x.toNat_lt; omega
    have h2 : (x.toNat + 256 * unle t) / 256 = unle t := by
      have := x.toNat_lt; omega
    rw [h1, h2, ih]; simp

theorem unle_lt (b : Bytes) : unle b < 256 ^ b.length := by
  induction b with
  | nil => simp [unle]
  | cons x t ih =>
    simp only [List.length_cons, unle, Nat.pow_succ]
    have := x.toNat_lt; omega

/-- `p` reads the encodings `S a w` and nothing else: what it gives was encoded, what it waits for can still come, what it refuses stays refused -/
structure Exact {α : Type} (p : Bytes → Res α) (S : α → Bytes → Prop) : Prop where
  sound : ∀ b a rest, p b = .ok a rest → ∃ w, S a w ∧ b = w ++ rest
  grow : ∀ b a rest m, p b = .ok a rest → p (b ++ m) = .ok a (rest ++ m)
  more : ∀ b, p b = .more → ∃ y a, y ≠ [] ∧ S a (b ++ y)
  bad : ∀ b m, p b = .bad → p (b ++ m) = .bad

theorem Exact.mono {α : Type} {p : Bytes → Res α} {S S' : α → Bytes → Prop} (h : Exact p S) (hs : ∀ a w, S a w → S' a w) : Exact p S' := by
  refine ⟨fun b a rest e => ?_, h.grow, fun b e => ?_, h.bad⟩
  · obtain ⟨w, h1, h2⟩ := h.sound b a rest e; exact ⟨w, hs _ _ h1, h2⟩
  · obtain ⟨y, a, h1, h2⟩ := h.more b e; exact ⟨y, a, h1, hs _ _ h2⟩

theorem exact_pure {α : Type} (a : α) : Exact (fun s => .ok a s) (fun a' w => a' = a ∧ w = []) := by
  refine ⟨fun b a' rest e => ?_, fun b a' rest m e => ?_, fun b e => ?_, fun b m e => ?_⟩
  · cases e; exact ⟨[], ⟨rfl, rfl⟩, rfl⟩
  · cases e; rfl
  · cases e
  · cases e

theorem Exact.bind {α β : Type} {p : Bytes → Res α} {S : α → Bytes → Prop} {q : α → Bytes → Res β} {T : α → β → Bytes → Prop}
    (h1 : Exact p S) (h2 : ∀ a w, S a w → Exact (q a) (T a)) (hi : ∀ b, p b = .more → ∃ y a, y ≠ [] ∧ S a (b ++ y) ∧ ∃ b v, T a b v) :
    Exact (fun s => (p s).bind q) (fun b w => ∃ a w1 w2, S a w1 ∧ T a b w2 ∧ w = w1 ++ w2) := by
  refine ⟨fun b a rest e => ?_, fun b a rest m e => ?_, fun b e => ?_, fun b m e => ?_⟩
  · cases hp : p b with
    | more => rw [hp] at e; cases e
    | bad => rw [hp] at e; cases e
    | ok x r =>
      rw [hp] at e
      obtain ⟨w, hw, rfl⟩ := h1.sound _ _ _ hp
      obtain ⟨v, hv, rfl⟩ := (h2 _ _ hw).sound _ _ _ e
      exact ⟨w ++ v, ⟨x, w, v, hw, hv, rfl⟩, by simp⟩
  · cases hp : p b with
    | more => rw [hp] at e; cases e
    | bad => rw [hp] at e; cases e
    | ok x r =>
      rw [hp] at e
      rw [h1.grow _ _ _ m hp]
      obtain ⟨w, hw, _⟩ := h1.sound _ _ _ hp
      exact (h2 _ _ hw).grow _ _ _ m e
  · cases hp : p b with
    | more =>
      obtain ⟨y, a, hy, hs, b', v, hv⟩ := hi _ hp
      exact ⟨y ++ v, b', by simp [hy], a, b ++ y, v, hs, hv, by simp⟩
    | bad => rw [hp] at e; cases e
    | ok x r =>
      rw [hp] at e
      obtain ⟨w, hw, rfl⟩ := h1.sound _ _ _ hp
      obtain ⟨y, b', hy, hv⟩ := (h2 _ _ hw).more _ e
      exact ⟨y, b', hy, x, w, r ++ y, hw, hv, by simp⟩
  · cases hp : p b with
    | more => rw [hp] at e; cases e
    | bad => rw [h1.bad _ m hp]; rfl
    | ok x r =>
      rw [hp] at e
      rw [h1.grow _ _ _ m hp]
      obtain ⟨w, hw, _⟩ := h1.sound _ _ _ hp
      exact (h2 _ _ hw).bad _ m e

/-- with a continuation that can always end -/
theorem Exact.bind' {α β : Type} {p : Bytes → Res α} {S : α → Bytes → Prop} {q : α → Bytes → Res β} {T : α → β → Bytes → Prop}
    (h1 : Exact p S) (h2 : ∀ a w, S a w → Exact (q a) (T a)) (hi : ∀ a w, S a w → ∃ b v, T a b v) :
    Exact (fun s => (p s).bind q) (fun b w => ∃ a w1 w2, S a w1 ∧ T a b w2 ∧ w = w1 ++ w2) := by
  refine Exact.bind h1 h2 (fun b hb => ?_)
  obtain ⟨y, a, hy, hs⟩ := h1.more _ hb
  exact ⟨y, a, hy, hs, hi _ _ hs⟩

theorem exact_N (n : Nat) : Exact (recvN n) (fun a w => a = w ∧ w.length = n) := by
  refine ⟨fun b a rest e => ?_, fun b a rest m e => ?_, fun b e => ?_, fun b m e => ?_⟩ <;> unfold recvN at e <;> split at e <;> try cases e
  · next h => exact ⟨b.take n, ⟨rfl, by simp; omega⟩, by simp⟩
  · next h =>
    have : n ≤ (b ++ m).length := by simp; omega
    rw [recvN, if_pos this, List.take_append_of_le_length h, List.drop_append_of_le_length h]
  · next h =>
    have h' : b.length < n := by omega
    refine ⟨List.replicate (n - b.length) 0, b ++ List.replicate (n - b.length) 0, ?_, rfl, ?_⟩
    · intro hh
      have := congrArg List.length hh
      simp at this; omega
    · simp; omega

theorem exact_size : Exact recvSize (fun n w => n < 18446744073709551616 ∧ w = le 8 n) := by
  refine (Exact.bind' (exact_N 8) (T := fun a n w => n = unle a ∧ w = []) (fun a w _ => exact_pure (unle a)) (fun a w _ => ⟨_, _, rfl, rfl⟩)).mono ?_
  rintro n w ⟨a, w1, w2, ⟨rfl, hl⟩, ⟨rfl, rfl⟩, rfl⟩
  refine ⟨?_, ?_⟩
  · have := unle_lt a; rw [hl, pow8] at this; exact this
  · have := le_unle a; rw [hl] at this; simp [this]

theorem ofInt_toInt {b : Bytes} (h : b.length = 8) : (-9223372036854775808 ≤ toInt b ∧ toInt b < 9223372036854775808) ∧ ofInt (toInt b) = b := by
  have h1 := unle_lt b; rw [h, pow8] at h1
  have h2 := le_unle b; rw [h] at h2
  have key : ∀ n : Nat, n < 18446744073709551616 →
      (-9223372036854775808 ≤ (if (n : Int) < 9223372036854775808 then (n : Int) else n - 18446744073709551616) ∧
      (if (n : Int) < 9223372036854775808 then (n : Int) else n - 18446744073709551616) < 9223372036854775808) ∧
      ((if (n : Int) < 9223372036854775808 then (n : Int) else n - 18446744073709551616) % 18446744073709551616).toNat = n := by
    intro n hn
    split <;> omega
  obtain ⟨k1, k2⟩ := key _ h1
  refine ⟨k1, ?_⟩
  unfold ofInt toInt
  rw [k2, h2]

theorem exact_i64 : Exact recvI64 (fun i w => (-9223372036854775808 ≤ i ∧ i < 9223372036854775808) ∧ w = ofInt i) := by
  refine (Exact.bind' (exact_N 8) (T := fun a n w => n = toInt a ∧ w = []) (fun a w _ => exact_pure (toInt a)) (fun a w _ => ⟨_, _, rfl, rfl⟩)).mono ?_
  rintro n w ⟨a, w1, w2, ⟨ha, hl⟩, ⟨hn, hw⟩, he⟩
  rw [hn, he, hw, List.append_nil, ← ha]
  rw [← ha] at hl
  exact ⟨(ofInt_toInt hl).1, (ofInt_toInt hl).2.symm⟩

theorem unle_zeros (b : Bytes) (k : Nat) : unle (b ++ List.replicate k 0) = unle b := by
  induction b with
  | nil =>
    induction k with
    | zero => rfl
    | succ k ih => simp only [List.nil_append] at ih; simp [List.replicate_succ, unle, ih]
  | cons x t ih => simp [unle, ih]

theorem exact_refused {α : Type} (S : α → Bytes → Prop) : Exact (fun _ => (.bad : Res α)) S :=
  ⟨fun _ _ _ e => (nomatch e), fun _ _ _ _ e => (nomatch e), fun _ e => (nomatch e), fun _ _ _ => rfl⟩

theorem exact_str : Exact recvStr (fun s w => Fits s ∧ w = le 8 s.length ++ s) := by
  refine (Exact.bind exact_size (T := fun n s w => n < 9223372036854775808 ∧ s = w ∧ w.length = n) ?_ ?_).mono ?_
  · intro n w _
    by_cases h : n < 9223372036854775808
    · simp only [if_pos h]
      exact (exact_N n).mono (fun a w hw => ⟨h, hw⟩)
    · simp only [if_neg h]
      exact exact_refused _
  · intro b hb
    have hl : b.length < 8 := by
      unfold recvSize recvN at hb
      split at hb
      · cases hb
      · omega
    have hlen : (b ++ List.replicate (8 - b.length) 0).length = 8 := by simp; omega
    have h7 : unle b < 9223372036854775808 := by
      have h1 := unle_lt b
      have h2 : 256 ^ b.length ≤ 256 ^ 7 := Nat.pow_le_pow_right (by omega) (by omega)
      have h3 : (256 : Nat) ^ 7 ≤ 9223372036854775808 := by decide
      exact Nat.lt_of_lt_of_le h1 (Nat.le_trans h2 h3)
    refine ⟨List.replicate (8 - b.length) 0, unle b, ?_, ⟨by omega, ?_⟩, List.replicate (unle b) 0, _, h7, rfl, by simp⟩
    · intro hh
      have := congrArg List.length hh
      simp at this; omega
    · have := le_unle (b ++ List.replicate (8 - b.length) 0)
      rw [hlen, unle_zeros] at this
      exact this.symm
  · rintro s w ⟨n, w1, w2, ⟨_, rfl⟩, ⟨h, rfl, rfl⟩, rfl⟩
    exact ⟨h, rfl⟩

theorem fits_nil : Fits [] := by unfold Fits; simp

theorem exact_strs (n : Nat) : Exact (recvStrs n) (fun ss w => ss.length = n ∧ (∀ s ∈ ss, Fits s) ∧ w = ss.flatMap (fun s => le 8 s.length ++ s)) := by
  induction n with
  | zero => exact (exact_pure ([] : List Bytes)).mono (by rintro a w ⟨rfl, rfl⟩; simp)
  | succ n ih =>
    refine (Exact.bind' exact_str (T := fun s ss w => ∃ t v, (t.length = n ∧ (∀ s ∈ t, Fits s) ∧ v = t.flatMap (fun s => le 8 s.length ++ s)) ∧ ss = s :: t ∧ w = v) ?_ ?_).mono ?_
    · intro s w _
      refine (Exact.bind' ih (T := fun t ss w => ss = s :: t ∧ w = []) (fun t w _ => exact_pure (s :: t)) (fun t w _ => ⟨_, _, rfl, rfl⟩)).mono ?_
      rintro ss w ⟨t, w1, w2, ht, ⟨rfl, rfl⟩, rfl⟩
      exact ⟨t, w1, ht, rfl, by simp⟩
    · intro s w _
      exact ⟨s :: List.replicate n [], _, List.replicate n [], _, ⟨by simp, by simp only [List.mem_replicate]; rintro _ ⟨_, rfl⟩; exact fits_nil, rfl⟩, rfl, rfl⟩
    · rintro ss w ⟨s, w1, w2, ⟨hs, rfl⟩, ⟨t, v, ⟨h1, h2, rfl⟩, rfl, rfl⟩, rfl⟩
      refine ⟨by simp [h1], ?_, by simp⟩
      intro x hx
      rcases List.mem_cons.mp hx with rfl | hx
      · exact hs
      · exact h2 x hx

theorem exact_pairs (n : Nat) : Exact (recvPairs n) (fun ss w => ss.length = n ∧ (∀ s ∈ ss, Fits s.1 ∧ Fits s.2) ∧
    w = ss.flatMap (fun x => (le 8 x.1.length ++ x.1) ++ (le 8 x.2.length ++ x.2))) := by
  induction n with
  | zero => exact (exact_pure ([] : List (Bytes × Bytes))).mono (by rintro a w ⟨rfl, rfl⟩; simp)
  | succ n ih =>
    have good : ∀ s ∈ List.replicate n (([], []) : Bytes × Bytes), Fits s.1 ∧ Fits s.2 := by
      simp only [List.mem_replicate]; rintro _ ⟨_, rfl⟩; exact ⟨fits_nil, fits_nil⟩
    let S := fun (t : List (Bytes × Bytes)) (v : Bytes) => t.length = n ∧ (∀ s ∈ t, Fits s.1 ∧ Fits s.2) ∧
      v = t.flatMap (fun x => (le 8 x.1.length ++ x.1) ++ (le 8 x.2.length ++ x.2))
    have hS : S (List.replicate n ([], [])) _ := ⟨by simp, good, rfl⟩
    refine (Exact.bind' exact_str (T := fun k ss w => ∃ x t v, Fits x ∧ S t v ∧ ss = (k, x) :: t ∧ w = (le 8 x.length ++ x) ++ v) ?_ ?_).mono ?_
    · intro k w _
      refine (Exact.bind' exact_str (T := fun x ss w => ∃ t v, S t v ∧ ss = (k, x) :: t ∧ w = v) ?_ ?_).mono ?_
      · intro x w _
        refine (Exact.bind' ih (T := fun t ss w => ss = (k, x) :: t ∧ w = []) (fun t w _ => exact_pure ((k, x) :: t)) (fun t w _ => ⟨_, _, rfl, rfl⟩)).mono ?_
        rintro ss w ⟨t, w1, w2, ht, ⟨rfl, rfl⟩, rfl⟩
        exact ⟨t, w1, ht, rfl, by simp⟩
      · intro x w _
        exact ⟨_, _, _, _, hS, rfl, rfl⟩
      · rintro ss w ⟨x, w1, w2, ⟨hx, rfl⟩, ⟨t, v, ht, rfl, rfl⟩, rfl⟩
        exact ⟨x, t, w2, hx, ht, rfl, rfl⟩
    · intro k w _
      exact ⟨_, _, [], _, _, fits_nil, hS, rfl, rfl⟩
    · rintro ss w ⟨k, w1, w2, ⟨hk, rfl⟩, ⟨x, t, v, hx, ⟨h1, h2, rfl⟩, rfl, rfl⟩, rfl⟩
      refine ⟨by simp [h1], ?_, by simp⟩
      intro y hy
      rcases List.mem_cons.mp hy with rfl | hy
      · exact ⟨hk, hx⟩
      · exact h2 y hy

/-- the encodings of the arguments of the requests of one type -/
def Enc (code : UInt8) (r : Req) (w : Bytes) : Prop := r.Ok ∧ r.code = code ∧ w = r.parts.flatten

theorem exact_one {p : Bytes → Res Bytes} {S : Bytes → Bytes → Prop} (h : Exact p S) (f : Bytes → Req) :
    Exact (fun b => (p b).bind fun k b => .ok (f k) b) (fun r w => ∃ k, S k w ∧ r = f k) := by
  refine (Exact.bind' h (T := fun k r w => r = f k ∧ w = []) (fun k w _ => exact_pure (f k)) (fun t w _ => ⟨_, _, rfl, rfl⟩)).mono ?_
  rintro r w ⟨k, w1, w2, h, ⟨rfl, rfl⟩, rfl⟩
  exact ⟨k, by simpa using h, rfl⟩

theorem exact_two (f : Bytes → Bytes → Req) :
    Exact (fun b => (recvStr b).bind fun k b => (recvStr b).bind fun v b => .ok (f k v) b)
      (fun r w => ∃ k v, Fits k ∧ Fits v ∧ r = f k v ∧ w = (le 8 k.length ++ k) ++ (le 8 v.length ++ v)) := by
  refine (Exact.bind' exact_str (T := fun k r w => ∃ v, (Fits v ∧ w = le 8 v.length ++ v) ∧ r = f k v) (fun k w _ => exact_one exact_str (f k))
    (fun k w _ => ⟨_, _, [], ⟨fits_nil, rfl⟩, rfl⟩)).mono ?_
  rintro r w ⟨k, w1, w2, ⟨hk, rfl⟩, ⟨v, ⟨hv, rfl⟩, rfl⟩, rfl⟩
  exact ⟨k, v, hk, hv, rfl, rfl⟩

theorem exact_many (f : List Bytes → Req) :
    Exact (fun b => (recvSize b).bind fun n b => (recvStrs n b).bind fun ks b => .ok (f ks) b)
      (fun r w => ∃ ks, ks.length < 18446744073709551616 ∧ (∀ k ∈ ks, Fits k) ∧ r = f ks ∧ w = le 8 ks.length ++ ks.flatMap (fun s => le 8 s.length ++ s)) := by
  refine (Exact.bind' exact_size (T := fun n r w => ∃ ks, ks.length = n ∧ (∀ k ∈ ks, Fits k) ∧ r = f ks ∧ w = ks.flatMap (fun s => le 8 s.length ++ s)) ?_ ?_).mono ?_
  · intro n w _
    refine (Exact.bind' (exact_strs n) (T := fun ks r w => r = f ks ∧ w = []) (fun k w _ => exact_pure (f k)) (fun t w _ => ⟨_, _, rfl, rfl⟩)).mono ?_
    rintro r w ⟨ks, w1, w2, ⟨h1, h2, rfl⟩, ⟨rfl, rfl⟩, rfl⟩
    exact ⟨ks, h1, h2, rfl, by simp⟩
  · intro n w _
    exact ⟨_, _, List.replicate n [], by simp, by simp only [List.mem_replicate]; rintro _ ⟨_, rfl⟩; exact fits_nil, rfl, rfl⟩
  · rintro r w ⟨n, w1, w2, ⟨hn, rfl⟩, ⟨ks, rfl, h2, rfl, rfl⟩, rfl⟩
    exact ⟨ks, hn, h2, rfl, rfl⟩

theorem exact_args (code : UInt8) : Exact (recvArgs code) (Enc code) := by
  by_cases h0 : code = 0
  · subst h0
    refine (exact_two Req.set).mono ?_
    rintro r w ⟨k, v, hk, hv, rfl, rfl⟩
    exact ⟨⟨hk, hv⟩, rfl, by simp [Req.parts, str]⟩
  by_cases h1 : code = 1
  · subst h1
    refine (Exact.bind' exact_str (T := fun k r w => ∃ e v, Fits e ∧ Fits v ∧ r = Req.cset k e v ∧ w = (le 8 e.length ++ e) ++ (le 8 v.length ++ v))
      (fun k w _ => exact_two (Req.cset k)) (fun k w _ => ⟨_, _, [], [], fits_nil, fits_nil, rfl, rfl⟩)).mono ?_
    rintro r w ⟨k, w1, w2, ⟨hk, rfl⟩, ⟨e, v, he, hv, rfl, rfl⟩, rfl⟩
    exact ⟨⟨hk, he, hv⟩, rfl, by simp [Req.parts, str]⟩
  by_cases h3 : code = 3
  · subst h3
    refine (Exact.bind' exact_str (T := fun k r w => ∃ d : Int, (-9223372036854775808 ≤ d ∧ d < 9223372036854775808) ∧ r = Req.add k d ∧ w = ofInt d) ?_ ?_).mono ?_
    · intro k w _
      refine (Exact.bind' exact_i64 (T := fun d r w => r = Req.add k d ∧ w = []) (fun d w _ => exact_pure (Req.add k d)) (fun t w _ => ⟨_, _, rfl, rfl⟩)).mono ?_
      rintro r w ⟨d, w1, w2, ⟨h, rfl⟩, ⟨rfl, rfl⟩, rfl⟩
      exact ⟨d, h, rfl, by simp⟩
    · intro k w _
      exact ⟨_, _, (0 : Int), by decide, rfl, rfl⟩
    · rintro r w ⟨k, w1, w2, ⟨hk, rfl⟩, ⟨d, hd, rfl, rfl⟩, rfl⟩
      exact ⟨⟨hk, hd⟩, rfl, by simp [Req.parts, str]⟩
  by_cases h2 : code = 2
  · subst h2
    refine (exact_one exact_str Req.get).mono ?_
    rintro r w ⟨k, ⟨hk, rfl⟩, rfl⟩
    exact ⟨hk, rfl, by simp [Req.parts, str]⟩
  by_cases h4 : code = 4
  · subst h4
    refine (exact_many Req.check).mono ?_
    rintro r w ⟨ks, h1, h2, rfl, rfl⟩
    exact ⟨⟨h1, h2⟩, rfl, by simp only [Req.parts, List.flatten_cons, flat_strs]⟩
  by_cases h5 : code = 5
  · subst h5
    refine (exact_many Req.wait).mono ?_
    rintro r w ⟨ks, h1, h2, rfl, rfl⟩
    exact ⟨⟨h1, h2⟩, rfl, by simp only [Req.parts, List.flatten_cons, flat_strs]⟩
  by_cases h6 : code = 6
  · subst h6
    refine (exact_pure Req.numKeys).mono ?_
    rintro r w ⟨rfl, rfl⟩
    exact ⟨trivial, rfl, rfl⟩
  by_cases h8 : code = 8
  · subst h8
    refine (exact_one exact_str Req.delete).mono ?_
    rintro r w ⟨k, ⟨hk, rfl⟩, rfl⟩
    exact ⟨hk, rfl, by simp [Req.parts, str]⟩
  by_cases h7 : code = 7
  · subst h7
    refine (exact_one exact_str Req.watch).mono ?_
    rintro r w ⟨k, ⟨hk, rfl⟩, rfl⟩
    exact ⟨hk, rfl, by simp [Req.parts, str]⟩
  by_cases h9 : code = 9
  · subst h9
    refine (exact_two Req.append).mono ?_
    rintro r w ⟨k, v, hk, hv, rfl, rfl⟩
    exact ⟨⟨hk, hv⟩, rfl, by simp [Req.parts, str]⟩
  by_cases h10 : code = 10
  · subst h10
    refine (exact_many Req.mget).mono ?_
    rintro r w ⟨ks, h1, h2, rfl, rfl⟩
    exact ⟨⟨h1, h2⟩, rfl, by simp only [Req.parts, List.flatten_cons, flat_strs]⟩
  by_cases h11 : code = 11
  · subst h11
    refine (Exact.bind' exact_size (T := fun n r w => ∃ ks, ks.length = n ∧ (∀ s ∈ ks, Fits s.1 ∧ Fits s.2) ∧ r = Req.mset ks ∧
      w = ks.flatMap (fun x => (le 8 x.1.length ++ x.1) ++ (le 8 x.2.length ++ x.2))) ?_ ?_).mono ?_
    · intro n w _
      refine (Exact.bind' (exact_pairs n) (T := fun ks r w => r = Req.mset ks ∧ w = []) (fun k w _ => exact_pure (Req.mset k)) (fun t w _ => ⟨_, _, rfl, rfl⟩)).mono ?_
      rintro r w ⟨ks, w1, w2, ⟨h1, h2, rfl⟩, ⟨rfl, rfl⟩, rfl⟩
      exact ⟨ks, h1, h2, rfl, by simp⟩
    · intro n w _
      exact ⟨_, _, List.replicate n ([], []), by simp, by simp only [List.mem_replicate]; rintro _ ⟨_, rfl⟩; exact ⟨fits_nil, fits_nil⟩, rfl, rfl⟩
    · rintro r w ⟨n, w1, w2, ⟨hn, rfl⟩, ⟨ks, rfl, h2, rfl, rfl⟩, rfl⟩
      exact ⟨⟨hn, h2⟩, rfl, by simp only [Req.parts, List.flatten_cons, flat_pairs]⟩
  · have : recvArgs code = fun _ => .bad := by
      funext b; simp only [recvArgs, h0, h1, h2, h3, h4, h5, h6, h7, h8, h9, h10, h11, if_false]
    rw [this]; exact exact_refused _

theorem exact_query : Exact query (fun r w => r.Ok ∧ w = r.wire) := by
  refine ⟨fun b a rest e => ?_, fun b a rest m e => ?_, fun b e => ?_, fun b m e => ?_⟩
  · cases b with
    | nil => cases e
    | cons c t =>
      obtain ⟨w, ⟨h1, h2, rfl⟩, rfl⟩ := (exact_args c).sound _ _ _ e
      exact ⟨_, ⟨h1, rfl⟩, by rw [wire_eq, h2]; rfl⟩
  · cases b with
    | nil => cases e
    | cons c t => exact (exact_args c).grow _ _ _ m e
  · cases b with
    | nil => exact ⟨Req.numKeys.wire, Req.numKeys, by simp [wire_eq], trivial, rfl⟩
    | cons c t =>
      obtain ⟨y, a, hy, h1, h2, h3⟩ := (exact_args c).more _ e
      exact ⟨y, a, hy, h1, by rw [wire_eq, h2, ← h3]; rfl⟩
  · cases b with
    | nil => cases e
    | cons c t => exact (exact_args c).bad _ m e

end Xoscar.StoreWire
