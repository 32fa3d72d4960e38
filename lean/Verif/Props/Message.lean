import Verif.Proof.MessageFail
import Verif.Props.SerialEx
/-!
# C05, C06: messages
-/
namespace Xoscar.Serial

/-! ## specification -/

/-- the objects a message carries -/
def Msg.payload {X : Type} : Msg X → List X
  | .control _ _ _ x => [x]
  | .result _ x => [x]
  | .error _ _ _ x y z => [x, y, z]
  | .createActor _ _ _ _ x y z => [x, y, z]
  | .send _ _ x => [x]
  | .tell _ _ x => [x]
  | .copyBuffers _ x => [x]
  | .copyFiles _ x => [x]
  | .forward _ _ raw => raw.payload
  | _ => []

theorem serial_payload {X : Type} (m : Msg X) : m.serial.2 = m.payload := by
  induction m with
  | forward b a raw ih => exact ih
  | _ => rfl

/-- `serialize(message)` returns this header and these buffers -/
def MsgSerializes (P : Pickler) (h : Heap) (mid : Id) (m : Msg Id) (header : PV) (bufs : List Buf) : Prop :=
  ∃ fuel, serializeMsg P h mid m fuel = some (.ok header bufs)

/-- `deserialize(header, bufs)` ends like this -/
def MsgOutcome (P : Pickler) (header : PV) (bufs : List Buf) (o : DOut RSt MVal MExc) : Prop :=
  ∃ f0, ∀ fuel, f0 ≤ fuel → deserialize (msgDeser P) .init header bufs fuel = some o

theorem MsgOutcome.unique {P : Pickler} {p : PV} {bs : List Buf} {o o' : DOut RSt MVal MExc} (h1 : MsgOutcome P p bs o)
    (h2 : MsgOutcome P p bs o') : o = o' := by
  obtain ⟨f, h1⟩ := h1
  obtain ⟨f', h2⟩ := h2
  have a := h1 (max f f') (by omega)
  have b := h2 (max f f') (by omega)
  rw [a] at b
  exact Option.some.inj b

/-- messages of another protocol are not sent -/
theorem MsgSerializes.protocol {P : Pickler} {h : Heap} {mid : Id} {m : Msg Id} {p : PV} {bs : List Buf}
    (hs : MsgSerializes P h mid m p bs) : m.base.protocol = .nat 0 := by
  obtain ⟨f, hs⟩ := hs
  simp only [serializeMsg] at hs
  split at hs
  · assumption
  · cases hs

theorem MsgSerializes.unique {P : Pickler} {h : Heap} {mid : Id} {m : Msg Id} {p p' : PV} {bs bs' : List Buf}
    (h1 : MsgSerializes P h mid m p bs) (h2 : MsgSerializes P h mid m p' bs') : p = p' ∧ bs = bs' := by
  have hp := h1.protocol
  obtain ⟨f, h1⟩ := h1
  obtain ⟨g, h2⟩ := h2
  simp only [serializeMsg, hp, Option.map_eq_some_iff, SerOut.ok.injEq] at h1 h2
  obtain ⟨o, h1, rfl, rfl⟩ := h1
  obtain ⟨o', h2, rfl, rfl⟩ := h2
  rw [serialize_unique _ _ _ _ _ _ _ h1 h2]
  exact ⟨rfl, rfl⟩

/-! ## the sender -/

/-- what the sender makes of a message -/
theorem msg_enc {P : Pickler} {h : Heap} {mid : Id} {m : Msg Id} {fuel : Nat} {ps : List PV} {bs : List Buf} {σ : EncCtx}
    (hp : m.base.protocol = .nat 0)
    (hL : encL (enc (msgSingle P h mid m) fuel) ⟨[], [(mid, 0)]⟩ m.serial.2 = some (ps, bs, σ)) :
    MsgSerializes P h mid m
      (.tup (.nat msgSid :: .nat 0 :: .nat m.serial.2.length :: .bool false :: (m.serial.1 ++ ps))) bs := by
  have he : enc (msgSingle P h mid m) (fuel + 1) .init mid =
      some (.tup (.nat msgSid :: .nat 0 :: .nat m.serial.2.length :: .bool false :: (m.serial.1 ++ ps)), bs, σ) := by
    simp only [enc, msgSingle, if_true]
    have : (⟨EncCtx.init.ctx, EncCtx.init.d.set mid EncCtx.init.d.length⟩ : EncCtx) = ⟨[], [(mid, 0)]⟩ := rfl
    rw [this, hL]
    rfl
  obtain ⟨f, hf⟩ := serialize_of_enc _ _ _ _ _ _ _ he
  exact ⟨f, by simp only [serializeMsg, hp, hf]; rfl⟩

/-- and only that -/
theorem msg_enc_inv {P : Pickler} {h : Heap} {mid : Id} {m : Msg Id} {p : PV} {bs : List Buf}
    (hs : MsgSerializes P h mid m p bs) (fuel : Nat) {ps : List PV} {bs' : List Buf} {σ : EncCtx}
    (hL : encL (enc (msgSingle P h mid m) fuel) ⟨[], [(mid, 0)]⟩ m.serial.2 = some (ps, bs', σ)) :
    p = .tup (.nat msgSid :: .nat 0 :: .nat m.serial.2.length :: .bool false :: (m.serial.1 ++ ps)) ∧ bs = bs' := by
  exact hs.unique (msg_enc hs.protocol hL)

theorem reg_init (mid : Id) : EncCtx.init.reg mid = EncCtx.plus mid ⟨[], [(mid, 0)]⟩ := rfl

theorem deserialize_msg_nil (P : Pickler) (m : Msg Id) (h0 : m.serial.2 = []) (m' : Msg Val)
    (hm : members (m.serial.1.length + 1) m.type m.serial.1 [] = some m') :
    MsgOutcome P (.tup (.nat msgSid :: .nat 0 :: .nat m.serial.2.length :: .bool false :: (m.serial.1 ++ []))) []
      (.ok (.msg (m'.map .val)) .init) := by
  refine ⟨0, fun fuel _ => ?_⟩
  obtain ⟨rest, hrest⟩ := serial_head m
  have hmm := members_map MVal.val (m.serial.1.length + 1) m.type m.serial.1 []
  rw [hm] at hmm
  have hs : (msgDeser P).single .init (.nat msgSid :: .nat 0 :: .nat 0 :: .bool false :: m.serial.1) [] =
      .ok (.msg (m'.map .val), .init) := by
    have e2 : (msgDeser P).single = msgDeserialSingle P := rfl
    rw [e2]
    rw [hrest] at hmm ⊢
    simp only [msgDeserialSingle, if_true]
    simp only [List.map_nil, Option.map_some] at hmm
    rw [hmm]
  rw [List.append_nil, h0]
  simp only [deserialize, hdr4, List.length_nil]
  have hc : (false || (0 : Nat) == 0) = true := rfl
  rw [if_pos hc, List.map_nil, hs]

theorem deserialize_msg {P : Pickler} {m : Msg Id} {ps : List PV} {bs : List Buf} {fuel : Nat} {vs : List Val} {δ : RSt}
    {n : Nat} (hlen : ps.length = m.serial.2.length) (hne : m.serial.2 ≠ [])
    (hd : decL (msgDeser P) (dec (msgDeser P) bs fuel)
      (.nat msgSid :: .nat 0 :: .nat m.serial.2.length :: .bool false :: m.serial.1) ps [] ps .init 0 =
        .ok (vs.map .val) δ n) {m' : Msg Val}
    (hm : members (m.serial.1.length + 1) m.type m.serial.1 vs = some m') :
    MsgOutcome P (.tup (.nat msgSid :: .nat 0 :: .nat m.serial.2.length :: .bool false :: (m.serial.1 ++ ps))) bs
      (.ok (.msg (m'.map .val)) δ) := by
  obtain ⟨rest, hrest⟩ := serial_head m
  have hmm := members_map MVal.val (m.serial.1.length + 1) m.type m.serial.1 vs
  rw [hm] at hmm
  have hs : (msgDeser P).single δ (.nat msgSid :: .nat 0 :: .nat m.serial.2.length :: .bool false :: m.serial.1) (vs.map .val) =
      .ok (.msg (m'.map .val), δ) := by
    have e2 : (msgDeser P).single = msgDeserialSingle P := rfl
    rw [e2]
    rw [hrest] at hmm ⊢
    simp only [msgDeserialSingle, if_true]
    simp only [Option.map_some] at hmm
    rw [hmm]
  rw [← hlen] at hd hs
  have hnode := dec_node (msgDeser P) bs fuel .init 0 (.nat msgSid) (.nat 0) m.serial.1 ps _ δ n hd
  rw [hs] at hnode
  simp only [List.cons_append] at hnode
  have hpos : ps.length ≠ 0 := by
    rw [hlen]; exact fun e => hne (List.length_eq_zero_iff.1 e)
  obtain ⟨f0, hf⟩ := deserialize_of_dec (msgDeser P) bs .init
    (.tup (.nat msgSid :: .nat 0 :: .nat ps.length :: .bool false :: (m.serial.1 ++ ps))) _ ps.length false rfl
    (by simpa using hpos) (fuel + 1) (by rw [hnode]; simp)
  refine ⟨f0, fun f hle => ?_⟩
  rw [← hlen, hf f hle, hnode]
  rfl

/-! ## C05 -/

/-- the message is serialized, and whatever the receiver makes of it is a message of the same class
with the same header fields (also of a message carried in a forward message), the payload being equal
at every depth -/
def MsgRoundTrips (P : Pickler) (h : Heap) (mid : Id) (m : Msg Id) : Prop :=
  (∃ header bufs, MsgSerializes P h mid m header bufs) ∧
  ∀ header bufs, MsgSerializes P h mid m header bufs →
    (∃ o, MsgOutcome P header bufs o) ∧
    ∀ o, MsgOutcome P header bufs o → ∃ (m' : Msg Val) (st : RSt), o = .ok (.msg (m'.map .val)) st ∧
      ∀ n, m'.map (dstTree st.heap n) = m.map (srcTree h n)

/-- C05.  The message itself occurs in the graph as a tuple of its payload; `Supported` says what the
payload may be. -/
theorem message_roundtrip {P : Pickler} {h : Heap} {mid : Id} {m : Msg Id} (hP : P.Law)
    (hm : h mid = .tuple none m.payload) (S : Supported h mid) (hg : Acyclic h mid ∨ LooseOnce h mid)
    (hp : m.base.protocol = .nat 0) : MsgRoundTrips P h mid m := by
  rw [← serial_payload] at hm
  have hkids : (h mid).kids = m.serial.2 := by rw [hm]; rfl
  have hnr : ∀ y ∈ m.serial.2, ¬ Reach h y mid := by
    intro y hy hr
    refine S.tuples mid none _ .refl hm ?_
    cases hr with
    | refl => exact ⟨mid, .refl, by rw [hkids]; exact hy⟩
    | step h1 h2 => exact ⟨_, (Reach.step .refl (by rw [hkids]; exact hy)).trans' h1, h2⟩
  obtain ⟨L, hL, hc⟩ := S.finite
  obtain ⟨ps, bs, σ1, he⟩ := encL_total P h L hc (left L (EncCtx.init.reg mid) + 1) m.serial.2 (EncCtx.init.reg mid)
    (fun c hc' => hc mid hL c (by rw [hkids]; exact hc')) (by omega)
  generalize left L (EncCtx.init.reg mid) + 1 = fuel at he
  have hl : (h mid).loose = false := by rw [hm]; rfl
  have he' := he
  rw [reg_init, encL_plus (enc_plus P h mid m fuel) m.serial.2 ⟨[], [(mid, 0)]⟩ hnr] at he'
  simp only [Option.map_eq_some_iff, Prod.mk.injEq, Prod.exists] at he'
  obtain ⟨ps', bs', σ2, he', rfl, rfl, rfl⟩ := he'
  have hser := msg_enc hp he'
  refine ⟨⟨_, _, hser⟩, ?_⟩
  intro p bs hs
  obtain ⟨rfl, rfl⟩ := msg_enc_inv hs fuel he'
  obtain ⟨I1, E1, hn, hxO⟩ := open_inv (inv_init h mid) (x := mid) (by simp [EncCtx.init]) hl .refl
  have hG : Good h mid (EncCtx.init.reg mid) [mid] .init (m.serial.2 ++ []) := by
    rcases good_init hg with G | ⟨G1, G2⟩
    · exact .inl G
    · have := fresh_open (inv_init h mid) G1 G2 (x := mid) (by simp [EncCtx.init]) hl .refl (fun _ => true)
      rw [List.filter_eq_self.2 (by simp), hkids] at this
      exact .inr ⟨G1, this⟩
  obtain ⟨vs, g2, δ2, d2, I2, _, _, V2⟩ := simL (sim hP S fuel) m.serial.2 _ ps' bs _ [mid] _ .init [] [] []
    (.nat msgSid :: .nat 0 :: .nat m.serial.2.length :: .bool false :: m.serial.1) ps' [] he
    (by
      intro c hc'
      rw [← hkids] at hc'
      refine ⟨.step .refl hc', ?_⟩
      intro y hy
      simp only [List.mem_singleton] at hy
      subst hy
      exact ⟨y, .refl, hc'⟩) I1 hG
  simp only [List.nil_append, List.append_nil, List.length_nil] at d2
  have hd := dec_embed.decL_embed bs fuel (dec_embed P bs fuel) _ _ _ _ _ _ _ _ _ d2
  rw [List.map_nil] at hd
  -- the payload values
  have hT : ∀ n, vs.map (dstTree δ2.heap n) = m.serial.2.map (srcTree h n) := by
    intro n
    refine map_eq_of_all₂ V2 ?_
    intro y w hy r
    have r' : Res h g2 δ2.heap y w := res_of_vrel (by
      simp only [List.mem_singleton]
      rintro rfl
      exact hnr y hy .refl) r
    have F := final_of_inv I2 y (by
      intro z hz
      simp only [List.mem_singleton] at hz
      subst hz
      exact hnr y hy)
    have hym : Reach h mid y := .step .refl (by rw [hkids]; exact hy)
    have Sy : Supported h y := ⟨⟨L, hc mid hL y (by rw [hkids]; exact hy), hc⟩,
      fun x t s hx => S.plainStr x t s (hym.trans' hx), fun x t s hx => S.plainBytes x t s (hym.trans' hx),
      fun x ty kvs hx => S.keys x ty kvs (hym.trans' hx), fun x ty xs hx => S.tuples x ty xs (hym.trans' hx)⟩
    exact tree_eq Sy F n y w .refl r'
  have hmem : ∀ n, (members (m.serial.1.length + 1) m.type m.serial.1 vs).map (Msg.map (dstTree δ2.heap n)) =
      some (m.map (srcTree h n)) := fun n =>
    members_serial _ _ m _ vs (by have := serial_len m; omega) (hT n)
  rcases hmm : members (m.serial.1.length + 1) m.type m.serial.1 vs with _ | m'
  · have := hmem 0; rw [hmm] at this; cases this
  have hfin : MsgOutcome P (.tup (.nat msgSid :: .nat 0 :: .nat m.serial.2.length :: .bool false :: (m.serial.1 ++ ps'))) bs
      (.ok (.msg (m'.map .val)) δ2) := by
    by_cases h0 : m.serial.2 = []
    · rw [h0] at he
      simp only [encL, Option.some.injEq, Prod.mk.injEq] at he
      obtain ⟨rfl, rfl, _⟩ := he
      have : vs = [] := by
        have := V2.length_eq
        rw [h0] at this
        exact List.length_eq_zero_iff.1 this.symm
      subst this
      simp only [decL, BRes.ok.injEq] at d2
      rw [← d2.2.1]
      exact deserialize_msg_nil P m h0 m' hmm
    · exact deserialize_msg (encL_length he) h0 hd hmm
  refine ⟨⟨_, hfin⟩, ?_⟩
  intro o ho
  refine ⟨m', δ2, ho.unique hfin, ?_⟩
  intro n
  have := hmem n
  rw [hmm] at this
  exact Option.some.inj this

/-- in particular the fields are the same -/
theorem message_fields_kept {P : Pickler} {h : Heap} {mid : Id} {m : Msg Id} (hr : MsgRoundTrips P h mid m) {header : PV}
    {bufs : List Buf} {o} (hs : MsgSerializes P h mid m header bufs) (ho : MsgOutcome P header bufs o) :
    ∃ m' st, o = .ok (.msg m') st ∧ m'.type = m.type ∧ m'.base = m.base ∧ m'.serial.1 = m.serial.1 := by
  obtain ⟨m', st, rfl, hm⟩ := (hr.2 _ _ hs).2 o ho
  have key : ∀ {X Y : Type} (f : X → Y) (m : Msg X), (m.map f).type = m.type ∧ (m.map f).base = m.base ∧
      (m.map f).serial.1 = m.serial.1 := by
    intro X Y f m
    induction m with
    | forward b a raw ih => exact ⟨rfl, rfl, by simp only [Msg.map, Msg.serial, ih.2.2]⟩
    | _ => exact ⟨rfl, rfl, rfl⟩
  refine ⟨_, st, rfl, ?_⟩
  have h0 := hm 0
  obtain ⟨a1, a2, a3⟩ := key (dstTree st.heap 0) m'
  obtain ⟨b1, b2, b3⟩ := key (srcTree h 0) m
  obtain ⟨c1, c2, c3⟩ := key MVal.val m'
  rw [h0] at a1 a2 a3
  exact ⟨by rw [c1, ← a1, b1], by rw [c2, ← a2, b2], by rw [c3, ← a3, b3]⟩

/-! ## C06 -/

/-- exceptions of subcomponents are turned into that of the parent -/
theorem decL_exc {D : Deser RSt MVal MExc} {f : RSt → Nat → PV → BRes MVal RSt MExc} {head all : List PV} (cs : List PV) :
    ∀ {done : List MVal} {st : RSt} {pos : Nat} {e : MExc}, decL D f head all done cs st pos = .exc e →
      ∃ k e0, D.onError head all k e0 = some e := by
  induction cs with
  | nil => intro done st pos e hd; simp [decL] at hd
  | cons c cs ih =>
    intro done st pos e hd
    simp only [decL] at hd
    rcases hc : f st pos c with ⟨v, st', pos'⟩ | e0 | _ | _
    · rw [hc] at hd; exact ih hd
    · rw [hc] at hd
      simp only at hd
      rcases ho : D.onError head all done.length e0 with _ | e1
      · rw [ho] at hd; cases hd
      · rw [ho] at hd; cases hd; exact ⟨_, _, ho⟩
    · rw [hc] at hd; cases hd
    · rw [hc] at hd; cases hd

theorem members_some {m : Msg Id} {vs : List MVal} (hl : vs.length = m.serial.2.length) :
    ∃ m', members (m.serial.1.length + 1) m.type m.serial.1 vs = some m' := by
  have := members_serial (Y := Unit) (fun _ => ()) (fun _ => ()) m (m.serial.1.length + 1) vs
    (by have := serial_len m; omega) (by rw [List.map_const', List.map_const', hl])
  rcases hm : members (m.serial.1.length + 1) m.type m.serial.1 vs with _ | m'
  · rw [hm] at this; cases this
  · exact ⟨m', rfl⟩

/-- C06: a message with any finite payload, decoded by a receiver with any unpickler `P'`: either it
is received, and then every opaque object in the payload was loaded, or `DeserializeMessageFailed` is
raised with the id of that very message.  There is no third outcome. -/
theorem undecodable_reported_against_own_id {P P' : Pickler} {h : Heap} {mid : Id} {m : Msg Id} {header : PV} {bufs : List Buf}
    (hfin : ∃ S : List Id, (∀ x ∈ m.payload, x ∈ S) ∧ ∀ x ∈ S, ∀ y ∈ (h x).kids, y ∈ S)
    (hnr : ∀ y ∈ m.payload, ¬ Reach h y mid) (hs : MsgSerializes P h mid m header bufs) :
    ∃ o, MsgOutcome P' header bufs o ∧
      ((∃ m' st, o = .ok (.msg m') st ∧
          ∀ x ∈ m.payload, ∀ y, Reach h x y → ∀ u, h y = .other u → P'.load (P.dump u) ≠ none) ∨
        o = .raised (.failed m.base.id)) := by
  rw [← serial_payload] at hfin hnr
  obtain ⟨S, hS, hc⟩ := hfin
  obtain ⟨ps, bs, σ1, he⟩ := encL_total P h S hc (left S (EncCtx.init.reg mid) + 1) m.serial.2 (EncCtx.init.reg mid)
    hS (by omega)
  generalize left S (EncCtx.init.reg mid) + 1 = fuel at he
  have he' := he
  rw [reg_init, encL_plus (enc_plus P h mid m fuel) m.serial.2 ⟨[], [(mid, 0)]⟩ hnr] at he'
  simp only [Option.map_eq_some_iff, Prod.mk.injEq, Prod.exists] at he'
  obtain ⟨ps', bs', σ2, he', rfl, rfl, rfl⟩ := he'
  obtain ⟨rfl, rfl⟩ := msg_enc_inv hs fuel he'
  obtain ⟨rest, hrest⟩ := serial_head m
  have hlen := encL_length he'
  by_cases h0 : m.serial.2 = []
  · rw [h0] at he'
    simp only [encL, Option.some.injEq, Prod.mk.injEq] at he'
    obtain ⟨rfl, rfl, _⟩ := he'
    obtain ⟨m', hm⟩ := members_some (m := m) (vs := []) (by rw [h0]; rfl)
    have hm0 := members_map MVal.val (m.serial.1.length + 1) m.type m.serial.1 []
    rw [List.map_nil, hm] at hm0
    rcases hm1 : members (V := Val) (m.serial.1.length + 1) m.type m.serial.1 [] with _ | m1
    · rw [hm1] at hm0; cases hm0
    · refine ⟨_, deserialize_msg_nil P' m h0 m1 hm1, .inl ⟨_, _, rfl, ?_⟩⟩
      intro x hx
      rw [← serial_payload, h0] at hx
      cases hx
  -- some payload
  have hpos : ps'.length ≠ 0 := by
    rw [hlen]; exact fun e => h0 (List.length_eq_zero_iff.1 e)
  have hon : ∀ e, msgOnError (.nat msgSid :: .nat 0 :: .nat m.serial.2.length :: .bool false :: m.serial.1) e =
      some (.failed m.base.id) := by
    intro e; rw [hrest]; simp [msgOnError]
  have g := goesL (goes P P' h mid m fuel) (.nat msgSid :: .nat 0 :: .nat m.serial.2.length :: .bool false :: m.serial.1)
    ps' (fun e => ⟨_, hon e⟩) m.serial.2 ⟨[], [(mid, 0)]⟩ ps' bufs σ2 [] [] .init [] he'
  simp only [List.nil_append, List.append_nil, List.length_nil, Nat.zero_add] at g
  -- the header read back
  have hd1 : (.nat msgSid :: .nat 0 :: .nat m.serial.2.length :: .bool false :: (m.serial.1 ++ ps') : List PV).length -
      m.serial.2.length = (.nat msgSid :: .nat 0 :: .nat m.serial.2.length :: .bool false :: m.serial.1 : List PV).length := by
    simp only [List.length_cons, List.length_append]; omega
  have hspl : (.nat msgSid :: .nat 0 :: .nat m.serial.2.length :: .bool false :: (m.serial.1 ++ ps') : List PV) =
      (.nat msgSid :: .nat 0 :: .nat m.serial.2.length :: .bool false :: m.serial.1 : List PV) ++ ps' := rfl
  have hnl : ¬ (false || m.serial.2.length == 0) = true := by
    rw [← hlen]; simpa using hpos
  have hdec : dec (msgDeser P') bufs (fuel + 1) .init 0
      (.tup (.nat msgSid :: .nat 0 :: .nat m.serial.2.length :: .bool false :: (m.serial.1 ++ ps'))) =
      decNode (msgDeser P') (.nat msgSid :: .nat 0 :: .nat m.serial.2.length :: .bool false :: m.serial.1)
        (decL (msgDeser P') (dec (msgDeser P') bufs fuel)
          (.nat msgSid :: .nat 0 :: .nat m.serial.2.length :: .bool false :: m.serial.1) ps' [] ps' .init 0) := by
    simp only [dec, hdr4]
    rw [if_neg hnl, hd1, hspl, List.take_left, List.drop_left]
  have hout := deserialize_of_dec (msgDeser P') bufs .init
    (.tup (.nat msgSid :: .nat 0 :: .nat m.serial.2.length :: .bool false :: (m.serial.1 ++ ps'))) _ m.serial.2.length false
    rfl hnl (fuel + 1)
  rw [hdec] at hout
  rcases hr : decL (msgDeser P') (dec (msgDeser P') bufs fuel)
          (.nat msgSid :: .nat 0 :: .nat m.serial.2.length :: .bool false :: m.serial.1) ps' [] ps' .init 0
    with ⟨vs, δ2, n2⟩ | e | _ | _
  · rw [hr] at g hout
    have hvl : vs.length = m.serial.2.length := by
      have := decL_length hr
      simp only [List.length_nil, Nat.zero_add] at this
      omega
    obtain ⟨m', hm⟩ := members_some hvl
    have hsg : (msgDeser P').single δ2 (.nat msgSid :: .nat 0 :: .nat m.serial.2.length :: .bool false :: m.serial.1) vs =
        .ok (.msg m', δ2) := by
      have e2 : (msgDeser P').single = msgDeserialSingle P' := rfl
      rw [e2]
      rw [hrest] at hm ⊢
      simp only [msgDeserialSingle, if_true]
      rw [hm]
    simp only [decNode, hsg] at hout
    refine ⟨_, hout (by simp), .inl ⟨m', δ2, rfl, ?_⟩⟩
    intro x hx y hy u hu
    rw [← serial_payload] at hx
    obtain ⟨hcl, hmem⟩ := closedL (closed P h fuel) m.serial.2 _ _ _ _ he
    have hne : ∀ w, Reach h x w → w ∉ (EncCtx.init.reg mid).ctx := by
      intro w hw hwm
      simp only [EncCtx.reg, EncCtx.init, List.nil_append, List.mem_singleton] at hwm
      subst hwm
      exact hnr x hx hw
    have hin : inlinable (h y) = none := by rw [hu]; rfl
    rcases met hcl hne (hmem x hx) hy hin with hy' | hy'
    · simp only [EncCtx.plus, List.mem_cons] at hy'
      rcases hy' with rfl | hy'
      · exact absurd hy (hnr x hx)
      · exact g.2 y hy' (by simp) u hu
    · rw [hu] at hy'; cases hy'
  · obtain ⟨k, e0, hk⟩ := decL_exc ps' hr
    have : (msgDeser P').onError (.nat msgSid :: .nat 0 :: .nat m.serial.2.length :: .bool false :: m.serial.1) ps' k e0 =
      some (.failed m.base.id) := hon e0
    rw [this] at hk
    cases hk
    rw [hr] at hout
    exact ⟨_, hout (by simp [decNode]), .inr rfl⟩
  · rw [hr] at g; exact g.elim
  · rw [hr] at g; exact g.elim

/-- C06, the failing case: wherever in the payload an object cannot be loaded -/
theorem unloadable_payload_reported {P P' : Pickler} {h : Heap} {mid : Id} {m : Msg Id} {header : PV} {bufs : List Buf}
    (hfin : ∃ S : List Id, (∀ x ∈ m.payload, x ∈ S) ∧ ∀ x ∈ S, ∀ y ∈ (h x).kids, y ∈ S)
    (hnr : ∀ y ∈ m.payload, ¬ Reach h y mid) (hs : MsgSerializes P h mid m header bufs)
    {x y : Id} {u : Nat} (hx : x ∈ m.payload) (hr : Reach h x y) (hu : h y = .other u)
    (hbad : P'.load (P.dump u) = none) :
    MsgOutcome P' header bufs (.raised (.failed m.base.id)) := by
  obtain ⟨o, ho, ⟨m', st, rfl, hl⟩ | rfl⟩ := undecodable_reported_against_own_id (P' := P') hfin hnr hs
  · exact absurd hbad (hl x hx y hr u hu)
  · exact ho

/-- C06: messages of another protocol are rejected, by the sender -/
theorem unsupported_protocol_rejected (P : Pickler) (h : Heap) (mid : Id) (m : Msg Id) (hp : m.base.protocol ≠ .nat 0) :
    (∀ fuel, serializeMsg P h mid m fuel = some .assertionError) ∧ ∀ header bufs, ¬ MsgSerializes P h mid m header bufs := by
  constructor
  · intro fuel
    unfold serializeMsg
    split
    · next e => exact absurd e hp
    · rfl
  · intro header bufs hs
    exact hp hs.protocol

/-- C06, for headers from anywhere: a message header with subcomponents (whatever they are) whose
decoding raises, raises `DeserializeMessageFailed` with its id, or an error about the message's own fields -/
theorem raised_is_own_id {P : Pickler} {t id : PV} {rest subs : List PV} {bufs : List Buf} {e : MExc} (hne : subs ≠ [])
    (hr : ∃ fuel oid, deserialize (msgDeser P) .init (.tup (.nat msgSid :: oid :: .nat subs.length :: .bool false ::
      t :: id :: (rest ++ subs))) bufs fuel = some (.raised e)) : e = .failed id ∨ e = .badMessage := by
  obtain ⟨fuel, oid, hr⟩ := hr
  have hnl : ¬ (false || subs.length == 0) = true := by
    cases subs with
    | nil => exact absurd rfl hne
    | cons a b => simp
  simp only [deserialize, hdr4] at hr
  rw [if_neg hnl] at hr
  have hd1 : (.nat msgSid :: oid :: .nat subs.length :: .bool false :: t :: id :: (rest ++ subs) : List PV).length -
      subs.length = (.nat msgSid :: oid :: .nat subs.length :: .bool false :: t :: id :: rest : List PV).length := by
    simp only [List.length_cons, List.length_append]; omega
  have hspl : (.nat msgSid :: oid :: .nat subs.length :: .bool false :: t :: id :: (rest ++ subs) : List PV) =
      (.nat msgSid :: oid :: .nat subs.length :: .bool false :: t :: id :: rest : List PV) ++ subs := rfl
  rw [hd1, hspl, List.take_left, List.drop_left] at hr
  generalize hhead : (.nat msgSid :: oid :: .nat subs.length :: .bool false :: t :: id :: rest : List PV) = head at hr
  have hon : ∀ all k e, (msgDeser P).onError head all k e = some (.failed id) := by
    intro all k e; rw [← hhead]; simp [msgDeser, msgOnError]
  have hsg : ∀ st vs e, (msgDeser P).single st head vs = .error e → e = .badMessage := by
    intro st vs e he
    have e2 : (msgDeser P).single = msgDeserialSingle P := rfl
    rw [e2, ← hhead] at he
    simp only [msgDeserialSingle, if_true] at he
    split at he
    · split at he
      · cases he
      · cases he; rfl
    · cases he; rfl
  -- the bottom frame of the stack is the message
  have key : ∀ (fuel : Nat) (s s' : DecSt RSt MVal MExc),
      (s.stack = [] ∧ (∀ e, s.sig = .exc e → e = .failed id ∨ e = .badMessage)) ∨
        (∃ fr, s.stack.getLast? = some fr ∧ fr.head = head) →
      dloop (msgDeser P) bufs fuel s = some s' → ∀ e, s'.sig = .exc e → e = .failed id ∨ e = .badMessage := by
    intro fuel
    induction fuel with
    | zero => intro s s' _ hd; simp [dloop] at hd
    | succ fuel ih =>
      intro s s' hinv hd
      obtain ⟨stack, sig, st, pos⟩ := s
      rcases stack with _ | ⟨fr0, stk⟩
      · simp only [dloop] at hd
        cases hd
        rcases hinv with ⟨_, hi⟩ | ⟨fr, hi, _⟩
        · exact hi
        · cases hi
      · simp only [dloop] at hd
        refine ih _ s' ?_ hd
        rcases hinv with ⟨hi, _⟩ | ⟨fr, hi, hfr⟩
        · cases hi
        rcases stk with _ | ⟨fr1, stk⟩
        · -- the message's own frame
          simp only [List.getLast?_singleton, Option.some.injEq] at hi
          subst hi
          have hgo : ∀ sig', (∀ e, sig' ≠ Sig.exc e) → 
              ∀ r, (if (fr0.record (E := MExc) sig').subs.length = (fr0.record (E := MExc) sig').done.length then
                dstepFinish (msgDeser P) (fr0.record sig') [] ⟨[fr0], sig', st, pos⟩
              else match (fr0.record (E := MExc) sig').subs[(fr0.record (E := MExc) sig').done.length]? with
                | none => ⟨[], .malformed, st, pos⟩
                | some c => dstepChild (msgDeser P) bufs (fr0.record sig') [] ⟨[fr0], sig', st, pos⟩ c) = r →
              (r.stack = [] ∧ (∀ e, r.sig = .exc e → e = .failed id ∨ e = .badMessage)) ∨
              (∃ fr, r.stack.getLast? = some fr ∧ fr.head = head) := by
            intro sig' _ r hrr
            have hrec : (fr0.record (E := MExc) sig').head = head := by
              rw [← hfr]; unfold DFrame.record; split <;> rfl
            subst hrr
            split
            · left
              simp only [dstepFinish, hrec]
              rcases hq : (msgDeser P).single st head (fr0.record (E := MExc) sig').done with e | ⟨v, st'⟩
              · exact ⟨rfl, fun e' he => by cases he; exact .inr (hsg _ _ _ hq)⟩
              · exact ⟨rfl, fun e' he => by cases he⟩
            · split
              · left; exact ⟨rfl, fun e' he => by cases he⟩
              · simp only [dstepChild]
                split
                · left; exact ⟨rfl, fun e' he => by cases he⟩
                · right
                  split
                  · split <;> exact ⟨_, rfl, hrec⟩
                  · exact ⟨_, rfl, hrec⟩
          cases sig with
          | exc e =>
            left
            simp only [dstep, hfr, hon]
            exact ⟨trivial, fun e' he => by cases he; exact .inl rfl⟩
          | idle => exact hgo .idle (by simp) _ rfl
          | has v => exact hgo (.has v) (by simp) _ rfl
          | malformed => exact hgo .malformed (by simp) _ rfl
        · -- a frame above
          have hi' : (fr1 :: stk).getLast? = some fr := by simpa [List.getLast?_cons] using hi
          have hgo : ∀ sig', 
              ∀ r, (if (fr0.record (E := MExc) sig').subs.length = (fr0.record (E := MExc) sig').done.length then
                dstepFinish (msgDeser P) (fr0.record sig') (fr1 :: stk) ⟨fr0 :: fr1 :: stk, sig', st, pos⟩
              else match (fr0.record (E := MExc) sig').subs[(fr0.record (E := MExc) sig').done.length]? with
                | none => ⟨[], .malformed, st, pos⟩
                | some c => dstepChild (msgDeser P) bufs (fr0.record sig') (fr1 :: stk) ⟨fr0 :: fr1 :: stk, sig', st, pos⟩ c) = r →
              (r.stack = [] ∧ (∀ e, r.sig = .exc e → e = .failed id ∨ e = .badMessage)) ∨
              (∃ fr, r.stack.getLast? = some fr ∧ fr.head = head) := by
            intro sig' r hrr
            subst hrr
            split
            · right
              simp only [dstepFinish]
              split <;> exact ⟨fr, hi', hfr⟩
            · split
              · left; exact ⟨rfl, fun e' he => by cases he⟩
              · simp only [dstepChild]
                split
                · left; exact ⟨rfl, fun e' he => by cases he⟩
                · right
                  split
                  · split <;> exact ⟨fr, by simpa [List.getLast?_cons] using hi', hfr⟩
                  · exact ⟨fr, by simpa [List.getLast?_cons] using hi', hfr⟩
          cases sig with
          | exc e =>
            simp only [dstep]
            split
            · right; exact ⟨fr, hi', hfr⟩
            · left; exact ⟨rfl, fun e' he => by cases he⟩
          | idle => exact hgo .idle _ rfl
          | has v => exact hgo (.has v) _ rfl
          | malformed => exact hgo .malformed _ rfl
  simp only [Option.map_eq_some_iff] at hr
  obtain ⟨s', hd, hout⟩ := hr
  refine key fuel _ s' (.inr ⟨_, rfl, rfl⟩) hd e ?_
  unfold DecSt.out at hout
  split at hout <;> cases hout
  assumption

/-! ## cases -/

def base0 : Base := ⟨.atom (.prim 77), .nat 0, .atom .none, .atom .none⟩
def ref0 : ARef := ⟨.atom (.str "127.0.0.1:1"), .atom (.str "u"), .atom .none⟩

/-- a forward message with a `send` whose argument is the value `dag` -/
def fwd : Msg Id := .forward base0 (.atom (.str "127.0.0.1:2")) (.send base0 ref0 0)

/-- `dag` and the message -/
def dagMsg : Heap := fun x => if x = 9 then .tuple none [0] else dag x

theorem dagMsg_reach {x : Id} (hr : Reach dagMsg 9 x) : x = 9 ∨ x = 0 ∨ x = 1 ∨ x = 2 ∨ x = 3 ∨ x = 4 ∨ x = 5 := by
  have := reach_mem (S := [9, 0, 1, 2, 3, 4, 5]) (by simp) (by simp [dagMsg, dag, Obj.kids]) hr
  simpa using this

theorem dagMsg_acyclic : Acyclic dagMsg 9 := by
  refine acyclic_of_rank (fun x => match x with | 9 => 11 | 0 => 10 | 2 => 9 | 1 => 8 | _ => 0) ?_
  intro x hx y hy
  rcases dagMsg_reach hx with rfl | rfl | rfl | rfl | rfl | rfl | rfl <;> simp [dagMsg, dag, Obj.kids] at hy
  · subst hy; decide
  · rcases hy with rfl | rfl | rfl <;> decide
  · rcases hy with rfl | rfl <;> decide
  · rcases hy with rfl | rfl <;> decide

theorem dagMsg_supported : Supported dagMsg 9 where
  finite := ⟨[9, 0, 1, 2, 3, 4, 5], by simp, by simp [dagMsg, dag, Obj.kids]⟩
  plainStr x t s hr := by rcases dagMsg_reach hr with rfl | rfl | rfl | rfl | rfl | rfl | rfl <;> simp [dagMsg, dag]
  plainBytes x t b hr := by rcases dagMsg_reach hr with rfl | rfl | rfl | rfl | rfl | rfl | rfl <;> simp [dagMsg, dag]
  keys x ty kvs hr hx kv hkv := by
    rcases dagMsg_reach hr with rfl | rfl | rfl | rfl | rfl | rfl | rfl <;> simp [dagMsg, dag] at hx
    · obtain ⟨rfl, rfl⟩ := hx
      simp only [List.mem_singleton] at hkv
      subst hkv
      exact .str (h := dagMsg) (x := 3) (ty := none) (s := "a") rfl
    · obtain ⟨rfl, rfl⟩ := hx
      cases hkv
  tuples x ty xs hr _ := dagMsg_acyclic x hr

example : MsgRoundTrips unary dagMsg 9 fwd :=
  message_roundtrip unary_law rfl dagMsg_supported (.inl dagMsg_acyclic) rfl

/-- a receiver that cannot load anything: the opaque object deep in `dag` makes the message fail -/
example : ∃ header bufs, MsgSerializes unary dagMsg 9 fwd header bufs ∧
    MsgOutcome ⟨fun _ => [], fun _ => none⟩ header bufs (.raised (.failed (.atom (.prim 77)))) := by
  obtain ⟨⟨header, bufs, hs⟩, _⟩ := message_roundtrip (m := fwd) unary_law rfl dagMsg_supported (.inl dagMsg_acyclic) rfl
  refine ⟨header, bufs, hs, unloadable_payload_reported ?_ ?_ hs (x := 0) (y := 5) (u := 7) (by simp [Msg.payload, fwd]) ?_ rfl rfl⟩
  · exact ⟨[0, 1, 2, 3, 4, 5], by simp [Msg.payload, fwd], by simp [dagMsg, dag, Obj.kids]⟩
  · intro y hy hr
    simp only [Msg.payload, fwd, List.mem_singleton] at hy
    subst hy
    cases hr with
    | step h1 h2 =>
      have h3 : Reach dagMsg 9 _ := (Reach.step (y := 9) (z := 0) .refl (by simp [dagMsg, Obj.kids])).trans' h1
      exact dagMsg_acyclic 9 .refl ⟨_, h3, h2⟩
  · exact .step .refl (by simp [dagMsg, dag, Obj.kids])

/-- C06 in full is not true: when an object in the payload has a serializer unknown to the receiver
and one of its own components fails, the lookup of the serializer while handling the failure raises
KeyError, which leaves `deserialize` without `DeserializeMessageFailed`.  Here a `send` whose argument has
serializer 9000 and one component that cannot be unpickled. -/
theorem nested_unknown_serializer_escapes :
    MsgOutcome ⟨fun _ => [], fun _ => none⟩
      (.tup (.nat msgSid :: .nat 0 :: .nat 1 :: .bool false :: (Msg.send base0 ref0 ()).serial.1 ++
        [.tup [.nat 9000, .nat 1, .nat 1, .bool false, .tup [.nat 0, .nat 2, .nat 1, .bool true]]]))
      [ByteArray.empty] .malformed :=
  ⟨50, fun f hf => deserialize_mono _ _ _ _ 50 f hf rfl⟩

/-- an object with an unknown serializer that fails by itself is reported -/
theorem unknown_serializer_reported :
    MsgOutcome ⟨fun _ => [], fun _ => none⟩
      (.tup (.nat msgSid :: .nat 0 :: .nat 1 :: .bool false :: (Msg.send base0 ref0 ()).serial.1 ++
        [.tup [.nat 9000, .nat 1, .nat 1, .bool true]]))
      [ByteArray.empty] (.raised (.failed (.atom (.prim 77)))) :=
  ⟨50, fun f hf => deserialize_mono _ _ _ _ 50 f hf rfl⟩

end Xoscar.Serial
