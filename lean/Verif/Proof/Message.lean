import Verif.Model.Message
import Verif.Proof.SerialTotal
/-!
# Messages
-/
namespace Xoscar.Serial

/-- apply a function to the payload -/
def Msg.map {X Y : Type} (f : X → Y) : Msg X → Msg Y
  | .control b a c x => .control b a c (f x)
  | .result b x => .result b (f x)
  | .error b a p x y z => .error b a p (f x) (f y) (f z)
  | .createActor b i s fm x y z => .createActor b i s fm (f x) (f y) (f z)
  | .destroyActor b r fm => .destroyActor b r fm
  | .hasActor b r => .hasActor b r
  | .actorRef b r => .actorRef b r
  | .send b r x => .send b r (f x)
  | .tell b r x => .tell b r (f x)
  | .cancel b a c => .cancel b a c
  | .copyBuffers b x => .copyBuffers b (f x)
  | .copyFiles b x => .copyFiles b (f x)
  | .forward b a raw => .forward b a (raw.map f)

def Msg.depth {X : Type} : Msg X → Nat
  | .forward _ _ raw => raw.depth + 1
  | _ => 0

theorem serial_head {X : Type} (m : Msg X) : ∃ rest, m.serial.1 = .nat m.type :: m.base.id :: rest := by
  cases m <;> exact ⟨_, rfl⟩

theorem serial_len {X : Type} (m : Msg X) : m.depth < m.serial.1.length := by
  induction m with
  | forward b a raw ih => simp only [Msg.depth, Msg.serial, Base.serial, List.length_append, List.length_cons]; omega
  | _ => simp [Msg.depth, Msg.serial, Base.serial]

theorem members_serial {X V Y : Type} (f : X → Y) (g : V → Y) (m : Msg X) : ∀ (n : Nat) (vs : List V), m.depth < n →
    vs.map g = m.serial.2.map f → (members n m.type m.serial.1 vs).map (Msg.map g) = some (m.map f) := by
  induction m with
  | forward b a raw ih =>
    intro n vs hn hv
    obtain ⟨n, rfl⟩ : ∃ k, n = k + 1 := ⟨n - 1, by simp only [Msg.depth] at hn; omega⟩
    simp only [Msg.depth] at hn
    obtain ⟨rest, hrest⟩ := serial_head raw
    have h := ih n vs (by omega) hv
    rcases hm : members n raw.type raw.serial.1 vs with _ | m'
    · rw [hm] at h; cases h
    · rw [hm] at h
      simp only [Option.map_some, Option.some.injEq] at h
      rw [hrest] at hm
      have ht : (Msg.forward b a raw).type = 12 := rfl
      rw [ht]
      simp [members, Msg.serial, Base.serial, baseMembers, hrest, PV.toNat?, hm, Msg.map, h]
  | _ =>
    intro n vs hn hv
    obtain ⟨n, rfl⟩ : ∃ k, n = k + 1 := ⟨n - 1, by omega⟩
    first
    | (simp only [Msg.serial, List.map_nil, List.map_eq_nil_iff] at hv
       subst hv
       simp [members, Msg.serial, Msg.type, Base.serial, baseMembers, refMembers, neg?, Msg.map])
    | (rcases vs with _ | ⟨v, _ | ⟨w, _ | ⟨u, _ | _⟩⟩⟩ <;> simp [Msg.serial] at hv
       simp [members, Msg.serial, Msg.type, Base.serial, baseMembers, refMembers, neg?, Msg.map, hv])

theorem members_map {V W : Type} (f : V → W) (n : Nat) : ∀ (t : Nat) (s : List PV) (vs : List V),
    members n t s (vs.map f) = (members n t s vs).map (Msg.map f) := by
  induction n with
  | zero => intro t s vs; rfl
  | succ n ih =>
    intro t s vs
    unfold members
    rcases baseMembers s with _ | b
    · rfl
    simp only [Option.bind_eq_bind, Option.bind_some, List.getElem?_map]
    split
    case h_13 =>
      rcases baseMembers (s.take 5) with _ | b'
      · rfl
      rcases s[5]? with _ | a
      · rfl
      rcases s[6]? with _ | a'
      · rfl
      simp only [Option.bind_some]
      rcases a'.toNat? with _ | k
      · rfl
      simp only [Option.bind_some]
      rw [ih]
      rcases members n k (s.drop 6) vs with _ | m <;> rfl
    case h_14 => rfl
    all_goals
      rcases neg? s 1 with _ | a1 <;> rcases neg? s 2 with _ | a2 <;> rcases neg? s 3 with _ | a3 <;>
      rcases refMembers s 3 with _ | r3 <;> rcases refMembers s 4 with _ | r4 <;>
      rcases vs[0]? with _ | v0 <;> rcases vs[1]? with _ | v1 <;> rcases vs[2]? with _ | v2 <;> rfl

/-! ## the sender -/

/-- the encoder context with the message entered -/
def EncCtx.plus (mid : Id) (c : EncCtx) : EncCtx := ⟨mid :: c.ctx, c.d⟩

theorem serial_plus (P : Pickler) (h : Heap) (mid : Id) (c : EncCtx) (x : Id) (hx : x ≠ mid) :
    serial P h (c.plus mid) x = serial P h c x := by
  have : ∀ a b s, buffered (c.plus mid) x a b s = buffered c x a b s := by
    intro a b s; simp [buffered, EncCtx.plus, hx]
  have hm : (x ∈ (c.plus mid).ctx) = (x ∈ c.ctx) := by simp [EncCtx.plus, hx]
  unfold serial
  simp only [this, hm]

theorem encL_plus {P : Pickler} {h : Heap} {mid : Id} {m : Msg Id} {fuel : Nat}
    (ih : ∀ (c : EncCtx) (x : Id), ¬ Reach h x mid →
      enc (serialSingle P h) fuel (c.plus mid) x =
        (enc (msgSingle P h mid m) fuel c x).map (fun r => (r.1, r.2.1, r.2.2.plus mid)))
    (cs : List Id) : ∀ (c : EncCtx), (∀ y ∈ cs, ¬ Reach h y mid) →
        encL (enc (serialSingle P h) fuel) (c.plus mid) cs =
          (encL (enc (msgSingle P h mid m) fuel) c cs).map (fun r => (r.1, r.2.1, r.2.2.plus mid)) := by
  induction cs with
  | nil => intro c _; rfl
  | cons y cs ihc =>
    intro c hc
    simp only [encL, ih c y (hc y (by simp))]
    rcases enc (msgSingle P h mid m) fuel c y with _ | ⟨p, b, c1⟩
    · rfl
    · simp only [Option.map_some, Option.bind_eq_bind, Option.bind_some]
      rw [ihc c1 (fun z hz => hc z (List.mem_cons_of_mem _ hz))]
      rcases encL (enc (msgSingle P h mid m) fuel) c1 cs with _ | ⟨ps, bs, c2⟩ <;> rfl

theorem enc_plus (P : Pickler) (h : Heap) (mid : Id) (m : Msg Id) (fuel : Nat) : ∀ (c : EncCtx) (x : Id), ¬ Reach h x mid →
    enc (serialSingle P h) fuel (c.plus mid) x =
      (enc (msgSingle P h mid m) fuel c x).map (fun r => (r.1, r.2.1, r.2.2.plus mid)) := by
  induction fuel with
  | zero => intro c x _; rfl
  | succ fuel ih =>
    intro c x hx
    have hne : x ≠ mid := fun e => hx (e ▸ .refl)
    have e1 : msgSingle P h mid m c x = serialSingle P h c x := by simp [msgSingle, hne]
    have e2 := serial_plus P h mid c x hne
    have hd : (c.plus mid).d = c.d := rfl
    simp only [enc, e1]
    simp only [serialSingle, e2, hd]
    rcases hs : serial P h c x with _ | ⟨sid, body, subs, r⟩
    · rfl
    · rcases subs with bs | ys
      · cases r <;> simp [EncCtx.plus]
      · obtain ⟨rfl, h1, h2⟩ := serial_subs hs
        simp only [if_true]
        have e3 : (⟨(c.plus mid).ctx ++ [x], c.d.set x c.d.length⟩ : EncCtx) = EncCtx.plus mid ⟨c.ctx ++ [x], c.d.set x c.d.length⟩ := rfl
        rw [e3, encL_plus ih ys _ (fun y hy hr => hx ((Reach.step .refl (h2 y hy)).trans' hr))]
        rcases encL (enc (msgSingle P h mid m) fuel) ⟨c.ctx ++ [x], c.d.set x c.d.length⟩ ys with _ | ⟨ps, bs, c2⟩ <;> rfl

theorem encL_total (P : Pickler) (h : Heap) (S : List Id) (hS : ∀ x ∈ S, ∀ y ∈ (h x).kids, y ∈ S) (fuel : Nat)
    (cs : List Id) : ∀ σ, (∀ c ∈ cs, c ∈ S) → left S σ < fuel →
        ∃ ps bs σ', encL (enc (serialSingle P h) fuel) σ cs = some (ps, bs, σ') := by
  induction cs with
  | nil => intro σ _ _; exact ⟨[], [], σ, rfl⟩
  | cons c cs ihc =>
    intro σ hc hf
    obtain ⟨p, b, σ1, e1, m1⟩ := enc_total P h S hS fuel σ c (hc c (by simp)) hf
    have hm := left_mono S m1
    obtain ⟨ps, bs, σ2, e2⟩ := ihc σ1 (fun c' h' => hc c' (List.mem_cons_of_mem _ h')) (by omega)
    exact ⟨_, _, σ2, encL_cons_eq.2 ⟨p, b, σ1, ps, bs, e1, e2, rfl, rfl⟩⟩

/-! ## the receiver -/

theorem mapM_val (vs : List Val) : (vs.map MVal.val).mapM MVal.toVal? = some vs := by
  induction vs with
  | nil => rfl
  | cons v vs ih => simp [MVal.toVal?, ih]

theorem msg_single_ok (P : Pickler) {s : RSt} {fs : List PV} {vs : List Val} {v : Val} {s' : RSt}
    (hs : deserialSingle P s fs vs = .ok (v, s')) :
    msgDeserialSingle P s fs (vs.map .val) = .ok (.val v, s') := by
  unfold deserialSingle at hs
  split at hs
  · next sid oid n f body =>
    have hne : sid ≠ msgSid := by
      rintro rfl
      simp [deserial, msgSid] at hs
    simp only [msgDeserialSingle, if_neg hne, mapM_val]
    simp only [deserialSingle, hs]
  · cases hs

/-- whatever the core deserializers decode is decoded the same with messages registered -/
theorem dec_embed (P : Pickler) (bufs : List Buf) (fuel : Nat) : ∀ (st : RSt) (pos : Nat) (c : PV) (v : Val) (st' : RSt)
    (pos' : Nat), dec (coreDeser P) bufs fuel st pos c = .ok v st' pos' →
    dec (msgDeser P) bufs fuel st pos c = .ok (.val v) st' pos' := by
  induction fuel with
  | zero => intro st pos c v st' pos' hd; simp [dec] at hd
  | succ fuel ih =>
    intro st pos c v st' pos' hd
    simp only [dec] at hd ⊢
    rcases hh : hdr4 c with _ | ⟨fs, n, final⟩
    · rw [hh] at hd; cases hd
    · rw [hh] at hd
      simp only at hd ⊢
      split
      · next hc =>
        rw [if_pos hc] at hd
        simp only [decLeaf] at hd ⊢
        rcases hs : (coreDeser P).single st fs (((bufs.drop pos).take n).map (coreDeser P).buf) with e | ⟨v1, s1⟩
        · rw [hs] at hd; cases hd
        · rw [hs] at hd
          simp only [BRes.ok.injEq] at hd
          obtain ⟨rfl, rfl, rfl⟩ := hd
          have := msg_single_ok P hs
          rw [List.map_map] at this
          have e : (MVal.val ∘ (coreDeser P).buf) = (msgDeser P).buf := rfl
          rw [e] at this
          have e2 : (msgDeser P).single = msgDeserialSingle P := rfl
          rw [e2, this]
      · next hc => exact dec_embed_node hc hd ih
where
  dec_embed_node {P : Pickler} {bufs : List Buf} {fuel : Nat} {fs : List PV} {n : Nat} {final : Bool} {st : RSt}
    {pos : Nat} {v : Val} {st' : RSt} {pos' : Nat} (hc : ¬ (final || n == 0) = true)
    (hd : (if (final || n == 0) = true then decLeaf (coreDeser P) bufs st pos fs n
      else decNode (coreDeser P) (fs.take (fs.length - n))
        (decL (coreDeser P) (dec (coreDeser P) bufs fuel) (fs.take (fs.length - n)) (fs.drop (fs.length - n)) []
          (fs.drop (fs.length - n)) st pos)) = .ok v st' pos')
    (ih : ∀ (st : RSt) (pos : Nat) (c : PV) (v : Val) (st' : RSt)
      (pos' : Nat), dec (coreDeser P) bufs fuel st pos c = .ok v st' pos' →
      dec (msgDeser P) bufs fuel st pos c = .ok (.val v) st' pos') :
    decNode (msgDeser P) (fs.take (fs.length - n))
        (decL (msgDeser P) (dec (msgDeser P) bufs fuel) (fs.take (fs.length - n)) (fs.drop (fs.length - n)) []
          (fs.drop (fs.length - n)) st pos) = .ok (.val v) st' pos' := by
    rw [if_neg hc] at hd
    have hL := decL_embed bufs fuel ih (fs.take (fs.length - n)) (fs.drop (fs.length - n)) (fs.drop (fs.length - n)) [] st pos
    rcases hl : decL (coreDeser P) (dec (coreDeser P) bufs fuel) (fs.take (fs.length - n)) (fs.drop (fs.length - n)) []
          (fs.drop (fs.length - n)) st pos with ⟨vs, s1, p1⟩ | e | _ | _
    · rw [hl] at hd
      have h1 := hL vs s1 p1 hl
      rw [List.map_nil] at h1
      rw [h1]
      simp only [decNode] at hd ⊢
      rcases hs : (coreDeser P).single s1 (fs.take (fs.length - n)) vs with e | ⟨v1, s2⟩
      · rw [hs] at hd; cases hd
      · rw [hs] at hd
        simp only [BRes.ok.injEq] at hd
        obtain ⟨rfl, rfl, rfl⟩ := hd
        have := msg_single_ok P hs
        have e2 : (msgDeser P).single = msgDeserialSingle P := rfl
        rw [e2, this]
    all_goals rw [hl] at hd; cases hd
  decL_embed {P : Pickler} (bufs : List Buf) (fuel : Nat)
    (ih : ∀ (st : RSt) (pos : Nat) (c : PV) (v : Val) (st' : RSt)
      (pos' : Nat), dec (coreDeser P) bufs fuel st pos c = .ok v st' pos' →
      dec (msgDeser P) bufs fuel st pos c = .ok (.val v) st' pos')
    (head all : List PV) : ∀ (cs : List PV) (done : List Val) (st : RSt) (pos : Nat) (vs : List Val) (st' : RSt) (pos' : Nat),
      decL (coreDeser P) (dec (coreDeser P) bufs fuel) head all done cs st pos = .ok vs st' pos' →
      decL (msgDeser P) (dec (msgDeser P) bufs fuel) head all (done.map .val) cs st pos = .ok (vs.map .val) st' pos' := by
    intro cs
    induction cs with
    | nil =>
      intro done st pos vs st' pos' hd
      simp only [decL, BRes.ok.injEq] at hd ⊢
      obtain ⟨rfl, rfl, rfl⟩ := hd
      exact ⟨rfl, rfl, rfl⟩
    | cons c cs ihc =>
      intro done st pos vs st' pos' hd
      simp only [decL] at hd ⊢
      rcases hc : dec (coreDeser P) bufs fuel st pos c with ⟨v1, s1, p1⟩ | e | _ | _
      · rw [hc] at hd
        rw [ih _ _ _ _ _ _ hc]
        have := ihc (done ++ [v1]) s1 p1 vs st' pos' hd
        rw [List.map_append] at this
        exact this
      · rw [hc] at hd; simp only at hd; split at hd <;> cases hd
      · rw [hc] at hd; cases hd
      · rw [hc] at hd; cases hd

end Xoscar.Serial
