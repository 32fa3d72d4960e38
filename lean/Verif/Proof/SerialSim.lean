import Verif.Proof.SerialSteps
/-!
# Decoding what was encoded
-/
namespace Xoscar.Serial

/-! ## the extra invariant `Fresh` -/

theorem fresh_open {h : Heap} {root : Id} {σ : EncCtx} {O : List Id} {g : Ghost} {δ : RSt} {W : List Id}
    (I : Inv h root σ O g δ) (hL : LooseOnce h root) {x : Id} (f : Fresh h σ O δ (x :: W)) (hx : x ∉ σ.ctx)
    (hl : (h x).loose = false) (hr : Reach h root x) (q : Id → Bool) :
    Fresh h (σ.reg x) (x :: O) δ ((h x).kids.filter q ++ W) := by
  have hnew := reg_new I hx hl
  have hlen : (σ.reg x).d.length = σ.d.length + 1 := length_set_new _ _ _ hnew
  have hd : ∀ y, y ≠ x → (σ.reg x).d.get? y = σ.d.get? y := by
    intro y hy
    simp only [EncCtx.reg, Dict.get?_set]
    rw [if_neg (fun e => hy e.symm)]
  have hdx : (σ.reg x).d.get? x = some σ.d.length := by simp [EncCtx.reg]
  have hmem : ∀ y, y ∈ (σ.reg x).ctx ↔ y ∈ σ.ctx ∨ y = x := by intro y; simp [EncCtx.reg]
  have hne : ∀ e, (h e).loose = true → e ≠ x := by rintro e he rfl; rw [hl] at he; cases he
  -- a loose component of `x` has not been met yet
  have hkid : ∀ e, (h e).loose = true → e ∈ (h x).kids → (∀ p ∈ σ.ctx, e ∉ (h p).kids) := by
    intro e he hk p hp hk'
    have := hL.parent e p x (I.ctxReach p hp) hr he hk' hk
    exact hx (this ▸ hp)
  refine ⟨?_, ?_, ?_, ?_, ?_⟩
  · intro k v hk; have := f.klt k v hk; omega
  · intro y hy n hn
    rcases List.mem_cons.1 hy with rfl | hy
    · rw [hdx] at hn; cases hn
      left
      rcases hc : δ.ctx.get? σ.d.length with _ | v
      · rfl
      · have := f.klt _ _ hc; omega
    · have hyx : y ≠ x := fun e => hx (e ▸ I.openCtx y hy)
      rw [hd y hyx] at hn
      exact f.opn y hy n hn
  · intro w hw hwl
    rcases List.mem_append.1 hw with hw | hw
    · exact ⟨x, (hmem x).2 (.inr rfl), (List.mem_filter.1 hw).1⟩
    · obtain ⟨p, h1, h2⟩ := f.par w (List.mem_cons_of_mem _ hw) hwl
      exact ⟨p, (hmem p).2 (.inl h1), h2⟩
  · intro e he
    rw [List.count_append]
    have h1 : ((h x).kids.filter q).count e ≤ (h x).kids.count e := List.Sublist.count_le e List.filter_sublist
    have h2 := hL.once e x hr he
    have h3 : W.count e ≤ 1 := by
      have := f.cnt e he
      rw [List.count_cons] at this; omega
    by_cases hk : e ∈ (h x).kids
    · have : W.count e = 0 := by
        rw [List.count_eq_zero]
        intro hw
        obtain ⟨p, p1, p2⟩ := f.par e (List.mem_cons_of_mem _ hw) he
        exact hkid e he hk p p1 p2
      omega
    · have : ((h x).kids.filter q).count e = 0 := by
        rw [List.count_eq_zero]
        intro hw
        exact hk (List.mem_filter.1 hw).1
      omega
  · intro e n he hn
    rw [hd e (hne e he)] at hn
    obtain ⟨h1, p, h2, h3⟩ := f.seen e n he hn
    refine ⟨?_, p, (hmem p).2 (.inl h2), h3⟩
    intro hw
    rcases List.mem_append.1 hw with hw | hw
    · exact hkid e he (List.mem_filter.1 hw).1 p h2 h3
    · exact h1 (List.mem_cons_of_mem _ hw)

theorem fresh_complete {h : Heap} {root : Id} {σ : EncCtx} {O : List Id} {g : Ghost} {δ δ' : RSt} {W : List Id}
    {x : Id} {n : Nat} {v : Val} (I : Inv h root σ (x :: O) g δ) (hxO : x ∉ O) (hn : σ.d.get? x = some n)
    (f : Fresh h σ (x :: O) δ W) (hc : δ'.ctx = δ.ctx.set n v) : Fresh h σ O δ' W := by
  have hxc : x ∈ σ.ctx := I.openCtx x (by simp)
  refine ⟨?_, ?_, f.par, f.cnt, f.seen⟩
  · intro k w hk
    rw [hc, Dict.get?_set] at hk
    split at hk
    · next e => subst e; obtain ⟨m, h1, h2⟩ := I.ctxd x hxc; rw [hn] at h1; cases h1; exact h2
    · exact f.klt k w hk
  · intro y hy m hm
    have hmn : ¬ n = m := by
      rintro rfl
      have : y = x := I.inj y (I.openCtx y (List.mem_cons_of_mem _ hy)) x hxc (by rw [hm, hn])
      exact hxO (this ▸ hy)
    rw [hc, Dict.get?_set, if_neg hmn]
    exact f.opn y (List.mem_cons_of_mem _ hy) m hm

theorem fresh_loose {h : Heap} {root : Id} {σ : EncCtx} {O : List Id} {g : Ghost} {δ δ' : RSt} {W : List Id}
    {x : Id} {v : Val} (I : Inv h root σ O g δ) (hl : (h x).loose = true)
    (f : Fresh h σ O δ (x :: W)) (hc : δ'.ctx = δ.ctx.set σ.d.length v) :
    Fresh h ⟨σ.ctx, σ.d.set x σ.d.length⟩ O δ' W := by
  have hxd : σ.d.get? x = none := by
    rcases hg : σ.d.get? x with _ | n
    · rfl
    · exact absurd (List.mem_cons_self) (f.seen x n hl hg).1
  have hlen : (σ.d.set x σ.d.length).length = σ.d.length + 1 := length_set_new _ _ _ hxd
  have hxc : x ∉ σ.ctx := fun hc => by have := I.ctxNL x hc; rw [hl] at this; cases this
  refine ⟨?_, ?_, fun w hw => f.par w (List.mem_cons_of_mem _ hw), ?_, ?_⟩
  · intro k w hk
    rw [hc, Dict.get?_set] at hk
    simp only [hlen]
    split at hk
    · next e => omega
    · have := f.klt k w hk; omega
  · intro y hy m hm
    have hyc := I.openCtx y hy
    simp only [Dict.get?_set] at hm
    rw [if_neg (by rintro rfl; exact hxc hyc)] at hm
    obtain ⟨k, h1, h2⟩ := I.ctxd y hyc
    rw [hm] at h1; cases h1
    rw [hc, Dict.get?_set, if_neg (by omega)]
    exact f.opn y hy m hm
  · intro e he
    have := f.cnt e he
    rw [List.count_cons] at this; omega
  · intro e n he hn
    simp only [Dict.get?_set] at hn
    split at hn
    · next e1 =>
      subst e1
      refine ⟨?_, f.par x (by simp) hl⟩
      intro hw
      have := f.cnt x hl
      rw [List.count_cons_self] at this
      have h2 : 0 < W.count x := List.count_pos_iff.2 hw
      omega
    · obtain ⟨h1, h2⟩ := f.seen e n he hn
      exact ⟨fun hw => h1 (List.mem_cons_of_mem _ hw), h2⟩

theorem fresh_drop {h : Heap} {σ : EncCtx} {O : List Id} {δ : RSt} {W : List Id} {x : Id}
    (f : Fresh h σ O δ (x :: W)) : Fresh h σ O δ W :=
  ⟨f.klt, f.opn, fun w hw => f.par w (List.mem_cons_of_mem _ hw),
   fun e he => by have := f.cnt e he; rw [List.count_cons] at this; omega,
   fun e n he hn => ⟨fun hw => (f.seen e n he hn).1 (List.mem_cons_of_mem _ hw), (f.seen e n he hn).2⟩⟩

theorem fresh_ph {h : Heap} {root : Id} {σ : EncCtx} {O : List Id} {g : Ghost} {δ δ' : RSt} {W : List Id}
    {x : Id} {n : Nat} (I : Inv h root σ O g δ) (hO : x ∈ O) (hn : σ.d.get? x = some n)
    (f : Fresh h σ O δ W) (hc : δ'.ctx = δ.ctx.set n (.ph n)) : Fresh h σ O δ' W := by
  have hxc : x ∈ σ.ctx := I.openCtx x hO
  refine ⟨?_, ?_, f.par, f.cnt, f.seen⟩
  · intro k w hk
    rw [hc, Dict.get?_set] at hk
    split at hk
    · next e => subst e; obtain ⟨m, h1, h2⟩ := I.ctxd x hxc; rw [hn] at h1; cases h1; exact h2
    · exact f.klt k w hk
  · intro y hy m hm
    rw [hc, Dict.get?_set]
    split
    · next e => subst e; exact .inr rfl
    · exact f.opn y hy m hm

/-! ## the leaf and node cases of `dec` -/

variable {δ V E : Type}

theorem dec_leaf (D : Deser δ V E) (fuel : Nat) (st : δ) (sid oid : PV) (body : List PV) (bs pre post : List Buf) :
    dec D (pre ++ bs ++ post) (fuel + 1) st pre.length (.tup (sid :: oid :: .nat bs.length :: .bool true :: body)) =
      match D.single st (sid :: oid :: .nat bs.length :: .bool true :: body) (bs.map D.buf) with
      | .ok (v, st') => .ok v st' (pre.length + bs.length)
      | .error e => .exc e := by
  have : ((pre ++ bs ++ post).drop pre.length).take bs.length = bs := by
    rw [List.append_assoc, List.drop_left, List.take_left]
  simp only [dec, hdr4, Bool.true_or, if_true, decLeaf, this]
  rfl

theorem dec_node (D : Deser δ V E) (bufs : List Buf) (fuel : Nat) (st : δ) (pos : Nat) (sid oid : PV)
    (body ps : List PV) (vs : List V) (st' : δ) (pos' : Nat)
    (h : decL D (dec D bufs fuel) (sid :: oid :: .nat ps.length :: .bool false :: body) ps [] ps st pos = .ok vs st' pos') :
    dec D bufs (fuel + 1) st pos (.tup (sid :: oid :: .nat ps.length :: .bool false :: body ++ ps)) =
      match D.single st' (sid :: oid :: .nat ps.length :: .bool false :: body) vs with
      | .ok (v, st'') => .ok v st'' pos'
      | .error e => .exc e := by
  simp only [dec, List.cons_append, hdr4, Bool.false_or]
  have hl : (sid :: oid :: PV.nat ps.length :: PV.bool false :: (body ++ ps)) =
      (sid :: oid :: PV.nat ps.length :: PV.bool false :: body) ++ ps := rfl
  have hlen : ((sid :: oid :: PV.nat ps.length :: PV.bool false :: body) ++ ps).length - ps.length =
      (sid :: oid :: PV.nat ps.length :: PV.bool false :: body).length := by simp; omega
  cases ps with
  | nil =>
    simp only [decL, BRes.ok.injEq] at h
    obtain ⟨rfl, rfl, rfl⟩ := h
    simp only [List.length_nil, beq_self_eq_true, if_true, decLeaf, List.take_zero, List.map_nil, List.append_nil, Nat.add_zero]
    rfl
  | cons p ps =>
    have hnz : ((p :: ps).length == 0) = false := by simp
    simp only [hnz, Bool.false_eq_true, if_false, hl, hlen, List.take_left, List.drop_left, h, decNode]
    rfl

/-! ## simulation -/

/-- either no object contains itself, or no loose object occurs twice -/
def Good (h : Heap) (root : Id) (σ : EncCtx) (O : List Id) (δ : RSt) (W : List Id) : Prop :=
  Acyclic h root ∨ (LooseOnce h root ∧ Fresh h σ O δ W)

theorem Good.drop {h : Heap} {root : Id} {σ : EncCtx} {O : List Id} {δ : RSt} {W : List Id} {x : Id}
    (f : Good h root σ O δ (x :: W)) : Good h root σ O δ W := by
  rcases f with f | ⟨f1, f2⟩
  · exact .inl f
  · exact .inr ⟨f1, fresh_drop f2⟩

/-- decoding what `enc` made of one object -/
def SimAt (P : Pickler) (h : Heap) (root : Id) (fuel : Nat) : Prop :=
  ∀ (σ : EncCtx) (x : Id) (p : PV) (bs : List Buf) (σ' : EncCtx) (O : List Id) (g : Ghost) (δ : RSt) (W : List Id)
    (pre post : List Buf),
    enc (serialSingle P h) fuel σ x = some (p, bs, σ') → Inv h root σ O g δ →
    Good h root σ O δ (x :: W) → Reach h root x → (∀ y ∈ O, ReachPlus h y x) →
    ∃ v g' δ', dec (coreDeser P) (pre ++ bs ++ post) fuel δ pre.length p = .ok v δ' (pre.length + bs.length) ∧
      Inv h root σ' O g' δ' ∧ Good h root σ' O δ' W ∧ Ext O σ g δ σ' g' δ' ∧ VRel h σ' O g' δ' x v

theorem All₂.impl {α β : Type} {R S : α → β → Prop} {as : List α} {bs : List β}
    (h : All₂ R as bs) (hi : ∀ a b, R a b → S a b) : All₂ S as bs := h.imp (fun a b _ r => hi a b r)

theorem simL {P : Pickler} {h : Heap} {root : Id} {fuel : Nat} (hs : SimAt P h root fuel) (cs : List Id) :
    ∀ (σ : EncCtx) (ps : List PV) (bs : List Buf) (σ' : EncCtx) (O : List Id) (g : Ghost) (δ : RSt) (W : List Id)
    (pre post : List Buf) (head all : List PV) (done : List Val),
    encL (enc (serialSingle P h) fuel) σ cs = some (ps, bs, σ') →
    (∀ c ∈ cs, Reach h root c ∧ ∀ y ∈ O, ReachPlus h y c) → Inv h root σ O g δ →
    Good h root σ O δ (cs ++ W) →
    ∃ vs g' δ', decL (coreDeser P) (dec (coreDeser P) (pre ++ bs ++ post) fuel) head all done ps δ pre.length =
        .ok (done ++ vs) δ' (pre.length + bs.length) ∧
      Inv h root σ' O g' δ' ∧ Good h root σ' O δ' W ∧ Ext O σ g δ σ' g' δ' ∧ All₂ (VRel h σ' O g' δ') cs vs := by
  induction cs with
  | nil =>
    intro σ ps bs σ' O g δ W pre post head all done he _ I G
    simp only [encL, Option.some.injEq, Prod.mk.injEq] at he
    obtain ⟨rfl, rfl, rfl⟩ := he
    exact ⟨[], g, δ, by simp [decL], I, G, .refl _ _ _ _, .nil⟩
  | cons c cs ih =>
    intro σ ps bs σ' O g δ W pre post head all done he hc I G
    obtain ⟨p, b, σ1, qs, bs2, he1, he2, rfl, rfl⟩ := encL_cons_eq.1 he
    obtain ⟨c2, c3⟩ := hc c (by simp)
    obtain ⟨v, g1, δ1, d1, I1, G1, E1, V1⟩ := hs σ c p b σ1 O g δ (cs ++ W) pre (bs2 ++ post) he1 I G c2 c3
    obtain ⟨vs, g2, δ2, d2, I2, G2, E2, V2⟩ := ih σ1 qs bs2 σ' O g1 δ1 W (pre ++ b) post head all (done ++ [v]) he2
      (fun c' hc' => hc c' (List.mem_cons_of_mem _ hc')) I1 G1
    refine ⟨v :: vs, g2, δ2, ?_, I2, G2, E1.trans I.openCtx E2, .cons (V1.ext I1.openCtx E2) V2⟩
    simp only [decL]
    have e1 : pre ++ (b ++ bs2) ++ post = pre ++ b ++ (bs2 ++ post) := by simp
    have e2 : pre ++ (b ++ bs2) ++ post = pre ++ b ++ bs2 ++ post := by simp
    rw [e1, d1]
    simp only
    rw [← e1, e2]
    rw [List.length_append] at d2
    rw [d2]
    simp [Nat.add_assoc]

end Xoscar.Serial
