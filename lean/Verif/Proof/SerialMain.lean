import Verif.Proof.SerialSim
/-!
# The simulation theorem
-/
namespace Xoscar.Serial

theorem serial_in {P : Pickler} {h : Heap} {c : EncCtx} {x : Id} (hx : x ∈ c.ctx) (hl : (h x).loose = false) :
    serial P h c x = .placeholder := by
  unfold serial buffered
  split <;> simp_all [Obj.loose]

theorem serial_notPh {P : Pickler} {h : Heap} {c : EncCtx} {x : Id} (hx : x ∉ c.ctx) :
    serial P h c x ≠ .placeholder := by
  unfold serial buffered
  split <;> simp_all

/-- the header of an object that is not a placeholder, as decoded -/
theorem deserialSingle_eq (P : Pickler) (s : RSt) (sid oid : Nat) (n : Nat) (f : Bool) (body : List PV) (subs : List Val)
    (v : Val) (s' : RSt) (hd : deserial P s sid oid body subs = .ok (v, s')) :
    deserialSingle P s (.nat sid :: .nat oid :: .nat n :: .bool f :: body) subs = .ok (settle oid v s') := by
  simp only [deserialSingle, hd]

/-- something with components is not left in a header -/
theorem reachPlus_notInline {h : Heap} {x y : Id} (hr : ReachPlus h x y) : inlinable (h x) = none := by
  have hk : (h x).kids ≠ [] := by
    obtain ⟨z, h1, h2⟩ := hr
    have : ∀ w, Reach h x w → w = x ∨ (h x).kids ≠ [] := by
      intro w hw
      induction hw with
      | refl => exact .inl rfl
      | step _ hz ih =>
        rcases ih with rfl | ih
        · right; intro e; rw [e] at hz; cases hz
        · exact .inr ih
    rcases this z h1 with rfl | h3
    · intro e; rw [e] at h2; cases h2
    · exact h3
  cases hx : h x <;> first | rfl | (rw [hx] at hk; exact absurd rfl hk)

section
variable {P : Pickler} {h : Heap} {root : Id} {fuel : Nat} {σ : EncCtx} {x : Id} {p : PV} {bs : List Buf} {σ' : EncCtx}
  {O : List Id} {g : Ghost} {δ : RSt} {W : List Id}

/-- references to objects met before -/
theorem sim_ph (hx : x ∈ σ.ctx) (pre post : List Buf)
    (he : enc (serialSingle P h) (fuel + 1) σ x = some (p, bs, σ'))
    (I : Inv h root σ O g δ) (G : Good h root σ O δ (x :: W)) (hr : Reach h root x) (hO : ∀ y ∈ O, ReachPlus h y x) :
    ∃ v g' δ', dec (coreDeser P) (pre ++ bs ++ post) (fuel + 1) δ pre.length p = .ok v δ' (pre.length + bs.length) ∧
      Inv h root σ' O g' δ' ∧ Good h root σ' O δ' W ∧ Ext O σ g δ σ' g' δ' ∧ VRel h σ' O g' δ' x v := by
  have hl := I.ctxNL x hx
  obtain ⟨n, hn, hlt⟩ := I.ctxd x hx
  have hser := serial_in (P := P) hx hl
  simp only [enc, serialSingle, hser, hn, Option.getD_some, Option.some.injEq, Prod.mk.injEq] at he
  obtain ⟨rfl, rfl, rfl⟩ := he
  have hleaf := dec_leaf (coreDeser P) fuel δ (.nat 7) (.nat n) [] [] pre post
  simp only [List.length_nil, List.map_nil] at hleaf
  have hdes : deserial P δ 7 n [] [] = .ok (.ph n, δ) := rfl
  have hsing := deserialSingle_eq P δ 7 n 0 true [] [] _ _ hdes
  by_cases hxO : x ∈ O
  · -- still open
    rcases G with G | ⟨G1, G2⟩
    · exact absurd (hO x hxO) (G x hr)
    · obtain ⟨δ', s1, I', E', V', c'⟩ := ph_open_inv I (reachPlus_notInline (hO x hxO)) hn hxO (G2.opn x hxO n hn)
      refine ⟨_, g, δ', ?_, I', .inr ⟨G1, fresh_drop (fresh_ph I hxO hn G2 c')⟩, E', V'⟩
      rw [hleaf]
      simp only [coreDeser, hsing, s1]
      rfl
  · obtain ⟨v, hv⟩ := (I.fdef x).2 ⟨hx, hxO⟩
    obtain ⟨δ', s1, I', E', c'⟩ := ph_done_inv I hn hv
    refine ⟨_, g, δ', ?_, I', ?_, E', .inl (res_of_F I' hv)⟩
    · rw [hleaf]
      simp only [coreDeser, hsing, s1]
      rfl
    · rcases G.drop with G | ⟨G1, G2⟩
      · exact .inl G
      · exact .inr ⟨G1, ⟨fun k v hk => G2.klt k v (by rw [← c']; exact hk),
          fun y hy m hm => by rw [c']; exact G2.opn y hy m hm, G2.par, G2.cnt, G2.seen⟩⟩

/-- leaves decoded to atoms -/
theorem sim_atom {sid : Nat} {body : List PV} {cs : List Buf} {a : Atom} (hx : x ∉ σ.ctx) (pre post : List Buf)
    (hser : serial P h σ x = .done sid body (.bufs cs) true)
    (hdes : ∀ s n, deserial P s sid n body (cs.map (coreDeser P).buf) = .ok (.atom a, s))
    (hobj : ∀ σ O g δ, ObjRel h σ O g δ x (.atom a)) (hl : (h x).loose = false)
    (he : enc (serialSingle P h) (fuel + 1) σ x = some (p, bs, σ'))
    (I : Inv h root σ O g δ) (G : Good h root σ O δ (x :: W)) (hr : Reach h root x) :
    ∃ v g' δ', dec (coreDeser P) (pre ++ bs ++ post) (fuel + 1) δ pre.length p = .ok v δ' (pre.length + bs.length) ∧
      Inv h root σ' O g' δ' ∧ Good h root σ' O δ' W ∧ Ext O σ g δ σ' g' δ' ∧ VRel h σ' O g' δ' x v := by
  simp only [enc, serialSingle, hser, if_true, Option.some.injEq, Prod.mk.injEq, Subs.length, Subs.final] at he
  obtain ⟨rfl, rfl, hσ⟩ := he
  have hσ' : σ' = σ.reg x := hσ.symm
  subst hσ'
  obtain ⟨I1, E1, hn, hxO⟩ := open_inv I hx hl hr
  obtain ⟨hset, g', I2, E2, V2, _⟩ := complete_atom I1 hxO hn (noph_new I) a hobj
  refine ⟨.atom a, g', _, ?_, I2, ?_, E1.trans I.openCtx E2, V2⟩
  · rw [dec_leaf]
    have := deserialSingle_eq P δ sid σ.d.length cs.length true body _ _ _ (hdes δ σ.d.length)
    simp only [coreDeser] at this ⊢
    rw [this, hset]
  · rcases G with G | ⟨G1, G2⟩
    · exact .inl G
    · have := fresh_open I G1 G2 hx hl hr (fun _ => false)
      rw [List.filter_eq_nil_iff.2 (by simp), List.nil_append] at this
      exact .inr ⟨G1, fresh_complete I1 hxO hn this rfl⟩

/-- opaque leaves -/
theorem sim_other {u : Nat} (hP : P.Law) (hx : x ∉ σ.ctx) (pre post : List Buf) (hhx : h x = .other u)
    (he : enc (serialSingle P h) (fuel + 1) σ x = some (p, bs, σ'))
    (I : Inv h root σ O g δ) (G : Good h root σ O δ (x :: W)) (hr : Reach h root x) :
    ∃ v g' δ', dec (coreDeser P) (pre ++ bs ++ post) (fuel + 1) δ pre.length p = .ok v δ' (pre.length + bs.length) ∧
      Inv h root σ' O g' δ' ∧ Good h root σ' O δ' W ∧ Ext O σ g δ σ' g' δ' ∧ VRel h σ' O g' δ' x v := by
  have hl : (h x).loose = false := by rw [hhx]; rfl
  have hin : inlinable (h x) = none := by rw [hhx]; rfl
  simp only [enc, serialSingle, serial, hhx, buffered, if_neg hx, if_true, Option.some.injEq, Prod.mk.injEq,
    Subs.length, Subs.final] at he
  obtain ⟨rfl, rfl, hσ⟩ := he
  have hσ' : σ' = σ.reg x := hσ.symm
  subst hσ'
  obtain ⟨I1, E1, hn, hxO⟩ := open_inv I hx hl hr
  obtain ⟨g', δ', hb, I2, E2, V2, _, hc⟩ := complete_inv I1 hxO hn hin (.other u) (by simp only [NewObj, hhx])
  refine ⟨.ref δ.heap.length, g', δ', ?_, I2, ?_, E1.trans I.openCtx E2, V2⟩
  · rw [dec_leaf]
    have hfm : ((P.dump u).map (coreDeser P).buf).filterMap Val.toBuf? = P.dump u := by
      generalize P.dump u = l
      induction l with
      | nil => rfl
      | cons b l ih =>
        rw [List.map_cons, List.filterMap_cons]
        rw [ih]
        rfl
    have hdes : deserial P δ 0 σ.d.length [] ((P.dump u).map (coreDeser P).buf) =
        .ok (.ref δ.heap.length, { δ with heap := δ.heap ++ [.other u] }) := by
      simp only [deserial]
      rw [hfm, hP u]
      rfl
    have := deserialSingle_eq P δ 0 σ.d.length (P.dump u).length true [] _ _ _ hdes
    have hb' : settle σ.d.length (.ref δ.heap.length) { δ with heap := δ.heap ++ [.other u] } = (.ref δ.heap.length, δ') := hb
    rw [hb'] at this
    simp only [coreDeser] at this ⊢
    rw [this]
  · rcases G with G | ⟨G1, G2⟩
    · exact .inl G
    · have := fresh_open I G1 G2 hx hl hr (fun _ => false)
      rw [List.filter_eq_nil_iff.2 (by simp), List.nil_append] at this
      exact .inr ⟨G1, fresh_complete I1 hxO hn this hc⟩

/-- loose objects -/
theorem sim_loose (hl : (h x).loose = true) (pre post : List Buf)
    (he : enc (serialSingle P h) (fuel + 1) σ x = some (p, bs, σ'))
    (I : Inv h root σ O g δ) (G : Good h root σ O δ (x :: W)) :
    ∃ v g' δ', dec (coreDeser P) (pre ++ bs ++ post) (fuel + 1) δ pre.length p = .ok v δ' (pre.length + bs.length) ∧
      Inv h root σ' O g' δ' ∧ Good h root σ' O δ' W ∧ Ext O σ g δ σ' g' δ' ∧ VRel h σ' O g' δ' x v := by
  have hx : x ∉ σ.ctx := fun hc => by have := I.ctxNL x hc; rw [hl] at this; cases this
  have main : ∀ (body : List PV) (o : RObj), serial P h σ x = .done 6 body (.bufs []) false → o.skel = looseSkel (h x) →
      (∀ s n, deserial P s 6 n body [] = .ok (s.alloc o)) → 
      ∃ v g' δ', dec (coreDeser P) (pre ++ bs ++ post) (fuel + 1) δ pre.length p = .ok v δ' (pre.length + bs.length) ∧
      Inv h root σ' O g' δ' ∧ Good h root σ' O δ' W ∧ Ext O σ g δ σ' g' δ' ∧ VRel h σ' O g' δ' x v := by
    intro body o hser ho hdes
    simp only [enc, serialSingle, hser, Option.some.injEq, Prod.mk.injEq, Subs.length, Subs.final,
      List.length_nil, Bool.false_eq_true, if_false] at he
    obtain ⟨rfl, rfl, rfl⟩ := he
    obtain ⟨hset, g', I2, E2, V2⟩ := loose_inv I hl o ho
    refine ⟨_, g', _, ?_, I2, ?_, E2, V2⟩
    · have hleaf := dec_leaf (coreDeser P) fuel δ (.nat 6) (.nat σ.d.length) body [] pre post
      simp only [List.length_nil, List.map_nil] at hleaf
      rw [hleaf]
      have := deserialSingle_eq P δ 6 σ.d.length 0 true body [] _ _ (hdes δ σ.d.length)
      simp only [coreDeser, List.length_nil]
      rw [this]
      simp only [hset]
    · rcases G with G | ⟨G1, G2⟩
      · exact .inl G
      · exact .inr ⟨G1, fresh_loose I hl G2 rfl⟩
  cases hhx : h x with
  | bareDict u =>
    refine main [.obj u] (.bareDict u) ?_ (by rw [hhx]; rfl) (fun s n => rfl)
    simp only [serial, hhx, if_neg hx]
  | dict ty kvs =>
    cases ty with
    | some t => rw [hhx] at hl; cases hl
    | none =>
      cases kvs with
      | cons kv kvs => rw [hhx] at hl; cases hl
      | nil => exact main [] (.dict none []) (by simp only [serial, hhx]) (by rw [hhx]; rfl) (fun s n => rfl)
  | _ => rw [hhx] at hl; cases hl

theorem Reach.trans' {h : Heap} {a b c : Id} (h1 : Reach h a b) (h2 : Reach h b c) : Reach h a c := by
  induction h2 with
  | refl => exact h1
  | step _ hk ih => exact .step ih hk

theorem ReachPlus.kid {h : Heap} {y x c : Id} (h1 : ReachPlus h y x) (hc : c ∈ (h x).kids) : ReachPlus h y c := by
  obtain ⟨z, h1, h2⟩ := h1
  exact ⟨x, .step h1 h2, hc⟩

/-- containers -/
theorem sim_node (hsim : SimAt P h root fuel) {sid : Nat} {body : List PV} {props : List Id} (hx : x ∉ σ.ctx)
    (pre post : List Buf)
    (hser : serial P h σ x = .done sid body (.objs props) true)
    (hprops : props = (h x).kids.filter (fun y => (inlinable (h y)).isNone)) (hl : (h x).loose = false)
    (hbuild : ∀ σ1 g1 δ1 vs n, Inv h root σ1 (x :: O) g1 δ1 → All₂ (VRel h σ1 (x :: O) g1 δ1) props vs →
      (∀ y ∈ x :: O, Reach h y x) →
      ∃ o, NewObj h σ1 (x :: O) g1 δ1 x o ∧ deserial P δ1 sid n body vs =
        .ok (.ref δ1.heap.length, addCbs δ1.heap.length 0 o.slots { δ1 with heap := δ1.heap ++ [o] }))
    (he : enc (serialSingle P h) (fuel + 1) σ x = some (p, bs, σ')) (hin : inlinable (h x) = none)
    (I : Inv h root σ O g δ) (G : Good h root σ O δ (x :: W)) (hr : Reach h root x) (hO : ∀ y ∈ O, ReachPlus h y x) :
    ∃ v g' δ', dec (coreDeser P) (pre ++ bs ++ post) (fuel + 1) δ pre.length p = .ok v δ' (pre.length + bs.length) ∧
      Inv h root σ' O g' δ' ∧ Good h root σ' O δ' W ∧ Ext O σ g δ σ' g' δ' ∧ VRel h σ' O g' δ' x v := by
  simp only [enc, serialSingle, hser, if_true, Subs.length, Subs.final, Option.bind_eq_bind,
    Option.bind_eq_some_iff, Option.pure_def, Option.some.injEq, Prod.exists, Prod.mk.injEq] at he
  obtain ⟨ps, cs, σ1, he, rfl, rfl, rfl⟩ := he
  have hlen := encL_length he
  obtain ⟨I1, E1, hn, hxO⟩ := open_inv I hx hl hr
  have hkid : ∀ c ∈ props, c ∈ (h x).kids ∧ inlinable (h c) = none := by
    intro c hc
    rw [hprops, List.mem_filter] at hc
    exact ⟨hc.1, by simpa using hc.2⟩
  have hG1 : Good h root (σ.reg x) (x :: O) δ (props ++ W) := by
    rcases G with G | ⟨G1, G2⟩
    · exact .inl G
    · rw [hprops]
      exact .inr ⟨G1, fresh_open I G1 G2 hx hl hr _⟩
  obtain ⟨vs, g2, δ2, d2, I2, G2, E2, V2⟩ := simL hsim props (σ.reg x) ps cs σ1 (x :: O) g δ W pre post
    (.nat sid :: .nat σ.d.length :: .nat ps.length :: .bool false :: body) ps [] he
    (by
      intro c hc
      obtain ⟨c1, c2⟩ := hkid c hc
      refine ⟨.step hr c1, ?_⟩
      intro y hy
      rcases List.mem_cons.1 hy with rfl | hy
      · exact ⟨y, .refl, c1⟩
      · exact (hO y hy).kid c1) I1 hG1
  have hn2 : σ1.d.get? x = some σ.d.length := by
    rw [E2.d x (I1.openCtx x (by simp))]; exact hn
  obtain ⟨o, ho, hdes⟩ := hbuild σ1 g2 δ2 vs σ.d.length I2 V2 (by
    intro y hy
    rcases List.mem_cons.1 hy with rfl | hy
    · exact .refl
    · obtain ⟨z, z1, z2⟩ := hO y hy
      exact .step z1 z2)
  obtain ⟨g3, δ3, hb, I3, E3, V3, _, hc⟩ := complete_inv I2 hxO hn2 hin o ho
  refine ⟨.ref δ2.heap.length, g3, δ3, ?_, I3, ?_, ?_, V3⟩
  · rw [List.nil_append] at d2
    have hnode := dec_node (coreDeser P) (pre ++ cs ++ post) fuel δ pre.length (.nat sid) (.nat σ.d.length) body ps
      vs δ2 _ d2
    rw [← hlen]
    rw [hnode]
    have := deserialSingle_eq P δ2 sid σ.d.length ps.length false body _ _ _ hdes
    have hb' : settle σ.d.length (.ref δ2.heap.length)
      (addCbs δ2.heap.length 0 o.slots { δ2 with heap := δ2.heap ++ [o] }) = (.ref δ2.heap.length, δ3) := hb
    rw [hb'] at this
    simp only [coreDeser] at this ⊢
    rw [this]
  · rcases G2 with G2 | ⟨G3, G4⟩
    · exact .inl G2
    · exact .inr ⟨G3, fresh_complete I2 hxO hn2 G4 hc⟩
  · exact E1.trans I.openCtx ((E2.weaken (fun y hy => List.mem_cons_of_mem _ hy)).trans
      (fun y hy => I1.openCtx y (List.mem_cons_of_mem _ hy)) E3)

end

theorem fromUTF8_toUTF8 (s : String) : String.fromUTF8? s.toUTF8 = some s := by
  unfold String.fromUTF8?
  rw [dif_pos (show s.toUTF8.IsValidUTF8 from s.isValidUTF8)]
  rfl

/-- hashable objects have only hashable components -/
theorem Hashable.reach {h : Heap} {k x : Id} (hk : Hashable h k) (hr : Reach h k x) : Hashable h x := by
  induction hr with
  | refl => exact hk
  | step _ hz ih =>
    cases ih with
    | tuple e hall => rw [e] at hz; exact hall _ hz
    | prim e => rw [e] at hz; cases hz
    | bytes e => rw [e] at hz; cases hz
    | str e => rw [e] at hz; cases hz
    | other e => rw [e] at hz; cases hz

theorem Hashable.notDict {h : Heap} {x : Id} (hk : Hashable h x) {ty kvs} : h x ≠ .dict ty kvs := by
  intro e
  cases hk with
  | tuple e' _ => rw [e] at e'; cases e'
  | prim e' => rw [e] at e'; cases e'
  | bytes e' => rw [e] at e'; cases e'
  | str e' => rw [e] at e'; cases e'
  | other e' => rw [e] at e'; cases e'

/-- values that are not placeholders are final -/
theorem all_res {h : Heap} {root : Id} {σ : EncCtx} {O : List Id} {g : Ghost} {δ : RSt} (I : Inv h root σ O g δ)
    {xs : List Id} {vs : List Val} (ha : All₂ (VRel h σ O g δ) xs vs) (hx : ∀ y ∈ xs, y ∉ O) :
    All₂ (Res h g δ.heap) xs vs ∧ vs.any Val.isPh = false := by
  induction ha with
  | nil => exact ⟨.nil, rfl⟩
  | cons r _ ih =>
    obtain ⟨i1, i2⟩ := ih (fun y hy => hx y (List.mem_cons_of_mem _ hy))
    rcases r with r | r
    · exact ⟨.cons r i1, by simp only [List.any_cons, res_noph I r, i2]; rfl⟩
    · exact absurd r.2.2.1 (hx _ (by simp))

theorem sim {P : Pickler} {h : Heap} {root : Id} (hP : P.Law) (S : Supported h root) (fuel : Nat) :
    SimAt P h root fuel := by
  induction fuel with
  | zero => intro σ x p bs σ' O g δ W pre post he; simp [enc] at he
  | succ fuel ih =>
    intro σ x p bs σ' O g δ W pre post he I G hr hO
    by_cases hx : x ∈ σ.ctx
    · exact sim_ph hx pre post he I G hr hO
    by_cases hl : (h x).loose = true
    · exact sim_loose hl pre post he I G
    have hl : (h x).loose = false := by simpa using hl
    cases hhx : h x with
    | prim e a =>
      refine sim_atom (sid := 1) (body := [.atom a]) (cs := []) (a := a) hx pre post (by simp only [serial, hhx, buffered, if_neg hx]) (fun s n => rfl)
        (fun _ _ _ _ => by simp only [ObjRel, hhx]) hl he I G hr
    | bytes ty b =>
      refine sim_atom (sid := 2) (body := []) (cs := [b]) (a := .bytes b) hx pre post (by simp only [serial, hhx, buffered, if_neg hx]) (fun s n => rfl)
        (fun _ _ _ _ => by simp only [ObjRel, hhx]) hl he I G hr
    | str ty b =>
      refine sim_atom (sid := 3) (body := []) (cs := [b.toUTF8]) (a := .str b) hx pre post (by simp only [serial, hhx, buffered, if_neg hx]) (fun s n => ?_)
        (fun _ _ _ _ => by simp only [ObjRel, hhx]) hl he I G hr
      simp only [List.map_cons, List.map_nil, coreDeser, deserial, fromUTF8_toUTF8]
    | other u => exact sim_other hP hx pre post hhx he I G hr
    | bareDict u => rw [hhx] at hl; cases hl
    | tuple ty xs =>
      refine sim_node ih hx pre post (by simp only [serial, hhx, buffered, if_neg hx]; rfl)
        (by rw [serialIterable_props, hhx]; rfl) hl ?_ he (by rw [hhx]; rfl) I G hr hO
      intro σ1 g1 δ1 vs n I1 V1 hR
      obtain ⟨rs, r1, r2⟩ := deserialIterable_ok h xs vs V1.length_eq.symm
      have V2 := r2.forall₂ (R := VRel h σ1 (x :: O) g1 δ1) (fun y a hy => .inl (.inl ⟨a, hy, rfl⟩)) V1
      obtain ⟨V3, hnp⟩ := all_res I1 V2 (by
        intro y hy hyO
        refine S.tuples x ty xs hr hhx ?_
        have hk : y ∈ (h x).kids := by rw [hhx]; exact hy
        have hyx := hR y hyO
        cases hyx with
        | refl => exact ⟨x, .refl, hk⟩
        | step h1 h2 => exact ⟨_, (Reach.step .refl hk).trans' h1, h2⟩)
      refine ⟨.tuple ty rs, by simp only [NewObj, hhx]; exact ⟨rs, rfl, V3⟩, ?_⟩
      simp only [deserial, r1, tyPV_toTy, hnp, Bool.false_eq_true, if_false]
      rfl
    | list ty xs =>
      refine sim_node ih hx pre post (by simp only [serial, hhx, buffered, if_neg hx]; rfl)
        (by rw [serialIterable_props, hhx]; rfl) hl ?_ he (by rw [hhx]; rfl) I G hr hO
      intro σ1 g1 δ1 vs n I1 V1 hR
      obtain ⟨rs, r1, r2⟩ := deserialIterable_ok h xs vs V1.length_eq.symm
      have V2 := r2.forall₂ (R := VRel h σ1 (x :: O) g1 δ1) (fun y a hy => .inl (.inl ⟨a, hy, rfl⟩)) V1
      refine ⟨.list ty rs, by simp only [NewObj, hhx]; exact ⟨rs, rfl, V2⟩, ?_⟩
      simp only [deserial, r1, tyPV_toTy]
      rfl
    | dict ty kvs =>
      have hser : serial P h σ x = .done 6 [.tup [.list (serialIterable h 0 (kvs.map Prod.fst)).1,
          .list ((serialIterable h 0 (kvs.map Prod.fst)).2.1.map .nat)],
          .tup [.list (serialIterable h 0 (kvs.map Prod.snd)).1,
          .list ((serialIterable h 0 (kvs.map Prod.snd)).2.1.map .nat)],
          .nat (serialIterable h 0 (kvs.map Prod.fst)).2.2.length, tyPV ty]
          (.objs ((serialIterable h 0 (kvs.map Prod.fst)).2.2 ++ (serialIterable h 0 (kvs.map Prod.snd)).2.2)) true := by
        cases ty with
        | some t => simp only [serial, hhx, buffered, if_neg hx]
        | none =>
          cases kvs with
          | nil => rw [hhx] at hl; cases hl
          | cons kv kvs => simp only [serial, hhx, buffered, if_neg hx]
      refine sim_node ih hx pre post hser
        (by rw [serialIterable_props, serialIterable_props, hhx, ← List.filter_append]; rfl) hl ?_ he (by rw [hhx]; rfl) I G hr hO
      intro σ1 g1 δ1 vs n I1 V1 hR
      obtain ⟨Vk, Vv⟩ := V1.take_drop
      obtain ⟨ks, k1, k2⟩ := deserialIterable_ok h (kvs.map Prod.fst) _ Vk.length_eq.symm
      obtain ⟨ws, w1, w2⟩ := deserialIterable_ok h (kvs.map Prod.snd) _ Vv.length_eq.symm
      have K2 := k2.forall₂ (R := VRel h σ1 (x :: O) g1 δ1) (fun y a hy => .inl (.inl ⟨a, hy, rfl⟩)) Vk
      have W2 := w2.forall₂ (R := VRel h σ1 (x :: O) g1 δ1) (fun y a hy => .inl (.inl ⟨a, hy, rfl⟩)) Vv
      obtain ⟨K3, hnp⟩ := all_res I1 K2 (by
        intro y hy hyO
        obtain ⟨kv, hkv, rfl⟩ := List.mem_map.1 hy
        exact ((S.keys x ty kvs hr hhx kv hkv).reach (hR _ hyO)).notDict hhx)
      have hl : ks.length = ws.length := by
        have e1 := K2.length_eq
        have e2 := W2.length_eq
        simp only [List.length_map] at e1 e2
        omega
      refine ⟨.dict ty (ks.zip ws), by simp only [NewObj, hhx]; exact ⟨ks, ws, rfl, K3, W2⟩, ?_⟩
      simp only [deserial, k1, w1, tyPV_toTy, hnp, Bool.false_eq_true, if_false, RObj.slots]
      rw [List.map_snd_zip (by omega)]
      rfl

end Xoscar.Serial
