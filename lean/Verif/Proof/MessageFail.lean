import Verif.Proof.Message
/-!
# Messages whose payload does not decode
-/
namespace Xoscar.Serial

/-- no object entered into the context between `σ` and `σ'` fails to load at the receiver -/
def Loaded (P P' : Pickler) (h : Heap) (σ σ' : EncCtx) : Prop :=
  ∀ y ∈ σ'.ctx, y ∉ σ.ctx → ∀ u, h y = .other u → P'.load (P.dump u) ≠ none

/-- decoding goes on, or raises an exception -/
def Goes (P P' : Pickler) (h : Heap) (σ σ' : EncCtx) (n : Nat) {A : Type} : BRes A RSt MExc → Prop
  | .ok _ _ pos => pos = n ∧ Loaded P P' h σ σ'
  | .exc _ => True
  | _ => False

def GoesAt (P P' : Pickler) (h : Heap) (mid : Id) (m : Msg Id) (fuel : Nat) : Prop :=
  ∀ σ x p bs σ', enc (msgSingle P h mid m) fuel σ x = some (p, bs, σ') → ∀ pre post δ,
    Goes P P' h σ σ' (pre.length + bs.length) (dec (msgDeser P') (pre ++ bs ++ post) fuel δ pre.length p)

theorem Loaded.trans {P P' : Pickler} {h : Heap} {a b c : EncCtx} (h1 : Loaded P P' h a b) (h2 : Loaded P P' h b c) :
    Loaded P P' h a c := by
  intro y hy hn u hu
  by_cases hb : y ∈ b.ctx
  · exact h1 y hb hn u hu
  · exact h2 y hy hb u hu

theorem goesL {P P' : Pickler} {h : Heap} {mid : Id} {m : Msg Id} {fuel : Nat} (ih : GoesAt P P' h mid m fuel)
    (head all : List PV) (hon : ∀ e, ∃ e', msgOnError head e = some e') (cs : List Id) :
    ∀ σ ps bs σ' pre post δ done, encL (enc (msgSingle P h mid m) fuel) σ cs = some (ps, bs, σ') →
      Goes P P' h σ σ' (pre.length + bs.length)
        (decL (msgDeser P') (dec (msgDeser P') (pre ++ bs ++ post) fuel) head all done ps δ pre.length) := by
  induction cs with
  | nil =>
    intro σ ps bs σ' pre post δ done he
    simp only [encL, Option.some.injEq, Prod.mk.injEq] at he
    obtain ⟨rfl, rfl, rfl⟩ := he
    exact ⟨rfl, fun y hy hn => absurd hy hn⟩
  | cons c cs ihc =>
    intro σ ps bs σ' pre post δ done he
    obtain ⟨p, b, σ1, qs, bs2, he1, he2, rfl, rfl⟩ := encL_cons_eq.1 he
    have g1 := ih σ c p b σ1 he1 pre (bs2 ++ post) δ
    have e1 : pre ++ (b ++ bs2) ++ post = pre ++ b ++ (bs2 ++ post) := by simp
    have e2 : pre ++ (b ++ bs2) ++ post = pre ++ b ++ bs2 ++ post := by simp
    simp only [decL]
    rw [← e1] at g1
    rcases hd : dec (msgDeser P') (pre ++ (b ++ bs2) ++ post) fuel δ pre.length p with ⟨v, δ1, n1⟩ | e | _ | _
    · rw [hd] at g1
      obtain ⟨rfl, l1⟩ := g1
      have g2 := ihc σ1 qs bs2 σ' (pre ++ b) post δ1 (done ++ [v]) he2
      simp only
      rw [← e2, List.length_append] at g2
      rcases hr : decL (msgDeser P') (dec (msgDeser P') (pre ++ (b ++ bs2) ++ post) fuel) head all (done ++ [v]) qs δ1
          (pre.length + b.length) with ⟨vs, δ2, n2⟩ | e | _ | _
      · rw [hr] at g2
        refine ⟨?_, l1.trans g2.2⟩
        rw [g2.1, List.length_append]; omega
      · trivial
      · rw [hr] at g2; exact g2
      · rw [hr] at g2; exact g2
    · simp only
      obtain ⟨e', he'⟩ := hon e
      have : (msgDeser P').onError head all done.length e = some e' := he'
      rw [this]
      trivial
    · rw [hd] at g1; exact g1.elim
    · rw [hd] at g1; exact g1.elim

theorem serial_sid {P : Pickler} {h : Heap} {c : EncCtx} {x : Id} {sid : Nat} {body : List PV} {subs : Subs Id} {r : Bool}
    (hs : serial P h c x = .done sid body subs r) : sid < 8 ∧
      (∀ u, h x = .other u → sid = 0 ∧ subs = .bufs (P.dump u)) := by
  cases hhx : h x with
  | dict ty kvs =>
    refine ⟨?_, by intro u hu; cases hu⟩
    cases ty with
    | some t => simp only [serial, hhx, buffered] at hs; split at hs <;> cases hs; omega
    | none =>
      cases kvs with
      | nil => simp [serial, hhx] at hs; omega
      | cons kv kvs => simp only [serial, hhx, buffered] at hs; split at hs <;> cases hs; omega
  | _ =>
    simp only [serial, hhx, buffered] at hs
    split at hs
    · cases hs
    · cases hs
      refine ⟨by omega, ?_⟩
      intro u hu
      cases hu <;> exact ⟨rfl, rfl⟩

theorem dump_bufs (l : List Buf) : (l.map fun b => Val.atom (.bytes b)).filterMap Val.toBuf? = l := by
  induction l with
  | nil => rfl
  | cons b l ih => rw [List.map_cons, List.filterMap_cons, ih]; rfl

/-- an opaque object decodes only if it loads -/
theorem other_loads {P' : Pickler} {δ : RSt} {oid n f : PV} {body : List PV} {bs : List Buf} {r}
    (hs : msgDeserialSingle P' δ (.nat 0 :: oid :: n :: f :: body) (bs.map (msgDeser P').buf) = .ok r) :
    P'.load bs ≠ none := by
  have e : bs.map (msgDeser P').buf = (bs.map fun b => Val.atom (.bytes b)).map MVal.val := by
    rw [List.map_map]; rfl
  rw [e] at hs
  simp only [msgDeserialSingle, msgSid, show ¬ (0 : Nat) = 32105 by omega, if_false, mapM_val] at hs
  intro hl
  unfold deserialSingle at hs
  split at hs
  · next hd =>
    split at hd
    · next sid oid' _ _ body' e =>
      cases e
      simp only [deserial, dump_bufs, hl] at hd
      cases hd
    · cases hd
  · cases hs

theorem goes (P P' : Pickler) (h : Heap) (mid : Id) (m : Msg Id) (fuel : Nat) : GoesAt P P' h mid m fuel := by
  induction fuel with
  | zero => intro σ x p bs σ' he; simp [enc] at he
  | succ fuel ih =>
    intro σ x p bs σ' he pre post δ
    have hnode : ∀ (sid : Nat) (oid : PV) (body : List PV) (cs : List Id) (ps : List PV) (σ1 : EncCtx) (hlen : ps.length = cs.length)
        (hL : encL (enc (msgSingle P h mid m) fuel) σ1 cs = some (ps, bs, σ'))
        (h0 : Loaded P P' h σ σ1)
        (hon : ∀ e, ∃ e', msgOnError (.nat sid :: oid :: .nat cs.length :: .bool false :: body) e = some e'),
        Goes P P' h σ σ' (pre.length + bs.length) (dec (msgDeser P') (pre ++ bs ++ post) (fuel + 1) δ pre.length
          (.tup (.nat sid :: oid :: .nat cs.length :: .bool false :: body ++ ps))) := by
      intro sid oid body cs ps σ1 hlen hL h0 hon
      have hh : hdr4 (.tup (.nat sid :: oid :: .nat cs.length :: .bool false :: body ++ ps)) =
        some (.nat sid :: oid :: .nat cs.length :: .bool false :: body ++ ps, cs.length, false) := rfl
      simp only [dec, hh]
      rcases cs with _ | ⟨c, cs⟩
      · simp only [List.length_nil] at hlen
        have : ps = [] := List.length_eq_zero_iff.1 hlen
        subst this
        simp only [encL, Option.some.injEq, Prod.mk.injEq, true_and] at hL
        obtain ⟨rfl, rfl⟩ := hL
        have hc : (false || ([] : List Id).length == 0) = true := rfl
        rw [if_pos hc]
        simp only [List.length_nil, Nat.add_zero, decLeaf]
        split
        · exact ⟨rfl, h0⟩
        · trivial
      · have hnl : ¬ (false || (c :: cs).length == 0) = true := by simp
        rw [if_neg hnl]
        have hd1 : (.nat sid :: oid :: .nat (c :: cs).length :: .bool false :: body ++ ps : List PV).length - (c :: cs).length =
            (.nat sid :: oid :: .nat (c :: cs).length :: .bool false :: body : List PV).length := by
          rw [← hlen, List.length_append]; omega
        rw [hd1, List.take_left, List.drop_left]
        have g := goesL ih (.nat sid :: oid :: .nat (c :: cs).length :: .bool false :: body) ps hon (c :: cs) σ1 ps bs σ' pre post δ [] hL
        rcases hr : decL (msgDeser P') (dec (msgDeser P') (pre ++ bs ++ post) fuel)
          (.nat sid :: oid :: .nat (c :: cs).length :: .bool false :: body) ps [] ps δ pre.length with ⟨vs, δ2, n2⟩ | e | _ | _
        · rw [hr] at g
          simp only [decNode]
          rcases (msgDeser P').single δ2 (.nat sid :: oid :: .nat (c :: cs).length :: .bool false :: body) vs with e | ⟨v, δ'⟩
          · trivial
          · exact ⟨g.1, h0.trans g.2⟩
        · trivial
        · rw [hr] at g; exact g
        · rw [hr] at g; exact g
    by_cases hx : x = mid
    · subst hx
      obtain ⟨rest, hrest⟩ := serial_head m
      simp only [enc, msgSingle, if_true, Option.bind_eq_bind, Option.bind_eq_some_iff, Option.pure_def, Option.some.injEq,
        Prod.exists, Prod.mk.injEq] at he
      obtain ⟨ps, cs, σ1, hL, rfl, rfl, rfl⟩ := he
      refine hnode msgSid (.nat σ.d.length) m.serial.1 m.serial.2 ps _ (encL_length hL) hL ?_ ?_
      · intro y hy hn; exact absurd hy hn
      · intro e
        rw [hrest]
        exact ⟨.failed m.base.id, by simp [msgOnError, msgSid]⟩
    · rcases hs : serial P h σ x with _ | ⟨sid, body, subs, r⟩
      · simp only [enc, msgSingle, if_neg hx, serialSingle, hs, Option.some.injEq, Prod.mk.injEq] at he
        obtain ⟨rfl, rfl, rfl⟩ := he
        have hh : ∀ n : Nat, hdr4 (.tup [.nat 7, .nat n, .nat 0, .bool true]) = some ([.nat 7, .nat n, .nat 0, .bool true], 0, true) := fun _ => rfl
        simp only [dec, hh, Bool.true_or, if_true, decLeaf]
        split
        · exact ⟨rfl, fun y hy hn => absurd hy hn⟩
        · trivial
      · obtain ⟨hsid, hoth⟩ := serial_sid hs
        rcases subs with cs | ys
        · simp only [enc, msgSingle, if_neg hx, serialSingle, hs, Option.some.injEq, Prod.mk.injEq] at he
          obtain ⟨rfl, rfl, rfl⟩ := he
          simp only [Subs.length, Subs.final]
          have hl := dec_leaf (msgDeser P') fuel δ (.nat sid) (.nat σ.d.length) body cs pre post
          rw [hl]
          rcases hsg : (msgDeser P').single δ (.nat sid :: .nat σ.d.length :: .nat cs.length :: .bool true :: body)
            (cs.map (msgDeser P').buf) with e | ⟨v, δ'⟩
          · trivial
          · refine ⟨rfl, ?_⟩
            intro y hy hn u hu
            simp only at hy
            split at hy
            · simp only [List.mem_append, List.mem_singleton] at hy
              rcases hy with hy | rfl
              · exact absurd hy hn
              · obtain ⟨rfl, hc⟩ := hoth u hu
                cases hc
                exact other_loads hsg
            · exact absurd hy hn
        · obtain ⟨rfl, h1, h2⟩ := serial_subs hs
          simp only [enc, msgSingle, if_neg hx, serialSingle, hs, Option.bind_eq_bind, Option.bind_eq_some_iff,
            Option.pure_def, Option.some.injEq, Prod.exists, Prod.mk.injEq, if_true] at he
          obtain ⟨ps, cs, σ1, hL, rfl, rfl, rfl⟩ := he
          refine hnode sid (.nat σ.d.length) body ys ps _ (encL_length hL) hL ?_ ?_
          · intro y hy hn u hu
            simp only [List.mem_append, List.mem_singleton] at hy
            rcases hy with hy | rfl
            · exact absurd hy hn
            · have := (hoth u hu).2; cases this
          · intro e
            exact ⟨e, by simp [msgOnError, msgSid, hsid, show ¬ sid = 32105 by omega]⟩

/-! ## everything reachable is met -/

theorem serial_props {P : Pickler} {h : Heap} {c : EncCtx} {x : Id} {sid : Nat} {body : List PV} {subs : Subs Id} {r : Bool}
    (hs : serial P h c x = .done sid body subs r) :
    (r = false → (h x).loose = true) ∧
    ∀ z ∈ (h x).kids, inlinable (h z) = none → ∃ ys, subs = .objs ys ∧ z ∈ ys := by
  cases hhx : h x with
  | dict ty kvs =>
    have key : ∀ {b k}, buffered c x 6 b (.objs ((serialIterable h 0 (kvs.map Prod.fst)).2.2 ++
        (serialIterable h 0 (kvs.map Prod.snd)).2.2)) = .done k body subs r →
        (r = false → (Obj.dict ty kvs).loose = true) ∧
          ∀ z ∈ (Obj.dict ty kvs).kids, inlinable (h z) = none → ∃ ys, subs = .objs ys ∧ z ∈ ys := by
      intro b k hb
      simp only [buffered] at hb
      split at hb
      · cases hb
      · cases hb
        refine ⟨by simp, ?_⟩
        intro z hz hin
        refine ⟨_, rfl, ?_⟩
        rw [serialIterable_props, serialIterable_props, ← List.filter_append, List.mem_filter]
        exact ⟨hz, by simp [hin]⟩
    cases ty with
    | some t => simp only [serial, hhx] at hs; exact key hs
    | none =>
      cases kvs with
      | nil =>
        simp only [serial, hhx] at hs
        cases hs
        exact ⟨fun _ => rfl, by intro z hz; cases hz⟩
      | cons kv kvs => simp only [serial, hhx] at hs; exact key hs
  | bareDict v => exact ⟨fun _ => rfl, by intro z hz; cases hz⟩
  | _ =>
    simp only [serial, hhx, buffered] at hs
    split at hs
    · cases hs
    · cases hs
      refine ⟨by simp, ?_⟩
      intro z hz hin
      first
      | (cases hz; done)
      | (refine ⟨_, rfl, ?_⟩
         rw [serialIterable_props, List.mem_filter]
         exact ⟨hz, by simp [hin]⟩)

/-- `σ'` has everything of `σ`, and the components of what is new -/
def Closed (h : Heap) (σ σ' : EncCtx) : Prop :=
  (∀ y ∈ σ.ctx, y ∈ σ'.ctx) ∧
  ∀ y ∈ σ'.ctx, y ∉ σ.ctx → ∀ z ∈ (h y).kids, inlinable (h z) = none → z ∈ σ'.ctx ∨ (h z).loose = true

theorem Closed.trans {h : Heap} {a b c : EncCtx} (h1 : Closed h a b) (h2 : Closed h b c) : Closed h a c := by
  refine ⟨fun y hy => h2.1 y (h1.1 y hy), ?_⟩
  intro y hy hn z hz hin
  by_cases hb : y ∈ b.ctx
  · rcases h1.2 y hb hn z hz hin with h | h
    · exact .inl (h2.1 z h)
    · exact .inr h
  · exact h2.2 y hy hb z hz hin

theorem closedL {h : Heap} {f : EncCtx → Id → Option (PV × List Buf × EncCtx)}
    (ih : ∀ σ x p bs σ', f σ x = some (p, bs, σ') → Closed h σ σ' ∧ (x ∈ σ'.ctx ∨ (h x).loose = true)) (cs : List Id) :
    ∀ σ ps bs σ', encL f σ cs = some (ps, bs, σ') → Closed h σ σ' ∧ ∀ c ∈ cs, c ∈ σ'.ctx ∨ (h c).loose = true := by
  induction cs with
  | nil =>
    intro σ ps bs σ' he
    simp only [encL, Option.some.injEq, Prod.mk.injEq] at he
    obtain ⟨rfl, rfl, rfl⟩ := he
    exact ⟨⟨fun _ h => h, fun y hy hn => absurd hy hn⟩, by simp⟩
  | cons c cs ihc =>
    intro σ ps bs σ' he
    obtain ⟨p, b, σ1, qs, bs2, he1, he2, rfl, rfl⟩ := encL_cons_eq.1 he
    obtain ⟨c1, m1⟩ := ih σ c p b σ1 he1
    obtain ⟨c2, m2⟩ := ihc σ1 qs bs2 σ' he2
    refine ⟨c1.trans c2, ?_⟩
    intro z hz
    rcases List.mem_cons.1 hz with rfl | hz
    · rcases m1 with m1 | m1
      · exact .inl (c2.1 z m1)
      · exact .inr m1
    · exact m2 z hz

theorem closed (P : Pickler) (h : Heap) (fuel : Nat) : ∀ σ x p bs σ', enc (serialSingle P h) fuel σ x = some (p, bs, σ') →
    Closed h σ σ' ∧ (x ∈ σ'.ctx ∨ (h x).loose = true) := by
  induction fuel with
  | zero => intro σ x p bs σ' he; simp [enc] at he
  | succ fuel ih =>
    intro σ x p bs σ' he
    rcases hs : serial P h σ x with _ | ⟨sid, body, subs, r⟩
    · simp only [enc, serialSingle, hs, Option.some.injEq, Prod.mk.injEq] at he
      obtain ⟨rfl, rfl, rfl⟩ := he
      refine ⟨⟨fun _ h => h, fun y hy hn => absurd hy hn⟩, ?_⟩
      left
      exact Classical.byContradiction fun hx => serial_notPh hx hs
    · obtain ⟨p1, p2⟩ := serial_props hs
      rcases subs with cs | ys
      · simp only [enc, serialSingle, hs, Option.some.injEq, Prod.mk.injEq] at he
        obtain ⟨rfl, rfl, rfl⟩ := he
        cases r with
        | false =>
          exact ⟨⟨fun _ h => h, fun y hy hn => absurd hy hn⟩, .inr (p1 rfl)⟩
        | true =>
          simp only [if_true]
          refine ⟨⟨fun y hy => by simp [hy], ?_⟩, .inl (by simp)⟩
          intro y hy hn z hz hin
          simp only [List.mem_append, List.mem_singleton] at hy
          rcases hy with hy | rfl
          · exact absurd hy hn
          · obtain ⟨ys, e, _⟩ := p2 z hz hin; cases e
      · obtain ⟨rfl, h1, h2⟩ := serial_subs hs
        simp only [enc, serialSingle, hs, Option.bind_eq_bind, Option.bind_eq_some_iff,
            Option.pure_def, Option.some.injEq, Prod.exists, Prod.mk.injEq, if_true] at he
        obtain ⟨ps, cs, σ1, hL, rfl, rfl, rfl⟩ := he
        obtain ⟨c1, m1⟩ := closedL ih ys _ _ _ _ hL
        refine ⟨⟨fun y hy => c1.1 y (by simp [hy]), ?_⟩, .inl (c1.1 x (by simp))⟩
        intro y hy hn z hz hin
        by_cases hyx : y = x
        · subst hyx
          obtain ⟨ys', e, hz'⟩ := p2 z hz hin
          cases e
          exact m1 z hz'
        · exact c1.2 y hy (by simp [hn, hyx]) z hz hin

/-- everything reachable is met -/
theorem met {h : Heap} {σ0 σ : EncCtx} (hc : Closed h σ0 σ) {x y : Id} (h0 : ∀ w, Reach h x w → w ∉ σ0.ctx)
    (hx : x ∈ σ.ctx ∨ (h x).loose = true)
    (hr : Reach h x y) (hy : inlinable (h y) = none) : y ∈ σ.ctx ∨ (h y).loose = true := by
  induction hr with
  | refl => exact hx
  | @step w z hw hz ih =>
    have hin : inlinable (h w) = none := reachPlus_notInline ⟨w, .refl, hz⟩
    rcases ih hin with hw' | hw'
    · exact hc.2 w hw' (h0 w hw) z hz hy
    · rcases loose_cases hw' with e | ⟨v, e⟩ <;> rw [e] at hz <;> cases hz

end Xoscar.Serial
