import Verif.Proof.SerialMain
/-!
# Serialization of finite graphs ends; the final states of sender and receiver
-/
namespace Xoscar.Serial

/-- objects not met so far -/
def left (S : List Id) (σ : EncCtx) : Nat := (S.filter (fun y => decide (y ∉ σ.ctx))).length

theorem filter_len_le {p q : Id → Bool} (S : List Id) (h : ∀ y, p y = true → q y = true) :
    (S.filter p).length ≤ (S.filter q).length := by
  induction S with
  | nil => simp
  | cons a S ih =>
    by_cases ha : p a = true
    · simp [ha, h a ha, ih]
    · by_cases hb : q a = true <;> simp [ha, hb] <;> omega

theorem filter_len_lt {p q : Id → Bool} (S : List Id) (h : ∀ y, p y = true → q y = true) {x : Id} (hx : x ∈ S)
    (h1 : p x = false) (h2 : q x = true) : (S.filter p).length < (S.filter q).length := by
  induction S with
  | nil => cases hx
  | cons a S ih =>
    rcases List.mem_cons.1 hx with rfl | hx
    · have := filter_len_le S h
      simp [h1, h2]; omega
    · have := ih hx
      by_cases ha : p a = true
      · simp [ha, h a ha, this]
      · by_cases hb : q a = true <;> simp [ha, hb] <;> omega

theorem left_mono (S : List Id) {σ σ' : EncCtx} (h : ∀ y ∈ σ.ctx, y ∈ σ'.ctx) : left S σ' ≤ left S σ := by
  refine filter_len_le S ?_
  intro y hy
  simp only [decide_eq_true_eq] at hy ⊢
  exact fun hc => hy (h y hc)

/-- the subcomponents handed on are components -/
theorem serial_subs {P : Pickler} {h : Heap} {c : EncCtx} {x : Id} {sid : Nat} {body : List PV} {ys : List Id} {r : Bool}
    (hs : serial P h c x = .done sid body (.objs ys) r) : r = true ∧ x ∉ c.ctx ∧ ∀ y ∈ ys, y ∈ (h x).kids := by
  cases hhx : h x with
  | dict ty kvs =>
    have key : ∀ {b k}, buffered c x 6 b (.objs ((serialIterable h 0 (kvs.map Prod.fst)).2.2 ++
        (serialIterable h 0 (kvs.map Prod.snd)).2.2)) = .done k body (.objs ys) r →
        r = true ∧ x ∉ c.ctx ∧ ∀ y ∈ ys, y ∈ (Obj.dict ty kvs).kids := by
      intro b k hb
      simp only [buffered] at hb
      split at hb
      · cases hb
      · next hc =>
        simp only [SerialRet.done.injEq, Subs.objs.injEq] at hb
        obtain ⟨_, _, rfl, rfl⟩ := hb
        refine ⟨rfl, hc, ?_⟩
        intro y hy
        rw [serialIterable_props, serialIterable_props, ← List.filter_append] at hy
        exact (List.mem_filter.1 hy).1
    cases ty with
    | some t => simp only [serial, hhx] at hs; exact key hs
    | none =>
      cases kvs with
      | nil => simp [serial, hhx] at hs
      | cons kv kvs => simp only [serial, hhx] at hs; exact key hs
  | _ =>
    simp only [serial, hhx, buffered] at hs
    split at hs
    · cases hs
    · next hc =>
      simp only [SerialRet.done.injEq, Subs.objs.injEq, reduceCtorEq, false_and, and_false] at hs
      try
        obtain ⟨_, _, rfl, rfl⟩ := hs
        refine ⟨rfl, hc, ?_⟩
        intro y hy
        rw [serialIterable_props] at hy
        exact (List.mem_filter.1 hy).1

theorem single_cases (P : Pickler) (h : Heap) (σ : EncCtx) (x : Id) :
    (∃ bs, (serialSingle P h σ x).subs = .bufs bs ∧ ∀ y ∈ σ.ctx, y ∈ (serialSingle P h σ x).st.ctx) ∨
    (∃ ys, (serialSingle P h σ x).subs = .objs ys ∧ x ∉ σ.ctx ∧ (serialSingle P h σ x).st.ctx = σ.ctx ++ [x] ∧
      ∀ y ∈ ys, y ∈ (h x).kids) := by
  rcases hs : serial P h σ x with _ | ⟨sid, body, subs, r⟩
  · left; simp only [serialSingle, hs]; exact ⟨[], rfl, fun _ h => h⟩
  · rcases subs with bs | ys
    · left
      simp only [serialSingle, hs]
      refine ⟨bs, rfl, ?_⟩
      intro y hy
      split
      · simp [hy]
      · exact hy
    · obtain ⟨rfl, h1, h2⟩ := serial_subs hs
      right
      simp only [serialSingle, hs]
      exact ⟨ys, rfl, h1, by simp, h2⟩

theorem enc_total (P : Pickler) (h : Heap) (S : List Id) (hS : ∀ x ∈ S, ∀ y ∈ (h x).kids, y ∈ S) (fuel : Nat) :
    ∀ σ x, x ∈ S → left S σ < fuel → ∃ p bs σ', enc (serialSingle P h) fuel σ x = some (p, bs, σ') ∧
      ∀ y ∈ σ.ctx, y ∈ σ'.ctx := by
  induction fuel with
  | zero => intro σ x _ hf; omega
  | succ fuel ih =>
    have hL : ∀ (cs : List Id) σ, (∀ c ∈ cs, c ∈ S) → left S σ < fuel →
        ∃ ps bs σ', encL (enc (serialSingle P h) fuel) σ cs = some (ps, bs, σ') ∧ ∀ y ∈ σ.ctx, y ∈ σ'.ctx := by
      intro cs
      induction cs with
      | nil => intro σ _ _; exact ⟨[], [], σ, rfl, fun _ h => h⟩
      | cons c cs ihc =>
        intro σ hc hf
        obtain ⟨p, b, σ1, e1, m1⟩ := ih σ c (hc c (by simp)) hf
        have hm := left_mono S m1
        obtain ⟨ps, bs, σ2, e2, m2⟩ := ihc σ1 (fun c' h' => hc c' (List.mem_cons_of_mem _ h')) (by omega)
        exact ⟨_, _, σ2, encL_cons_eq.2 ⟨p, b, σ1, ps, bs, e1, e2, rfl, rfl⟩, fun y hy => m2 y (m1 y hy)⟩
    intro σ x hx hf
    rcases single_cases P h σ x with ⟨bs, hb, hm⟩ | ⟨ys, hy, hnx, hctx, hk⟩
    · exact ⟨.tup (serialSingle P h σ x).head, bs, _, by simp only [enc, hb], hm⟩
    · have hlt : left S (serialSingle P h σ x).st < left S σ := by
        refine filter_len_lt S ?_ hx ?_ ?_
        · intro y hy'
          simp only [decide_eq_true_eq, hctx, List.mem_append, not_or] at hy' ⊢
          exact hy'.1
        · simp [hctx]
        · simp [hnx]
      obtain ⟨ps, bs, σ', e, m⟩ := hL ys (serialSingle P h σ x).st (fun c hc => hS x hx c (hk c hc)) (by omega)
      refine ⟨.tup ((serialSingle P h σ x).head ++ ps), bs, σ', ?_, ?_⟩
      · simp only [enc, hy, e]; rfl
      · intro y hy'
        exact m y (by rw [hctx]; simp [hy'])

/-! ## the final states -/

/-- two objects with the same contents up to `R` -/
def Same (R : Id → Val → Prop) : Obj → RObj → Prop
  | .other u, .other u' => u = u'
  | .bareDict u, .bareDict u' => u = u'
  | .tuple ty xs, .tuple ty' vs => ty = ty' ∧ All₂ R xs vs
  | .list ty xs, .list ty' vs => ty = ty' ∧ All₂ R xs vs
  | .dict ty kvs, .dict ty' rvs => ty = ty' ∧ All₂ R (kvs.map Prod.fst) (rvs.map Prod.fst) ∧
      All₂ R (kvs.map Prod.snd) (rvs.map Prod.snd)
  | _, _ => False

theorem skelAt_some {H : List RObj} {a : Nat} {s : Skel} (h : skelAt H a = some s) : ∃ o, H[a]? = some o ∧ o.skel = s := by
  simp only [skelAt, Option.map_eq_some_iff] at h
  exact h

theorem all₂_of_get {R : Id → Val → Prop} : ∀ {xs : List Id} {vs : List Val}, xs.length = vs.length →
    (∀ (i : Nat) y, xs[i]? = some y → ∃ w, vs[i]? = some w ∧ R y w) → All₂ R xs vs
  | [], [], _, _ => .nil
  | x :: xs, v :: vs, hl, h => by
    refine .cons ?_ (all₂_of_get (by simpa using hl) (fun i y hy => by simpa using h (i + 1) y (by simpa using hy)))
    obtain ⟨w, h1, h2⟩ := h 0 x rfl
    cases h1; exact h2
  | [], _ :: _, hl, _ => by simp at hl
  | _ :: _, [], hl, _ => by simp at hl

/-- what is left when nothing is open -/
structure Final (h : Heap) (root : Id) (R : Id → Val → Prop) (G : List Id) (H : List RObj) : Prop where
  /-- a value is an atom or an allocated object with the right contents, coming from `y` only -/
  val : ∀ y v, Reach h root y → R y v →
    (∃ a, v = .atom a ∧ (∃ e, h y = .prim e a) ∨ (∃ ty b, h y = .bytes ty b ∧ v = .atom (.bytes b)) ∨
      (∃ ty s, h y = .str ty s ∧ v = .atom (.str s))) ∨
    (∃ a o, v = .ref a ∧ H[a]? = some o ∧ G[a]? = some y ∧ Same R (h y) o)
  /-- shareable objects have one value -/
  fn : ∀ y v w, (h y).shareable = true → R y v → R y w → v = w

theorem res_of_vrel {h : Heap} {σ : EncCtx} {O : List Id} {g : Ghost} {δ : RSt} {y : Id} {w : Val} (hy : y ∉ O)
    (r : VRel h σ O g δ y w) : Res h g δ.heap y w := by
  rcases r with r | ⟨_, _, r, _⟩
  · exact r
  · exact absurd r hy

theorem slots_res {h : Heap} {σ : EncCtx} {O : List Id} {g : Ghost} {δ : RSt} {a : Nat} {xs : List Id} {o : RObj}
    (ho : δ.heap[a]? = some o) (hl : xs.length = o.slots.length) (hO : ∀ y ∈ xs, y ∉ O) (s : SlotsOk h σ O g δ a xs) :
    All₂ (Res h g δ.heap) xs o.slots := by
  refine all₂_of_get hl ?_
  intro i y hy
  obtain ⟨w, h1, h2, _⟩ := s i y hy
  simp only [slotAt, ho, Option.bind_some] at h1
  exact ⟨w, h1, res_of_vrel (hO y (List.mem_of_getElem? hy)) h2⟩

theorem loose_cases {o : Obj} (h : o.loose = true) : o = .dict none [] ∨ ∃ v, o = .bareDict v := by
  unfold Obj.loose at h
  split at h
  · exact .inl rfl
  · exact .inr ⟨_, rfl⟩
  · cases h

theorem shareable_notLoose {o : Obj} (h : o.shareable = true) : o.loose = false ∧ inlinable o = none := by
  unfold Obj.shareable at h
  split at h <;> simp_all [Obj.loose, inlinable]

theorem final_of_inv {h : Heap} {root : Id} {σ : EncCtx} {O : List Id} {g : Ghost} {δ : RSt} (I : Inv h root σ O g δ)
    (s : Id) (hO : ∀ y ∈ O, ¬ Reach h s y) : Final h s (Res h g δ.heap) g.G δ.heap where
  val y v hr r := by
    rcases r with ⟨a, hin, rfl⟩ | ⟨hl, a, rfl, hG, hs⟩ | ⟨hl, hin, hF⟩
    · left
      unfold inlinable at hin
      split at hin
      · next b e => split at hin <;> cases hin; exact ⟨.none, .inr (.inl ⟨none, b, e, rfl⟩)⟩
      · next s e => split at hin <;> cases hin; exact ⟨.none, .inr (.inr ⟨none, s, e, rfl⟩)⟩
      · next c e => cases hin; exact ⟨a, .inl ⟨rfl, true, e⟩⟩
      · cases hin
    · right
      obtain ⟨o, ho, hsk⟩ := skelAt_some hs
      refine ⟨a, o, rfl, ho, hG, ?_⟩
      rcases loose_cases hl with e | ⟨u, e⟩
      · rw [e] at hsk ⊢
        cases o <;> simp only [RObj.skel, looseSkel, reduceCtorEq, Skel.dict.injEq, List.map_eq_nil_iff] at hsk
        obtain ⟨rfl, rfl⟩ := hsk
        exact ⟨rfl, .nil, .nil⟩
      · rw [e] at hsk ⊢
        cases o <;> simp only [RObj.skel, looseSkel, reduceCtorEq, Skel.bare.injEq] at hsk
        subst hsk
        exact rfl
    · have ho := I.fobj y v hF
      have hG : ∀ a, v = .ref a → g.G[a]? = some y := fun a e => I.forig y a (by rw [hF, e])
      cases hhy : h y with
      | prim e a => simp only [ObjRel, hhy] at ho; exact .inl ⟨a, .inl ⟨ho, e, rfl⟩⟩
      | bytes ty b => simp only [ObjRel, hhy] at ho; exact .inl ⟨.none, .inr (.inl ⟨ty, b, rfl, ho⟩)⟩
      | str ty b => simp only [ObjRel, hhy] at ho; exact .inl ⟨.none, .inr (.inr ⟨ty, b, rfl, ho⟩)⟩
      | bareDict u => simp only [ObjRel, hhy] at ho
      | other u =>
        simp only [ObjRel, hhy] at ho
        obtain ⟨a, rfl, hs⟩ := ho
        obtain ⟨o, ho, hsk⟩ := skelAt_some hs
        refine .inr ⟨a, o, rfl, ho, hG a rfl, ?_⟩
        cases o <;> simp only [RObj.skel, reduceCtorEq, Skel.other.injEq] at hsk
        subst hsk; exact rfl
      | tuple ty xs =>
        simp only [ObjRel, hhy] at ho
        obtain ⟨a, vs, rfl, hs, hvs⟩ := ho
        obtain ⟨o, ho, hsk⟩ := skelAt_some hs
        refine .inr ⟨a, o, rfl, ho, hG a rfl, ?_⟩
        cases o <;> simp only [RObj.skel, reduceCtorEq, Skel.tuple.injEq] at hsk
        obtain ⟨rfl, rfl⟩ := hsk
        exact ⟨rfl, hvs⟩
      | list ty xs =>
        simp only [ObjRel, hhy] at ho
        obtain ⟨a, rfl, hs, hsl⟩ := ho
        obtain ⟨o, ho, hsk⟩ := skelAt_some hs
        refine .inr ⟨a, o, rfl, ho, hG a rfl, ?_⟩
        cases o <;> simp only [RObj.skel, reduceCtorEq, Skel.list.injEq] at hsk
        obtain ⟨rfl, hlen⟩ := hsk
        exact ⟨rfl, slots_res ho hlen.symm (fun z hz hzO => hO z hzO (.step hr (by rw [hhy]; exact hz))) hsl⟩
      | dict ty kvs =>
        simp only [ObjRel, hhy] at ho
        obtain ⟨a, ks, rfl, hs, hks, hsl⟩ := ho
        obtain ⟨o, ho, hsk⟩ := skelAt_some hs
        refine .inr ⟨a, o, rfl, ho, hG a rfl, ?_⟩
        cases o <;> simp only [RObj.skel, reduceCtorEq, Skel.dict.injEq] at hsk
        obtain ⟨rfl, rfl⟩ := hsk
        refine ⟨rfl, hks, slots_res ho ?_ (fun z hz hzO => hO z hzO (.step hr (by rw [hhy]; exact List.mem_append_right _ hz))) hsl⟩
        have := hks.length_eq
        simp only [List.length_map, RObj.slots] at this ⊢
        exact this
  fn y v w hs hv hw := by
    obtain ⟨hl, hin⟩ := shareable_notLoose hs
    rcases hv with ⟨a, h1, _⟩ | ⟨h1, _⟩ | ⟨_, _, hv⟩
    · rw [hin] at h1; cases h1
    · rw [hl] at h1; cases h1
    rcases hw with ⟨a, h1, _⟩ | ⟨h1, _⟩ | ⟨_, _, hw⟩
    · rw [hin] at h1; cases h1
    · rw [hl] at h1; cases h1
    rw [hv] at hw
    exact Option.some.inj hw

theorem inv_init (h : Heap) (root : Id) : Inv h root .init [] ⟨fun _ => none, []⟩ .init := by
  constructor <;> simp [EncCtx.init, RSt.init, RSt.cbsOf]

theorem good_init {h : Heap} {root : Id} (hg : Acyclic h root ∨ LooseOnce h root) :
    Good h root .init [] .init [root] := by
  by_cases hl : (h root).loose = true
  · left
    have hk : (h root).kids = [] := by
      rcases loose_cases hl with e | ⟨v, e⟩ <;> rw [e] <;> rfl
    have hreach : ∀ x, Reach h root x → x = root := by
      intro x hx
      induction hx with
      | refl => rfl
      | step _ hz ih => subst ih; rw [hk] at hz; cases hz
    rintro x hx ⟨y, h1, h2⟩
    rw [hreach x hx] at h1
    rw [hreach y h1, hk] at h2
    cases h2
  · rcases hg with hg | hg
    · exact .inl hg
    · refine .inr ⟨hg, ?_, ?_, ?_, ?_, ?_⟩
      · simp [RSt.init]
      · simp
      · intro w hw hwl
        simp only [List.mem_singleton] at hw
        subst hw
        exact absurd hwl hl
      · intro e he
        rw [List.count_cons]
        split <;> simp
      · simp [EncCtx.init]

/-- a header `enc` makes unpacks -/
theorem enc_header {P : Pickler} {h : Heap} {fuel : Nat} {σ σ' : EncCtx} {x : Id} {p : PV} {bs : List Buf}
    (he : enc (serialSingle P h) fuel σ x = some (p, bs, σ')) :
    ∃ fs n f, hdr4 p = some (fs, n, f) ∧ ((f || n == 0) = true → n = bs.length) := by
  cases fuel with
  | zero => simp [enc] at he
  | succ fuel =>
    rcases hs : serial P h σ x with _ | ⟨sid, body, subs, r⟩
    · simp only [enc, serialSingle, hs, Option.some.injEq, Prod.mk.injEq] at he
      obtain ⟨rfl, rfl, rfl⟩ := he
      exact ⟨_, 0, true, rfl, fun _ => rfl⟩
    · rcases subs with cs | ys
      · simp only [enc, serialSingle, hs, Option.some.injEq, Prod.mk.injEq] at he
        obtain ⟨rfl, rfl, rfl⟩ := he
        exact ⟨_, cs.length, true, rfl, fun _ => rfl⟩
      · simp only [enc, serialSingle, hs, Option.bind_eq_bind, Option.bind_eq_some_iff, Option.pure_def,
          Option.some.injEq, Prod.exists, Prod.mk.injEq] at he
        obtain ⟨ps, cs, σ1, h1, rfl, rfl, rfl⟩ := he
        refine ⟨_, ys.length, false, rfl, ?_⟩
        intro hn
        have : ys = [] := List.length_eq_zero_iff.1 (by simpa using hn)
        subst this
        simp only [encL, Option.some.injEq, Prod.mk.injEq] at h1
        obtain ⟨_, rfl, _⟩ := h1
        rfl

/-- from the recursive description to `deserialize` -/
theorem deserializes_of_dec {P : Pickler} {h : Heap} {fuel : Nat} {σ σ' : EncCtx} {x : Id} {p : PV} {bs : List Buf}
    (he : enc (serialSingle P h) fuel σ x = some (p, bs, σ')) {v : Val} {δ : RSt} {n : Nat}
    (hd : dec (coreDeser P) bs fuel .init 0 p = .ok v δ n) : Deserializes P p bs v δ.heap := by
  obtain ⟨fs, k, f, hh, hlen⟩ := enc_header he
  by_cases hf : (f || k == 0) = true
  · refine ⟨0, δ, rfl, fun F _ => ?_⟩
    cases fuel with
    | zero => simp [enc] at he
    | succ fuel =>
      simp only [dec, hh] at hd
      rw [if_pos hf] at hd
      simp only [decLeaf, hlen hf, List.drop_zero, List.take_length] at hd
      simp only [deserialize, hh, hf, if_true]
      rcases hs : (coreDeser P).single .init fs (bs.map (coreDeser P).buf) with e | ⟨v', δ'⟩
      · rw [hs] at hd; cases hd
      · rw [hs] at hd
        simp only [BRes.ok.injEq] at hd
        obtain ⟨rfl, rfl, _⟩ := hd
        rfl
  · obtain ⟨f0, h0⟩ := deserialize_of_dec (coreDeser P) bs .init p fs k f hh hf fuel (by rw [hd]; simp)
    refine ⟨f0, δ, rfl, fun F hF => ?_⟩
    rw [h0 F hF, hd]
    rfl

/-- the complete run -/
theorem run {P : Pickler} {h : Heap} {root : Id} (hP : P.Law) (S : Supported h root)
    (hg : Acyclic h root ∨ LooseOnce h root) :
    ∃ p bs v H R G, Serializes P h root p bs ∧ Deserializes P p bs v H ∧ Final h root R G H ∧ R root v := by
  obtain ⟨L, hL, hc⟩ := S.finite
  obtain ⟨p, bs, σ', he, _⟩ := enc_total P h L hc (left L .init + 1) .init root hL (by omega)
  obtain ⟨f, hf⟩ := serialize_of_enc _ _ _ _ _ _ _ he
  obtain ⟨v, g', δ', hd, I, _, _, V⟩ := sim hP S _ .init root p bs σ' [] _ .init [] [] [] he (inv_init h root)
    (good_init hg) .refl (by simp)
  simp only [List.nil_append, List.append_nil, List.length_nil] at hd
  exact ⟨p, bs, v, δ'.heap, _, g'.G, ⟨f, hf⟩, deserializes_of_dec he hd,
    final_of_inv I root (by simp), res_of_vrel (by simp) V⟩

end Xoscar.Serial
