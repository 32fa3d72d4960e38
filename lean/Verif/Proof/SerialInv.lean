import Verif.Proof.SerialHeap
import Verif.Proof.SerialMachine
/-!
# The invariant relating encoder and decoder states
-/
namespace Xoscar.Serial

/-- ghost state: the value of every completely decoded registered object, and which object every
receiver address comes from -/
structure Ghost where
  F : Id → Option Val
  G : List Id

def looseSkel : Obj → Skel
  | .bareDict v => .bare v
  | _ => .dict none []

/-- `w` is the final value for `y` -/
def Res (h : Heap) (g : Ghost) (H : List RObj) (y : Id) (w : Val) : Prop :=
  (∃ a, inlinable (h y) = some a ∧ w = .atom a) ∨
  ((h y).loose = true ∧ ∃ a, w = .ref a ∧ g.G[a]? = some y ∧ skelAt H a = some (looseSkel (h y))) ∨
  ((h y).loose = false ∧ inlinable (h y) = none ∧ g.F y = some w)

/-- `w` is the placeholder of `y`, which is still being decoded -/
def Pend (h : Heap) (σ : EncCtx) (O : List Id) (δ : RSt) (y : Id) (w : Val) : Prop :=
  inlinable (h y) = none ∧ (h y).loose = false ∧ y ∈ O ∧
    ∃ n, σ.d.get? y = some n ∧ w = .ph n ∧ δ.ctx.get? n = some (.ph n)

def VRel (h : Heap) (σ : EncCtx) (O : List Id) (g : Ghost) (δ : RSt) (y : Id) (w : Val) : Prop :=
  Res h g δ.heap y w ∨ Pend h σ O δ y w

/-- the replaceable positions of an object of the sender -/
def Obj.slots : Obj → List Id
  | .list _ xs => xs
  | .dict _ kvs => kvs.map Prod.snd
  | _ => []

def SlotsOk (h : Heap) (σ : EncCtx) (O : List Id) (g : Ghost) (δ : RSt) (a : Nat) (xs : List Id) : Prop :=
  ∀ (i : Nat) y, xs[i]? = some y → ∃ w, slotAt δ.heap a i = some w ∧ VRel h σ O g δ y w ∧
    ∀ n, w = .ph n → ⟨a, i⟩ ∈ δ.cbsOf n

/-- a decoded registered object -/
def ObjRel (h : Heap) (σ : EncCtx) (O : List Id) (g : Ghost) (δ : RSt) (z : Id) (v : Val) : Prop :=
  match h z with
  | .prim _ a => v = .atom a
  | .bytes _ b => v = .atom (.bytes b)
  | .str _ s => v = .atom (.str s)
  | .other u => ∃ a, v = .ref a ∧ skelAt δ.heap a = some (.other u)
  | .tuple ty xs => ∃ a vs, v = .ref a ∧ skelAt δ.heap a = some (.tuple ty vs) ∧ All₂ (Res h g δ.heap) xs vs
  | .list ty xs => ∃ a, v = .ref a ∧ skelAt δ.heap a = some (.list ty xs.length) ∧ SlotsOk h σ O g δ a xs
  | .dict ty kvs => ∃ a ks, v = .ref a ∧ skelAt δ.heap a = some (.dict ty ks) ∧
      All₂ (Res h g δ.heap) (kvs.map Prod.fst) ks ∧ SlotsOk h σ O g δ a (kvs.map Prod.snd)
  | .bareDict _ => False

structure Inv (h : Heap) (root : Id) (σ : EncCtx) (O : List Id) (g : Ghost) (δ : RSt) : Prop where
  ctxd : ∀ y ∈ σ.ctx, ∃ n, σ.d.get? y = some n ∧ n < σ.d.length
  inj : ∀ y ∈ σ.ctx, ∀ z ∈ σ.ctx, σ.d.get? y = σ.d.get? z → y = z
  dkeys : ∀ y n, σ.d.get? y = some n → y ∈ σ.ctx ∨ (h y).loose = true
  ctxNL : ∀ y ∈ σ.ctx, (h y).loose = false
  ctxReach : ∀ y ∈ σ.ctx, Reach h root y
  openCtx : ∀ y ∈ O, y ∈ σ.ctx
  fdef : ∀ y, (∃ v, g.F y = some v) ↔ y ∈ σ.ctx ∧ y ∉ O
  fctx : ∀ y v n, g.F y = some v → σ.d.get? y = some n → δ.ctx.get? n = some v
  fnoph : ∀ y v, g.F y = some v → v.isPh = false
  forig : ∀ y a, g.F y = some (.ref a) → g.G[a]? = some y
  glen : g.G.length = δ.heap.length
  fobj : ∀ y v, g.F y = some v → ObjRel h σ O g δ y v
  phctx : ∀ k m, δ.ctx.get? k = some (.ph m) → m = k ∧ ∃ y ∈ O, σ.d.get? y = some k
  cbs : ∀ n cb, cb ∈ δ.cbsOf n → ∃ z y, g.F z = some (.ref cb.addr) ∧ (h z).slots[cb.idx]? = some y ∧
    y ∈ σ.ctx ∧ σ.d.get? y = some n ∧ inlinable (h y) = none ∧ (h y).loose = false

/-- extra facts when no loose object occurs twice: ordered ids are not reused. `W`: the objects
waiting to be visited in the containers under way -/
structure Fresh (h : Heap) (σ : EncCtx) (O : List Id) (δ : RSt) (W : List Id) : Prop where
  klt : ∀ k v, δ.ctx.get? k = some v → k < σ.d.length
  opn : ∀ y ∈ O, ∀ n, σ.d.get? y = some n → δ.ctx.get? n = none ∨ δ.ctx.get? n = some (.ph n)
  par : ∀ w ∈ W, (h w).loose = true → ∃ p ∈ σ.ctx, w ∈ (h p).kids
  cnt : ∀ e, (h e).loose = true → W.count e ≤ 1
  seen : ∀ e n, (h e).loose = true → σ.d.get? e = some n → e ∉ W ∧ ∃ p ∈ σ.ctx, e ∈ (h p).kids

/-- what later steps preserve -/
structure Ext (O : List Id) (σ : EncCtx) (g : Ghost) (δ : RSt) (σ' : EncCtx) (g' : Ghost) (δ' : RSt) : Prop where
  F : ∀ y v, g.F y = some v → g'.F y = some v
  G : ∀ (a : Nat) y, g.G[a]? = some y → g'.G[a]? = some y
  skel : ∀ a s, skelAt δ.heap a = some s → skelAt δ'.heap a = some s
  ctx : ∀ y ∈ σ.ctx, y ∈ σ'.ctx
  d : ∀ y ∈ σ.ctx, σ'.d.get? y = σ.d.get? y
  ph : ∀ y ∈ O, ∀ n, σ.d.get? y = some n → δ.ctx.get? n = some (.ph n) → δ'.ctx.get? n = some (.ph n)

theorem Ext.refl (O : List Id) (σ : EncCtx) (g : Ghost) (δ : RSt) : Ext O σ g δ σ g δ :=
  ⟨fun _ _ h => h, fun _ _ h => h, fun _ _ h => h, fun _ h => h, fun _ _ => rfl, fun _ _ _ _ h => h⟩

theorem Ext.trans {O : List Id} {σ σ' σ'' : EncCtx} {g g' g'' : Ghost} {δ δ' δ'' : RSt}
    (hO : ∀ y ∈ O, y ∈ σ.ctx)
    (h1 : Ext O σ g δ σ' g' δ') (h2 : Ext O σ' g' δ' σ'' g'' δ'') : Ext O σ g δ σ'' g'' δ'' where
  F y v h := h2.F y v (h1.F y v h)
  G a y h := h2.G a y (h1.G a y h)
  skel a s h := h2.skel a s (h1.skel a s h)
  ctx y h := h2.ctx y (h1.ctx y h)
  d y h := by rw [h2.d y (h1.ctx y h), h1.d y h]
  ph y hy n hn hp := h2.ph y hy n (by rw [h1.d y (hO y hy)]; exact hn) (h1.ph y hy n hn hp)

theorem Ext.weaken {O O' : List Id} {σ σ' : EncCtx} {g g' : Ghost} {δ δ' : RSt} (hO : ∀ y ∈ O', y ∈ O)
    (h : Ext O σ g δ σ' g' δ') : Ext O' σ g δ σ' g' δ' :=
  ⟨h.F, h.G, h.skel, h.ctx, h.d, fun y hy => h.ph y (hO y hy)⟩

theorem Res.ext {h : Heap} {g g' : Ghost} {H H' : List RObj} {y : Id} {w : Val}
    (hF : ∀ y v, g.F y = some v → g'.F y = some v)
    (hG : ∀ (a : Nat) y, g.G[a]? = some y → g'.G[a]? = some y)
    (hs : ∀ a s, skelAt H a = some s → skelAt H' a = some s) (r : Res h g H y w) : Res h g' H' y w := by
  rcases r with r | ⟨r1, a, r2, r3, r4⟩ | ⟨r1, r2, r3⟩
  · exact .inl r
  · exact .inr (.inl ⟨r1, a, r2, hG _ _ r3, hs _ _ r4⟩)
  · exact .inr (.inr ⟨r1, r2, hF _ _ r3⟩)

theorem VRel.ext {h : Heap} {O : List Id} {σ σ' : EncCtx} {g g' : Ghost} {δ δ' : RSt} {y : Id} {w : Val}
    (hO : ∀ y ∈ O, y ∈ σ.ctx)
    (e : Ext O σ g δ σ' g' δ') (r : VRel h σ O g δ y w) : VRel h σ' O g' δ' y w := by
  rcases r with r | ⟨r1, r2, r3, n, r4, r5, r6⟩
  · exact .inl (r.ext e.F e.G e.skel)
  · exact .inr ⟨r1, r2, r3, n, by rw [e.d y (hO y r3)]; exact r4, r5, e.ph y r3 n r4 r6⟩

theorem res_noph {h : Heap} {root : Id} {σ : EncCtx} {O : List Id} {g : Ghost} {δ : RSt} (I : Inv h root σ O g δ)
    {y : Id} {w : Val} (r : Res h g δ.heap y w) : w.isPh = false := by
  rcases r with ⟨a, _, rfl⟩ | ⟨_, a, rfl, _⟩ | ⟨_, _, r⟩
  · rfl
  · rfl
  · exact I.fnoph _ _ r

/-- a value is a placeholder only for an object under way -/
theorem vrel_ph {h : Heap} {root : Id} {σ : EncCtx} {O : List Id} {g : Ghost} {δ : RSt} (I : Inv h root σ O g δ)
    {y : Id} {w : Val} (r : VRel h σ O g δ y w) (hw : w.isPh = true) : y ∈ O := by
  rcases r with r | r
  · rw [res_noph I r] at hw; cases hw
  · exact r.2.2.1

/-- a completely decoded object has its final value -/
theorem res_of_F {h : Heap} {root : Id} {σ : EncCtx} {O : List Id} {g : Ghost} {δ : RSt} (I : Inv h root σ O g δ)
    {x : Id} {v : Val} (hF : g.F x = some v) : Res h g δ.heap x v := by
  have hxc := ((I.fdef x).1 ⟨v, hF⟩).1
  rcases hin : inlinable (h x) with _ | a
  · exact .inr (.inr ⟨I.ctxNL x hxc, hin, hF⟩)
  · have ho := I.fobj x v hF
    refine .inl ⟨a, hin, ?_⟩
    unfold inlinable at hin
    split at hin
    · next b e => split at hin <;> cases hin; simp only [ObjRel, e] at ho; exact ho
    · next s e => split at hin <;> cases hin; simp only [ObjRel, e] at ho; exact ho
    · next c e => cases hin; simp only [ObjRel, e] at ho; exact ho
    · cases hin

/-! ## opening an object: registration in `context` and `d` -/

/-- the encoder context after registering `x` -/
def EncCtx.reg (σ : EncCtx) (x : Id) : EncCtx := ⟨σ.ctx ++ [x], σ.d.set x σ.d.length⟩

theorem length_set_new {α β : Type} [DecidableEq α] (d : Dict α β) (k : α) (v : β) (h : d.get? k = none) :
    (d.set k v).length = d.length + 1 := by
  induction d with
  | nil => rfl
  | cons kv d ih =>
    obtain ⟨k', v'⟩ := kv
    simp only [Dict.get?] at h
    split at h
    · cases h
    · next hne => simp [Dict.set, hne, ih h]

theorem length_set_old {α β : Type} [DecidableEq α] (d : Dict α β) (k : α) (v v' : β) (h : d.get? k = some v') :
    (d.set k v).length = d.length := by
  induction d with
  | nil => cases h
  | cons kv d ih =>
    obtain ⟨k', w⟩ := kv
    simp only [Dict.get?] at h
    split at h
    · next he => simp [Dict.set, he]
    · next hne => simp [Dict.set, hne, ih h]

theorem length_set_ge {α β : Type} [DecidableEq α] (d : Dict α β) (k : α) (v : β) :
    d.length ≤ (d.set k v).length := by
  rcases h : d.get? k with _ | w
  · rw [length_set_new d k v h]; omega
  · rw [length_set_old d k v w h]; omega

theorem reg_new {h : Heap} {root : Id} {σ : EncCtx} {O : List Id} {g : Ghost} {δ : RSt} (I : Inv h root σ O g δ)
    {x : Id} (hx : x ∉ σ.ctx) (hl : (h x).loose = false) : σ.d.get? x = none := by
  rcases hg : σ.d.get? x with _ | n
  · rfl
  · rcases I.dkeys x n hg with h1 | h1
    · exact absurd h1 hx
    · rw [hl] at h1; cases h1

theorem open_inv {h : Heap} {root : Id} {σ : EncCtx} {O : List Id} {g : Ghost} {δ : RSt} (I : Inv h root σ O g δ)
    {x : Id} (hx : x ∉ σ.ctx) (hl : (h x).loose = false) (hr : Reach h root x) :
    Inv h root (σ.reg x) (x :: O) g δ ∧ Ext O σ g δ (σ.reg x) g δ ∧ (σ.reg x).d.get? x = some σ.d.length ∧ x ∉ O := by
  have hnew := reg_new I hx hl
  have hlen : (σ.reg x).d.length = σ.d.length + 1 := length_set_new _ _ _ hnew
  have hxO : x ∉ O := fun hO => hx (I.openCtx x hO)
  have hd : ∀ y, y ≠ x → (σ.reg x).d.get? y = σ.d.get? y := by
    intro y hy
    simp only [EncCtx.reg, Dict.get?_set]
    rw [if_neg (fun e => hy e.symm)]
  have hdx : (σ.reg x).d.get? x = some σ.d.length := by simp [EncCtx.reg]
  have hmem : ∀ y, y ∈ (σ.reg x).ctx ↔ y ∈ σ.ctx ∨ y = x := by intro y; simp [EncCtx.reg]
  have hne : ∀ y ∈ σ.ctx, y ≠ x := fun y hy e => hx (e ▸ hy)
  have hFx : ∀ y v, g.F y = some v → y ≠ x := fun y v hF => hne y ((I.fdef y).1 ⟨v, hF⟩).1
  have hE : Ext O σ g δ (σ.reg x) g δ :=
    ⟨fun _ _ h => h, fun _ _ h => h, fun _ _ h => h, fun y hy => (hmem y).2 (.inl hy),
      fun y hy => hd y (hne y hy), fun _ _ _ _ h => h⟩
  have hV : ∀ y w, VRel h σ O g δ y w → VRel h (σ.reg x) (x :: O) g δ y w := by
    intro y w r
    rcases r with r | ⟨r1, r2, r3, n, r4, r5, r6⟩
    · exact .inl r
    · exact .inr ⟨r1, r2, List.mem_cons_of_mem _ r3, n, by rw [hd y (fun e => hxO (e ▸ r3))]; exact r4, r5, r6⟩
  have hS : ∀ a xs, SlotsOk h σ O g δ a xs → SlotsOk h (σ.reg x) (x :: O) g δ a xs := by
    intro a xs s i y hy
    obtain ⟨w, h1, h2, h3⟩ := s i y hy
    exact ⟨w, h1, hV _ _ h2, h3⟩
  refine ⟨{ ctxd := ?_, inj := ?_, dkeys := ?_, ctxNL := ?_, ctxReach := ?_, openCtx := ?_, fdef := ?_, fctx := ?_,
            fnoph := I.fnoph, forig := I.forig, glen := I.glen, fobj := ?_, phctx := ?_, cbs := ?_ }, hE, hdx, hxO⟩
  · intro y hy
    rcases (hmem y).1 hy with hy | rfl
    · obtain ⟨n, h1, h2⟩ := I.ctxd y hy
      exact ⟨n, by rw [hd y (hne y hy)]; exact h1, by omega⟩
    · exact ⟨_, hdx, by omega⟩
  · intro y hy z hz he
    rcases (hmem y).1 hy with hy' | hy' <;> rcases (hmem z).1 hz with hz' | hz'
    · rw [hd y (hne y hy'), hd z (hne z hz')] at he; exact I.inj y hy' z hz' he
    · obtain ⟨n, h1, h2⟩ := I.ctxd y hy'
      rw [hd y (hne y hy'), h1, hz', hdx] at he
      cases he; omega
    · obtain ⟨n, h1, h2⟩ := I.ctxd z hz'
      rw [hd z (hne z hz'), h1, hy', hdx] at he
      cases he; omega
    · rw [hy', hz']
  · intro y n hy
    by_cases e : y = x
    · exact .inl ((hmem y).2 (.inr e))
    · rw [hd y e] at hy
      rcases I.dkeys y n hy with h1 | h1
      · exact .inl ((hmem y).2 (.inl h1))
      · exact .inr h1
  · intro y hy
    rcases (hmem y).1 hy with hy | rfl
    · exact I.ctxNL y hy
    · exact hl
  · intro y hy
    rcases (hmem y).1 hy with hy | rfl
    · exact I.ctxReach y hy
    · exact hr
  · intro y hy
    rcases List.mem_cons.1 hy with rfl | hy
    · exact (hmem _).2 (.inr rfl)
    · exact (hmem y).2 (.inl (I.openCtx y hy))
  · intro y
    rw [I.fdef y, hmem]
    simp only [List.mem_cons, not_or]
    constructor
    · rintro ⟨h1, h2⟩; exact ⟨.inl h1, hne y h1, h2⟩
    · rintro ⟨h1, h2, h3⟩
      rcases h1 with h1 | h1
      · exact ⟨h1, h3⟩
      · exact absurd h1 h2
  · intro y v n hF hn
    rw [hd y (hFx y v hF)] at hn
    exact I.fctx y v n hF hn
  · intro y v hF
    have := I.fobj y v hF
    unfold ObjRel at this ⊢
    split <;> simp_all only
    · obtain ⟨a, h1, h2, h3⟩ := this
      exact ⟨a, h1, h2, hS _ _ h3⟩
    · obtain ⟨a, ks, h1, h2, h3, h4⟩ := this
      exact ⟨a, ks, h1, h2, h3, hS _ _ h4⟩
  · intro k m hk
    obtain ⟨h1, y, h2, h3⟩ := I.phctx k m hk
    exact ⟨h1, y, List.mem_cons_of_mem _ h2, by rw [hd y (fun e => hxO (e ▸ h2))]; exact h3⟩
  · intro n cb hcb
    obtain ⟨z, y, h1, h2, h3, h4, h5, h6⟩ := I.cbs n cb hcb
    exact ⟨z, y, h1, h2, (hmem y).2 (.inl h3), by rw [hd y (hne y h3)]; exact h4, h5, h6⟩

/-! ## completing an object -/

/-- the freshly built object for `x` -/
def NewObj (h : Heap) (σ : EncCtx) (O : List Id) (g : Ghost) (δ : RSt) (x : Id) (o : RObj) : Prop :=
  match h x with
  | .other u => o = .other u
  | .tuple ty xs => ∃ vs, o = .tuple ty vs ∧ All₂ (Res h g δ.heap) xs vs
  | .list ty xs => ∃ vs, o = .list ty vs ∧ All₂ (VRel h σ O g δ) xs vs
  | .dict ty kvs => ∃ ks vs, o = .dict ty (ks.zip vs) ∧ All₂ (Res h g δ.heap) (kvs.map Prod.fst) ks ∧
      All₂ (VRel h σ O g δ) (kvs.map Prod.snd) vs
  | _ => False

theorem skelAt_append_lt (H : List RObj) (o : RObj) (a : Nat) (s : Skel) (h : skelAt H a = some s) :
    skelAt (H ++ [o]) a = some s := by
  have : a < H.length := by
    by_cases hl : a < H.length
    · exact hl
    · simp only [skelAt, List.getElem?_eq_none (by omega : H.length ≤ a)] at h; cases h
  simp only [skelAt, List.getElem?_append_left this] at h ⊢
  exact h

theorem slotAt_append_lt (H : List RObj) (o : RObj) (a i : Nat) (w : Val) (h : slotAt H a i = some w) :
    slotAt (H ++ [o]) a i = some w := by
  have : a < H.length := by
    by_cases hl : a < H.length
    · exact hl
    · simp only [slotAt, List.getElem?_eq_none (by omega : H.length ≤ a)] at h; cases h
  simp only [slotAt, List.getElem?_append_left this] at h ⊢
  exact h

/-- the receiver after building `o` for the object with ordered id `n` -/
def built (δ : RSt) (n : Nat) (o : RObj) : Val × RSt :=
  settle n (.ref δ.heap.length) (addCbs δ.heap.length 0 o.slots { δ with heap := δ.heap ++ [o] })

/-- description of the result of `built` -/
theorem built_spec {h : Heap} {root : Id} {σ : EncCtx} {O : List Id} {g : Ghost} {δ : RSt} {x : Id} {n : Nat}
    (I : Inv h root σ (x :: O) g δ) (hn : σ.d.get? x = some n) (o : RObj) :
    ∃ δ3, built δ n o = (.ref δ.heap.length, δ3) ∧
      δ3.ctx = δ.ctx.set n (.ref δ.heap.length) ∧
      δ3.heap.length = δ.heap.length + 1 ∧
      (∀ b, skelAt δ3.heap b = skelAt (δ.heap ++ [o]) b) ∧
      (∀ m cb, cb ∈ δ3.cbsOf m ↔ cb ∈ δ.cbsOf m ∨ ∃ i : Nat, o.slots[i]? = some (.ph m) ∧ cb = ⟨δ.heap.length, i⟩) ∧
      (δ.ctx.get? n = some (.ph n) → ∀ b i, ⟨b, i⟩ ∈ δ3.cbsOf n →
        slotAt δ3.heap b i = (slotAt (δ.heap ++ [o]) b i).map (fun _ => .ref δ.heap.length)) ∧
      (∀ b i, (⟨b, i⟩ ∉ δ3.cbsOf n ∨ δ.ctx.get? n ≠ some (.ph n)) → slotAt δ3.heap b i = slotAt (δ.heap ++ [o]) b i) := by
  unfold built settle
  simp only [Val.isPh, Bool.false_eq_true, if_false, addCbs_ctx, addCbs_heap]
  have hcb : ∀ m cb, cb ∈ (addCbs δ.heap.length 0 o.slots { δ with heap := δ.heap ++ [o] }).cbsOf m ↔
      cb ∈ δ.cbsOf m ∨ ∃ i : Nat, o.slots[i]? = some (.ph m) ∧ cb = ⟨δ.heap.length, i⟩ := by
    intro m cb
    rw [mem_addCbs]
    simp only [Nat.zero_add]
    rfl
  rcases hc : δ.ctx.get? n with _ | v
  · refine ⟨_, rfl, rfl, by simp, fun b => rfl, hcb, by simp, fun b i _ => rfl⟩
  · cases v with
    | atom a => exact ⟨_, rfl, rfl, by simp, fun b => rfl, hcb, by simp, fun b i _ => rfl⟩
    | ref a => exact ⟨_, rfl, rfl, by simp, fun b => rfl, hcb, by simp, fun b i _ => rfl⟩
    | ph m =>
      obtain ⟨rfl, _⟩ := I.phctx n m hc
      refine ⟨_, rfl, rfl, by simp [runCbs_length], fun b => skelAt_runCbs _ _ _ _, hcb, ?_, ?_⟩
      · intro _ b i hb
        exact slotAt_runCbs_mem _ _ _ _ _ hb
      · intro b i hb
        refine slotAt_runCbs_notMem _ _ _ _ _ ?_
        rcases hb with hb | hb
        · exact hb
        · exact absurd rfl hb

/-- completing a container or opaque object -/
theorem complete_inv {h : Heap} {root : Id} {σ : EncCtx} {O : List Id} {g : Ghost} {δ : RSt} {x : Id} {n : Nat}
    (I : Inv h root σ (x :: O) g δ) (hxO : x ∉ O) (hn : σ.d.get? x = some n) (hin : inlinable (h x) = none)
    (o : RObj) (ho : NewObj h σ (x :: O) g δ x o) :
    ∃ g' δ', built δ n o = (.ref δ.heap.length, δ') ∧ Inv h root σ O g' δ' ∧ Ext O σ g δ σ g' δ' ∧
      VRel h σ O g' δ' x (.ref δ.heap.length) ∧ g'.F x = some (.ref δ.heap.length) ∧
      δ'.ctx = δ.ctx.set n (.ref δ.heap.length) := by
  obtain ⟨δ', hb, hctx, hlen, hsk, hcb, hrep, hkeep⟩ := built_spec I hn o
  have hxc : x ∈ σ.ctx := I.openCtx x (by simp)
  have hxl : (h x).loose = false := I.ctxNL x hxc
  have hFx : g.F x = none := by
    rcases hf : g.F x with _ | v
    · rfl
    · exact absurd (List.mem_cons_self) ((I.fdef x).1 ⟨v, hf⟩).2
  generalize ha : δ.heap.length = a at *
  let g' : Ghost := ⟨fun y => if y = x then some (.ref a) else g.F y, g.G ++ [x]⟩
  have hF : ∀ y v, g.F y = some v → g'.F y = some v := by
    intro y v hy
    show (if y = x then _ else _) = _
    rw [if_neg (by rintro rfl; rw [hFx] at hy; cases hy)]; exact hy
  have hF' : ∀ y v, g'.F y = some v → (y = x ∧ v = .ref a) ∨ (y ≠ x ∧ g.F y = some v) := by
    intro y v hy
    by_cases e : y = x
    · subst e; left; simp only [g', if_true, Option.some.injEq] at hy; exact ⟨rfl, hy.symm⟩
    · right; simp only [g', if_neg e] at hy; exact ⟨e, hy⟩
  have hFxx : g'.F x = some (.ref a) := by simp [g']
  have hG : ∀ (b : Nat) y, g.G[b]? = some y → g'.G[b]? = some y := by
    intro b y hb
    have : b < g.G.length := by
      by_cases hl : b < g.G.length
      · exact hl
      · rw [List.getElem?_eq_none (by omega)] at hb; cases hb
    show (g.G ++ [x])[b]? = _
    rw [List.getElem?_append_left this]; exact hb
  have hGx : g'.G[a]? = some x := by
    show (g.G ++ [x])[a]? = _
    rw [List.getElem?_append_right (by rw [I.glen]; omega), I.glen, ha]; simp
  have hskel : ∀ b s, skelAt δ.heap b = some s → skelAt δ'.heap b = some s := by
    intro b s hs; rw [hsk]; exact skelAt_append_lt _ _ _ _ hs
  have hres : ∀ y w, Res h g δ.heap y w → Res h g' δ'.heap y w := fun y w r => r.ext hF hG hskel
  have hctx' : ∀ m, m ≠ n → δ'.ctx.get? m = δ.ctx.get? m := by
    intro m hm; rw [hctx, Dict.get?_set, if_neg (fun e => hm e.symm)]
  have hctxn : δ'.ctx.get? n = some (.ref a) := by rw [hctx]; simp
  have hother : ∀ y ∈ σ.ctx, ∀ m, σ.d.get? y = some m → y ≠ x → m ≠ n := by
    rintro y hy m hm hne rfl
    exact hne (I.inj y hy x hxc (by rw [hm, hn]))
  have hVx : VRel h σ O g' δ' x (.ref a) := .inl (.inr (.inr ⟨hxl, hin, hFxx⟩))
  -- values other than the placeholder of `x` keep their meaning
  have hvrel : ∀ y w, VRel h σ (x :: O) g δ y w → w ≠ .ph n → VRel h σ O g' δ' y w := by
    intro y w r hw
    rcases r with r | ⟨r1, r2, r3, m, r4, r5, r6⟩
    · exact .inl (hres _ _ r)
    · have hm : m ≠ n := by rintro rfl; exact hw r5
      have hyx : y ≠ x := by rintro rfl; rw [hn] at r4; cases r4; exact hm rfl
      refine .inr ⟨r1, r2, ?_, m, r4, r5, by rw [hctx' m hm]; exact r6⟩
      rcases List.mem_cons.1 r3 with e | r3
      · exact absurd e hyx
      · exact r3
  -- a placeholder of `x`
  have hphx : ∀ y, VRel h σ (x :: O) g δ y (.ph n) → y = x ∧ δ.ctx.get? n = some (.ph n) := by
    intro y r
    rcases r with r | ⟨r1, r2, r3, m, r4, r5, r6⟩
    · have := res_noph I r; cases this
    · cases r5
      exact ⟨I.inj y (I.openCtx y r3) x hxc (by rw [r4, hn]), r6⟩
  -- positions, old or new
  have hslots : ∀ b xs, (∀ (i : Nat) y, xs[i]? = some y → ∃ w, slotAt (δ.heap ++ [o]) b i = some w ∧
        VRel h σ (x :: O) g δ y w ∧ (∀ m, w = .ph m → ⟨b, i⟩ ∈ δ'.cbsOf m) ∧
        (⟨b, i⟩ ∈ δ'.cbsOf n → y = x)) →
      SlotsOk h σ O g' δ' b xs := by
    intro b xs hall i y hy
    obtain ⟨w, h1, h2, h3, h4⟩ := hall i y hy
    by_cases hc : δ.ctx.get? n = some (.ph n)
    · by_cases hmem : ⟨b, i⟩ ∈ δ'.cbsOf n
      · have hyx := h4 hmem
        subst hyx
        refine ⟨.ref a, ?_, hVx, by intro m e; cases e⟩
        rw [hrep hc b i hmem, h1]; rfl
      · have hw : w ≠ .ph n := by rintro rfl; exact hmem (h3 n rfl)
        refine ⟨w, ?_, hvrel _ _ h2 hw, h3⟩
        rw [hkeep b i (.inl hmem)]; exact h1
    · have hw : w ≠ .ph n := by rintro rfl; exact hc (hphx y h2).2
      refine ⟨w, ?_, hvrel _ _ h2 hw, h3⟩
      rw [hkeep b i (.inr hc)]; exact h1
  -- positions of old objects
  have hold : ∀ z b xs, g.F z = some (.ref b) → (h z).slots = xs → SlotsOk h σ (x :: O) g δ b xs →
      SlotsOk h σ O g' δ' b xs := by
    intro z b xs hz hxs s
    refine hslots b xs ?_
    intro i y hy
    obtain ⟨w, h1, h2, h3⟩ := s i y hy
    refine ⟨w, slotAt_append_lt _ _ _ _ _ h1, h2, fun m hm => (hcb m _).2 (.inl (h3 m hm)), ?_⟩
    intro hmem
    rcases (hcb n _).1 hmem with hmem | ⟨j, _, hj⟩
    · obtain ⟨z', y', c1, c2, c3, c4, _, _⟩ := I.cbs n _ hmem
      have hzz : z' = z := by
        have e1 := I.forig z' _ c1
        have e2 := I.forig z _ hz
        rw [e1] at e2; exact Option.some.inj e2
      subst hzz
      rw [hxs] at c2
      simp only at c2
      rw [hy] at c2
      cases c2
      exact I.inj y c3 x hxc (by rw [c4, hn])
    · -- the new object's address is not an old one
      have : b < g.G.length := by
        have := I.forig z b hz
        by_cases hl : b < g.G.length
        · exact hl
        · rw [List.getElem?_eq_none (by omega)] at this; cases this
      rw [I.glen, ha] at this
      cases hj; omega
  -- positions of the new object
  have hnew : ∀ xs vs, o.slots = vs → All₂ (VRel h σ (x :: O) g δ) xs vs → SlotsOk h σ O g' δ' a xs := by
    intro xs vs hos hall
    refine hslots a xs ?_
    intro i y hy
    obtain ⟨w, h1, h2⟩ := hall.get i y hy
    have hsl : slotAt (δ.heap ++ [o]) a i = some w := by
      simp only [slotAt]
      rw [List.getElem?_append_right (by omega), ha]
      simp [hos, h1]
    refine ⟨w, hsl, h2, ?_, ?_⟩
    · rintro m rfl
      exact (hcb m _).2 (.inr ⟨i, by rw [hos]; exact h1, rfl⟩)
    · intro hmem
      rcases (hcb n _).1 hmem with hmem | ⟨j, hj1, hj2⟩
      · obtain ⟨z', y', c1, _⟩ := I.cbs n _ hmem
        have := I.forig z' _ c1
        have hlt : a < g.G.length := by
          by_cases hl : a < g.G.length
          · exact hl
          · simp only at this; rw [List.getElem?_eq_none (by omega)] at this; cases this
        rw [I.glen] at hlt; omega
      · cases hj2
        rw [hos, h1] at hj1
        cases hj1
        exact (hphx y h2).1
  have hskelx : skelAt δ'.heap a = some o.skel := by
    rw [hsk]
    simp only [skelAt]
    rw [List.getElem?_append_right (by omega), ha]; simp
  refine ⟨g', δ', hb, ?_, ?_, hVx, hFxx, hctx⟩
  · refine { ctxd := I.ctxd, inj := I.inj, dkeys := I.dkeys, ctxNL := I.ctxNL, ctxReach := I.ctxReach,
             openCtx := fun y hy => I.openCtx y (List.mem_cons_of_mem _ hy), fdef := ?_, fctx := ?_,
             fnoph := ?_, forig := ?_, glen := ?_, fobj := ?_, phctx := ?_, cbs := ?_ }
    · intro y
      constructor
      · rintro ⟨v, hv⟩
        rcases hF' y v hv with ⟨rfl, _⟩ | ⟨hne, hv⟩
        · exact ⟨hxc, hxO⟩
        · have := (I.fdef y).1 ⟨v, hv⟩
          exact ⟨this.1, fun hO => this.2 (List.mem_cons_of_mem _ hO)⟩
      · rintro ⟨h1, h2⟩
        by_cases e : y = x
        · subst e; exact ⟨_, hFxx⟩
        · obtain ⟨v, hv⟩ := (I.fdef y).2 ⟨h1, by simp [e, h2]⟩
          exact ⟨v, hF y v hv⟩
    · intro y v m hv hm
      rcases hF' y v hv with ⟨rfl, rfl⟩ | ⟨hne, hv⟩
      · rw [hn] at hm; cases hm; exact hctxn
      · rw [hctx' m (hother y ((I.fdef y).1 ⟨v, hv⟩).1 m hm hne)]
        exact I.fctx y v m hv hm
    · intro y v hv
      rcases hF' y v hv with ⟨rfl, rfl⟩ | ⟨hne, hv⟩
      · rfl
      · exact I.fnoph y v hv
    · intro y b hv
      rcases hF' y _ hv with ⟨rfl, e⟩ | ⟨hne, hv⟩
      · cases e; exact hGx
      · exact hG _ _ (I.forig y b hv)
    · show (g.G ++ [x]).length = _
      rw [List.length_append, I.glen, hlen, ha]; rfl
    · intro y v hv
      rcases hF' y v hv with ⟨rfl, rfl⟩ | ⟨hne, hv⟩
      · cases hx : h y with
        | prim e c => simp only [NewObj, hx] at ho
        | bytes ty c => simp only [NewObj, hx] at ho
        | str ty c => simp only [NewObj, hx] at ho
        | bareDict c => simp only [NewObj, hx] at ho
        | other u =>
          simp only [NewObj, hx] at ho
          simp only [ObjRel, hx]
          subst ho
          exact ⟨a, rfl, hskelx⟩
        | tuple ty xs =>
          simp only [NewObj, hx] at ho
          simp only [ObjRel, hx]
          obtain ⟨vs, rfl, h2⟩ := ho
          exact ⟨a, vs, rfl, hskelx, h2.imp (fun p q _ r => hres p q r)⟩
        | list ty xs =>
          simp only [NewObj, hx] at ho
          simp only [ObjRel, hx]
          obtain ⟨vs, rfl, h2⟩ := ho
          exact ⟨a, rfl, by rw [hskelx, h2.length_eq]; rfl, hnew _ vs rfl h2⟩
        | dict ty kvs =>
          simp only [NewObj, hx] at ho
          simp only [ObjRel, hx]
          obtain ⟨ks, vs, rfl, h2, h3⟩ := ho
          have hl : ks.length = vs.length := by
            have e1 := h2.length_eq
            have e2 := h3.length_eq
            simp only [List.length_map] at e1 e2
            omega
          refine ⟨a, ks, rfl, ?_, h2.imp (fun p q _ r => hres p q r), hnew _ vs ?_ h3⟩
          · rw [hskelx]
            simp only [RObj.skel, List.map_fst_zip (by omega : ks.length ≤ vs.length)]
          · simp only [RObj.slots, List.map_snd_zip (by omega : vs.length ≤ ks.length)]
      · have hobj := I.fobj y v hv
        cases hx : h y with
        | prim e c => simp only [ObjRel, hx] at hobj ⊢; exact hobj
        | bytes ty c => simp only [ObjRel, hx] at hobj ⊢; exact hobj
        | str ty c => simp only [ObjRel, hx] at hobj ⊢; exact hobj
        | bareDict c => simp only [ObjRel, hx] at hobj
        | other u =>
          simp only [ObjRel, hx] at hobj ⊢
          obtain ⟨b, rfl, h2⟩ := hobj
          exact ⟨b, rfl, hskel _ _ h2⟩
        | tuple ty xs =>
          simp only [ObjRel, hx] at hobj ⊢
          obtain ⟨b, vs, rfl, h2, h3⟩ := hobj
          exact ⟨b, vs, rfl, hskel _ _ h2, h3.imp (fun p q _ r => hres p q r)⟩
        | list ty xs =>
          simp only [ObjRel, hx] at hobj ⊢
          obtain ⟨b, rfl, h2, h3⟩ := hobj
          exact ⟨b, rfl, hskel _ _ h2, hold y b _ hv (by rw [hx]; rfl) h3⟩
        | dict ty kvs =>
          simp only [ObjRel, hx] at hobj ⊢
          obtain ⟨b, ks, rfl, h2, h3, h4⟩ := hobj
          exact ⟨b, ks, rfl, hskel _ _ h2, h3.imp (fun p q _ r => hres p q r),
            hold y b _ hv (by rw [hx]; rfl) h4⟩
    · intro k m hk
      by_cases e : k = n
      · subst e; rw [hctxn] at hk; cases hk
      · rw [hctx' k e] at hk
        obtain ⟨h1, y, h2, h3⟩ := I.phctx k m hk
        refine ⟨h1, y, ?_, h3⟩
        rcases List.mem_cons.1 h2 with rfl | h2
        · rw [hn] at h3; cases h3; exact absurd rfl e
        · exact h2
    · intro m cb hm
      rcases (hcb m cb).1 hm with hm | ⟨i, h1, rfl⟩
      · obtain ⟨z, y, c1, c2⟩ := I.cbs m cb hm
        exact ⟨z, y, hF _ _ c1, c2⟩
      · -- a placeholder in the new object
        have key : ∀ xs vs, (h x).slots = xs → o.slots = vs → All₂ (VRel h σ (x :: O) g δ) xs vs →
            ∃ z y, g'.F z = some (.ref a) ∧ (h z).slots[i]? = some y ∧ y ∈ σ.ctx ∧ σ.d.get? y = some m ∧
              inlinable (h y) = none ∧ (h y).loose = false := by
          intro xs vs e1 e2 hall
          rw [e2] at h1
          have hlt : i < xs.length := by
            rw [hall.length_eq]
            by_cases hl : i < vs.length
            · exact hl
            · rw [List.getElem?_eq_none (by omega)] at h1; cases h1
          obtain ⟨w, h3, h4⟩ := hall.get i xs[i] (List.getElem?_eq_getElem hlt)
          rw [h1] at h3
          cases h3
          refine ⟨x, xs[i], hFxx, by rw [e1]; exact List.getElem?_eq_getElem hlt, ?_⟩
          rcases h4 with r | ⟨r1, r2, r3, k, r4, r5, r6⟩
          · have := res_noph I r; cases this
          · cases r5
            exact ⟨I.openCtx _ r3, r4, r1, r2⟩
        unfold NewObj at ho
        split at ho
        · subst ho; simp [RObj.slots] at h1
        · obtain ⟨vs, rfl, _⟩ := ho; simp [RObj.slots] at h1
        · next ty xs hx => obtain ⟨vs, rfl, h2⟩ := ho; exact key xs vs (by rw [hx]; rfl) rfl h2
        · next ty kvs hx =>
          obtain ⟨ks, vs, rfl, h2, h3⟩ := ho
          have hl : ks.length = vs.length := by
            have e1 := h2.length_eq
            have e2 := h3.length_eq
            simp only [List.length_map] at e1 e2
            omega
          exact key (kvs.map Prod.snd) vs (by rw [hx]; rfl)
            (by simp only [RObj.slots, List.map_snd_zip (by omega : vs.length ≤ ks.length)]) h3
        · exact ho.elim
  · refine ⟨hF, hG, hskel, fun _ h => h, fun _ _ => rfl, ?_⟩
    intro y hy m hm hp
    rw [hctx' m (hother y (I.openCtx y (List.mem_cons_of_mem _ hy)) m hm (fun e => hxO (e ▸ hy)))]
    exact hp

end Xoscar.Serial
