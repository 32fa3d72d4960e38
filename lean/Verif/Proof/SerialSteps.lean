import Verif.Proof.SerialInv
/-!
# The invariant through the single steps of the decoder
-/
namespace Xoscar.Serial

/-- transporting `ObjRel` -/
theorem ObjRel.map {h : Heap} {σ σ' : EncCtx} {O O' : List Id} {g g' : Ghost} {δ δ' : RSt} {y : Id} {v : Val}
    (hres : ∀ y w, Res h g δ.heap y w → Res h g' δ'.heap y w)
    (hskel : ∀ a s, skelAt δ.heap a = some s → skelAt δ'.heap a = some s)
    (hslots : ∀ a xs, v = .ref a → (h y).slots = xs → SlotsOk h σ O g δ a xs → SlotsOk h σ' O' g' δ' a xs)
    (r : ObjRel h σ O g δ y v) : ObjRel h σ' O' g' δ' y v := by
  cases hx : h y with
  | prim e c => simp only [ObjRel, hx] at r ⊢; exact r
  | bytes ty c => simp only [ObjRel, hx] at r ⊢; exact r
  | str ty c => simp only [ObjRel, hx] at r ⊢; exact r
  | bareDict c => simp only [ObjRel, hx] at r
  | other u =>
    simp only [ObjRel, hx] at r ⊢
    obtain ⟨b, rfl, h2⟩ := r
    exact ⟨b, rfl, hskel _ _ h2⟩
  | tuple ty xs =>
    simp only [ObjRel, hx] at r ⊢
    obtain ⟨b, vs, rfl, h2, h3⟩ := r
    exact ⟨b, vs, rfl, hskel _ _ h2, h3.imp (fun p q _ r => hres p q r)⟩
  | list ty xs =>
    simp only [ObjRel, hx] at r ⊢
    obtain ⟨b, rfl, h2, h3⟩ := r
    exact ⟨b, rfl, hskel _ _ h2, hslots b _ rfl (by rw [hx]; rfl) h3⟩
  | dict ty kvs =>
    simp only [ObjRel, hx] at r ⊢
    obtain ⟨b, ks, rfl, h2, h3, h4⟩ := r
    exact ⟨b, ks, rfl, hskel _ _ h2, h3.imp (fun p q _ r => hres p q r), hslots b _ rfl (by rw [hx]; rfl) h4⟩

/-- completing an object decoded to an atom -/
theorem complete_atom {h : Heap} {root : Id} {σ : EncCtx} {O : List Id} {g : Ghost} {δ : RSt} {x : Id} {n : Nat}
    (I : Inv h root σ (x :: O) g δ) (hxO : x ∉ O) (hn : σ.d.get? x = some n)
    (hnp : ∀ m, δ.ctx.get? n ≠ some (.ph m)) (a : Atom) (ho : ∀ σ O g δ, ObjRel h σ O g δ x (.atom a)) :
    settle n (.atom a) δ = (.atom a, { δ with ctx := δ.ctx.set n (.atom a) }) ∧
    ∃ g', Inv h root σ O g' { δ with ctx := δ.ctx.set n (.atom a) } ∧
      Ext O σ g δ σ g' { δ with ctx := δ.ctx.set n (.atom a) } ∧
      VRel h σ O g' { δ with ctx := δ.ctx.set n (.atom a) } x (.atom a) ∧ g'.F x = some (.atom a) := by
  have hxc : x ∈ σ.ctx := I.openCtx x (by simp)
  have hxl : (h x).loose = false := I.ctxNL x hxc
  have hFx : g.F x = none := by
    rcases hf : g.F x with _ | v
    · rfl
    · exact absurd (List.mem_cons_self) ((I.fdef x).1 ⟨v, hf⟩).2
  constructor
  · unfold settle
    simp only [Val.isPh, Bool.false_eq_true, if_false]
  let g' : Ghost := ⟨fun y => if y = x then some (.atom a) else g.F y, g.G⟩
  generalize hδ : ({ δ with ctx := δ.ctx.set n (.atom a) } : RSt) = δ'
  have hheap : δ'.heap = δ.heap := by rw [← hδ]
  have hcbs : ∀ m, δ'.cbsOf m = δ.cbsOf m := by intro m; rw [← hδ]; rfl
  have hF : ∀ y v, g.F y = some v → g'.F y = some v := by
    intro y v hy
    show (if y = x then _ else _) = _
    rw [if_neg (by rintro rfl; rw [hFx] at hy; cases hy)]; exact hy
  have hF' : ∀ y v, g'.F y = some v → (y = x ∧ v = .atom a) ∨ (y ≠ x ∧ g.F y = some v) := by
    intro y v hy
    by_cases e : y = x
    · subst e; left; simp only [g', if_true, Option.some.injEq] at hy; exact ⟨rfl, hy.symm⟩
    · right; simp only [g', if_neg e] at hy; exact ⟨e, hy⟩
  have hFxx : g'.F x = some (.atom a) := by simp [g']
  have hctx' : ∀ m, m ≠ n → δ'.ctx.get? m = δ.ctx.get? m := by
    intro m hm; rw [← hδ]; simp only [Dict.get?_set]; rw [if_neg (fun e => hm e.symm)]
  have hctxn : δ'.ctx.get? n = some (.atom a) := by rw [← hδ]; simp
  have hother : ∀ y ∈ σ.ctx, ∀ m, σ.d.get? y = some m → y ≠ x → m ≠ n := by
    rintro y hy m hm hne rfl
    exact hne (I.inj y hy x hxc (by rw [hm, hn]))
  have hres : ∀ y w, Res h g δ.heap y w → Res h g' δ'.heap y w := by
    intro y w r
    exact r.ext hF (fun _ _ h => h) (fun b s hs => by rw [hheap]; exact hs)
  have hvrel : ∀ y w, VRel h σ (x :: O) g δ y w → VRel h σ O g' δ' y w := by
    intro y w r
    rcases r with r | ⟨r1, r2, r3, m, r4, r5, r6⟩
    · exact .inl (hres _ _ r)
    · have hm : m ≠ n := by rintro rfl; exact hnp m r6
      have hyx : y ≠ x := by rintro rfl; rw [hn] at r4; cases r4; exact hm rfl
      refine .inr ⟨r1, r2, ?_, m, r4, r5, by rw [hctx' m hm]; exact r6⟩
      rcases List.mem_cons.1 r3 with e | r3
      · exact absurd e hyx
      · exact r3
  have hslots : ∀ b xs, SlotsOk h σ (x :: O) g δ b xs → SlotsOk h σ O g' δ' b xs := by
    intro b xs s i y hy
    obtain ⟨w, h1, h2, h3⟩ := s i y hy
    exact ⟨w, by rw [hheap]; exact h1, hvrel _ _ h2, fun m hm => by rw [hcbs]; exact h3 m hm⟩
  suffices hI : Inv h root σ O g' δ' by
    refine ⟨g', hI, ?_, .inl (res_of_F hI hFxx), hFxx⟩
    refine ⟨hF, fun _ _ h => h, fun b s hs => by rw [hheap]; exact hs, fun _ h => h, fun _ _ => rfl, ?_⟩
    intro y hy m hm hp
    rw [hctx' m (hother y (I.openCtx y (List.mem_cons_of_mem _ hy)) m hm (fun e => hxO (e ▸ hy)))]
    exact hp
  · refine { ctxd := I.ctxd, inj := I.inj, dkeys := I.dkeys, ctxNL := I.ctxNL, ctxReach := I.ctxReach,
             openCtx := fun y hy => I.openCtx y (List.mem_cons_of_mem _ hy), fdef := ?_, fctx := ?_,
             fnoph := ?_, forig := ?_, glen := by rw [hheap]; exact I.glen, fobj := ?_, phctx := ?_, cbs := ?_ }
    · intro y
      constructor
      · rintro ⟨v, hv⟩
        rcases hF' y v hv with ⟨rfl, _⟩ | ⟨hne, hv⟩
        · exact ⟨hxc, hxO⟩
        · have := (I.fdef y).1 ⟨v, hv⟩
          exact ⟨this.1, fun hO => this.2 (List.mem_cons_of_mem _ hO)⟩
      · rintro ⟨h1, h2⟩
        by_cases e : y = x
        · subst e; exact ⟨_, hFxx⟩
        · obtain ⟨v, hv⟩ := (I.fdef y).2 ⟨h1, by simp [e, h2]⟩
          exact ⟨v, hF y v hv⟩
    · intro y v m hv hm
      rcases hF' y v hv with ⟨rfl, rfl⟩ | ⟨hne, hv⟩
      · rw [hn] at hm; cases hm; exact hctxn
      · rw [hctx' m (hother y ((I.fdef y).1 ⟨v, hv⟩).1 m hm hne)]
        exact I.fctx y v m hv hm
    · intro y v hv
      rcases hF' y v hv with ⟨rfl, rfl⟩ | ⟨hne, hv⟩
      · rfl
      · exact I.fnoph y v hv
    · intro y b hv
      rcases hF' y _ hv with ⟨rfl, e⟩ | ⟨hne, hv⟩
      · cases e
      · exact I.forig y b hv
    · intro y v hv
      rcases hF' y v hv with ⟨rfl, rfl⟩ | ⟨hne, hv⟩
      · exact ho _ _ _ _
      · exact (I.fobj y v hv).map hres (fun b s hs => by rw [hheap]; exact hs) (fun b xs _ _ => hslots b xs)
    · intro k m hk
      by_cases e : k = n
      · subst e; rw [hctxn] at hk; cases hk
      · rw [hctx' k e] at hk
        obtain ⟨h1, y, h2, h3⟩ := I.phctx k m hk
        refine ⟨h1, y, ?_, h3⟩
        rcases List.mem_cons.1 h2 with rfl | h2
        · rw [hn] at h3; cases h3; exact absurd rfl e
        · exact h2
    · intro m cb hm
      rw [hcbs] at hm
      obtain ⟨z, y, c1, c2⟩ := I.cbs m cb hm
      exact ⟨z, y, hF _ _ c1, c2⟩

/-- no placeholder is stored under an ordered id not handed out to a registered object -/
theorem noph_new {h : Heap} {root : Id} {σ : EncCtx} {O : List Id} {g : Ghost} {δ : RSt} (I : Inv h root σ O g δ)
    (m : Nat) : δ.ctx.get? σ.d.length ≠ some (.ph m) := by
  intro hc
  obtain ⟨_, y, hy, hd⟩ := I.phctx _ _ hc
  obtain ⟨n, h1, h2⟩ := I.ctxd y (I.openCtx y hy)
  rw [h1] at hd; cases hd; omega

/-- a loose object: allocated anew, under an ordered id that may be handed out again -/
theorem loose_inv {h : Heap} {root : Id} {σ : EncCtx} {O : List Id} {g : Ghost} {δ : RSt} {x : Id}
    (I : Inv h root σ O g δ) (hl : (h x).loose = true) (o : RObj) (ho : o.skel = looseSkel (h x)) :
    settle σ.d.length (.ref δ.heap.length) { δ with heap := δ.heap ++ [o] } =
      (.ref δ.heap.length, ⟨δ.ctx.set σ.d.length (.ref δ.heap.length), δ.heap ++ [o], δ.cbs⟩) ∧
    ∃ g', Inv h root ⟨σ.ctx, σ.d.set x σ.d.length⟩ O g'
        ⟨δ.ctx.set σ.d.length (.ref δ.heap.length), δ.heap ++ [o], δ.cbs⟩ ∧
      Ext O σ g δ ⟨σ.ctx, σ.d.set x σ.d.length⟩ g'
        ⟨δ.ctx.set σ.d.length (.ref δ.heap.length), δ.heap ++ [o], δ.cbs⟩ ∧
      VRel h ⟨σ.ctx, σ.d.set x σ.d.length⟩ O g'
        ⟨δ.ctx.set σ.d.length (.ref δ.heap.length), δ.heap ++ [o], δ.cbs⟩ x (.ref δ.heap.length) := by
  have hxc : x ∉ σ.ctx := fun hc => by have := I.ctxNL x hc; rw [hl] at this; cases this
  have hne : ∀ y ∈ σ.ctx, ¬ x = y := fun y hy e => hxc (e ▸ hy)
  constructor
  · unfold settle
    simp only [Val.isPh, Bool.false_eq_true, if_false]
    rcases hc : δ.ctx.get? σ.d.length with _ | v
    · rfl
    · cases v with
      | ph m => exact absurd hc (noph_new I m)
      | _ => rfl
  generalize hδ : (⟨δ.ctx.set σ.d.length (.ref δ.heap.length), δ.heap ++ [o], δ.cbs⟩ : RSt) = δ'
  generalize hσ : (⟨σ.ctx, σ.d.set x σ.d.length⟩ : EncCtx) = σ'
  have hheap : δ'.heap = δ.heap ++ [o] := by rw [← hδ]
  have hcbs : ∀ m, δ'.cbsOf m = δ.cbsOf m := by intro m; rw [← hδ]; rfl
  have hsctx : σ'.ctx = σ.ctx := by rw [← hσ]
  have hd : ∀ y ∈ σ.ctx, σ'.d.get? y = σ.d.get? y := by
    intro y hy; rw [← hσ]; simp only [Dict.get?_set]; rw [if_neg (hne y hy)]
  have hlen : σ.d.length ≤ σ'.d.length := by rw [← hσ]; exact length_set_ge _ _ _
  have hctx' : ∀ m, m ≠ σ.d.length → δ'.ctx.get? m = δ.ctx.get? m := by
    intro m hm; rw [← hδ]; simp only [Dict.get?_set]; rw [if_neg (fun e => hm e.symm)]
  have hctxn : δ'.ctx.get? σ.d.length = some (.ref δ.heap.length) := by rw [← hδ]; simp
  have hlt : ∀ y ∈ σ.ctx, ∀ m, σ.d.get? y = some m → m ≠ σ.d.length := by
    intro y hy m hm
    obtain ⟨k, h1, h2⟩ := I.ctxd y hy
    rw [h1] at hm; cases hm; omega
  let g' : Ghost := ⟨g.F, g.G ++ [x]⟩
  have hG : ∀ (b : Nat) y, g.G[b]? = some y → g'.G[b]? = some y := by
    intro b y hb
    have : b < g.G.length := by
      by_cases hl : b < g.G.length
      · exact hl
      · rw [List.getElem?_eq_none (by omega)] at hb; cases hb
    show (g.G ++ [x])[b]? = _
    rw [List.getElem?_append_left this]; exact hb
  have hskel : ∀ b s, skelAt δ.heap b = some s → skelAt δ'.heap b = some s := by
    intro b s hs; rw [hheap]; exact skelAt_append_lt _ _ _ _ hs
  have hres : ∀ y w, Res h g δ.heap y w → Res h g' δ'.heap y w := fun y w r => Res.ext (g := g) (fun _ _ h => h) hG hskel r
  have hE : Ext O σ g δ σ' g' δ' := by
    refine ⟨fun _ _ h => h, hG, hskel, fun y hy => by rw [hsctx]; exact hy, hd, ?_⟩
    intro y hy m hm hp
    rw [hctx' m (hlt y (I.openCtx y hy) m hm)]; exact hp
  have hvrel : ∀ y w, VRel h σ O g δ y w → VRel h σ' O g' δ' y w := fun y w r => r.ext I.openCtx hE
  have hslots : ∀ b xs, SlotsOk h σ O g δ b xs → SlotsOk h σ' O g' δ' b xs := by
    intro b xs s i y hy
    obtain ⟨w, h1, h2, h3⟩ := s i y hy
    exact ⟨w, by rw [hheap]; exact slotAt_append_lt _ _ _ _ _ h1, hvrel _ _ h2, fun m hm => by rw [hcbs]; exact h3 m hm⟩
  refine ⟨g', ?_, hE, .inl (.inr (.inl ⟨hl, _, rfl, ?_, ?_⟩))⟩
  · refine { ctxd := ?_, inj := ?_, dkeys := ?_, ctxNL := by rw [hsctx]; exact I.ctxNL,
             ctxReach := by rw [hsctx]; exact I.ctxReach,
             openCtx := by rw [hsctx]; exact I.openCtx, fdef := by rw [hsctx]; exact I.fdef, fctx := ?_,
             fnoph := I.fnoph, forig := fun y a hv => hG _ _ (I.forig y a hv),
             glen := by rw [hheap]; simp [g', I.glen], fobj := ?_, phctx := ?_, cbs := ?_ }
    · intro y hy
      rw [hsctx] at hy
      obtain ⟨n, h1, h2⟩ := I.ctxd y hy
      exact ⟨n, by rw [hd y hy]; exact h1, by omega⟩
    · intro y hy z hz he
      rw [hsctx] at hy hz
      rw [hd y hy, hd z hz] at he
      exact I.inj y hy z hz he
    · intro y n hy
      by_cases e : x = y
      · subst e; exact .inr hl
      · rw [← hσ] at hy
        simp only [Dict.get?_set] at hy
        rw [if_neg e] at hy
        rw [hsctx]; exact I.dkeys y n hy
    · intro y v n hv hn
      have hy := ((I.fdef y).1 ⟨v, hv⟩).1
      rw [hd y hy] at hn
      rw [hctx' n (hlt y hy n hn)]
      exact I.fctx y v n hv hn
    · intro y v hv
      exact (I.fobj y v hv).map hres hskel (fun b xs _ _ => hslots b xs)
    · intro k m hk
      by_cases e : k = σ.d.length
      · subst e; rw [hctxn] at hk; cases hk
      · rw [hctx' k e] at hk
        obtain ⟨h1, y, h2, h3⟩ := I.phctx k m hk
        exact ⟨h1, y, h2, by rw [hd y (I.openCtx y h2)]; exact h3⟩
    · intro m cb hm
      rw [hcbs] at hm
      obtain ⟨z, y, c1, c2, c3, c4, c5⟩ := I.cbs m cb hm
      exact ⟨z, y, c1, c2, by rw [hsctx]; exact c3, by rw [hd y c3]; exact c4, c5⟩
  · show (g.G ++ [x])[δ.heap.length]? = _
    rw [List.getElem?_append_right (by rw [I.glen]; exact Nat.le_refl _), I.glen]; simp
  · rw [hheap]
    simp [skelAt, ho]

/-- a reference to an object decoded before -/
theorem ph_done_inv {h : Heap} {root : Id} {σ : EncCtx} {O : List Id} {g : Ghost} {δ : RSt} {x : Id} {n : Nat} {v : Val}
    (I : Inv h root σ O g δ) (hn : σ.d.get? x = some n) (hF : g.F x = some v) :
    ∃ δ', settle n (.ph n) δ = (v, δ') ∧ Inv h root σ O g δ' ∧ Ext O σ g δ σ g δ' ∧
      (∀ k, δ'.ctx.get? k = δ.ctx.get? k) := by
  have hc := I.fctx x v n hF hn
  have hv := I.fnoph x v hF
  have hxc := ((I.fdef x).1 ⟨v, hF⟩).1
  have hget : ∀ k, (δ.ctx.set n v).get? k = δ.ctx.get? k := by
    intro k; rw [Dict.get?_set]; split
    · next e => subst e; exact hc.symm
    · rfl
  refine ⟨{ δ with ctx := δ.ctx.set n v }, ?_, ?_, ?_, hget⟩
  · unfold settle
    have e1 : (Val.ph n).isPh = true := rfl
    simp only [e1, if_true, hc, Option.getD_some]
    cases v with
    | ph m => cases hv
    | _ => rfl
  · refine { I with fctx := ?_, fobj := ?_, phctx := ?_, cbs := I.cbs, glen := I.glen }
    · intro y w m h1 h2; show (δ.ctx.set n v).get? m = _; rw [hget]; exact I.fctx y w m h1 h2
    · intro y w h1
      refine ObjRel.map (δ := δ) (σ := σ) (O := O) (g := g) (fun _ _ r => r) (fun _ _ s => s) ?_ (I.fobj y w h1)
      intro a xs _ _ s i z hz
      obtain ⟨u, c1, c2, c3⟩ := s i z hz
      refine ⟨u, c1, ?_, c3⟩
      rcases c2 with r | ⟨r1, r2, r3, m, r4, r5, r6⟩
      · exact .inl r
      · exact .inr ⟨r1, r2, r3, m, r4, r5, by show (δ.ctx.set n v).get? m = _; rw [hget]; exact r6⟩
    · intro k m hk
      have : δ.ctx.get? k = some (.ph m) := by rw [← hget]; exact hk
      exact I.phctx k m this
  · refine ⟨fun _ _ h => h, fun _ _ h => h, fun _ _ h => h, fun _ h => h, fun _ _ => rfl, ?_⟩
    intro y hy m hm hp
    show (δ.ctx.set n v).get? m = _
    rw [hget]; exact hp

/-- a reference to an object still being decoded -/
theorem ph_open_inv {h : Heap} {root : Id} {σ : EncCtx} {O : List Id} {g : Ghost} {δ : RSt} {x : Id} {n : Nat}
    (I : Inv h root σ O g δ) (hin : inlinable (h x) = none) (hn : σ.d.get? x = some n) (hO : x ∈ O)
    (hc : δ.ctx.get? n = none ∨ δ.ctx.get? n = some (.ph n)) :
    ∃ δ', settle n (.ph n) δ = (.ph n, δ') ∧ Inv h root σ O g δ' ∧ Ext O σ g δ σ g δ' ∧ VRel h σ O g δ' x (.ph n) ∧
      δ'.ctx = δ.ctx.set n (.ph n) := by
  have hxc := I.openCtx x hO
  have hxl := I.ctxNL x hxc
  have hFx : ∀ v, g.F x ≠ some v := fun v hv => ((I.fdef x).1 ⟨v, hv⟩).2 hO
  -- facts about the new state
  have main : ∀ δ' : RSt, δ'.ctx = δ.ctx.set n (.ph n) → δ'.cbs = δ.cbs → δ'.heap.length = δ.heap.length →
      (∀ a, skelAt δ'.heap a = skelAt δ.heap a) →
      (∀ z a i y, g.F z = some (.ref a) → (h z).slots[i]? = some y → slotAt δ'.heap a i = slotAt δ.heap a i) →
      Inv h root σ O g δ' ∧ Ext O σ g δ σ g δ' ∧ VRel h σ O g δ' x (.ph n) := by
    intro δ' e1 e2 e3 e4 e5
    have hcbs : ∀ m, δ'.cbsOf m = δ.cbsOf m := by intro m; simp only [RSt.cbsOf, e2]
    have hctxn : δ'.ctx.get? n = some (.ph n) := by rw [e1]; simp
    have hctx' : ∀ m, m ≠ n → δ'.ctx.get? m = δ.ctx.get? m := by
      intro m hm; rw [e1, Dict.get?_set, if_neg (fun e => hm e.symm)]
    have hother : ∀ y ∈ σ.ctx, ∀ m, σ.d.get? y = some m → y ≠ x → m ≠ n := by
      rintro y hy m hm hne rfl
      exact hne (I.inj y hy x hxc (by rw [hm, hn]))
    have hE : Ext O σ g δ σ g δ' := by
      refine ⟨fun _ _ h => h, fun _ _ h => h, fun a s hs => by rw [e4]; exact hs, fun _ h => h, fun _ _ => rfl, ?_⟩
      intro y hy m hm hp
      by_cases e : m = n
      · subst e; exact hctxn
      · rw [hctx' m e]; exact hp
    refine ⟨?_, hE, .inr ⟨hin, hxl, hO, n, hn, rfl, hctxn⟩⟩
    refine { ctxd := I.ctxd, inj := I.inj, dkeys := I.dkeys, ctxNL := I.ctxNL, ctxReach := I.ctxReach,
             openCtx := I.openCtx, fdef := I.fdef, fctx := ?_,
             fnoph := I.fnoph, forig := I.forig, glen := by rw [e3]; exact I.glen, fobj := ?_, phctx := ?_, cbs := ?_ }
    · intro y v m hv hm
      rw [hctx' m (hother y ((I.fdef y).1 ⟨v, hv⟩).1 m hm (by rintro rfl; exact hFx v hv))]
      exact I.fctx y v m hv hm
    · intro y v hv
      refine (I.fobj y v hv).map (fun y w r => r.ext hE.F hE.G hE.skel) hE.skel ?_
      intro a xs ha hxs s i z hz
      obtain ⟨w, c1, c2, c3⟩ := s i z hz
      subst ha
      refine ⟨w, ?_, c2.ext I.openCtx hE, fun m hm => by rw [hcbs]; exact c3 m hm⟩
      rw [e5 y a i z hv (by rw [hxs]; exact hz)]; exact c1
    · intro k m hk
      by_cases e : k = n
      · subst e; rw [hctxn] at hk; cases hk
        exact ⟨rfl, x, hO, hn⟩
      · rw [hctx' k e] at hk; exact I.phctx k m hk
    · intro m cb hm
      rw [hcbs] at hm; exact I.cbs m cb hm
  rcases hc with hc | hc
  · refine ⟨{ δ with ctx := δ.ctx.set n (.ph n) }, ?_, ?_⟩
    · unfold settle
      have e1 : (Val.ph n).isPh = true := rfl
      simp only [e1, if_true, hc, Option.getD_none]
    · obtain ⟨h1, h2, h3⟩ := main { δ with ctx := δ.ctx.set n (.ph n) } rfl rfl rfl (fun _ => rfl) (fun _ _ _ _ _ _ => rfl)
      exact ⟨h1, h2, h3, rfl⟩
  · refine ⟨{ δ with ctx := δ.ctx.set n (.ph n), heap := runCbs (.ph n) (δ.cbsOf n) δ.heap }, ?_, ?_⟩
    · unfold settle
      have e1 : (Val.ph n).isPh = true := rfl
      simp only [e1, if_true, hc, Option.getD_some]
      rfl
    · have hslot : ∀ z a i y, g.F z = some (.ref a) → (h z).slots[i]? = some y →
          slotAt (runCbs (.ph n) (δ.cbsOf n) δ.heap) a i = slotAt δ.heap a i := by
        intro z a i y hz hy
        by_cases hm : ⟨a, i⟩ ∈ δ.cbsOf n
        · rw [slotAt_runCbs_mem _ _ _ _ _ hm]
          -- the position holds the placeholder already
          obtain ⟨z', y', c1, c2, c3, c4, c5, c6⟩ := I.cbs n _ hm
          have hzz : z' = z := by
            have e1 := I.forig z' _ c1
            have e2 := I.forig z _ hz
            simp only at e1
            rw [e1] at e2; exact Option.some.inj e2
          subst hzz
          simp only at c2
          rw [hy] at c2; cases c2
          have hyx : y = x := I.inj y c3 x hxc (by rw [c4, hn])
          subst hyx
          have hsl : SlotsOk h σ O g δ a (h z').slots := by
            have ho := I.fobj z' _ hz
            cases hx : h z' with
            | list ty xs =>
              simp only [ObjRel, hx] at ho
              obtain ⟨b, e, _, h3⟩ := ho
              cases e; exact h3
            | dict ty kvs =>
              simp only [ObjRel, hx] at ho
              obtain ⟨b, ks, e, _, _, h3⟩ := ho
              cases e; exact h3
            | _ => rw [hx] at hy; simp [Obj.slots] at hy
          obtain ⟨w, d1, d2, _⟩ := hsl i y hy
          have hw : w = .ph n := by
            rcases d2 with r | ⟨r1, r2, r3, m, r4, r5, r6⟩
            · rcases r with ⟨b, r, _⟩ | ⟨r, _⟩ | ⟨_, _, r⟩
              · rw [hin] at r; cases r
              · rw [hxl] at r; cases r
              · exact absurd r (hFx w)
            · rw [hn] at r4; cases r4; exact r5
          subst hw
          rw [d1]; rfl
        · exact slotAt_runCbs_notMem _ _ _ _ _ hm
      obtain ⟨h1, h2, h3⟩ := main { δ with ctx := δ.ctx.set n (.ph n), heap := runCbs (.ph n) (δ.cbsOf n) δ.heap }
        rfl rfl (runCbs_length _ _ _) (fun a => skelAt_runCbs _ _ _ _) hslot
      exact ⟨h1, h2, h3, rfl⟩

end Xoscar.Serial
