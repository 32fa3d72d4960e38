import Verif.Proof.SerialTotal
/-!
# C01–C04: serialization round trips

The vocabulary (`Supported`, `Acyclic`, `srcTree`, `follow`, …) is in `Verif/Props/SerialSpec.lean`.
-/
namespace Xoscar.Serial

variable {P : Pickler} {h : Heap} {root : Id}

/-! ## results are functions of the inputs -/

theorem Serializes.unique {p p' : PV} {bs bs' : List Buf} (h1 : Serializes P h root p bs)
    (h2 : Serializes P h root p' bs') : p = p' ∧ bs = bs' := by
  obtain ⟨f, h1⟩ := h1
  obtain ⟨g, h2⟩ := h2
  have := serialize_unique _ _ _ _ _ _ _ h1 h2
  simp only [Out.mk.injEq, true_and] at this
  exact this

theorem Deserializes.unique {p : PV} {bs : List Buf} {v v' : Val} {H H' : List RObj} (h1 : Deserializes P p bs v H)
    (h2 : Deserializes P p bs v' H') : v = v' ∧ H = H' := by
  obtain ⟨f, s, rfl, h1⟩ := h1
  obtain ⟨f', s', rfl, h2⟩ := h2
  have a := h1 (max f f') (by omega)
  have b := h2 (max f f') (by omega)
  rw [a] at b
  simp only [Option.some.injEq, DOut.ok.injEq] at b
  obtain ⟨rfl, rfl⟩ := b
  exact ⟨rfl, rfl⟩

/-! ## trees -/

theorem map_eq_of_all₂ {α β γ : Type} {R : α → β → Prop} {f : α → γ} {g : β → γ} {as : List α} {bs : List β}
    (ha : All₂ R as bs) (hR : ∀ a b, a ∈ as → R a b → g b = f a) : bs.map g = as.map f := by
  induction ha with
  | nil => rfl
  | cons r _ ih =>
    rw [List.map_cons, List.map_cons, hR _ _ (by simp) r, ih (fun a b ha => hR a b (List.mem_cons_of_mem _ ha))]

theorem zip_map_eq {α γ : Type} (f : α → γ) (l : List (α × α)) :
    l.map (fun kv => (f kv.1, f kv.2)) = ((l.map Prod.fst).map f).zip ((l.map Prod.snd).map f) := by
  induction l with
  | nil => rfl
  | cons a l ih => simp [ih]

theorem tree_eq (S : Supported h root) {R : Id → Val → Prop} {G : List Id} {H : List RObj} (F : Final h root R G H)
    (n : Nat) : ∀ y v, Reach h root y → R y v → dstTree H n v = srcTree h n y := by
  induction n with
  | zero => intro y v _ _; rfl
  | succ n ih =>
    intro y v hr r
    rcases F.val y v hr r with ⟨a, ⟨rfl, e, hy⟩ | ⟨ty, b, hy, rfl⟩ | ⟨ty, s, hy, rfl⟩⟩ | ⟨a, o, rfl, ho, _, hs⟩
    · simp only [dstTree, srcTree, hy]
    · cases ty with
      | none => simp only [dstTree, srcTree, hy]
      | some t => exact absurd hy (S.plainBytes y t b hr)
    · cases ty with
      | none => simp only [dstTree, srcTree, hy]
      | some t => exact absurd hy (S.plainStr y t s hr)
    · have hkid : ∀ z ∈ (h y).kids, ∀ w, R z w → dstTree H n w = srcTree h n z :=
        fun z hz w r => ih z w (.step hr hz) r
      cases hy : h y <;> cases o <;> simp only [hy, Same] at hs
      · subst hs; simp only [dstTree, srcTree, hy, ho]
      · obtain ⟨rfl, hs⟩ := hs
        simp only [dstTree, srcTree, hy, ho]
        rw [map_eq_of_all₂ hs (fun z w hz r => hkid z (by rw [hy]; exact hz) w r)]
      · obtain ⟨rfl, hs⟩ := hs
        simp only [dstTree, srcTree, hy, ho]
        rw [map_eq_of_all₂ hs (fun z w hz r => hkid z (by rw [hy]; exact hz) w r)]
      · obtain ⟨rfl, hk, hv⟩ := hs
        simp only [dstTree, srcTree, hy, ho]
        rw [zip_map_eq, zip_map_eq,
          map_eq_of_all₂ hk (fun z w hz r => hkid z (by rw [hy]; exact List.mem_append_left _ hz) w r),
          map_eq_of_all₂ hv (fun z w hz r => hkid z (by rw [hy]; exact List.mem_append_right _ hz) w r)]
      · subst hs; simp only [dstTree, srcTree, hy, ho]

/-! ## paths -/

theorem same_kids {R : Id → Val → Prop} {o : Obj} {r : RObj} (hs : Same R o r) : All₂ R o.kids r.kids := by
  cases o <;> cases r <;> simp only [Same] at hs
  · exact .nil
  · exact hs.2
  · exact hs.2
  · exact hs.2.1.append hs.2.2
  · exact .nil

theorem leaf_kids {y : Id} {v : Val} {a : Atom}
    (hy : v = .atom a ∧ (∃ e, h y = .prim e a) ∨ (∃ ty b, h y = .bytes ty b ∧ v = .atom (.bytes b)) ∨
      (∃ ty s, h y = .str ty s ∧ v = .atom (.str s))) : (h y).kids = [] ∧ ∃ c, v = .atom c := by
  rcases hy with ⟨rfl, e, hy⟩ | ⟨ty, b, hy, rfl⟩ | ⟨ty, s, hy, rfl⟩ <;> exact ⟨by rw [hy]; rfl, _, rfl⟩

theorem path_rel {R : Id → Val → Prop} {G : List Id} {H : List RObj} (F : Final h root R G H) (p : List Nat) :
    ∀ x v, Reach h root x → R x v →
      (∀ y, follow h x p = some y → ∃ w, followD H v p = some w ∧ R y w ∧ Reach h root y) ∧
      (follow h x p = none → followD H v p = none) := by
  induction p with
  | nil => intro x v hr r; simp only [follow, followD, Option.some.injEq, reduceCtorEq, false_implies, and_true]; rintro y rfl; exact ⟨v, rfl, r, hr⟩
  | cons i p ih =>
    intro x v hr r
    rcases F.val x v hr r with ⟨a, hleaf⟩ | ⟨a, o, rfl, ho, _, hs⟩
    · obtain ⟨hk, c, rfl⟩ := leaf_kids hleaf
      simp only [follow, hk, followD, List.getElem?_nil]
      simp
    · have hk := same_kids hs
      simp only [follow, followD, ho]
      rcases hi : (h x).kids[i]? with _ | z
      · have : o.kids[i]? = none := by
          rw [List.getElem?_eq_none_iff] at hi ⊢
          rw [← hk.length_eq]; exact hi
        simp only [this]
        simp
      · obtain ⟨w, hw, rw'⟩ := hk.get i z hi
        simp only [hw]
        exact ih z w (.step hr (List.mem_of_getElem? hi)) rw'

/-! ## C01 -/

/-- `serialize` of the value returns, and `deserialize` of what it returns gives a value that equals
it at every depth -/
def RoundTrips (P : Pickler) (h : Heap) (x : Id) : Prop :=
  (∃ header bufs, Serializes P h x header bufs) ∧
  ∀ header bufs, Serializes P h x header bufs →
    (∃ v H, Deserializes P header bufs v H) ∧
    ∀ v H, Deserializes P header bufs v H → ∀ n, dstTree H n v = srcTree h n x

theorem roundTrips (hP : P.Law) (S : Supported h root) (hg : Acyclic h root ∨ LooseOnce h root) :
    RoundTrips P h root := by
  obtain ⟨p, bs, v, H, R, G, h1, h2, F, r⟩ := run hP S hg
  refine ⟨⟨p, bs, h1⟩, ?_⟩
  intro p' bs' h1'
  obtain ⟨rfl, rfl⟩ := h1.unique h1'
  refine ⟨⟨v, H, h2⟩, ?_⟩
  intro v' H' h2' n
  obtain ⟨rfl, rfl⟩ := h2.unique h2'
  exact tree_eq S F n root v .refl r

/-- C01: every finite value without cycles, whatever it shares, comes back equal -/
theorem roundtrip_acyclic (hP : P.Law) (S : Supported h root) (ha : Acyclic h root) : RoundTrips P h root :=
  roundTrips hP S (.inl ha)

/-! ## C04 -/

/-- C04, for values that may contain themselves, provided no empty dict occurs at two places and no
tuple contains itself -/
theorem roundtrip_cyclic_partial (hP : P.Law) (S : Supported h root) (hl : LooseOnce h root) : RoundTrips P h root :=
  roundTrips hP S (.inr hl)

/-! ## C02 -/

/-- access paths lead to corresponding places: what was one shareable object is one object again,
and what were two objects are two objects -/
def SharingKept (P : Pickler) (h : Heap) (x : Id) : Prop :=
  ∀ header bufs v H, Serializes P h x header bufs → Deserializes P header bufs v H →
    (∀ p, (followD H v p).isSome = (follow h x p).isSome) ∧
    ∀ p q y z, follow h x p = some y → follow h x q = some z → (h y).shareable = true → (h z).shareable = true →
      ∃ a b, followD H v p = some (.ref a) ∧ followD H v q = some (.ref b) ∧ (a = b ↔ y = z)

theorem final_ref {R : Id → Val → Prop} {G : List Id} {H : List RObj} (F : Final h root R G H) {y : Id} {w : Val}
    (hr : Reach h root y) (r : R y w) (hs : (h y).shareable = true) : ∃ a, w = .ref a ∧ G[a]? = some y := by
  rcases F.val y w hr r with ⟨a, hleaf⟩ | ⟨a, o, rfl, _, hG, _⟩
  · rcases hleaf with ⟨_, e, hy⟩ | ⟨ty, b, hy, _⟩ | ⟨ty, s, hy, _⟩ <;> rw [hy] at hs <;> cases hs
  · exact ⟨a, rfl, hG⟩

theorem sharing_kept (hP : P.Law) (S : Supported h root) (hg : Acyclic h root ∨ LooseOnce h root) :
    SharingKept P h root := by
  obtain ⟨p, bs, v, H, R, G, h1, h2, F, r⟩ := run hP S hg
  intro p' bs' v' H' h1' h2'
  obtain ⟨rfl, rfl⟩ := h1.unique h1'
  obtain ⟨rfl, rfl⟩ := h2.unique h2'
  constructor
  · intro q
    obtain ⟨q1, q2⟩ := path_rel F q root v .refl r
    rcases hq : follow h root q with _ | y
    · rw [q2 hq]; rfl
    · obtain ⟨w, hw, _⟩ := q1 y hq
      rw [hw]; rfl
  · intro q q' y z hy hz sy sz
    obtain ⟨w, hw, rw', ry⟩ := (path_rel F q root v .refl r).1 y hy
    obtain ⟨u, hu, ru, rz⟩ := (path_rel F q' root v .refl r).1 z hz
    obtain ⟨a, rfl, ga⟩ := final_ref F ry rw' sy
    obtain ⟨b, rfl, gb⟩ := final_ref F rz ru sz
    refine ⟨a, b, hw, hu, ?_, ?_⟩
    · rintro rfl
      rw [ga] at gb
      exact Option.some.inj gb
    · rintro rfl
      have := F.fn y _ _ sy rw' ru
      cases this; rfl

/-- C02 -/
theorem sharing_kept_acyclic (hP : P.Law) (S : Supported h root) (ha : Acyclic h root) : SharingKept P h root :=
  sharing_kept hP S (.inl ha)

/-- C04: back references lead to the containers themselves -/
theorem sharing_kept_cyclic_partial (hP : P.Law) (S : Supported h root) (hl : LooseOnce h root) : SharingKept P h root :=
  sharing_kept hP S (.inr hl)

/-! ## C03 -/

/-- what `serialize_with_spawn` returns for some number of allowed iterations -/
def SpawnGives {σ X : Type} (single : Single σ X) (init : σ) (x : X) (threshold : Int) (o : Out) : Prop :=
  ∃ fuel, serializeWithSpawn single init x threshold fuel = some o

/-- C03: whenever `serialize` returns, so does `serialize_with_spawn` for every threshold, with the
same header and buffers; and it returns nothing else.  For all sets of serializers. -/
theorem spawn_equivalent {σ X : Type} (single : Single σ X) (init : σ) (x : X) (threshold : Int) (hd : PV) (bs : List Buf)
    (hs : ∃ fuel, serialize single init x fuel = some ⟨none, hd, bs⟩) :
    (∃ extra, SpawnGives single init x threshold ⟨extra, hd, bs⟩) ∧
    ∀ o, SpawnGives single init x threshold o → o.header = hd ∧ o.bufs = bs := by
  obtain ⟨fuel, hs⟩ := hs
  unfold serialize at hs
  simp only at hs
  rcases hr : (single init x).subs with cs | ys
  · rw [hr] at hs
    simp only [Option.some.injEq, Out.mk.injEq, true_and] at hs
    obtain ⟨rfl, rfl⟩ := hs
    refine ⟨⟨none, 0, by simp only [serializeWithSpawn, hr]⟩, ?_⟩
    rintro o ⟨f, ho⟩
    simp only [serializeWithSpawn, hr, Option.some.injEq] at ho
    subst ho; exact ⟨rfl, rfl⟩
  · cases ys with
    | nil =>
      rw [hr] at hs
      simp only [Option.some.injEq, Out.mk.injEq, true_and] at hs
      obtain ⟨rfl, rfl⟩ := hs
      refine ⟨⟨none, 0, by simp only [serializeWithSpawn, hr]⟩, ?_⟩
      rintro o ⟨f, ho⟩
      simp only [serializeWithSpawn, hr, Option.some.injEq] at ho
      subst ho; exact ⟨rfl, rfl⟩
    | cons y ys =>
      rw [hr] at hs
      simp only at hs
      generalize hst : (⟨[⟨(single init x).head, y :: ys, []⟩], none, (single init x).st, [], 0⟩ : EncSt σ X) = s0 at hs
      rcases hl : loop single 0 fuel s0 with _ | r
      · rw [hl] at hs; cases hs
      rw [hl] at hs
      cases r with
      | overflow s => cases hs
      | finished s =>
        simp only [finish, Bool.false_eq_true, if_false, Option.some.injEq, Out.mk.injEq, true_and] at hs
        obtain ⟨e1, e2⟩ := hs
        obtain ⟨k, hk, hend⟩ := (loop_zero_iff single s0 s).1 ⟨fuel, hl⟩
        -- existence, for enough fuel
        have hex : ∃ f ex, serializeWithSpawn single init x threshold f = some ⟨ex, hd, bs⟩ ∧
            ∀ f', f ≤ f' → serializeWithSpawn single init x threshold f' = some ⟨ex, hd, bs⟩ := by
          rcases loop_any single threshold k s0 s hk hend with hf | ⟨m, j, hf, hm, hj⟩
          all_goals generalize k + 1 = f at hf
          · have key : ∀ f', f ≤ f' → serializeWithSpawn single init x threshold f' = some ⟨none, hd, bs⟩ := by
              intro f' hle
              simp only [serializeWithSpawn, hr, hst, loop_mono single threshold f f' hle s0 _ hf, finish, e1, e2]
              rfl
            exact ⟨f, none, key f (by omega), key⟩
          · obtain ⟨f2, hf2⟩ := (loop_zero_iff single m s).2 ⟨j, hj, hend⟩
            have key : ∀ f', max f f2 ≤ f' → serializeWithSpawn single init x threshold f' = some ⟨some s.n, hd, bs⟩ := by
              intro f' hle
              simp only [serializeWithSpawn, hr, hst, loop_mono single threshold f f' (by omega) s0 _ hf,
                loop_mono single 0 f2 f' (by omega) m _ hf2, finish, e1, e2, decide_eq_true hm, if_true]
            exact ⟨max f f2, some s.n, key _ (by omega), key⟩
        obtain ⟨f, ex, hf, hge⟩ := hex
        refine ⟨⟨ex, f, hf⟩, ?_⟩
        rintro o ⟨f', ho⟩
        -- more fuel does not change the result
        have hmono : serializeWithSpawn single init x threshold (max f f') = some o := by
          simp only [serializeWithSpawn, hr, hst] at ho ⊢
          rcases h1 : loop single threshold f' s0 with _ | r
          · rw [h1] at ho; cases ho
          rw [h1] at ho
          rw [loop_mono single threshold f' (max f f') (by omega) s0 _ h1]
          cases r with
          | finished s1 => exact ho
          | overflow s1 =>
            simp only at ho ⊢
            rcases h2 : loop single 0 f' s1 with _ | r
            · rw [h2] at ho; cases ho
            rw [h2] at ho
            rw [loop_mono single 0 f' (max f f') (by omega) s1 _ h2]
            exact ho
        rw [hge (max f f') (by omega)] at hmono
        cases hmono
        exact ⟨rfl, rfl⟩

end Xoscar.Serial
