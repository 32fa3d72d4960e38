import Verif.Props.Serial
/-!
# C01–C04: cases meeting the hypotheses, and what lies outside
-/
namespace Xoscar.Serial

/-! ## tools for concrete graphs -/

theorem reach_mem {h : Heap} {root : Id} {S : List Id} (h0 : root ∈ S) (hS : ∀ x ∈ S, ∀ y ∈ (h x).kids, y ∈ S)
    {x : Id} (hr : Reach h root x) : x ∈ S := by
  induction hr with
  | refl => exact h0
  | step _ hz ih => exact hS _ ih _ hz

theorem acyclic_of_rank {h : Heap} {root : Id} (r : Id → Nat) (hr : ∀ x, Reach h root x → ∀ y ∈ (h x).kids, r y < r x) :
    Acyclic h root := by
  rintro x hx ⟨y, h1, h2⟩
  have key : ∀ z, Reach h x z → Reach h root z ∧ r z ≤ r x := by
    intro z hz
    induction hz with
    | refl => exact ⟨hx, Nat.le_refl _⟩
    | step _ hk ih =>
      have := hr _ ih.1 _ hk
      exact ⟨.step ih.1 hk, by omega⟩
  have := hr y (key y h1).1 x h2
  have := (key y h1).2
  omega

theorem dloop_mono {δ V E : Type} (D : Deser δ V E) (bufs : List Buf) (f g : Nat) (hle : f ≤ g) (s : DecSt δ V E) {r}
    (hr : dloop D bufs f s = some r) : dloop D bufs g s = some r := by
  induction f generalizing g s with
  | zero => simp [dloop] at hr
  | succ f ih =>
    obtain ⟨g, rfl⟩ : ∃ k, g = k + 1 := ⟨g - 1, by omega⟩
    simp only [dloop] at hr ⊢
    rcases hs : s.stack with _ | ⟨fr, rest⟩
    · simpa only [hs] using hr
    · simp only [hs] at hr ⊢
      exact ih g (by omega) _ hr

theorem deserialize_mono {δ V E : Type} (D : Deser δ V E) (init : δ) (p : PV) (bufs : List Buf) (f g : Nat) (hle : f ≤ g)
    {r} (hr : deserialize D init p bufs f = some r) : deserialize D init p bufs g = some r := by
  unfold deserialize at hr ⊢
  rcases hh : hdr4 p with _ | ⟨fs, n, final⟩
  · simpa only [hh] using hr
  · simp only [hh] at hr ⊢
    split
    · next hc => rw [if_pos hc] at hr; exact hr
    · next hc =>
      rw [if_neg hc] at hr
      rcases hd : dloop D bufs f ⟨[⟨fs.take (fs.length - n), fs.drop (fs.length - n), []⟩], .idle, init, 0⟩ with _ | s
      · rw [hd] at hr; cases hr
      · rw [hd] at hr
        rw [dloop_mono D bufs f g hle _ hd]
        exact hr

theorem deserializes_of {P : Pickler} {p : PV} {bs : List Buf} {v : Val} {st : RSt} (f : Nat)
    (hd : deserialize (coreDeser P) .init p bs f = some (.ok v st)) : Deserializes P p bs v st.heap :=
  ⟨f, st, rfl, fun g hg => deserialize_mono _ _ _ _ f g hg hd⟩

/-- some pickler -/
def unary : Pickler := ⟨fun v => List.replicate v ByteArray.empty, fun bs => some bs.length⟩
theorem unary_law : unary.Law := by intro v; simp [unary]

/-! ## a value with sharing -/

/-- `t = ("a", {}); [t, t, {"a": t}, obj]` -/
def dag : Heap := fun x =>
  match x with
  | 0 => .list none [1, 1, 2, 5]
  | 1 => .tuple none [3, 4]
  | 2 => .dict none [(3, 1)]
  | 3 => .str none "a"
  | 4 => .dict none []
  | _ => .other 7

theorem dag_mem {x : Id} (hr : Reach dag 0 x) : x = 0 ∨ x = 1 ∨ x = 2 ∨ x = 3 ∨ x = 4 ∨ x = 5 := by
  have := reach_mem (S := [0, 1, 2, 3, 4, 5]) (by simp) (by simp [dag, Obj.kids]) hr
  simpa using this

theorem dag_acyclic : Acyclic dag 0 := by
  refine acyclic_of_rank (fun x => match x with | 0 => 10 | 2 => 9 | 1 => 8 | _ => 0) ?_
  intro x hx y hy
  rcases dag_mem hx with rfl | rfl | rfl | rfl | rfl | rfl <;> simp [dag, Obj.kids] at hy
  · rcases hy with rfl | rfl | rfl <;> decide
  · rcases hy with rfl | rfl <;> decide
  · rcases hy with rfl | rfl <;> decide

theorem dag_supported : Supported dag 0 where
  finite := ⟨[0, 1, 2, 3, 4, 5], by simp, by simp [dag, Obj.kids]⟩
  plainStr x t s hr := by rcases dag_mem hr with rfl | rfl | rfl | rfl | rfl | rfl <;> simp [dag]
  plainBytes x t b hr := by rcases dag_mem hr with rfl | rfl | rfl | rfl | rfl | rfl <;> simp [dag]
  keys x ty kvs hr hx kv hkv := by
    rcases dag_mem hr with rfl | rfl | rfl | rfl | rfl | rfl <;> simp [dag] at hx
    · obtain ⟨rfl, rfl⟩ := hx
      simp only [List.mem_singleton] at hkv
      subst hkv
      exact .str (h := dag) (x := 3) (ty := none) (s := "a") rfl
    · obtain ⟨rfl, rfl⟩ := hx
      cases hkv
  tuples x ty xs hr _ := dag_acyclic x hr

example : RoundTrips unary dag 0 := roundtrip_acyclic unary_law dag_supported dag_acyclic
example : SharingKept unary dag 0 := sharing_kept_acyclic unary_law dag_supported dag_acyclic

/-! ## a value containing itself -/

/-- `l = []; d = {"a": l}; l += [l, d, {}]` -/
def knot : Heap := fun x =>
  match x with
  | 0 => .list none [0, 1, 3]
  | 1 => .dict none [(2, 0)]
  | 2 => .str none "a"
  | _ => .dict none []

theorem knot_mem {x : Id} (hr : Reach knot 0 x) : x = 0 ∨ x = 1 ∨ x = 2 ∨ x = 3 := by
  have := reach_mem (S := [0, 1, 2, 3]) (by simp) (by simp [knot, Obj.kids]) hr
  simpa using this

theorem knot_supported : Supported knot 0 where
  finite := ⟨[0, 1, 2, 3], by simp, by simp [knot, Obj.kids]⟩
  plainStr x t s hr := by rcases knot_mem hr with rfl | rfl | rfl | rfl <;> simp [knot]
  plainBytes x t b hr := by rcases knot_mem hr with rfl | rfl | rfl | rfl <;> simp [knot]
  keys x ty kvs hr hx kv hkv := by
    rcases knot_mem hr with rfl | rfl | rfl | rfl <;> simp [knot] at hx
    · obtain ⟨rfl, rfl⟩ := hx
      simp only [List.mem_singleton] at hkv
      subst hkv
      exact .str (h := knot) (x := 2) (ty := none) (s := "a") rfl
    · obtain ⟨rfl, rfl⟩ := hx
      cases hkv
  tuples x ty xs hr hx := by rcases knot_mem hr with rfl | rfl | rfl | rfl <;> simp [knot] at hx

theorem knot_loose : LooseOnce knot 0 where
  parent e p q hp hq he h1 h2 := by
    rcases knot_mem hp with rfl | rfl | rfl | rfl <;> rcases knot_mem hq with rfl | rfl | rfl | rfl <;>
      simp [knot, Obj.kids] at h1 h2 ⊢
    · rcases h2 with rfl | rfl <;> simp [knot, Obj.loose] at he
    · rcases h1 with rfl | rfl <;> simp [knot, Obj.loose] at he
  once e p hp he := by
    rcases knot_mem hp with rfl | rfl | rfl | rfl <;> simp only [knot, Obj.kids, List.count_nil, Nat.zero_le]
    · by_cases h0 : e = 0
      · subst h0; simp [knot, Obj.loose] at he
      · by_cases h1 : e = 1
        · subst h1; simp [knot, Obj.loose] at he
        · simp only [List.count_cons]; grind
    · by_cases h0 : e = 0
      · subst h0; simp [knot, Obj.loose] at he
      · by_cases h2 : e = 2
        · subst h2; simp [knot, Obj.loose] at he
        · simp [List.count_cons]; grind
    · simp

example : RoundTrips unary knot 0 := roundtrip_cyclic_partial unary_law knot_supported knot_loose
example : SharingKept unary knot 0 := sharing_kept_cyclic_partial unary_law knot_supported knot_loose

/-! ## outside the hypotheses -/

/-- `e = {}; n = []; n.append(n); [e, e, n]` -/
def collide : Heap := fun x =>
  match x with
  | 0 => .list none [1, 1, 2]
  | 1 => .dict none []
  | _ => .list none [2]

/-- serialize, then deserialize, at most 50 iterations each -/
def both (P : Pickler) (h : Heap) (x : Id) : Option (Val × List RObj) :=
  match serialize (serialSingle P h) .init x 50 with
  | some ⟨none, p, bs⟩ => match deserialize (coreDeser P) .init p bs 50 with
    | some (.ok v st) => some (v, st.heap)
    | _ => none
  | _ => none

theorem both_spec {P : Pickler} {h : Heap} {x : Id} {v : Val} {H : List RObj} (hb : both P h x = some (v, H)) :
    ∃ p bs, Serializes P h x p bs ∧ Deserializes P p bs v H := by
  unfold both at hb
  rcases hs : serialize (serialSingle P h) .init x 50 with _ | ⟨ex, p, bs⟩
  · rw [hs] at hb; cases hb
  · rw [hs] at hb
    cases ex with
    | some n => cases hb
    | none =>
      simp only at hb
      rcases hd : deserialize (coreDeser P) .init p bs 50 with _ | r
      · rw [hd] at hb; cases hb
      · rw [hd] at hb
        cases r with
        | ok v' st =>
          simp only [Option.some.injEq, Prod.mk.injEq] at hb
          obtain ⟨rfl, rfl⟩ := hb
          exact ⟨p, bs, ⟨50, hs⟩, deserializes_of 50 hd⟩
        | raised e => cases hb
        | malformed => cases hb

/-- C04 fails for it: serializing `e` twice overwrites its ordered id, the next object gets the same
one, and the back reference of `n` is taken for a reference to the empty dict -/
theorem cyclic_with_shared_empty_dict_fails : ¬ RoundTrips unary collide 0 := by
  rintro ⟨_, hall⟩
  have hb : both unary collide 0 = some (.ref 3, [.dict none [], .dict none [], .list none [.ref 1],
    .list none [.ref 0, .ref 1, .ref 2]]) := rfl
  obtain ⟨p, bs, h1, h2⟩ := both_spec hb
  have ht := (hall p bs h1).2 _ _ h2 4
  simp [dstTree, srcTree, collide] at ht

/-- `l = []; l.append((l,))` -/
def tupleKnot : Heap := fun x =>
  match x with
  | 0 => .list none [1]
  | _ => .tuple none [0]

/-- C04 fails for it: it can be serialized, but not deserialized -/
theorem cycle_through_tuple_fails : ∃ header bufs, Serializes unary tupleKnot 0 header bufs ∧
    DeserializeRaises unary header bufs .assertion :=
  ⟨_, _, ⟨50, rfl⟩, 50, fun f hf => deserialize_mono _ _ _ _ 50 f hf rfl⟩

/-- `e = {}; [e, e]` -/
def twoEmpty : Heap := fun x =>
  match x with
  | 0 => .list none [1, 1]
  | _ => .dict none []

/-- an empty dict occurring twice becomes two dicts -/
theorem shared_empty_dict_splits : ∃ header bufs v H a b, Serializes unary twoEmpty 0 header bufs ∧
    Deserializes unary header bufs v H ∧ followD H v [0] = some (.ref a) ∧ followD H v [1] = some (.ref b) ∧ a ≠ b := by
  have hb : both unary twoEmpty 0 = some (.ref 2, [.dict none [], .dict none [], .list none [.ref 0, .ref 1]]) := rfl
  obtain ⟨p, bs, h1, h2⟩ := both_spec hb
  exact ⟨p, bs, _, _, 0, 1, h1, h2, rfl, rfl, by decide⟩

/-- `class B(bytes)`; `[B(b"")]` -/
def bytesSub : Heap := fun x =>
  match x with
  | 0 => .list none [1]
  | _ => .bytes (some 9) ByteArray.empty

/-- the class of an instance of a `bytes` subclass is lost -/
theorem bytes_subclass_fails : ¬ RoundTrips unary bytesSub 0 := by
  rintro ⟨_, hall⟩
  have hb : both unary bytesSub 0 = some (.ref 0, [.list none [.atom (.bytes ByteArray.empty)]]) := rfl
  obtain ⟨p, bs, h1, h2⟩ := both_spec hb
  have ht := (hall p bs h1).2 _ _ h2 3
  simp [dstTree, srcTree, bytesSub] at ht

end Xoscar.Serial
