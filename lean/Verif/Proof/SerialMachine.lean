import Verif.Model.SerialMachine
/-!
# The stack machines of `Verif/Model/SerialMachine.lean` against recursive descriptions
-/
namespace Xoscar.Serial
variable {σ X : Type} {δ V E : Type}

/-! ## the encoder -/

/-- `k` iterations of the loop, the stack being non-empty before each -/
inductive Steps (single : Single σ X) : Nat → EncSt σ X → EncSt σ X → Prop
  | refl (s) : Steps single 0 s s
  | head {k s s'} : s.stack ≠ [] → Steps single k (step single s) s' → Steps single (k + 1) s s'

theorem Steps.trans {single : Single σ X} {k l : Nat} {a b c : EncSt σ X}
    (h1 : Steps single k a b) (h2 : Steps single l b c) : Steps single (k + l) a c := by
  induction h1 with
  | refl s => simpa using h2
  | @head k s s' hne _ ih =>
    have : k + 1 + l = (k + l) + 1 := by omega
    rw [this]; exact .head hne (ih h2)

theorem Steps.one {single : Single σ X} {s s' : EncSt σ X} (hne : s.stack ≠ []) (h : step single s = s') :
    Steps single 1 s s' := .head hne (by rw [h]; exact .refl _)

theorem loop_zero_iff (single : Single σ X) (s s' : EncSt σ X) :
    (∃ fuel, loop single 0 fuel s = some (.finished s')) ↔ ∃ k, Steps single k s s' ∧ s'.stack = [] := by
  constructor
  · rintro ⟨fuel, h⟩
    induction fuel generalizing s with
    | zero => simp [loop] at h
    | succ f ih =>
      rw [loop] at h
      rcases hs : s.stack with _ | ⟨fr, rest⟩
      · simp only [hs, Option.some.injEq, Loop.finished.injEq] at h
        subst h
        exact ⟨0, .refl _, hs⟩
      · simp only [hs, Int.lt_irrefl, false_and, if_false] at h
        obtain ⟨k, hk, he⟩ := ih _ h
        exact ⟨k + 1, .head (by simp [hs]) hk, he⟩
  · rintro ⟨k, hk, he⟩
    refine ⟨k + 1, ?_⟩
    induction hk with
    | refl s => simp [loop, he]
    | @head k s s' hne _ ih =>
      rw [loop]
      rcases hs : s.stack with _ | ⟨fr, rest⟩
      · exact absurd hs hne
      · simp only [Int.lt_irrefl, false_and, if_false]
        exact ih he

theorem loop_mono (single : Single σ X) (t : Int) (f g : Nat) (h : f ≤ g) (s : EncSt σ X) (r : Loop σ X)
    (hr : loop single t f s = some r) : loop single t g s = some r := by
  induction f generalizing g s with
  | zero => simp [loop] at hr
  | succ f ih =>
    obtain ⟨g, rfl⟩ : ∃ g', g = g' + 1 := ⟨g - 1, by omega⟩
    rw [loop] at hr ⊢
    rcases hs : s.stack with _ | ⟨fr, rest⟩
    · simpa only [hs] using hr
    · simp only [hs] at hr ⊢
      split at hr
      · next hc => rw [if_pos hc]; exact hr
      · next hc => rw [if_neg hc]; exact ih _ (by omega) _ hr

/-- with any threshold the loop either finishes in the same state or stops on the way there -/
theorem loop_any (single : Single σ X) (t : Int) (k : Nat) (s s' : EncSt σ X)
    (hk : Steps single k s s') (he : s'.stack = []) :
    loop single t (k + 1) s = some (.finished s') ∨
    ∃ m j, loop single t (k + 1) s = some (.overflow m) ∧ 0 < m.n ∧ Steps single j m s' := by
  induction hk with
  | refl s => left; simp [loop, he]
  | @head k s s' hne hst ih =>
    rw [loop]
    rcases hs : s.stack with _ | ⟨fr, rest⟩
    · exact absurd hs hne
    · by_cases hc : 0 < t ∧ t < ((step single s).n : Int)
      · simp only
        rw [if_pos hc]
        exact .inr ⟨_, k, rfl, by omega, hst⟩
      · simp only
        rw [if_neg hc]
        exact ih he

/-- big-step description of serializing a list of objects -/
def encL (f : σ → X → Option (PV × List Buf × σ)) : σ → List X → Option (List PV × List Buf × σ)
  | s, [] => some ([], [], s)
  | s, x :: xs => do
    let (p, b, s1) ← f s x
    let (ps, bs, s2) ← encL f s1 xs
    return (p :: ps, b ++ bs, s2)

/-- big-step description of serializing one object -/
def enc (single : Single σ X) : Nat → σ → X → Option (PV × List Buf × σ)
  | 0, _, _ => none
  | n + 1, s, x =>
    let r := single s x
    match r.subs with
    | .bufs bs => some (.tup r.head, bs, r.st)
    | .objs ys => do
      let (ps, bs, s') ← encL (enc single n) r.st ys
      return (.tup (r.head ++ ps), bs, s')

/-- popping a frame whose children are done -/
theorem step_pop (single : Single σ X) (fr0 : Frame X) (rest : List (Frame X)) (sb : Option PV) (st : σ)
    (bufs : List Buf) (n : Nat) (h : (fr0.record sb).subs.length = (fr0.record sb).done.length) :
    step single ⟨fr0 :: rest, sb, st, bufs, n⟩ =
      ⟨rest, some (.tup ((fr0.record sb).head ++ (fr0.record sb).done)), st, bufs, n + 1⟩ := by
  simp only [step]
  rw [if_pos h]

theorem encL_cons_eq {f : σ → X → Option (PV × List Buf × σ)} {s : σ} {x : X} {xs : List X}
    {ps : List PV} {bs : List Buf} {s' : σ} :
    encL f s (x :: xs) = some (ps, bs, s') ↔
      ∃ p b s1 qs cs, f s x = some (p, b, s1) ∧ encL f s1 xs = some (qs, cs, s') ∧ ps = p :: qs ∧ bs = b ++ cs := by
  simp only [encL, Option.bind_eq_bind, Option.bind_eq_some_iff, Option.pure_def, Option.some.injEq, Prod.exists,
    Prod.mk.injEq]
  constructor
  · rintro ⟨p, b, s1, h1, qs, cs, s2, h2, rfl, rfl, rfl⟩
    exact ⟨p, b, s1, qs, cs, h1, h2, rfl, rfl⟩
  · rintro ⟨p, b, s1, qs, cs, h1, h2, rfl, rfl⟩
    exact ⟨p, b, s1, h1, qs, cs, _, h2, rfl, rfl, rfl⟩

theorem encL_length {f : σ → X → Option (PV × List Buf × σ)} {s : σ} {xs : List X}
    {ps : List PV} {bs : List Buf} {s' : σ} (h : encL f s xs = some (ps, bs, s')) : ps.length = xs.length := by
  induction xs generalizing s ps bs with
  | nil => simp only [encL, Option.some.injEq, Prod.mk.injEq] at h; obtain ⟨rfl, _⟩ := h; rfl
  | cons x xs ih =>
    obtain ⟨p, b, s1, qs, cs, _, h2, rfl, rfl⟩ := encL_cons_eq.1 h
    simp [ih h2]

/-- children of a frame, one after the other -/
theorem encL_steps (single : Single σ X) (f : σ → X → Option (PV × List Buf × σ))
    (hf : ∀ s x p bs s', f s x = some (p, bs, s') →
      ∀ (fr0 : Frame X) (rest : List (Frame X)) (sb : Option PV) (bufs : List Buf) (n : Nat),
        (fr0.record sb).subs[(fr0.record sb).done.length]? = some x →
        ∃ k, Steps single k ⟨fr0 :: rest, sb, s, bufs, n⟩
          ⟨fr0.record sb :: rest, some p, s', bufs ++ bs, n + k⟩) :
    ∀ (xs : List X) (s : σ) (ps : List PV) (bs : List Buf) (s' : σ), encL f s xs = some (ps, bs, s') →
      ∀ (fr0 : Frame X) (rest : List (Frame X)) (sb : Option PV) (bufs : List Buf) (n : Nat),
        (fr0.record sb).subs = (fr0.record sb).subs.take (fr0.record sb).done.length ++ xs →
        (fr0.record sb).done.length ≤ (fr0.record sb).subs.length →
        ∃ k fr1 sb1, Steps single k ⟨fr0 :: rest, sb, s, bufs, n⟩ ⟨fr1 :: rest, sb1, s', bufs ++ bs, n + k⟩ ∧
          fr1.record sb1 = ⟨fr0.head, (fr0.record sb).subs, (fr0.record sb).done ++ ps⟩ := by
  intro xs
  induction xs with
  | nil =>
    intro s ps bs s' h fr0 rest sb bufs n h1 h2
    simp only [encL, Option.some.injEq, Prod.mk.injEq] at h
    obtain ⟨rfl, rfl, rfl⟩ := h
    refine ⟨0, fr0, sb, by simpa using Steps.refl _, ?_⟩
    cases sb <;> simp [Frame.record]
  | cons x xs ih =>
    intro s ps bs s' h fr0 rest sb bufs n h1 h2
    obtain ⟨p, b, s1, qs, cs, e1, e2, rfl, rfl⟩ := encL_cons_eq.1 h
    have hx : (fr0.record sb).subs[(fr0.record sb).done.length]? = some x := by
      rw [h1, List.getElem?_append_right (by simp; omega)]
      simp [Nat.min_eq_left h2]
    obtain ⟨k1, hk1⟩ := hf s x p b s1 e1 fr0 rest sb bufs n hx
    have hr : ((fr0.record sb).record (some p)).subs = (fr0.record sb).subs := rfl
    have hd : ((fr0.record sb).record (some p)).done = (fr0.record sb).done ++ [p] := rfl
    have hlt : (fr0.record sb).done.length < (fr0.record sb).subs.length := by
      by_cases hlt : (fr0.record sb).done.length < (fr0.record sb).subs.length
      · exact hlt
      · rw [List.getElem?_eq_none (by omega)] at hx; cases hx
    obtain ⟨k2, fr1, sb1, hk2, hfr⟩ := ih s1 qs cs s' e2 (fr0.record sb) rest (some p) (bufs ++ b) (n + k1)
      (by
        rw [hr, hd]
        have h3 := congrArg (List.drop (fr0.record sb).done.length) h1
        rw [List.drop_append_of_le_length (by simp; omega)] at h3
        have h4 : (fr0.record sb).subs.drop (fr0.record sb).done.length = x :: xs := by
          rw [h3]; simp
        have h5 : (fr0.record sb).subs.drop ((fr0.record sb).done.length + 1) = xs := by
          have : (fr0.record sb).subs.drop ((fr0.record sb).done.length + 1) =
              ((fr0.record sb).subs.drop (fr0.record sb).done.length).drop 1 := by simp
          rw [this, h4]; rfl
        have h6 := List.take_append_drop ((fr0.record sb).done.length + 1) (fr0.record sb).subs
        rw [h5] at h6
        simp only [List.length_append, List.length_singleton]
        exact h6.symm)
      (by rw [hr, hd]; simp; omega)
    refine ⟨k1 + k2, fr1, sb1, ?_, ?_⟩
    · have := hk1.trans hk2
      simpa [Nat.add_assoc, List.append_assoc] using this
    · rw [hfr, hr, hd]
      cases sb <;> simp [Frame.record]

/-- the machine serializes one child exactly as the recursive description -/
theorem enc_steps (single : Single σ X) (fuel : Nat) :
    ∀ s x p bs s', enc single fuel s x = some (p, bs, s') →
      ∀ (fr0 : Frame X) (rest : List (Frame X)) (sb : Option PV) (bufs : List Buf) (n : Nat),
        (fr0.record sb).subs[(fr0.record sb).done.length]? = some x →
        ∃ k, Steps single k ⟨fr0 :: rest, sb, s, bufs, n⟩
          ⟨fr0.record sb :: rest, some p, s', bufs ++ bs, n + k⟩ := by
  induction fuel with
  | zero => intro s x p bs s' h; simp [enc] at h
  | succ fuel ih =>
    intro s x p bs s' h fr0 rest sb bufs n hx
    have hlt : (fr0.record sb).done.length < (fr0.record sb).subs.length := by
      by_cases hlt : (fr0.record sb).done.length < (fr0.record sb).subs.length
      · exact hlt
      · rw [List.getElem?_eq_none (by omega)] at hx; cases hx
    have hstep : step single ⟨fr0 :: rest, sb, s, bufs, n⟩ =
        stepChild single (fr0.record sb) rest ⟨fr0 :: rest, sb, s, bufs, n⟩ x := by
      simp only [step]
      rw [if_neg (by omega), hx]
    simp only [enc] at h
    rcases hs : (single s x).subs with cs | ys
    · simp only [hs, Option.some.injEq, Prod.mk.injEq] at h
      obtain ⟨rfl, rfl, rfl⟩ := h
      refine ⟨1, .one (by simp) ?_⟩
      rw [hstep]; simp only [stepChild, hs]
    · simp only [hs, Option.bind_eq_bind, Option.bind_eq_some_iff, Option.pure_def, Option.some.injEq,
        Prod.exists, Prod.mk.injEq] at h
      obtain ⟨ps, cs, s1, h1, rfl, rfl, rfl⟩ := h
      cases ys with
      | nil =>
        simp only [encL, Option.some.injEq, Prod.mk.injEq] at h1
        obtain ⟨rfl, rfl, rfl⟩ := h1
        refine ⟨1, .one (by simp) ?_⟩
        rw [hstep]; simp only [stepChild, hs, List.append_nil]
      | cons y ys =>
        have hpush : Steps single 1 ⟨fr0 :: rest, sb, s, bufs, n⟩
            ⟨⟨(single s x).head, y :: ys, []⟩ :: fr0.record sb :: rest, none, (single s x).st, bufs, n + 1⟩ := by
          refine .one (by simp) ?_
          rw [hstep]; simp only [stepChild, hs]
        obtain ⟨k, fr1, sb1, hk, hfr⟩ := encL_steps single (enc single fuel) ih (y :: ys) _ ps cs s1 h1
          ⟨(single s x).head, y :: ys, []⟩ (fr0.record sb :: rest) none bufs (n + 1) (by simp [Frame.record])
          (by simp [Frame.record])
        have hpop : Steps single 1 ⟨fr1 :: fr0.record sb :: rest, sb1, s1, bufs ++ cs, n + 1 + k⟩
            ⟨fr0.record sb :: rest, some (.tup ((single s x).head ++ ps)), s1, bufs ++ cs, n + 1 + k + 1⟩ := by
          refine .one (by simp) ?_
          rw [step_pop single _ _ _ _ _ _ (by rw [hfr]; simpa [Frame.record] using (encL_length h1).symm), hfr]
          simp [Frame.record]
        have := (hpush.trans hk).trans hpop
        refine ⟨1 + k + 1, ?_⟩
        have e : n + (1 + k + 1) = n + 1 + k + 1 := by omega
        rw [e]; exact this

/-- `serialize` returns what the recursive description says -/
theorem serialize_of_enc (single : Single σ X) (init : σ) (x : X) (fuel : Nat) (p : PV) (bs : List Buf) (s' : σ)
    (h : enc single fuel init x = some (p, bs, s')) :
    ∃ f, serialize single init x f = some ⟨none, p, bs⟩ := by
  cases fuel with
  | zero => simp [enc] at h
  | succ fuel =>
    simp only [enc] at h
    rcases hs : (single init x).subs with cs | ys
    · simp only [hs, Option.some.injEq, Prod.mk.injEq] at h
      obtain ⟨rfl, rfl, rfl⟩ := h
      exact ⟨0, by simp only [serialize, hs]⟩
    · simp only [hs, Option.bind_eq_bind, Option.bind_eq_some_iff, Option.pure_def, Option.some.injEq,
        Prod.exists, Prod.mk.injEq] at h
      obtain ⟨ps, cs, s1, h1, rfl, rfl, rfl⟩ := h
      cases ys with
      | nil =>
        simp only [encL, Option.some.injEq, Prod.mk.injEq] at h1
        obtain ⟨rfl, rfl, rfl⟩ := h1
        exact ⟨0, by simp only [serialize, hs, List.append_nil]⟩
      | cons y ys =>
        obtain ⟨k, fr1, sb1, hk, hfr⟩ := encL_steps single (enc single fuel) (enc_steps single fuel) (y :: ys) _ ps cs s1 h1
          ⟨(single init x).head, y :: ys, []⟩ [] none [] 0 (by simp [Frame.record]) (by simp [Frame.record])
        have hpop : Steps single 1 ⟨[fr1], sb1, s1, [] ++ cs, 0 + k⟩
            ⟨[], some (.tup ((single init x).head ++ ps)), s1, [] ++ cs, 0 + k + 1⟩ := by
          refine .one (by simp) ?_
          rw [step_pop single _ _ _ _ _ _ (by rw [hfr]; simpa [Frame.record] using (encL_length h1).symm), hfr]
          simp [Frame.record]
        obtain ⟨f, hf⟩ := (loop_zero_iff single _ _).2 ⟨_, hk.trans hpop, rfl⟩
        exact ⟨f, by simp only [serialize, hs, hf, finish]; simp⟩

theorem serialize_mono (single : Single σ X) (init : σ) (x : X) (f g : Nat) (h : f ≤ g) (o : Out)
    (hr : serialize single init x f = some o) : serialize single init x g = some o := by
  unfold serialize at hr ⊢
  simp only at hr ⊢
  split at hr
  · exact hr
  · exact hr
  · next y ys hy =>
    split at hr
    · next s hl => rw [loop_mono single 0 f g h _ _ hl]; exact hr
    · cases hr

/-- more fuel never changes the result -/
theorem serialize_unique (single : Single σ X) (init : σ) (x : X) (f g : Nat) (o o' : Out)
    (h1 : serialize single init x f = some o) (h2 : serialize single init x g = some o') : o = o' := by
  have a := serialize_mono single init x f (max f g) (by omega) o h1
  have b := serialize_mono single init x g (max f g) (by omega) o' h2
  rw [a] at b
  exact Option.some.inj b

/-! ## the decoder -/

/-- result of the recursive description of `deserialize` -/
inductive BRes (A δ E : Type) where
  | ok (v : A) (st : δ) (pos : Nat)
  | exc (e : E)
  | malformed
  | fuel

/-- the subcomponents of a header; an exception is rewritten by the parent -/
def decL (D : Deser δ V E) (f : δ → Nat → PV → BRes V δ E) (head all : List PV) :
    List V → List PV → δ → Nat → BRes (List V) δ E
  | done, [], st, pos => .ok done st pos
  | done, c :: cs, st, pos => match f st pos c with
    | .ok v st' pos' => decL D f head all (done ++ [v]) cs st' pos'
    | .exc e => match D.onError head all done.length e with
      | some e' => .exc e'
      | none => .malformed
    | .malformed => .malformed
    | .fuel => .fuel

/-- finish a node -/
def decNode (D : Deser δ V E) (head : List PV) : BRes (List V) δ E → BRes V δ E
  | .ok vs st pos => match D.single st head vs with
    | .ok (v, st') => .ok v st' pos
    | .error e => .exc e
  | .exc e => .exc e
  | .malformed => .malformed
  | .fuel => .fuel

/-- a leaf -/
def decLeaf (D : Deser δ V E) (bufs : List Buf) (st : δ) (pos : Nat) (fs : List PV) (n : Nat) : BRes V δ E :=
  match D.single st fs (((bufs.drop pos).take n).map D.buf) with
  | .ok (v, st') => .ok v st' (pos + n)
  | .error e => .exc e

/-- recursive description of `deserialize` below the top level -/
def dec (D : Deser δ V E) (bufs : List Buf) : Nat → δ → Nat → PV → BRes V δ E
  | 0, _, _, _ => .fuel
  | k + 1, st, pos, c => match hdr4 c with
    | none => .malformed
    | some (fs, n, final) =>
      if final || n == 0 then decLeaf D bufs st pos fs n
      else decNode D (fs.take (fs.length - n))
        (decL D (dec D bufs k) (fs.take (fs.length - n)) (fs.drop (fs.length - n)) [] (fs.drop (fs.length - n)) st pos)

inductive DSteps (D : Deser δ V E) (bufs : List Buf) : Nat → DecSt δ V E → DecSt δ V E → Prop
  | refl (s) : DSteps D bufs 0 s s
  | head {k s s'} : s.stack ≠ [] → DSteps D bufs k (dstep D bufs s) s' → DSteps D bufs (k + 1) s s'

theorem DSteps.trans {D : Deser δ V E} {bufs : List Buf} {k l : Nat} {a b c : DecSt δ V E}
    (h1 : DSteps D bufs k a b) (h2 : DSteps D bufs l b c) : DSteps D bufs (k + l) a c := by
  induction h1 with
  | refl s => simpa using h2
  | @head k s s' hne _ ih =>
    have : k + 1 + l = (k + l) + 1 := by omega
    rw [this]; exact .head hne (ih h2)

theorem DSteps.one {D : Deser δ V E} {bufs : List Buf} {s s' : DecSt δ V E} (hne : s.stack ≠ [])
    (h : dstep D bufs s = s') : DSteps D bufs 1 s s' := .head hne (by rw [h]; exact .refl _)

theorem dloop_of_steps {D : Deser δ V E} {bufs : List Buf} {k : Nat} {s s' : DecSt δ V E}
    (h : DSteps D bufs k s s') (he : s'.stack = []) : ∀ f, k < f → dloop D bufs f s = some s' := by
  induction h with
  | refl s => intro f hf; obtain ⟨f, rfl⟩ : ∃ g, f = g + 1 := ⟨f - 1, by omega⟩; simp [dloop, he]
  | @head k s s' hne _ ih =>
    intro f hf
    obtain ⟨f, rfl⟩ : ∃ g, f = g + 1 := ⟨f - 1, by omega⟩
    rw [dloop]
    rcases hs : s.stack with _ | ⟨fr, rest⟩
    · exact absurd hs hne
    · exact ih he f (by omega)

/-- the signal with which the machine goes on after a child -/
def BRes.sig : BRes V δ E → Sig V E
  | .ok v _ _ => .has v
  | .exc e => .exc e
  | _ => .malformed

/-- what "the machine handles the child as `r` says" means -/
def Handles (D : Deser δ V E) (bufs : List Buf) (r : BRes V δ E) (st : δ) (pos : Nat) (fr0 : DFrame V)
    (rest : List (DFrame V)) (sig : Sig V E) : Prop :=
  match r with
  | .ok v st' pos' => ∃ k, DSteps D bufs k ⟨fr0 :: rest, sig, st, pos⟩ ⟨fr0.record sig :: rest, .has v, st', pos'⟩
  | .exc e => ∃ k st' pos', DSteps D bufs k ⟨fr0 :: rest, sig, st, pos⟩ ⟨fr0.record sig :: rest, .exc e, st', pos'⟩
  | .malformed => ∃ k st' pos', DSteps D bufs k ⟨fr0 :: rest, sig, st, pos⟩ ⟨[], .malformed, st', pos'⟩
  | .fuel => True

/-- signals with which the loop records and goes on -/
def Sig.go : Sig V E → Prop
  | .idle => True
  | .has _ => True
  | _ => False

theorem record_idle (fr : DFrame V) : fr.record (Sig.idle (E := E)) = fr := rfl

theorem dstep_go (D : Deser δ V E) (bufs : List Buf) (fr0 : DFrame V) (rest : List (DFrame V)) (sig : Sig V E)
    (hg : sig.go) (st : δ) (pos : Nat) :
    dstep D bufs ⟨fr0 :: rest, sig, st, pos⟩ =
      if (fr0.record sig).subs.length = (fr0.record sig).done.length then
        dstepFinish D (fr0.record sig) rest ⟨fr0 :: rest, sig, st, pos⟩
      else match (fr0.record sig).subs[(fr0.record sig).done.length]? with
        | none => ⟨[], .malformed, st, pos⟩
        | some c => dstepChild D bufs (fr0.record sig) rest ⟨fr0 :: rest, sig, st, pos⟩ c := by
  cases sig with
  | idle => rfl
  | has v => rfl
  | exc e => exact hg.elim
  | malformed => exact hg.elim

/-- the frame and signal reached after all the children, and what is then reached -/
def HandlesL (D : Deser δ V E) (bufs : List Buf) (r : BRes (List V) δ E) (st : δ) (pos : Nat) (fr0 : DFrame V)
    (rest : List (DFrame V)) (sig : Sig V E) : Prop :=
  match r with
  | .ok vs st' pos' => ∃ k fr1 sig1, DSteps D bufs k ⟨fr0 :: rest, sig, st, pos⟩ ⟨fr1 :: rest, sig1, st', pos'⟩ ∧
      sig1.go ∧ fr1.record sig1 = ⟨fr0.head, fr0.subs, vs⟩
  | .exc e => ∃ k st' pos', DSteps D bufs k ⟨fr0 :: rest, sig, st, pos⟩ ⟨rest, .exc e, st', pos'⟩
  | .malformed => ∃ k st' pos', DSteps D bufs k ⟨fr0 :: rest, sig, st, pos⟩ ⟨[], .malformed, st', pos'⟩
  | .fuel => True

theorem decL_steps (D : Deser δ V E) (bufs : List Buf) (f : δ → Nat → PV → BRes V δ E)
    (hf : ∀ st pos c (fr0 : DFrame V) (rest : List (DFrame V)) (sig : Sig V E), sig.go →
      (fr0.record sig).subs[(fr0.record sig).done.length]? = some c →
      Handles D bufs (f st pos c) st pos fr0 rest sig) :
    ∀ (cs : List PV) (st : δ) (pos : Nat) (fr0 : DFrame V) (rest : List (DFrame V)) (sig : Sig V E), sig.go →
      fr0.subs = fr0.subs.take (fr0.record sig).done.length ++ cs →
      (fr0.record sig).done.length ≤ fr0.subs.length →
      HandlesL D bufs (decL D f fr0.head fr0.subs (fr0.record sig).done cs st pos) st pos fr0 rest sig := by
  intro cs
  induction cs with
  | nil =>
    intro st pos fr0 rest sig hg h1 h2
    refine ⟨0, fr0, sig, .refl _, hg, ?_⟩
    cases sig <;> rfl
  | cons c cs ih =>
    intro st pos fr0 rest sig hg h1 h2
    have hsub : (fr0.record sig).subs = fr0.subs := by cases sig <;> rfl
    have hhead : (fr0.record sig).head = fr0.head := by cases sig <;> rfl
    have hx : (fr0.record sig).subs[(fr0.record sig).done.length]? = some c := by
      rw [hsub, h1, List.getElem?_append_right (by simp; omega)]
      simp [Nat.min_eq_left h2]
    have hlt : (fr0.record sig).done.length < fr0.subs.length := by
      by_cases hlt : (fr0.record sig).done.length < fr0.subs.length
      · exact hlt
      · rw [hsub, List.getElem?_eq_none (by omega)] at hx; cases hx
    have hh := hf st pos c fr0 rest sig hg hx
    simp only [decL]
    rcases hr : f st pos c with ⟨v, st', pos'⟩ | e | _ | _
    · rw [hr] at hh
      obtain ⟨k1, hk1⟩ := hh
      have hi := ih st' pos' (fr0.record sig) rest (.has v) trivial
        (by
          show (fr0.record sig).subs = _
          rw [hsub]
          show fr0.subs = fr0.subs.take ((fr0.record sig).done ++ [v]).length ++ cs
          have h3 := congrArg (List.drop (fr0.record sig).done.length) h1
          rw [List.drop_append_of_le_length (by simp; omega)] at h3
          have h4 : fr0.subs.drop (fr0.record sig).done.length = c :: cs := by rw [h3]; simp
          have h5 : fr0.subs.drop ((fr0.record sig).done.length + 1) = cs := by
            have : fr0.subs.drop ((fr0.record sig).done.length + 1) =
                (fr0.subs.drop (fr0.record sig).done.length).drop 1 := by simp
            rw [this, h4]; rfl
          have h6 := List.take_append_drop ((fr0.record sig).done.length + 1) fr0.subs
          rw [h5] at h6
          simp only [List.length_append, List.length_singleton]
          exact h6.symm)
        (by
          show ((fr0.record sig).done ++ [v]).length ≤ (fr0.record sig).subs.length
          rw [hsub]; simp; omega)
      have e1 : ((fr0.record sig).record (Sig.has (E := E) v)).done = (fr0.record sig).done ++ [v] := rfl
      rw [hhead, hsub, e1] at hi
      simp only
      revert hi
      generalize decL D f fr0.head fr0.subs ((fr0.record sig).done ++ [v]) cs st' pos' = r
      intro hi
      cases r with
      | ok vs st'' pos'' =>
        obtain ⟨k2, fr1, sig1, hk2, hg1, he⟩ := hi
        refine ⟨k1 + k2, fr1, sig1, hk1.trans hk2, hg1, ?_⟩
        rw [he, hhead, hsub]
      | exc e => obtain ⟨k2, s2, p2, hk2⟩ := hi; exact ⟨k1 + k2, s2, p2, hk1.trans hk2⟩
      | malformed => obtain ⟨k2, s2, p2, hk2⟩ := hi; exact ⟨k1 + k2, s2, p2, hk1.trans hk2⟩
      | fuel => trivial
    · rw [hr] at hh
      obtain ⟨k1, s1, p1, hk1⟩ := hh
      simp only
      rcases ho : D.onError fr0.head fr0.subs (fr0.record sig).done.length e with _ | e'
      · refine ⟨k1 + 1, s1, p1, hk1.trans (.one (by simp) ?_)⟩
        simp only [dstep, hhead, hsub, ho]
      · refine ⟨k1 + 1, s1, p1, hk1.trans (.one (by simp) ?_)⟩
        simp only [dstep, hhead, hsub, ho]
    · rw [hr] at hh; exact hh
    · trivial

theorem decL_length {D : Deser δ V E} {f : δ → Nat → PV → BRes V δ E} {head all : List PV} {done : List V}
    {cs : List PV} {st : δ} {pos : Nat} {vs : List V} {st' : δ} {pos' : Nat}
    (h : decL D f head all done cs st pos = .ok vs st' pos') : vs.length = done.length + cs.length := by
  induction cs generalizing done st pos with
  | nil => simp only [decL, BRes.ok.injEq] at h; obtain ⟨rfl, _⟩ := h; simp
  | cons c cs ih =>
    simp only [decL] at h
    rcases hr : f st pos c with ⟨v, st1, pos1⟩ | e | _ | _
    all_goals simp only [hr] at h
    · rw [ih h]; simp; omega
    · split at h <;> cases h
    all_goals cases h

theorem dec_steps (D : Deser δ V E) (bufs : List Buf) (fuel : Nat) :
    ∀ st pos c (fr0 : DFrame V) (rest : List (DFrame V)) (sig : Sig V E), sig.go →
      (fr0.record sig).subs[(fr0.record sig).done.length]? = some c →
      Handles D bufs (dec D bufs fuel st pos c) st pos fr0 rest sig := by
  induction fuel with
  | zero => intros; trivial
  | succ fuel ih =>
    intro st pos c fr0 rest sig hg hx
    have hlt : ¬ (fr0.record sig).subs.length = (fr0.record sig).done.length := by
      intro h
      rw [List.getElem?_eq_none (by omega)] at hx; cases hx
    have hstep := dstep_go D bufs fr0 rest sig hg st pos
    rw [if_neg hlt, hx] at hstep
    simp only at hstep
    simp only [dec]
    rcases hh : hdr4 c with _ | ⟨fs, n, final⟩
    · refine ⟨1, st, pos, .one (by simp) ?_⟩
      rw [hstep]; simp only [dstepChild, hh]
    · simp only
      by_cases hfin : (final || n == 0) = true
      · rw [if_pos hfin]
        unfold decLeaf
        rcases hs : D.single st fs (((bufs.drop pos).take n).map D.buf) with e | ⟨v, st'⟩
        · refine ⟨1, st, pos, .one (by simp) ?_⟩
          rw [hstep]; simp only [dstepChild, hh, if_pos hfin, hs]
        · refine ⟨1, .one (by simp) ?_⟩
          rw [hstep]; simp only [dstepChild, hh, if_pos hfin, hs]
      · rw [if_neg hfin]
        have hpush : DSteps D bufs 1 ⟨fr0 :: rest, sig, st, pos⟩
            ⟨⟨fs.take (fs.length - n), fs.drop (fs.length - n), []⟩ :: fr0.record sig :: rest, .idle, st, pos⟩ := by
          refine .one (by simp) ?_
          rw [hstep]; simp only [dstepChild, hh, if_neg hfin]
        have hL := decL_steps D bufs (dec D bufs fuel) ih (fs.drop (fs.length - n)) st pos
          ⟨fs.take (fs.length - n), fs.drop (fs.length - n), []⟩ (fr0.record sig :: rest) .idle trivial
          (by simp [DFrame.record]) (by simp [DFrame.record])
        simp only [record_idle] at hL
        revert hL
        rcases hr : decL D (dec D bufs fuel) (fs.take (fs.length - n)) (fs.drop (fs.length - n)) []
          (fs.drop (fs.length - n)) st pos with ⟨vs, st1, pos1⟩ | e | _ | _
        all_goals intro hL
        · obtain ⟨k, fr1, sig1, hk, hg1, he⟩ := hL
          have hlen : (fr1.record sig1).subs.length = (fr1.record sig1).done.length := by
            rw [he]; simpa using (decL_length hr).symm
          have hfin := dstep_go D bufs fr1 (fr0.record sig :: rest) sig1 hg1 st1 pos1
          rw [if_pos hlen] at hfin
          simp only [decNode]
          rcases hs : D.single st1 (fs.take (fs.length - n)) vs with e | ⟨v, st'⟩
          · refine ⟨1 + k + 1, st1, pos1, (hpush.trans hk).trans (.one (by simp) ?_)⟩
            rw [hfin]; simp only [dstepFinish, he, hs]
          · refine ⟨1 + k + 1, (hpush.trans hk).trans (.one (by simp) ?_)⟩
            rw [hfin]; simp only [dstepFinish, he, hs]
        · obtain ⟨k, s2, p2, hk⟩ := hL; exact ⟨1 + k, s2, p2, hpush.trans hk⟩
        · obtain ⟨k, s2, p2, hk⟩ := hL; exact ⟨1 + k, s2, p2, hpush.trans hk⟩
        · trivial

/-- outcome of `deserialize` from the recursive description -/
def BRes.out : BRes V δ E → DOut δ V E
  | .ok v st _ => .ok v st
  | .exc e => .raised e
  | _ => .malformed

/-- `deserialize` as the recursive description of a header that is not a leaf -/
theorem deserialize_of_dec (D : Deser δ V E) (bufs : List Buf) (init : δ) (header : PV) (fs : List PV) (n : Nat)
    (final : Bool) (hh : hdr4 header = some (fs, n, final)) (hnl : ¬ (final || n == 0) = true) (fuel : Nat)
    (hr : dec D bufs fuel init 0 header ≠ .fuel) :
    ∃ f0, ∀ f, f0 ≤ f → deserialize D init header bufs f = some (dec D bufs fuel init 0 header).out := by
  cases fuel with
  | zero => exact absurd rfl hr
  | succ fuel =>
    have hL := decL_steps D bufs (dec D bufs fuel) (dec_steps D bufs fuel) (fs.drop (fs.length - n)) init 0
      ⟨fs.take (fs.length - n), fs.drop (fs.length - n), []⟩ [] .idle trivial
      (by simp [DFrame.record]) (by simp [DFrame.record])
    simp only [record_idle] at hL
    simp only [dec, hh, if_neg hnl] at hr ⊢
    rcases hd : decL D (dec D bufs fuel) (fs.take (fs.length - n)) (fs.drop (fs.length - n)) []
          (fs.drop (fs.length - n)) init 0 with ⟨vs, st1, pos1⟩ | e | _ | _
    all_goals rw [hd] at hL hr
    · obtain ⟨k, fr1, sig1, hk, hg1, he⟩ := hL
      have hlen : (fr1.record sig1).subs.length = (fr1.record sig1).done.length := by
        rw [he]; simpa using (decL_length hd).symm
      have hfin := dstep_go D bufs fr1 [] sig1 hg1 st1 pos1
      rw [if_pos hlen] at hfin
      simp only [decNode]
      rcases hs : D.single st1 (fs.take (fs.length - n)) vs with e | ⟨v, st'⟩
      · have := hk.trans (.one (by simp) (s' := ⟨[], .exc e, st1, pos1⟩) (by rw [hfin]; simp only [dstepFinish, he, hs]))
        refine ⟨k + 1 + 1, fun f hf => ?_⟩
        simp only [deserialize, hh, if_neg hnl]
        rw [dloop_of_steps this rfl f (by omega)]
        rfl
      · have := hk.trans (.one (by simp) (s' := ⟨[], .has v, st', pos1⟩) (by rw [hfin]; simp only [dstepFinish, he, hs]))
        refine ⟨k + 1 + 1, fun f hf => ?_⟩
        simp only [deserialize, hh, if_neg hnl]
        rw [dloop_of_steps this rfl f (by omega)]
        rfl
    · obtain ⟨k, s2, p2, hk⟩ := hL
      refine ⟨k + 1, fun f hf => ?_⟩
      simp only [deserialize, hh, if_neg hnl]
      rw [dloop_of_steps hk rfl f (by omega)]
      rfl
    · obtain ⟨k, s2, p2, hk⟩ := hL
      refine ⟨k + 1, fun f hf => ?_⟩
      simp only [deserialize, hh, if_neg hnl]
      rw [dloop_of_steps hk rfl f (by omega)]
      rfl
    · exact absurd rfl hr

end Xoscar.Serial
