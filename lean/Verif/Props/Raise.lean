import Verif.Spec.Raise
import Verif.Proof.Base

/-! C95: a remote error can be handled like the error itself. -/

namespace Xoscar.Raise
open Spec

theorem look_iff (mro : List Layer) (n : Name) (a : Attr) :
    look mro n = some a ↔ Defines mro n a := by
  induction mro with
  | nil => exact ⟨fun h => by simp [look] at h, fun h => by cases h⟩
  | cons l ls ih =>
    simp only [look]
    rcases hl : l.attrs.get? n with _ | b
    · simp only [ih]
      constructor
      · exact fun h => .later hl h
      · intro h
        cases h with
        | here h => rw [hl] at h; cases h
        | later _ h => exact h
    · simp only
      constructor
      · intro h; cases h; exact .here hl
      · intro h
        cases h with
        | here h => rw [hl] at h; exact h
        | later h _ => rw [hl] at h; cases h

theorem look_none (mro : List Layer) (n : Name) : look mro n = none ↔ Undefined mro n := by
  induction mro with
  | nil => simp [look, Undefined]
  | cons l ls ih =>
    simp only [look, Undefined, List.mem_cons, forall_eq_or_imp]
    rcases hl : l.attrs.get? n with _ | b
    · simp only [ih, Undefined, true_and]
    · simp

/-- Reading an attribute gives one result. -/
theorem gets_fun {lv o n r r'} (h : Gets lv o n r) (h' : Gets lv o n r') : r = r' := by
  induction h generalizing r' with
  | cmem hl => cases h' <;> simp_all
  | slot hl => cases h' <;> simp_all
  | prop hl _ ih =>
    cases h' with
    | prop hl' h2 => rw [hl] at hl'; cases hl'; have := ih h2; simp_all
    | propMiss hl' h2 => rw [hl] at hl'; cases hl'; have := ih h2; simp_all
    | _ => simp_all
  | propMiss hl _ ih =>
    cases h' with
    | prop hl' h2 => rw [hl] at hl'; cases hl'; have := ih h2; simp_all
    | propMiss hl' h2 => rfl
    | _ => simp_all
  | own hl hd => cases h' <;> simp_all
  | shadow hl hd => cases h' <;> simp_all
  | cls hl hd => cases h' <;> simp_all
  | miss hl hd => cases h' <;> simp_all
  | plain _ ih => cases h' with | plain h2 => exact ih h2
  | hit _ ih =>
    cases h' with
    | hit h2 => exact ih h2
    | hook h2 _ => have := ih h2; simp_all
  | hook _ _ ih1 ih2 =>
    cases h' with
    | hit h2 => have := ih1 h2; simp_all
    | hook h2 h3 => exact ih2 h3

theorem isA_iff (o : Obj) (c : Cls) : o.isA c = true ↔ IsA o.self.mro c := by
  simp [Obj.isA, Obj.classes, IsA]

theorem newArgs_iff (mro : List Layer) : newArgs mro = true ↔ NewWantsArgs mro := by
  induction mro with
  | nil => simp [newArgs, NewWantsArgs]
  | cons l ls ih =>
    simp only [newArgs]
    rcases hl : l.newArgs with _ | b
    · simp only [ih]
      constructor
      · rintro ⟨pre, x, post, rfl, h1, h2⟩
        exact ⟨l :: pre, x, post, rfl, by simpa [hl] using h1, h2⟩
      · rintro ⟨pre, x, post, he, h1, h2⟩
        cases pre with
        | nil => simp at he; rw [← he.1, hl] at h2; cases h2
        | cons y pre =>
          simp at he
          exact ⟨pre, x, post, he.2, fun z hz => h1 z (by simp [hz]), h2⟩
    · simp only
      constructor
      · rintro rfl; exact ⟨[], l, ls, rfl, by simp, hl⟩
      · rintro ⟨pre, x, post, he, h1, h2⟩
        cases pre with
        | nil => simp at he; rw [← he.1, hl] at h2; cases h2; rfl
        | cons y pre =>
          simp at he
          have := h1 y (by simp)
          rw [← he.1, hl] at this; cases this

theorem initSub_iff (mro : List Layer) : initSub mro = true ↔
    ∃ pre l post, mro = pre ++ l :: post ∧ (∀ x ∈ pre, x.initSub = none) ∧
      l.initSub = some true := by
  induction mro with
  | nil => simp [initSub]
  | cons l ls ih =>
    simp only [initSub]
    rcases hl : l.initSub with _ | b
    · simp only [ih]
      constructor
      · rintro ⟨pre, x, post, rfl, h1, h2⟩
        exact ⟨l :: pre, x, post, rfl, by simpa [hl] using h1, h2⟩
      · rintro ⟨pre, x, post, he, h1, h2⟩
        cases pre with
        | nil => simp at he; rw [← he.1, hl] at h2; cases h2
        | cons y pre =>
          simp at he
          exact ⟨pre, x, post, he.2, fun z hz => h1 z (by simp [hz]), h2⟩
    · simp only
      constructor
      · rintro rfl; exact ⟨[], l, ls, rfl, by simp, hl⟩
      · rintro ⟨pre, x, post, he, h1, h2⟩
        cases pre with
        | nil => simp at he; rw [← he.1, hl] at h2; cases h2; rfl
        | cons y pre =>
          simp at he
          have := h1 y (by simp)
          rw [← he.1, hl] at this; cases this

theorem canWrap_iff (e : Inst) : canWrap e = true ↔ ¬ NoSubclass e.mro ∧ ¬ NewWantsArgs e.mro := by
  have hf : isFinal e.mro = true ↔ ∃ l post, e.mro = l :: post ∧ l.final = true := by
    rcases e.mro with _ | ⟨l, ls⟩ <;> simp [isFinal]
  have hi := initSub_iff e.mro
  have hn := newArgs_iff e.mro
  unfold canWrap NoSubclass
  rw [← hf, ← hi, ← hn]
  cases isFinal e.mro <;> cases initSub e.mro <;> cases newArgs e.mro <;> simp

/-- The error that the caller of an ordinary error gets is a wrapper around it. -/
theorem answer_ordinary {addr pid tb e o} (he : Ordinary e)
    (h : Answer addr pid tb (.plain e) o) :
    ∃ args cause context suppress,
      Gets .full (.plain e) .args (some args) ∧ Gets .full (.plain e) .cause (some cause) ∧
      Gets .full (.plain e) .context (some context) ∧
      Gets .full (.plain e) .suppress (some suppress) ∧
      o = .wrapper (wrapInst addr pid tb e args cause context suppress) e := by
  cases h with
  | again h => exact absurd ((isA_iff _ _).1 h) he.notWrapped
  | cancelled _ h => exact absurd ((isA_iff _ _).1 h) he.notCancelled
  | cannot _ _ h => rw [(canWrap_iff e).2 ⟨he.sub, he.new⟩] at h; cases h
  | wrap _ _ _ h1 h2 h3 h4 => exact ⟨_, _, _, _, h1, h2, h3, h4, rfl⟩

/-- **C95**: the caller's error is an instance of exactly the classes of the error raised,
apart from the two the library adds. -/
theorem classes {addr pid tb e o} (he : Ordinary e) (h : Answer addr pid tb (.plain e) o)
    (c : Cls) (h1 : c ≠ .asCause) (h2 : c ≠ .derived) : o.isA c = (Obj.plain e).isA c := by
  obtain ⟨_, _, _, _, _, _, _, _, rfl⟩ := answer_ordinary he h
  rw [Bool.eq_iff_iff, isA_iff, isA_iff]
  simp only [IsA, Obj.self, wrapInst, List.mem_cons, exists_eq_or_imp]
  constructor
  · rintro (h | h | h)
    · exact absurd h.symm h2
    · exact absurd h.symm h1
    · exact h
  · exact fun h => .inr (.inr h)

/-- **C95**: so the same `except` clause catches it. -/
theorem handlers {addr pid tb e o} (he : Ordinary e) (h : Answer addr pid tb (.plain e) o)
    (clauses : List Cls) (h1 : .asCause ∉ clauses) (h2 : .derived ∉ clauses) :
    handler clauses o = handler clauses (.plain e) := by
  unfold handler
  induction clauses with
  | nil => rfl
  | cons c cs ih =>
    simp only [List.mem_cons, not_or] at h1 h2
    rw [List.findIdx?_cons, List.findIdx?_cons, ih h1.2 h2.2,
      classes he h c (fun hc => h1.1 hc.symm) (fun hc => h2.1 hc.symm)]

/-- **C95**: its text is the error's, after where it was raised. -/
theorem text {addr pid tb e o} (he : Ordinary e) (h : Answer addr pid tb (.plain e) o) :
    o.str = "[address=" ++ addr ++ ", pid=" ++ toString pid ++ "]" ++ " " ++ (Obj.plain e).str := by
  obtain ⟨_, _, _, _, _, _, _, _, rfl⟩ := answer_ordinary he h
  rfl

/-- **C95**: where it was raised can be read. -/
theorem origin {addr pid tb e o} (he : Ordinary e) (h : Answer addr pid tb (.plain e) o)
    (r : Option Val) :
    (Gets .full o .address r ↔ r = some (.text addr)) ∧
    (Gets .full o .pid r ↔ r = some (.num pid)) ∧
    (Gets .full o .wrapped r ↔ r = some (.exc e.id)) := by
  obtain ⟨a, c, x, s, _, _, _, _, rfl⟩ := answer_ordinary he h
  refine ⟨⟨fun g => ?_, ?_⟩, ⟨fun g => ?_, ?_⟩, ⟨fun g => ?_, ?_⟩⟩
  · exact gets_fun g (.hit (.cls (c := .text addr) rfl rfl))
  · rintro rfl; exact .hit (.cls rfl rfl)
  · exact gets_fun g (.hit (.cls (c := .num pid) rfl rfl))
  · rintro rfl; exact .hit (.cls rfl rfl)
  · exact gets_fun g (.hit (.cls (c := .exc e.id) rfl rfl))
  · rintro rfl; exact .hit (.cls rfl rfl)

/-- **C95**: the arguments and the causes are the error's. -/
theorem standard {addr pid tb e o} (he : Ordinary e) (h : Answer addr pid tb (.plain e) o)
    (n : Name) (hn : n = .args ∨ n = .cause ∨ n = .context ∨ n = .suppress) (r : Option Val) :
    Gets .full o n r ↔ Gets .full (.plain e) n r := by
  obtain ⟨a, c, x, s, h1, h2, h3, h4, rfl⟩ := answer_ordinary he h
  have key : ∀ (n : Name) (v : Val), Gets .full (.plain e) n (some v) →
      Gets .full (.wrapper (wrapInst addr pid tb e a c x s) e) n (some v) →
      (Gets .full (.wrapper (wrapInst addr pid tb e a c x s) e) n r ↔
        Gets .full (.plain e) n r) := by
    intro n v g1 g2
    exact ⟨fun g => by rw [gets_fun g g2]; exact g1, fun g => by rw [gets_fun g g1]; exact g2⟩
  rcases hn with rfl | rfl | rfl | rfl
  · exact key _ _ h1 (.hit (.cls rfl rfl))
  · exact key _ _ h2 (.hit (.cls rfl rfl))
  · exact key _ _ h3 (.hit (.cls rfl rfl))
  · exact key _ _ h4 (.hit (.cls rfl rfl))

/-- **C95**: the module name is the error's, and the traceback the one of the remote
call. -/
theorem module_traceback {addr pid tb e o} (he : Ordinary e)
    (h : Answer addr pid tb (.plain e) o) (r : Option Val) :
    (Gets .full o .module r ↔ r = some (.text e.modl)) ∧
    (Defines e.mro .traceback (.cmember .none) →
      (Gets .full o .traceback r ↔ r = some tb)) := by
  obtain ⟨a, c, x, s, _, _, _, _, rfl⟩ := answer_ordinary he h
  refine ⟨⟨fun g => ?_, ?_⟩, fun hd => ?_⟩
  · exact gets_fun g (.hit (.cls (c := .text e.modl) rfl rfl))
  · rintro rfl; exact .hit (.cls rfl rfl)
  · have hl : look (wrapInst addr pid tb e a c x s).mro .traceback = some (.cmember .none) :=
      (look_iff e.mro .traceback _).2 hd
    have g2 : Gets .full (.wrapper (wrapInst addr pid tb e a c x s) e) .traceback (some tb) :=
      .hit (.cmem (o := .wrapper (wrapInst addr pid tb e a c x s) e) hl)
    exact ⟨fun g => gets_fun g g2, fun h => h ▸ g2⟩

theorem look_wrap {addr pid tb e a c x s} {n : Name} (h1 : ¬ Reserved n) (h2 : ¬ Standard n) :
    look (wrapInst addr pid tb e a c x s).mro n = look e.mro n := by
  cases n <;> simp [Reserved, Standard] at h1 h2
  simp [wrapInst, look, newAttrs, Dict.get?]

theorem kept_both {addr pid tb e a c x s} {n : Name} (h1 : ¬ Reserved n) (h2 : ¬ Standard n)
    (hk : Kept e n) : ∃ r, Gets .full (.plain e) n r ∧
      Gets .full (.wrapper (wrapInst addr pid tb e a c x s) e) n r := by
  have hw := @look_wrap addr pid tb e a c x s n h1 h2
  have hdict : (wrapInst addr pid tb e a c x s).dict.get? n = none := rfl
  have hslot : (wrapInst addr pid tb e a c x s).slots.get? n = none := rfl
  have hcs : (wrapInst addr pid tb e a c x s).cs.get? n = none := by
    cases n <;> simp [Reserved, Standard] at h1 h2
    simp [wrapInst, Dict.get?]
  induction hk with
  | instance_ hd =>
    have hl := (look_none _ _).2 hd
    rcases hi : e.dict.get? _ with _ | v
    · exact ⟨none, .plain (.miss hl hi), .hook (.miss (hw.trans hl) hdict) (.plain (.miss hl hi))⟩
    · exact ⟨some v, .plain (.own hl hi), .hook (.miss (hw.trans hl) hdict) (.plain (.own hl hi))⟩
  | @slot n hd =>
    have hl := (look_iff _ _ _).2 hd
    have g := Gets.plain (Gets.slot (o := .plain e) hl)
    refine ⟨_, g, .hook ?_ g⟩
    have := Gets.slot (o := .wrapper (wrapInst addr pid tb e a c x s) e) (n := n) (hw.trans hl)
    exact this
  | class_ hd hv =>
    have hl := (look_iff _ _ _).2 hd
    refine ⟨_, ?_, .hit (.cls (hw.trans hl) hdict)⟩
    rcases hv with hv | hv
    · exact .plain (.cls hl hv)
    · exact .plain (.shadow hl hv)
  | @unset n d hd hv =>
    have hl := (look_iff _ _ _).2 hd
    refine ⟨some d, ?_, ?_⟩
    · have g := Gets.plain (Gets.cmem (o := .plain e) hl)
      have e1 : ((Obj.plain e).self.cs.get? n).getD d = d := by
        rcases hv with hv | hv <;> simp [Obj.self, hv]
      rwa [e1] at g
    · have g := Gets.cmem (o := .wrapper (wrapInst addr pid tb e a c x s) e) (hw.trans hl)
      have e1 : ((Obj.wrapper (wrapInst addr pid tb e a c x s) e).self.cs.get? n).getD d = d := by
        simp [Obj.self, hcs]
      rw [e1] at g
      exact .hit g
  | @prop n f g hd hf1 hf2 hkf ih =>
    have hl := (look_iff _ _ _).2 hd
    have hcs' : (wrapInst addr pid tb e a c x s).cs.get? f = none := by
      cases f <;> simp [Reserved, Standard] at hf1 hf2
      simp [wrapInst, Dict.get?]
    obtain ⟨r, g1, g2⟩ := ih hf1 hf2 (look_wrap hf1 hf2) rfl rfl hcs'
    rcases r with _ | v
    · exact ⟨none, .plain (.propMiss hl g1),
        .hook (.propMiss (hw.trans hl) g2) (.plain (.propMiss hl g1))⟩
    · exact ⟨some (g v), .plain (.prop hl g1), .hit (.prop (hw.trans hl) g2)⟩

/-- **C95**: an attribute of the error that no class overrides is read from the caller's
error as from the error itself, and one that it has not is missing there too. -/
theorem attributes {addr pid tb e o} (he : Ordinary e) (h : Answer addr pid tb (.plain e) o)
    {n : Name} (h1 : ¬ Reserved n) (h2 : ¬ Standard n) (hk : Kept e n) (r : Option Val) :
    Gets .full o n r ↔ Gets .full (.plain e) n r := by
  obtain ⟨a, c, x, s, _, _, _, _, rfl⟩ := answer_ordinary he h
  obtain ⟨r', g1, g2⟩ := @kept_both addr pid tb e a c x s n h1 h2 hk
  exact ⟨fun g => by rw [gets_fun g g2]; exact g1, fun g => by rw [gets_fun g g1]; exact g2⟩

theorem wrapped_isA {addr pid tb e a c x s} :
    (Obj.wrapper (wrapInst addr pid tb e a c x s) e).isA .asCause = true := by
  simp [Obj.isA, Obj.classes, Obj.self, wrapInst]

/-- **C95**: an error that crosses further pools, the methods there letting it pass, is at
each caller what it was at the first: the error of the pool where it was raised; only the
traceback is that of the last call. -/
theorem passes_on {addr pid tb e o o'} {ps : List (String × Nat × Val)} (he : Ordinary e)
    (h : Answer addr pid tb (.plain e) o) (hp : Hops ps o o') :
    Answer addr pid ((ps.map (·.2.2)).getLastD tb) (.plain e) o' := by
  induction ps generalizing tb o with
  | nil => cases hp; exact h
  | cons p ps ih =>
    cases hp with
    | @cons a' p' t _ _ o1 _ h1 h2 =>
      have : Answer addr pid t (.plain e) o1 := by
        obtain ⟨a, c, x, s, g1, g2, g3, g4, rfl⟩ := answer_ordinary he h
        cases h1 with
        | again _ =>
          exact .wrap (e := e) (by
            rw [← Bool.not_eq_true, isA_iff]; exact he.notWrapped) (by
            rw [← Bool.not_eq_true, isA_iff]; exact he.notCancelled)
            ((canWrap_iff e).2 ⟨he.sub, he.new⟩) g1 g2 g3 g4
        | cancelled h3 _ => rw [wrapped_isA] at h3; cases h3
      have := ih this h2
      have e1 : ((((a', p', t) :: ps).map (·.2.2)).getLastD tb) = (ps.map (·.2.2)).getLastD t := by
        rw [List.map_cons, List.getLastD_cons]
      rw [e1]; exact this

/-- **C95**: the caller always gets an error for an ordinary one. -/
theorem answered (addr : String) (pid : Nat) (tb : Val) {e : Inst} (he : Ordinary e)
    (hs : ∀ n, n = .args ∨ n = .cause ∨ n = .context ∨ n = .suppress →
      ∃ v, Gets .full (.plain e) n (some v)) :
    ∃ o, Answer addr pid tb (.plain e) o := by
  obtain ⟨a, ha⟩ := hs .args (by simp)
  obtain ⟨c, hc⟩ := hs .cause (by simp)
  obtain ⟨x, hx⟩ := hs .context (by simp)
  obtain ⟨s, hs⟩ := hs .suppress (by simp)
  exact ⟨_, .wrap (by rw [← Bool.not_eq_true, isA_iff]; exact he.notWrapped)
    (by rw [← Bool.not_eq_true, isA_iff]; exact he.notCancelled)
    ((canWrap_iff e).2 ⟨he.sub, he.new⟩) ha hc hx hs⟩

/-- Refuted: a C member of the error (`OSError.errno`, `SystemExit.code`,
`StopAsyncIteration`'s and `ImportError`'s members, ...) reads as if never set. -/
theorem cmember_refuted {addr pid tb e o} (he : Ordinary e) (h : Answer addr pid tb (.plain e) o)
    {n : Name} (h1 : ¬ Reserved n) (h2 : ¬ Standard n) {d v : Val}
    (hd : Defines e.mro n (.cmember d)) (hv : e.cs.get? n = some v) :
    Gets .full (.plain e) n (some v) ∧ ∀ r, Gets .full o n r ↔ r = some d := by
  obtain ⟨a, c, x, s, _, _, _, _, rfl⟩ := answer_ordinary he h
  have hl := (look_iff _ _ _).2 hd
  constructor
  · have g := Gets.plain (Gets.cmem (o := .plain e) hl)
    have e1 : ((Obj.plain e).self.cs.get? n).getD d = v := by simp [Obj.self, hv]
    rwa [e1] at g
  · have hcs : (wrapInst addr pid tb e a c x s).cs.get? n = none := by
      cases n <;> simp [Reserved, Standard] at h1 h2
      simp [wrapInst, Dict.get?]
    have g := Gets.cmem (o := .wrapper (wrapInst addr pid tb e a c x s) e)
      ((look_wrap h1 h2).trans hl)
    have e1 : ((Obj.wrapper (wrapInst addr pid tb e a c x s) e).self.cs.get? n).getD d = d := by
      simp [Obj.self, hcs]
    rw [e1] at g
    exact fun r => ⟨fun g' => gets_fun g' (.hit g), fun h => h ▸ .hit g⟩

/-- Refuted: an instance attribute for which a class has a default (a dataclass field, say)
reads as the default. -/
theorem default_refuted {addr pid tb e o} (he : Ordinary e) (h : Answer addr pid tb (.plain e) o)
    {n : Name} (h1 : ¬ Reserved n) (h2 : ¬ Standard n) {d v : Val}
    (hd : Defines e.mro n (.value d)) (hv : e.dict.get? n = some v) :
    Gets .full (.plain e) n (some v) ∧ ∀ r, Gets .full o n r ↔ r = some d := by
  obtain ⟨a, c, x, s, _, _, _, _, rfl⟩ := answer_ordinary he h
  have hl := (look_iff _ _ _).2 hd
  refine ⟨.plain (.shadow hl hv), ?_⟩
  have g : Gets .full (.wrapper (wrapInst addr pid tb e a c x s) e) n (some d) :=
    .hit (.cls ((look_wrap h1 h2).trans hl) rfl)
  exact fun r => ⟨fun g' => gets_fun g' g, fun h => h ▸ g⟩

/-- **C95**: the attributes that no property computes and that can be read from the caller's
error as from the error itself are those said to be kept, and no others. -/
theorem attributes_only {addr pid tb e o} (he : Ordinary e) (h : Answer addr pid tb (.plain e) o)
    {n : Name} (h1 : ¬ Reserved n) (h2 : ¬ Standard n)
    (hp : ∀ f g, ¬ Defines e.mro n (.prop f g)) :
    (∀ r, Gets .full o n r ↔ Gets .full (.plain e) n r) ↔ Kept e n := by
  refine ⟨fun hr => ?_, fun hk r => attributes he h h1 h2 hk r⟩
  rcases hl : look e.mro n with _ | ⟨d⟩ | ⟨d⟩ | _ | ⟨f, g⟩
  · exact .instance_ ((look_none _ _).1 hl)
  · have hd := (look_iff _ _ _).1 hl
    rcases hv : e.dict.get? n with _ | v
    · exact .class_ hd (.inl hv)
    · obtain ⟨g1, g2⟩ := default_refuted he h h1 h2 hd hv
      have := (g2 _).1 ((hr _).2 g1)
      cases this
      exact .class_ hd (.inr hv)
  · have hd := (look_iff _ _ _).1 hl
    rcases hv : e.cs.get? n with _ | v
    · exact .unset hd (.inl hv)
    · obtain ⟨g1, g2⟩ := cmember_refuted he h h1 h2 hd hv
      have := (g2 _).1 ((hr _).2 g1)
      cases this
      exact .unset hd (.inr hv)
  · exact .slot ((look_iff _ _ _).1 hl)
  · exact absurd ((look_iff _ _ _).1 hl) (hp f g)

/-- Refuted: an error's own `address` is replaced by the pool's. -/
theorem address_refuted {addr pid tb e o} (he : Ordinary e) (h : Answer addr pid tb (.plain e) o)
    {v : Val} (_hv : Gets .full (.plain e) .address (some v)) (hne : v ≠ .text addr) :
    ¬ Gets .full o .address (some v) := by
  rw [(origin he h _).1]
  simpa using hne

/-- Refuted: the error's representation has lost its arguments. -/
theorem repr_refuted {addr pid tb e o} (he : Ordinary e) (h : Answer addr pid tb (.plain e) o) :
    o.repr = (e.name, .tuple []) := by
  obtain ⟨a, c, x, s, _, _, _, _, rfl⟩ := answer_ordinary he h
  rfl

/-- Refuted: for an error whose class cannot be derived from, or not be called without
arguments (`ExceptionGroup`), the caller gets a TypeError, and of the error nothing. -/
theorem group_refuted {addr pid tb e o} (hw : ¬ IsA e.mro .asCause) (hc : ¬ IsA e.mro .cancelled)
    (hn : NewWantsArgs e.mro ∨ NoSubclass e.mro) (h : Answer addr pid tb (.plain e) o) :
    o = .plain typeErr ∧ ∀ (c : Nat), c > 1 → o.isA (.user c) = false := by
  cases h with
  | again h => exact absurd ((isA_iff _ _).1 h) hw
  | cancelled _ h => exact absurd ((isA_iff _ _).1 h) hc
  | cannot _ _ _ =>
    refine ⟨rfl, fun c hc => ?_⟩
    simp [Obj.isA, Obj.classes, Obj.self, typeErr]
    omega
  | wrap _ _ h =>
    have := (canWrap_iff e).1 h
    rcases hn with hn | hn
    · exact absurd hn this.2
    · exact absurd hn this.1

/-- Refuted: and one call further that TypeError is said to come from the pool that made
the failing call. -/
theorem blame_refuted {addr pid tb e o o'} {a : String} {p : Nat} {t : Val}
    (hw : ¬ IsA e.mro .asCause) (hc : ¬ IsA e.mro .cancelled)
    (hn : NewWantsArgs e.mro ∨ NoSubclass e.mro) (h : Answer addr pid tb (.plain e) o)
    (h' : Answer a p t o o') : ∀ r, Gets .full o' .address r ↔ r = some (.text a) := by
  obtain ⟨rfl, _⟩ := group_refuted hw hc hn h
  have ho : Ordinary typeErr := by
    refine ⟨?_, ?_, ?_, ?_, ?_⟩
    · simp [IsA, typeErr]
    · simp [IsA, typeErr]
    · simp [IsA, typeErr]
    · exact ((canWrap_iff typeErr).1 (by decide)).1
    · exact ((canWrap_iff typeErr).1 (by decide)).2
  exact fun r => (origin ho h' r).1

/-- Refuted: a CancelledError keeps its class only: a subclass's, its arguments, its
attributes and its text are gone, and the address is that of the last pool it passed. -/
theorem cancelled_refuted {addr pid tb o o'} (hw : o.isA .asCause = false)
    (hc : o.isA .cancelled = true) (h : Answer addr pid tb o o') :
    o'.isA .cancelled = true ∧ o'.str = tag addr pid ∧
    (∀ (c : Nat), c > 0 → o'.isA (.user c) = false) ∧
    (∀ r (n : Nat), Gets .full o' (.user n) r ↔ r = none) ∧
    (∀ r, Gets .full o' .address r ↔ r = none) := by
  cases h with
  | again h => rw [hw] at h; cases h
  | cannot _ h => rw [hc] at h; cases h
  | wrap _ h => rw [hc] at h; cases h
  | cancelled _ _ =>
    refine ⟨by rfl, by rfl, fun c hc => ?_, fun r n => ?_, fun r => ?_⟩
    · simp [Obj.isA, Obj.classes, Obj.self, cancelErr]; omega
    · have g : Gets .full (.plain (cancelErr addr pid tb)) (.user n) none :=
        .plain (.miss (by simp [Obj.self, cancelErr, look, baseAttrs, Dict.get?]) rfl)
      exact ⟨fun h => gets_fun h g, fun h => h ▸ g⟩
    · have g : Gets .full (.plain (cancelErr addr pid tb)) .address none := .plain (.miss rfl rfl)
      exact ⟨fun h => gets_fun h g, fun h => h ▸ g⟩

/-! ## Cases -/

/-- A user's error `class MyErr(Exception)` with an attribute, a slot, a class default
that the instance overrides, a property, and an attribute named `address`. -/
def mine : Inst where
  id := 7
  name := "MyErr"
  modl := "app"
  mro := [{ cls := .user 9, attrs := [(.user 1, .value (.num 0)), (.user 2, .slot),
              (.user 3, .prop (.user 0) (fun _ => .num 5)), (.user 5, .value (.num 8))] },
    { cls := .user 1 }, { cls := .user 0, attrs := baseAttrs }]
  dict := [(.user 0, .num 4), (.user 1, .num 3), (.address, .text "home")]
  cs := [(.args, .tuple [1, 2])]
  slots := [(.user 2, .num 6)]
  text := "bad"

/-- `OSError(2, "...")`. -/
def oserr : Inst where
  id := 8
  name := "OSError"
  mro := [{ cls := .user 3, attrs := [(.user 4, .cmember .none)], newArgs := some false },
    { cls := .user 1 }, { cls := .user 0, attrs := baseAttrs }]
  cs := [(.args, .tuple [2]), (.user 4, .num 2)]
  text := "[Errno 2]"

/-- `ExceptionGroup("m", [...])`. -/
def group : Inst where
  id := 9
  name := "ExceptionGroup"
  mro := [{ cls := .user 5 }, { cls := .user 6, newArgs := some true },
    { cls := .user 1, newArgs := some false }, { cls := .user 0, attrs := baseAttrs }]
  cs := [(.args, .tuple [1])]
  text := "m"

theorem mine_ordinary : Ordinary mine where
  notWrapped := by simp [IsA, mine]
  notNew := by simp [IsA, mine]
  notCancelled := by simp [IsA, mine]
  sub := ((canWrap_iff mine).1 (by decide)).1
  new := ((canWrap_iff mine).1 (by decide)).2

theorem oserr_ordinary : Ordinary oserr where
  notWrapped := by simp [IsA, oserr]
  notNew := by simp [IsA, oserr]
  notCancelled := by simp [IsA, oserr]
  sub := ((canWrap_iff oserr).1 (by decide)).1
  new := ((canWrap_iff oserr).1 (by decide)).2

theorem mine_standard (n : Name) (hn : n = .args ∨ n = .cause ∨ n = .context ∨ n = .suppress) :
    ∃ v, Gets .full (.plain mine) n (some v) := by
  rcases hn with rfl | rfl | rfl | rfl <;>
    exact ⟨_, .plain (.cmem (o := .plain mine) rfl)⟩

/-- Two hops of `mine`, the caught error: its attributes and those that are lost. -/
example : ∃ o, Hops [("a:1", 5, .obj 1), ("b:2", 6, .obj 2)] (.plain mine) o ∧
    o.str = "[address=a:1, pid=5] bad" ∧ handler [.user 3, .user 9, .user 1] o = some 1 ∧
    Gets .full o (.user 0) (some (.num 4)) ∧ Gets .full o (.user 2) (some (.num 6)) ∧
    Gets .full o (.user 3) (some (.num 5)) ∧ Gets .full o (.user 5) (some (.num 8)) ∧
    Gets .full o (.user 6) none ∧ Gets .full o .args (some (.tuple [1, 2])) ∧
    Gets .full o (.user 1) (some (.num 0)) ∧ ¬ Gets .full o .address (some (.text "home")) := by
  obtain ⟨o, h⟩ := answered "a:1" 5 (.obj 1) mine_ordinary mine_standard
  have hA : o.isA .asCause = true := by
    obtain ⟨_, _, _, _, _, _, _, _, rfl⟩ := answer_ordinary mine_ordinary h
    exact wrapped_isA
  have hop : Hops [("b:2", 6, .obj 2)] o (o.withTb (.obj 2)) := .cons (.again hA) .nil
  have h2 := passes_on mine_ordinary h hop
  have kept : ∀ n, Kept mine (.user n) → ∀ r, Gets .full (o.withTb (.obj 2)) (.user n) r ↔
      Gets .full (.plain mine) (.user n) r := fun n hk r =>
    attributes mine_ordinary h2 (by simp [Reserved]) (by simp [Standard]) hk r
  have k0 : Kept mine (.user 0) := .instance_ ((look_none _ _).1 rfl)
  refine ⟨_, .cons h hop, ?_, ?_, ?_, ?_, ?_, ?_, ?_, ?_, ?_, ?_⟩
  · rw [text mine_ordinary h2]; decide
  · rw [handlers mine_ordinary h2 _ (by decide) (by decide)]; decide
  · exact (kept 0 k0 _).2 (.plain (.own rfl rfl))
  · exact (kept 2 (.slot ((look_iff _ _ _).1 rfl)) _).2 (.plain (.slot (o := .plain mine) rfl))
  · exact (kept 3 (.prop ((look_iff _ _ _).1 rfl) (by simp [Reserved]) (by simp [Standard]) k0) _).2
      (.plain (.prop (g := fun _ => .num 5) (v := .num 4) rfl (.plain (.own rfl rfl))))
  · exact (kept 5 (.class_ ((look_iff _ _ _).1 rfl) (.inl rfl)) _).2 (.plain (.cls rfl rfl))
  · exact (kept 6 (.instance_ ((look_none _ _).1 rfl)) _).2 (.plain (.miss rfl rfl))
  · exact (standard mine_ordinary h2 _ (by simp) _).2 (.plain (.cmem (o := .plain mine) rfl))
  · exact ((default_refuted mine_ordinary h2 (n := .user 1) (by simp [Reserved])
      (by simp [Standard]) ((look_iff _ _ _).1 rfl) rfl).2 _).2 rfl
  · exact address_refuted mine_ordinary h2 (.plain (.own rfl rfl)) (by decide)

/-- `OSError.errno` reads None. -/
example : ∃ o, Answer "a:1" 5 (.obj 1) (.plain oserr) o ∧
    Gets .full (.plain oserr) (.user 4) (some (.num 2)) ∧ Gets .full o (.user 4) (some .none) ∧
    o.repr = ("OSError", .tuple []) ∧ (Obj.plain oserr).repr = ("OSError", .tuple [2]) := by
  obtain ⟨o, h⟩ := answered "a:1" 5 (.obj 1) oserr_ordinary (by
    intro n hn
    rcases hn with rfl | rfl | rfl | rfl <;>
      exact ⟨_, .plain (.cmem (o := .plain oserr) rfl)⟩)
  have := cmember_refuted oserr_ordinary h (n := .user 4) (by simp [Reserved])
    (by simp [Standard]) ((look_iff _ _ _).1 rfl) (rfl : oserr.cs.get? (.user 4) = some (.num 2))
  exact ⟨o, h, this.1, (this.2 _).2 rfl, repr_refuted oserr_ordinary h, rfl⟩

/-- An ExceptionGroup gives a TypeError. -/
example : NewWantsArgs group.mro ∧ Answer "a:1" 5 (.obj 1) (.plain group) (.plain typeErr) :=
  ⟨(newArgs_iff _).1 (by decide), .cannot (by decide) (by decide) (by decide)⟩

/-- A cancellation. -/
example : Answer "a:1" 5 (.obj 1) (.plain { cancelErr "x" 1 (.obj 3) with text := "mine" })
    (.plain (cancelErr "a:1" 5 (.obj 1))) := .cancelled (by decide) (by decide)

end Xoscar.Raise
