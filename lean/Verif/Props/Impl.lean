import Verif.Spec.Impl
import Verif.Proof.Base
/-!
# C72: an actor class is instantiated once, as its registered implementation
-/
namespace Xoscar.Impl

/-- The registration in force is the last one, in every history. -/
theorem registration_in_force (cs : List Change) (c : Cls) : (registryAfter cs).get? c = chosen cs.reverse c := by
  induction cs using List.reverseRecOn' with
  | nil => rfl
  | append_singleton cs ch ih =>
    rw [List.reverse_append]
    cases ch with
    | register x i =>
      simp only [registryAfter, List.foldl_append, List.foldl_cons, List.foldl_nil, List.reverse_cons, List.reverse_nil, List.nil_append,
        List.cons_append, chosen, register, Dict.get?_set] at ih ⊢
      split
      · rfl
      · exact ih
    | unregister x =>
      simp only [registryAfter, List.foldl_append, List.foldl_cons, List.foldl_nil, List.reverse_cons, List.reverse_nil, List.nil_append,
        List.cons_append, chosen, unregister, Dict.get?_erase] at ih ⊢
      split
      · rfl
      · exact ih

/-- A class without a registered implementation is instantiated as itself, with one call of `__init__`. -/
theorem plain (k : Classes) (hk : k.Reflexive) (r : Registry) (n : Nat) (c : Cls) (a : Args) (hr : r.get? c = none) :
    construct k r (n + 1) c a = ⟨match k.init c a with | none => .ok c | some e => .error e, [(c, a)]⟩ := by
  simp only [construct, hr, afterNew, hk c, if_true]
  rcases k.init c a with _ | e <;> rfl

/-- how often a construction that succeeds initialises the object -/
def initCount (k : Classes) (via : List Cls) (d : Cls) : Nat := 1 + (via.filter (fun c => k.isSub d c)).length

/-- A class with implementations gives an object of the class at which the registrations end, if its `__init__` succeeds; `__init__` is
called once, and once more for every class on the way that the object is an instance of. -/
theorem implemented_partial (k : Classes) (hk : k.Reflexive) (r : Registry) {c d : Cls} {via : List Cls} (hl : Leads r c via d) (a : Args)
    (hi : k.init d a = none) (n : Nat) (hn : via.length < n) :
    construct k r n c a = ⟨.ok d, List.replicate (initCount k via d) (d, a)⟩ := by
  induction hl generalizing n with
  | @here c h =>
    rcases n with _ | n
    · omega
    have hr : r.get? c = none := by
      rcases h' : r.get? c with _ | i
      · rfl
      · exact absurd h' (h i)
    rw [plain k hk r n c a hr, hi]; rfl
  | @next c i d via h hl ih =>
    rcases n with _ | n
    · simp at hn
    have := ih hi n (by simp only [List.length_cons] at hn; omega)
    simp only [construct, h, this, afterImpl, afterNew, hi]
    by_cases hs : k.isSub d c = true
    · simp only [hs, if_true, initCount, List.filter_cons, List.length_cons, Made.mk.injEq, true_and]
      rw [← List.replicate_one, List.replicate_append_replicate]
      congr 1
    · simp only [Bool.not_eq_true] at hs
      simp only [hs, Bool.false_eq_true, if_false, initCount, List.filter_cons]

/-- In particular exactly once when no class on the way is a base class of the implementation. -/
theorem implemented_once (k : Classes) (hk : k.Reflexive) (r : Registry) {c d : Cls} {via : List Cls} (hl : Leads r c via d) (a : Args)
    (hi : k.init d a = none) (hs : ∀ x ∈ via, k.isSub d x = false) (n : Nat) (hn : via.length < n) :
    construct k r n c a = ⟨.ok d, [(d, a)]⟩ := by
  rw [implemented_partial k hk r hl a hi n hn]
  have : via.filter (fun c => k.isSub d c) = [] := by
    rw [List.filter_eq_nil_iff]; intro x hx; rw [hs x hx]; simp
  simp only [initCount, this]; rfl

/-- **Refuted**: "`__init__` of an actor runs once": an implementation that is a subclass of the class it is registered for - the usual
case - is initialised twice. -/
theorem subclass_initialised_twice_refuted (k : Classes) (hk : k.Reflexive) (r : Registry) (c d : Cls) (hc : r.get? c = some d)
    (hd : r.get? d = none) (hs : k.isSub d c = true) (a : Args) (hi : k.init d a = none) (n : Nat) :
    construct k r (n + 2) c a = ⟨.ok d, [(d, a), (d, a)]⟩ := by
  rw [implemented_partial k hk r (Leads.next hc (Leads.here (fun i h => by rw [hd] at h; cases h))) a hi (n + 2) (by simp)]
  simp [initCount, hs, List.replicate]

/-- An exception of the implementation's `__init__` goes to the caller - unless it is a KeyError. -/
theorem failure_reported (k : Classes) (hk : k.Reflexive) (r : Registry) (c d : Cls) (hc : r.get? c = some d) (hd : r.get? d = none)
    (a : Args) (e : Exn) (he : e ≠ .keyError) (hi : k.init d a = some e) (n : Nat) :
    construct k r (n + 2) c a = ⟨.error e, [(d, a)]⟩ := by
  simp only [construct, hc, hd, afterNew, hk d, if_true, hi]
  cases e with
  | keyError => exact absurd rfl he
  | recursion => rfl
  | other m => rfl

/-- **Refuted**: "a failing `__init__` is reported": when the implementation's raises a KeyError, an object of the class it was registered
for is made instead, and nobody is told. -/
theorem key_error_swallowed_refuted (k : Classes) (hk : k.Reflexive) (r : Registry) (c d : Cls) (hc : r.get? c = some d)
    (hd : r.get? d = none) (a : Args) (hi : k.init d a = some .keyError) (hic : k.init c a = none) (n : Nat) :
    construct k r (n + 2) c a = ⟨.ok c, [(d, a), (c, a)]⟩ := by
  simp only [construct, hc, hd, afterNew, hk d, hk c, if_true, hi, afterImpl, hic]
  rfl

/-- Registrations that go round in a circle (also a class registered for itself) never give an object, and call no `__init__`. -/
theorem circle (k : Classes) (r : Registry) (s : List Cls) (hs : ∀ c ∈ s, ∃ i ∈ s, r.get? c = some i) (n : Nat) (c : Cls) (hc : c ∈ s)
    (a : Args) : construct k r n c a = ⟨.error .recursion, []⟩ := by
  induction n generalizing c with
  | zero => rfl
  | succ n ih =>
    obtain ⟨i, hi, hr⟩ := hs c hc
    simp only [construct, hr, ih i hi, afterImpl, afterNew]

/-- When the `__init__` of every class on the way raises KeyError, so does the construction, after an object of each has been made. -/
theorem all_key_errors (k : Classes) (hk : k.Reflexive) (r : Registry) {c d : Cls} {via : List Cls} (hl : Leads r c via d) (a : Args)
    (hi : ∀ y ∈ via ++ [d], k.init y a = some .keyError) (n : Nat) (hn : via.length < n) :
    construct k r n c a = ⟨.error .keyError, (via ++ [d]).reverse.map (fun y => (y, a))⟩ := by
  induction hl generalizing n with
  | @here c h =>
    rcases n with _ | n
    · omega
    have hr : r.get? c = none := by
      rcases h' : r.get? c with _ | i
      · rfl
      · exact absurd h' (h i)
    rw [plain k hk r n c a hr, hi c (by simp)]; rfl
  | @next c i d via h hl ih =>
    rcases n with _ | n
    · simp at hn
    have := ih (fun y hy => hi y (by simp only [List.cons_append, List.mem_cons]; exact Or.inr hy)) n (by simp only [List.length_cons] at hn; omega)
    have hc := hi c (by simp)
    simp only [construct, h, this, afterImpl, afterNew, hk c, if_true, hc, List.cons_append, List.reverse_cons, List.map_append, List.map_cons,
      List.map_nil]

/-- Exactly: a class whose registrations end gives an object of the last class on the way whose `__init__` does not raise KeyError - or that
class's exception.  Objects of the classes after it were made and given up. -/
theorem chain_exact (k : Classes) (hk : k.Reflexive) (r : Registry) {c d : Cls} {via : List Cls} (hl : Leads r c via d) (a : Args)
    {pre post : List Cls} {x : Cls} (hp : via ++ [d] = pre ++ x :: post) (hpost : ∀ y ∈ post, k.init y a = some .keyError)
    (hx : k.init x a ≠ some .keyError) (n : Nat) (hn : via.length < n) :
    (k.init x a = none → construct k r n c a =
      ⟨.ok x, post.reverse.map (fun y => (y, a)) ++ List.replicate (1 + (pre.filter (fun y => k.isSub x y)).length) (x, a)⟩) ∧
    (∀ e, k.init x a = some e → construct k r n c a = ⟨.error e, post.reverse.map (fun y => (y, a)) ++ [(x, a)]⟩) := by
  induction hl generalizing n pre with
  | @here c h =>
    rcases n with _ | n
    · omega
    have hr : r.get? c = none := by
      rcases h' : r.get? c with _ | i
      · rfl
      · exact absurd h' (h i)
    have : pre = [] ∧ x = c ∧ post = [] := by
      rcases pre with _ | ⟨p, pre⟩
      · simp only [List.nil_append, List.cons.injEq] at hp
        exact ⟨rfl, hp.1.symm, hp.2.symm⟩
      · have := congrArg List.length hp
        simp at this
    obtain ⟨rfl, rfl, rfl⟩ := this
    rw [plain k hk r n x a hr]
    constructor
    · intro h; rw [h]; rfl
    · intro e h; rw [h]; rfl
  | @next c i d via h hl ih =>
    rcases n with _ | n
    · simp at hn
    have hn' : via.length < n := by simp only [List.length_cons] at hn; omega
    rcases pre with _ | ⟨p, pre⟩
    · simp only [List.cons_append, List.nil_append, List.cons.injEq] at hp
      obtain ⟨rfl, rfl⟩ := hp
      have := all_key_errors k hk r hl a hpost n hn'
      simp only [construct, h, this, afterImpl, afterNew, hk c, if_true]
      constructor
      · intro h; rw [h]; rfl
      · intro e h; rw [h]
    · simp only [List.cons_append, List.cons.injEq] at hp
      obtain ⟨rfl, hp⟩ := hp
      obtain ⟨i1, i2⟩ := ih hp n hn'
      constructor
      · intro hi
        simp only [construct, h, i1 hi, afterImpl, afterNew, hi]
        by_cases hs : k.isSub x c = true
        · simp only [hs, if_true, List.filter_cons, List.length_cons, List.append_assoc, Made.mk.injEq, true_and, List.append_cancel_left_eq]
          rw [← List.replicate_one, List.replicate_append_replicate]
          congr 1
        · simp only [Bool.not_eq_true] at hs
          simp only [hs, Bool.false_eq_true, if_false, List.filter_cons]
      · intro e hi
        have he : e ≠ .keyError := fun h' => hx (h' ▸ hi)
        simp only [construct, h, i2 e hi]
        cases e with
        | keyError => exact absurd rfl he
        | recursion => rfl
        | other m => rfl

/-- Whatever is registered and whatever fails, a construction that succeeds gives the class itself or one that registrations lead to, and
every `__init__` was one of such a class, with the caller's arguments. -/
theorem result_reachable (k : Classes) (r : Registry) (n : Nat) (c : Cls) (a : Args) :
    (∀ d, (construct k r n c a).result = .ok d → Reach r c d) ∧
    (∀ x ∈ (construct k r n c a).inits, Reach r c x.1 ∧ x.2 = a) := by
  have fin : ∀ (c : Cls) (m : Made), (∀ d, m.result = .ok d → Reach r c d) → (∀ x ∈ m.inits, Reach r c x.1 ∧ x.2 = a) →
      (∀ d, (afterNew k c a m).result = .ok d → Reach r c d) ∧ (∀ x ∈ (afterNew k c a m).inits, Reach r c x.1 ∧ x.2 = a) := by
    intro c m h1 h2
    obtain ⟨res, ini⟩ := m
    cases res with
    | error e => exact ⟨fun d h => (by simp only [afterNew] at h; cases h), h2⟩
    | ok d =>
      have hd := h1 d rfl
      have h2' : ∀ x ∈ ini ++ [(d, a)], Reach r c x.1 ∧ x.2 = a := by
        intro x hx
        rcases List.mem_append.mp hx with hx | hx
        · exact h2 x hx
        · rw [List.mem_singleton.mp hx]; exact ⟨hd, rfl⟩
      by_cases hs : k.isSub d c = true
      · simp only [afterNew, hs, if_true]
        rcases k.init d a with _ | e
        · exact ⟨fun d' h => (by injection h with h; exact h ▸ hd), h2'⟩
        · exact ⟨fun d' h => (by cases h), h2'⟩
      · simp only [afterNew, hs, if_false, Bool.false_eq_true]
        exact ⟨h1, h2⟩
  induction n generalizing c with
  | zero => exact ⟨fun d h => (by simp only [construct] at h; cases h), fun x hx => (by cases hx)⟩
  | succ n ih =>
    rcases hr : r.get? c with _ | i
    · simp only [construct, hr]
      exact fin c _ (fun d h => (by injection h with h; exact h ▸ Reach.refl c)) (fun x hx => (by cases hx))
    · simp only [construct, hr]
      obtain ⟨i1, i2⟩ := ih i
      apply fin c
      · intro d h
        rcases hm : (construct k r n i a).result with e | d'
        · cases e <;> simp only [afterImpl, hm] at h
          · injection h with h; exact h ▸ Reach.refl c
          · cases h
          · cases h
        · simp only [afterImpl, hm] at h
          injection h with h
          exact h ▸ Reach.step hr (i1 d' hm)
      · intro x hx
        have hx' : x ∈ (construct k r n i a).inits := by
          rcases hm : (construct k r n i a).result with e | d'
          · cases e <;> simpa only [afterImpl, hm] using hx
          · simpa only [afterImpl, hm] using hx
        exact ⟨Reach.step hr (i2 x hx').1, (i2 x hx').2⟩

/-! ## Concrete cases -/

/-- class 2 implements and extends class 1; class 5 implements class 4 without extending it; 6 and 7 are registered for each other;
9's `__init__` raises KeyError and it is registered for 8 -/
def demoClasses : Classes where
  isSub a b := a == b || (a == 2 && b == 1)
  init c _ := if c = 9 then some .keyError else if c = 11 then some (.other 3) else none

def demoReg : Registry :=
  registryAfter [.register 1 3, .register 1 2, .register 4 5, .register 6 7, .register 7 6, .register 8 9, .register 10 11, .register 4 6,
    .unregister 4, .register 4 5]

theorem demo_refl : demoClasses.Reflexive := by intro c; simp [demoClasses]

example : chosen [Change.unregister 4, .register 4 6, .register 4 5] 4 = none ∧ demoReg.get? 4 = some 5 ∧ demoReg.get? 1 = some 2 := by decide
example : construct demoClasses demoReg 100 2 42 = ⟨.ok 2, [(2, 42)]⟩ := plain demoClasses demo_refl demoReg 99 2 42 (by decide)
example : construct demoClasses demoReg 100 4 42 = ⟨.ok 5, [(5, 42)]⟩ :=
  implemented_once demoClasses demo_refl demoReg (via := [4])
    (.next (by decide) (.here (fun i h => (by have h2 : demoReg.get? 5 = none := by decide
                                              rw [h2] at h; cases h)))) 42 (by decide) (by decide) 100 (by decide)
example : construct demoClasses demoReg 100 1 42 = ⟨.ok 2, [(2, 42), (2, 42)]⟩ :=
  subclass_initialised_twice_refuted demoClasses demo_refl demoReg 1 2 (by decide) (by decide) (by decide) 42 (by decide) 98
example : construct demoClasses demoReg 100 8 42 = ⟨.ok 8, [(9, 42), (8, 42)]⟩ :=
  key_error_swallowed_refuted demoClasses demo_refl demoReg 8 9 (by decide) (by decide) 42 (by decide) (by decide) 98
example : construct demoClasses demoReg 100 10 42 = ⟨.error (.other 3), [(11, 42)]⟩ :=
  failure_reported demoClasses demo_refl demoReg 10 11 (by decide) (by decide) 42 _ (by decide) (by decide) 98
example : construct demoClasses [(20, 8), (8, 9)] 100 20 42 = ⟨.ok 8, [(9, 42), (8, 42)]⟩ :=
  (chain_exact demoClasses demo_refl [(20, 8), (8, 9)] (via := [20, 8])
    (.next (by decide) (.next (by decide) (.here (fun i h => by cases h)))) 42 (pre := [20]) (post := [9]) (x := 8)
    rfl (by decide) (by decide) 100 (by decide)).1 (by decide)
example : construct demoClasses [(20, 9)] 100 9 42 = ⟨.error .keyError, [(9, 42)]⟩ :=
  all_key_errors demoClasses demo_refl [(20, 9)] (via := []) (.here (fun i h => by cases h)) 42 (by decide) 100 (by decide)
example : construct demoClasses demoReg 100 6 42 = ⟨.error .recursion, []⟩ :=
  circle demoClasses demoReg [6, 7] (by decide) 100 6 (by decide) 42

end Xoscar.Impl
