import Verif.Spec.Lazy
import Verif.Proof.Base
/-!
# C93: handlers registered under dotted names
-/
namespace Xoscar.Lazy
open Dispatch

/-! ## the specification as a function -/

/-- the handler in force, computed from the newest registration on -/
def lastFor (den : Nat → Nat) (regs : List Reg) (k : Key) : Option Nat :=
  regs.foldl (fun acc r => if r.key den = k then some r.handler else acc) none

theorem lastFor_snoc (den : Nat → Nat) (regs : List Reg) (r : Reg) (k : Key) :
    lastFor den (regs ++ [r]) k = if r.key den = k then some r.handler else lastFor den regs k := by simp [lastFor]

theorem lastFor_key (den : Nat → Nat) (regs : List Reg) (k0 k : Key) (h0 : Nat) :
    lastFor den (regs ++ [.byKey k0 h0]) k = if k0 = k then some h0 else lastFor den regs k := by rw [lastFor_snoc]; rfl

theorem lastFor_name (den : Nat → Nat) (regs : List Reg) (n0 h0 : Nat) (k : Key) :
    lastFor den (regs ++ [.byName n0 h0]) k = if Key.cls (den n0) = k then some h0 else lastFor den regs k := by rw [lastFor_snoc]; rfl

theorem inForce_iff (den : Nat → Nat) (regs : List Reg) (k : Key) : ∀ h, InForce den regs k h ↔ lastFor den regs k = some h := by
  induction regs using List.reverseRecOn' with
  | nil =>
    intro h; constructor
    · rintro ⟨b, r, a, e, _⟩; simp at e
    · intro e; simp [lastFor] at e
  | append_singleton l r ih =>
    intro h
    rw [lastFor_snoc]
    by_cases hr : r.key den = k
    · rw [if_pos hr]
      constructor
      · rintro ⟨b, r', a, e, hk, hh, ha⟩
        rcases List.eq_nil_or_concat a with rfl | ⟨a', x, rfl⟩
        · obtain ⟨_, e⟩ := List.append_inj' e rfl
          simp at e; subst e; rw [hh]
        · rw [List.concat_eq_append, ← List.cons_append, ← List.append_assoc] at e
          obtain ⟨_, e⟩ := List.append_inj' e rfl
          simp at e; subst e
          exact absurd hr (ha _ (by simp))
      · intro e; injection e with e
        exact ⟨l, r, [], rfl, hr, e, by simp⟩
    · rw [if_neg hr, ← ih]
      constructor
      · rintro ⟨b, r', a, e, hk, hh, ha⟩
        rcases List.eq_nil_or_concat a with rfl | ⟨a', x, rfl⟩
        · obtain ⟨_, e⟩ := List.append_inj' e rfl
          simp at e; subst e; exact absurd hk hr
        · rw [List.concat_eq_append, ← List.cons_append, ← List.append_assoc] at e
          obtain ⟨e, _⟩ := List.append_inj' e rfl
          exact ⟨b, r', a', e, hk, hh, fun r'' hm => ha _ (by simp [hm])⟩
      · rintro ⟨b, r', a, e, hk, hh, ha⟩
        refine ⟨b, r', a ++ [r], by simp [e], hk, hh, ?_⟩
        intro r'' hm
        rcases List.mem_append.mp hm with hm | hm
        · exact ha _ hm
        · simp at hm; subst hm; exact hr

theorem candidates_eq (mro : Nat → List Nat) (k : Key) : chain mro k = candidates mro k := by
  cases k with
  | cls t =>
    have : ∀ l : List Nat, l.map Key.cls = resolution none l := by
      intro l; induction l with
      | nil => rfl
      | cons c l ih => simp [resolution, ih]
    exact this _
  | named n t =>
    have : ∀ l : List Nat, l.flatMap (fun c => [Key.named n c, Key.cls c]) = resolution (some n) l := by
      intro l; induction l with
      | nil => rfl
      | cons c l ih => simp [resolution, ih]
    exact this _

theorem firstHandler_iff (hs : Dict Key Nat) (l : List Key) (h : Nat) :
    firstHandler hs l = some h ↔ ∃ before k after, l = before ++ k :: after ∧ hs.get? k = some h ∧ ∀ k' ∈ before, hs.get? k' = none := by
  induction l with
  | nil => simp [firstHandler]
  | cons k l ih =>
    simp only [firstHandler]
    rcases hk : Dict.get? hs k with _ | h'
    · dsimp only
      rw [ih]
      constructor
      · rintro ⟨b, k', a, e, hg, hb⟩
        refine ⟨k :: b, k', a, by simp [e], hg, ?_⟩
        intro k'' hm
        rcases List.mem_cons.mp hm with rfl | hm
        · exact hk
        · exact hb _ hm
      · rintro ⟨b, k', a, e, hg, hb⟩
        cases b with
        | nil => simp at e; rw [← e.1, hk] at hg; cases hg
        | cons x b => simp at e; exact ⟨b, k', a, e.2, hg, fun k'' hm => hb _ (by simp [hm])⟩
    · dsimp only
      constructor
      · intro e; injection e with e; subst e
        exact ⟨[], k, l, rfl, hk, by simp⟩
      · rintro ⟨b, k', a, e, hg, hb⟩
        cases b with
        | nil => simp at e; rw [← e.1, hk] at hg; exact hg
        | cons x b => simp at e; have := hb x (by simp); rw [← e.1, hk] at this; cases this

/-! ## resolving when all imports are fine -/

/-- the dispatcher knows the registrations, in part by class and in part by name -/
structure Knows (den : Nat → Nat) (regs : List Reg) (d : Disp) : Prop where
  name : ∀ n h, (n, h) ∈ d.lazyH → lastFor den regs (.cls (den n)) = some h
  cls : ∀ k h, d.handlers.get? k = some h → lastFor den regs k = some h
  all : ∀ k h, lastFor den regs k = some h → d.handlers.get? k ≠ none ∨ ∃ n, (n, h) ∈ d.lazyH ∧ k = .cls (den n)

theorem importMod_fine {den : Nat → Nat} {w : World} (hw : Fine den w) (st : St) (n : Nat) : (importMod w st n).d = st.d := by
  unfold importMod; rw [hw n]; split <;> rfl

theorem loop_fine {den : Nat → Nat} {w : World} (hw : Fine den w) (regs : List Reg) (lz : Dict Nat Nat) : ∀ todo i st, i + todo = lz.length →
    st.d.lazyH = lz → Knows den regs st.d → (loop w lz.length todo i st).2 = none ∧ (loop w lz.length todo i st).1.d.lazyH = lz ∧
      (loop w lz.length todo i st).1.d.inherit = st.d.inherit ∧
      Knows den regs (loop w lz.length todo i st).1.d ∧
      (∀ k, st.d.handlers.get? k ≠ none → (loop w lz.length todo i st).1.d.handlers.get? k ≠ none) ∧
      ∀ (j : Nat) n h, i ≤ j → lz[j]? = some (n, h) → (loop w lz.length todo i st).1.d.handlers.get? (.cls (den n)) ≠ none := by
  intro todo
  induction todo with
  | zero =>
    intro i st hi hl hk
    simp only [loop, hl, if_true]
    refine ⟨trivial, trivial, trivial, hk, fun _ h => h, ?_⟩
    intro j n h hj e
    rw [List.getElem?_eq_none (by omega)] at e; cases e
  | succ todo ih =>
    intro i st hi hl hk
    have hlt : i < lz.length := by omega
    obtain ⟨⟨n, h⟩, he⟩ : ∃ e, lz[i]? = some e := ⟨lz[i], List.getElem?_eq_getElem hlt⟩
    have hmem : (n, h) ∈ lz := List.mem_of_getElem? he
    simp only [loop, hl, if_true, he, hw n, importMod_fine hw]
    have hkn := hk.name n h (by rw [hl]; exact hmem)
    obtain ⟨r1, r2, r3, r4, r5, r6⟩ := ih (i + 1) { importMod w st n with d := st.d.register (.cls (den n)) h } (by omega) hl (by
      refine ⟨hk.name, ?_, ?_⟩
      · intro k h' hg
        simp only [Disp.register, Dict.get?_set] at hg
        split at hg
        · rename_i e; subst e; rw [hkn]; exact hg
        · exact hk.cls k h' hg
      · intro k h' hg
        rcases hk.all k h' hg with ha | ha
        · left; simp only [Disp.register, Dict.get?_set]; split
          · simp
          · exact ha
        · exact .inr ha)
    simp only [importMod_fine hw] at r1 r2 r3 r4 r5 r6
    refine ⟨r1, r2, r3, r4, ?_, ?_⟩
    · intro k hg
      apply r5
      simp only [Disp.register, Dict.get?_set]
      split
      · simp
      · exact hg
    · intro j n' h' hj e
      by_cases hij : j = i
      · subst hij
        rw [he] at e; injection e with e; injection e with e1 e2; subst e1
        apply r5
        simp [Disp.register]
      · exact r6 j n' h' (by omega) e

/-- all names are resolved -/
structure Settled (den : Nat → Nat) (mro : Nat → List Nat) (regs : List Reg) (d : Disp) : Prop where
  lz : d.lazyH = []
  reg : ∀ k, d.handlers.get? k = lastFor den regs k
  cache : ∀ k h, d.inherit.get? k = some h → firstHandler d.handlers (chain mro k) = some h

theorem reload_fine {den : Nat → Nat} {w : World} (hw : Fine den w) (mro : Nat → List Nat) (regs : List Reg) (st : St) (hk : Knows den regs st.d)
    (hi : st.d.inherit = []) : (reload w st).2 = none ∧ Settled den mro regs (reload w st).1.d ∧ (reload w st).1.d.inherit = [] := by
  obtain ⟨r1, r2, r3, r4, r5, r6⟩ := loop_fine hw regs st.d.lazyH st.d.lazyH.length 0 st (by omega) rfl hk
  unfold reload
  generalize loop w st.d.lazyH.length st.d.lazyH.length 0 st = q at *
  obtain ⟨st', r⟩ := q
  dsimp only at *
  subst r1
  dsimp only
  refine ⟨rfl, ⟨rfl, ?_, ?_⟩, by rw [r3, hi]⟩
  · intro k
    dsimp only
    rcases hg : Dict.get? st'.d.handlers k with _ | h
    · rcases hl : lastFor den regs k with _ | h
      · rfl
      · rcases r4.all k h hl with ha | ⟨n, hm, e⟩
        · exact absurd hg ha
        · rw [r2] at hm
          obtain ⟨j, hj⟩ := List.mem_iff_getElem?.mp hm
          have := r6 j n h (by omega) hj
          rw [← e] at this
          exact absurd hg this
    · exact (r4.cls k h hg).symm
  · intro k h e; dsimp only at e; rw [r3, hi] at e; simp at e

theorem run_append (mro : Nat → List Nat) (st : St) (a b : List Op) : run mro st (a ++ b) = run mro (run mro st a) b := by simp [run]

theorem apart_left {den : Nat → Nat} {l : List Reg} {r : Reg} (h : Apart den (l ++ [r])) : Apart den l :=
  fun n h' hm r' hr' e => h n h' (by simp [hm]) r' (by simp [hr']) e

theorem regs_known {den : Nat → Nat} (mro : Nat → List Nat) (regs : List Reg) (ha : Apart den regs) :
    Knows den regs (run mro .empty (regs.map Reg.op)).d ∧ (run mro .empty (regs.map Reg.op)).d.inherit = [] ∧
      ((run mro .empty (regs.map Reg.op)).d.lazyH.WF) ∧ (∀ n h, (n, h) ∈ (run mro .empty (regs.map Reg.op)).d.lazyH → .byName n h ∈ regs) ∧
      ∀ k h, (run mro .empty (regs.map Reg.op)).d.handlers.get? k = some h → .byKey k h ∈ regs := by
  induction regs using List.reverseRecOn' with
  | nil =>
    refine ⟨⟨?_, ?_, ?_⟩, rfl, Dict.WF.nil, ?_, ?_⟩
    · intro n h hm; simp [run, St.empty, Disp.empty] at hm
    · intro k h hg; simp [run, St.empty, Disp.empty] at hg
    · intro k h hg; simp [lastFor] at hg
    · intro n h hm; simp [run, St.empty, Disp.empty] at hm
    · intro n h hm; simp [run, St.empty, Disp.empty] at hm
  | append_singleton l r ih =>
    obtain ⟨i1, i2, i3, i4, i5⟩ := ih (apart_left ha)
    rw [List.map_append, run_append]
    generalize run mro .empty (l.map Reg.op) = st at *
    cases r with
    | byKey k0 h0 =>
      have hno : ∀ n h, (n, h) ∈ st.d.lazyH → k0 ≠ .cls (den n) := by
        intro n h hm e
        obtain ⟨h', e'⟩ := ha n h (by simp [i4 n h hm]) (.byKey k0 h0) (by simp) e
        cases e'
      simp only [List.map_cons, List.map_nil, run, List.foldl_cons, List.foldl_nil, Reg.op, step]
      refine ⟨⟨?_, ?_, ?_⟩, i2, i3, fun n h hm => by simp [i4 n h hm], ?_⟩
      · intro n h hm
        rw [lastFor_key, if_neg (hno n h hm)]
        exact i1.name n h hm
      · intro k h hg
        simp only [Disp.register, Dict.get?_set] at hg
        rw [lastFor_key]
        split
        · rename_i e; rw [if_pos e] at hg; exact hg
        · rename_i e; rw [if_neg e] at hg; exact i1.cls k h hg
      · intro k h hg
        rw [lastFor_key] at hg
        simp only [Disp.register, Dict.get?_set]
        by_cases e : k0 = k
        · left; rw [if_pos e]; simp
        · rw [if_neg e] at hg; rw [if_neg e]; exact i1.all k h hg
      · intro k h hg
        simp only [Disp.register, Dict.get?_set] at hg
        by_cases e : k0 = k
        · rw [if_pos e] at hg; injection hg with hg; subst hg; subst e; simp
        · rw [if_neg e] at hg; simp [i5 k h hg]
    | byName n0 h0 =>
      have hone : ∀ n h, (n, h) ∈ st.d.lazyH → den n = den n0 → n = n0 := by
        intro n h hm e
        obtain ⟨h', e'⟩ := ha n0 h0 (by simp) (.byName n h) (by simp [i4 n h hm]) (by simp [Reg.key, e])
        injection e'
      have hnk : ∀ h, Dict.get? st.d.handlers (.cls (den n0)) ≠ some h := by
        intro h hg
        obtain ⟨h', e⟩ := ha n0 h0 (by simp) (.byKey (.cls (den n0)) h) (by simp [i5 _ h hg]) rfl
        cases e
      simp only [List.map_cons, List.map_nil, run, List.foldl_cons, List.foldl_nil, Reg.op, step, Disp.registerLazy]
      refine ⟨⟨?_, ?_, ?_⟩, i2, i3.set _ _, ?_, fun k h hg => by simp [i5 k h hg]⟩
      · intro n h hm
        have hg := Dict.get?_of_mem (i3.set n0 h0) hm
        rw [Dict.get?_set] at hg
        rw [lastFor_name]
        by_cases e : n0 = n
        · subst e; simp only [if_true] at hg ⊢; exact hg
        · rw [if_neg e] at hg
          have hm' := Dict.mem_of_get? hg
          have hne : ¬ Key.cls (den n0) = Key.cls (den n) := fun e' => e (hone n h hm' (Key.cls.inj e').symm).symm
          rw [if_neg hne]
          exact i1.name n h hm'
      · intro k h hg
        rw [lastFor_name]
        split
        · rename_i e; subst e; exact absurd hg (hnk h)
        · exact i1.cls k h hg
      · intro k h hg
        rw [lastFor_name] at hg
        by_cases e : Key.cls (den n0) = k
        · rw [if_pos e] at hg; injection hg with hg; subst hg
          right; exact ⟨n0, Dict.mem_of_get? (by simp), e.symm⟩
        · rw [if_neg e] at hg
          rcases i1.all k h hg with ha' | ⟨n, hm, e'⟩
          · exact .inl ha'
          · right
            refine ⟨n, Dict.mem_of_get? ?_, e'⟩
            rw [Dict.get?_set, if_neg (by rintro rfl; exact e e'.symm)]
            exact Dict.get?_of_mem i3 hm
      · intro n h hm
        have hg := Dict.get?_of_mem (i3.set n0 h0) hm
        rw [Dict.get?_set] at hg
        by_cases e : n0 = n
        · subst e; simp at hg; subst hg; simp
        · rw [if_neg e] at hg; simp [i4 n h (Dict.mem_of_get? hg)]

theorem get_fine {den : Nat → Nat} {w : World} (hw : Fine den w) {mro : Nat → List Nat} (hm : ∀ t, ∃ rest, mro t = t :: rest) {regs : List Reg} {st : St}
    (h : Settled den mro regs st.d ∨ Knows den regs st.d ∧ st.d.inherit = []) (k : Key) :
    (Settled den mro regs (get mro w st k).1.d ∨ Knows den regs (get mro w st k).1.d ∧ (get mro w st k).1.d.inherit = []) ∧
      ∃ hs : Dict Key Nat, (∀ k', hs.get? k' = lastFor den regs k') ∧
        (get mro w st k).2 = (match firstHandler hs (chain mro k) with | some h => .ok h | none => .error .keyError) := by
  have hhead : ∃ rest, chain mro k = k :: rest := by
    cases k with
    | cls t => obtain ⟨r, hr⟩ := hm t; exact ⟨r.map .cls, by simp [chain, hr]⟩
    | named n t => obtain ⟨r, hr⟩ := hm t; exact ⟨_, by simp [chain, hr]; rfl⟩
  obtain ⟨rest, hrest⟩ := hhead
  -- a dispatcher that has everything by class
  have hrl : Settled den mro regs (reload w st).1.d ∧ (reload w st).2 = none ∧ (Settled den mro regs st.d → (reload w st).1.d = st.d) := by
    rcases h with h | ⟨h, hi⟩
    · have : reload w st = (st, none) := by
        have hl := h.lz
        unfold reload; rw [hl]; simp only [List.length_nil, loop, hl, if_true]
        obtain ⟨⟨a, b, c⟩, d⟩ := st
        dsimp only at hl; subst hl; rfl
      rw [this]; exact ⟨h, rfl, fun _ => rfl⟩
    · obtain ⟨r1, r2, r3⟩ := reload_fine hw mro regs st h hi
      refine ⟨r2, r1, ?_⟩
      intro h'
      have hl := h'.lz
      unfold reload; rw [hl]; simp only [List.length_nil, loop, hl, if_true]
      obtain ⟨⟨a, b, c⟩, d⟩ := st
      dsimp only at hl; subst hl; rfl
  obtain ⟨q1, q2, q3⟩ := hrl
  refine ⟨?_, (reload w st).1.d.handlers, q1.reg, ?_⟩
  · unfold get
    rcases h1 : Dict.get? st.d.handlers k with _ | h0
    · rcases h2 : Dict.get? st.d.inherit k with _ | h0
      · dsimp only
        generalize reload w st = q at *
        obtain ⟨st', r⟩ := q
        dsimp only at *
        subst q2
        dsimp only
        left
        rcases h3 : firstHandler st'.d.handlers (chain mro k) with _ | h0
        · exact q1
        · refine ⟨q1.lz, q1.reg, ?_⟩
          intro k' h' hg
          dsimp only at hg ⊢
          rw [Dict.get?_set] at hg
          split at hg
          · rename_i e; subst e; rw [h3]; exact hg
          · exact q1.cache k' h' hg
      · exact h
    · exact h
  · unfold get
    rcases h1 : Dict.get? st.d.handlers k with _ | h0
    · rcases h2 : Dict.get? st.d.inherit k with _ | h0
      · dsimp only
        generalize reload w st = q at *
        obtain ⟨st', r⟩ := q
        dsimp only at *
        subst q2
        dsimp only
        rcases h3 : firstHandler st'.d.handlers (chain mro k) with _ | h0 <;> rfl
      · dsimp only
        rcases h with h | ⟨h, hi⟩
        · rw [q3 h, h.cache k h0 h2]
        · rw [hi] at h2; simp at h2
    · dsimp only
      have : lastFor den regs k = some h0 := by
        rcases h with h | ⟨h, hi⟩
        · rw [← h.reg]; exact h1
        · exact h.cls k h0 h1
      rw [hrest]
      simp only [firstHandler, q1.reg, this]

/-- **A handler registered under a dotted name is like one registered for the class**: when every name can be imported and no class is registered
both by name and otherwise, each lookup, made after the registrations and any number of other lookups, answers with the handler in force for the
most specific class that has one; with KeyError exactly if there is none. -/
theorem names_like_classes_partial {den : Nat → Nat} {mro : Nat → List Nat} (hm : ∀ t, ∃ rest, mro t = t :: rest) {regs : List Reg} (ha : Apart den regs)
    (lookups : List (World × Key)) (hl : ∀ q ∈ lookups, Fine den q.1) {w : World} (hw : Fine den w) (k : Key) :
    (∀ h, (get mro w (run mro .empty (regs.map Reg.op ++ lookups.map (fun q => .get q.1 q.2))) k).2 = .ok h ↔ Right den mro regs k h) ∧
    ((get mro w (run mro .empty (regs.map Reg.op ++ lookups.map (fun q => .get q.1 q.2))) k).2 = .error .keyError ↔ ¬ ∃ h, Right den mro regs k h) := by
  have hst : Settled den mro regs (run mro .empty (regs.map Reg.op ++ lookups.map (fun q => .get q.1 q.2))).d ∨
      Knows den regs (run mro .empty (regs.map Reg.op ++ lookups.map (fun q => .get q.1 q.2))).d ∧
        (run mro .empty (regs.map Reg.op ++ lookups.map (fun q => .get q.1 q.2))).d.inherit = [] := by
    rw [run_append]
    have h0 := regs_known mro regs ha
    have h0' : Settled den mro regs (run mro .empty (regs.map Reg.op)).d ∨ Knows den regs (run mro .empty (regs.map Reg.op)).d ∧
      (run mro .empty (regs.map Reg.op)).d.inherit = [] := .inr ⟨h0.1, h0.2.1⟩
    clear h0
    generalize run mro .empty (regs.map Reg.op) = st at *
    induction lookups generalizing st with
    | nil => exact h0'
    | cons q l ih =>
      simp only [List.map_cons, run, List.foldl_cons, step] at ih ⊢
      exact ih (fun q' hq' => hl q' (by simp [hq'])) _ (get_fine (hl q (by simp)) hm h0' q.2).1
  obtain ⟨_, hs, hreg, hget⟩ := get_fine hw hm hst k
  have hright : ∀ h, firstHandler hs (chain mro k) = some h ↔ Right den mro regs k h := by
    intro h
    rw [firstHandler_iff, candidates_eq]
    unfold Right
    constructor
    · rintro ⟨b, k', a, e, hg, hb⟩
      refine ⟨b, k', a, e, (inForce_iff _ _ _ _).mpr (by rw [← hreg]; exact hg), ?_⟩
      intro k'' hk'' h' hf
      have := (inForce_iff _ _ _ _).mp hf
      rw [← hreg, hb k'' hk''] at this; cases this
    · rintro ⟨b, k', a, e, hg, hb⟩
      refine ⟨b, k', a, e, by rw [hreg]; exact (inForce_iff _ _ _ _).mp hg, ?_⟩
      intro k'' hk''
      rw [hreg]
      rcases hf : lastFor den regs k'' with _ | h'
      · rfl
      · exact absurd ((inForce_iff _ _ _ _).mpr hf) (hb k'' hk'' h')
  generalize get mro w (run mro .empty (regs.map Reg.op ++ lookups.map (fun q => .get q.1 q.2))) k = r at *
  rw [hget]
  rcases hf : firstHandler hs (chain mro k) with _ | h0
  · dsimp only
    refine ⟨fun h => ⟨fun e => (nomatch e), fun e => ?_⟩, fun _ => ?_, fun _ => rfl⟩
    · rw [(hright h).mpr e] at hf; cases hf
    · rintro ⟨h, e⟩; rw [(hright h).mpr e] at hf; cases hf
  · dsimp only
    refine ⟨fun h => ⟨fun e => ?_, fun e => ?_⟩, fun e => (nomatch e), fun e => ?_⟩
    · injection e with e; subst e; exact (hright _).mp hf
    · rw [(hright h).mpr e] at hf; injection hf with hf; subst hf; rfl
    · exact absurd ⟨h0, (hright h0).mp hf⟩ e

/-! ## names that cannot be imported -/

theorem keys_registers (l : List (Nat × Nat)) (d : Disp) : ∃ more, (l.foldl (fun d e => d.registerLazy e.1 e.2) d).lazyH.keys = d.lazyH.keys ++ more := by
  induction l generalizing d with
  | nil => exact ⟨[], by simp⟩
  | cons e l ih =>
    obtain ⟨m, hm⟩ := ih (d.registerLazy e.1 e.2)
    rw [List.foldl_cons, hm]
    simp only [Disp.registerLazy, Dict.keys_set]
    split
    · exact ⟨m, rfl⟩
    · exact ⟨e.1 :: m, by simp⟩

theorem keys_import (w : World) (st : St) (n : Nat) : ∃ more, (importMod w st n).d.lazyH.keys = st.d.lazyH.keys ++ more := by
  unfold importMod
  split
  · exact ⟨[], by simp⟩
  · exact keys_registers _ _

theorem loop_keys (w : World) (size : Nat) : ∀ todo i st, i + todo = size → (∃ more, (loop w size todo i st).1.d.lazyH.keys = st.d.lazyH.keys ++ more) ∧
    ((loop w size todo i st).2 = none → ∀ (j : Nat) n, i ≤ j → j < size → st.d.lazyH.keys[j]? = some n → ¬ Broken w n) := by
  intro todo
  induction todo with
  | zero => intro i st hi; exact ⟨⟨[], by simp [loop]⟩, fun _ j n h1 h2 => by omega⟩
  | succ todo ih =>
    intro i st hi
    simp only [loop]
    by_cases hsz : st.d.lazyH.length = size
    · rw [if_pos hsz]
      rcases hg : st.d.lazyH[i]? with _ | ⟨n, h⟩
      · rw [List.getElem?_eq_none_iff] at hg; omega
      · dsimp only
        obtain ⟨m1, hm1⟩ := keys_import w st n
        rcases hc : (w n).cls with e | c
        · exact ⟨⟨m1, hm1⟩, fun e => (nomatch e)⟩
        · dsimp only
          obtain ⟨⟨m2, hm2⟩, hj⟩ := ih (i + 1) { importMod w st n with d := (importMod w st n).d.register (.cls c) h } (by omega)
          simp only [Disp.register] at hm2 hj
          refine ⟨⟨m1 ++ m2, by rw [show (_ : Disp).register (.cls c) h = _ from rfl]; simp only [Disp.register]; rw [hm2, hm1, List.append_assoc]⟩, ?_⟩
          intro hr j n' h1 h2 hk
          by_cases hij : j = i
          · subst hij
            have : st.d.lazyH.keys[j]? = some n := by simp [Dict.keys, hg]
            rw [this] at hk; injection hk with hk; subst hk
            rintro ⟨e, he⟩; rw [hc] at he; cases he
          · refine hj hr j n' (by omega) h2 ?_
            rw [hm1, List.getElem?_append_left (by simpa [Dict.keys, hsz] using h2)]
            exact hk
    · rw [if_neg hsz]
      exact ⟨⟨[], by simp⟩, fun e => (nomatch e)⟩

theorem pending_iff (st : St) (n : Nat) : Pending st n ↔ n ∈ st.d.lazyH.keys := by
  unfold Pending
  rw [ne_eq, Dict.get?_eq_none_iff]
  exact ⟨fun h => Classical.byContradiction h, fun h h' => h' h⟩

theorem reload_broken {w : World} {st : St} {n : Nat} (hp : Pending st n) (hb : Broken w n) :
    (∃ e, (reload w st).2 = some e) ∧ Pending (reload w st).1 n := by
  obtain ⟨⟨m, hm⟩, hn⟩ := loop_keys w st.d.lazyH.length st.d.lazyH.length 0 st (by omega)
  rw [pending_iff] at hp
  have hpos : ∃ j : Nat, st.d.lazyH.keys[j]? = some n := List.mem_iff_getElem?.mp hp
  obtain ⟨j, hj⟩ := hpos
  have hlt : j < st.d.lazyH.length := by
    have := (List.getElem?_eq_some_iff.mp hj).1; simpa [Dict.keys] using this
  unfold reload
  generalize loop w st.d.lazyH.length st.d.lazyH.length 0 st = q at *
  obtain ⟨st', r⟩ := q
  dsimp only at *
  rcases r with _ | e
  · exact absurd hb (hn rfl j n (by omega) hlt hj)
  · refine ⟨⟨e, rfl⟩, ?_⟩
    dsimp only
    rw [pending_iff, hm]
    exact List.mem_append_left _ hp

/-- **One dotted name that cannot be imported blocks all lookups that need one**: while it waits, every lookup of a class that is neither registered
itself nor was looked up before raises, whatever handlers its base classes have, and the name goes on waiting. -/
theorem broken_blocks (mro : Nat → List Nat) {w : World} {st : St} {n : Nat} (hp : Pending st n) (hb : Broken w n) (k : Key)
    (h1 : st.d.handlers.get? k = none) (h2 : st.d.inherit.get? k = none) :
    (∃ e, (get mro w st k).2 = .error e) ∧ Pending (get mro w st k).1 n := by
  obtain ⟨⟨e, he⟩, hp'⟩ := reload_broken hp hb
  unfold get
  rw [h1]; dsimp only; rw [h2]; dsimp only
  generalize reload w st = q at *
  obtain ⟨st', r⟩ := q
  dsimp only at *
  subst he
  exact ⟨⟨e, rfl⟩, hp'⟩

/-- … for ever, unless it can be imported some day or is unregistered by its name -/
theorem broken_stays (mro : Nat → List Nat) {n : Nat} (ops : List Op) (hu : ∀ m, .unregisterName m ∈ ops → m ≠ n) (hw : ∀ w k, .get w k ∈ ops → Broken w n)
    {st : St} (hp : Pending st n) : Pending (run mro st ops) n := by
  induction ops generalizing st with
  | nil => exact hp
  | cons op ops ih =>
    simp only [run, List.foldl_cons] at ih ⊢
    refine ih (fun m hm => hu m (by simp [hm])) (fun w k hm => hw w k (by simp [hm])) ?_
    cases op with
    | register k h => exact hp
    | registerName m h =>
      unfold Pending at *
      simp only [step, Disp.registerLazy, Dict.get?_set]
      split
      · simp
      · exact hp
    | unregister k => exact hp
    | unregisterName m =>
      unfold Pending at *
      simp only [step, unregisterName, Dict.get?_erase]
      rw [if_neg (hu m (by simp))]; exact hp
    | get w k =>
      simp only [step]
      by_cases h1 : st.d.handlers.get? k = none
      · by_cases h2 : st.d.inherit.get? k = none
        · exact (broken_blocks mro hp (hw w k (by simp)) k h1 h2).2
        · obtain ⟨h, h2⟩ := Option.ne_none_iff_exists'.mp h2
          unfold get; rw [h1]; dsimp only; rw [h2]; exact hp
      · obtain ⟨h, h1⟩ := Option.ne_none_iff_exists'.mp h1
        unfold get; rw [h1]; exact hp

theorem loop_until (w : World) (l1 l2 : List (Nat × Nat)) (n h : Nat) (hfine : ∀ e ∈ l1, ∃ c, w e.1 = ⟨.ok c, []⟩) (hreg : (w n).registers = [])
    {e : Err} (hb : (w n).cls = .error e) : ∀ (b a : List (Nat × Nat)) (st : St), b ++ a = l1 → st.d.lazyH = l1 ++ (n, h) :: l2 →
    (loop w (l1 ++ (n, h) :: l2).length (a.length + 1 + l2.length) b.length st).2 = some e ∧
    (loop w (l1 ++ (n, h) :: l2).length (a.length + 1 + l2.length) b.length st).1.d.lazyH = l1 ++ (n, h) :: l2 ∧
    (loop w (l1 ++ (n, h) :: l2).length (a.length + 1 + l2.length) b.length st).1.d.inherit = st.d.inherit ∧
    (∀ k, (∀ x ∈ a, ∀ c, (w x.1).cls = .ok c → k ≠ .cls c) →
      (loop w (l1 ++ (n, h) :: l2).length (a.length + 1 + l2.length) b.length st).1.d.handlers.get? k = st.d.handlers.get? k) ∧
    ∀ (x : Nat × Nat) c, x ∈ a → (w x.1).cls = .ok c → (∀ y ∈ a, (w y.1).cls = .ok c → y = x) →
      (loop w (l1 ++ (n, h) :: l2).length (a.length + 1 + l2.length) b.length st).1.d.handlers.get? (.cls c) = some x.2 := by
  intro b a
  induction a generalizing b with
  | nil =>
    intro st hba hl
    rw [List.append_nil] at hba; subst hba
    rw [show ([] : List (Nat × Nat)).length + 1 + l2.length = l2.length + 1 by simp; omega]
    have hi : (b ++ (n, h) :: l2)[b.length]? = some (n, h) := by simp
    have him : (importMod w st n).d = st.d := by unfold importMod; split <;> simp [hreg]
    simp only [loop, hl, if_true, hi, hb]
    rw [him]
    exact ⟨trivial, hl, rfl, fun _ _ => rfl, fun x c hx => by simp at hx⟩
  | cons x a ih =>
    intro st hba hl
    have hmem : x ∈ l1 := by rw [← hba]; simp
    obtain ⟨c0, hc0⟩ := hfine x hmem
    rw [show (x :: a).length + 1 + l2.length = (a.length + 1 + l2.length) + 1 by simp; omega]
    have hi : (l1 ++ (n, h) :: l2)[b.length]? = some x := by rw [← hba]; simp
    have him : (importMod w st x.1).d = st.d := by unfold importMod; rw [hc0]; split <;> rfl
    obtain ⟨n0, h0⟩ := x
    simp only [loop, hl, if_true, hi, hc0]
    obtain ⟨r1, r2, r3, r4, r5⟩ := ih (b ++ [(n0, h0)]) { importMod w st n0 with d := (importMod w st n0).d.register (.cls c0) h0 } (by simp [hba]) (by
      simp only [Disp.register, him]; exact hl)
    rw [show (b ++ [(n0, h0)]).length = b.length + 1 by simp] at r1 r2 r3 r4 r5
    refine ⟨r1, r2, ?_, ?_, ?_⟩
    · rw [r3]; simp only [Disp.register, him]
    · intro k hk
      rw [r4 k (fun y hy => hk y (by simp [hy]))]
      simp only [Disp.register, him, Dict.get?_set]
      have := hk (n0, h0) (by simp) c0 (by rw [hc0])
      rw [if_neg (fun e => this e.symm)]
    · intro y c hy hc huniq
      by_cases hin : ∃ z ∈ a, (w z.1).cls = .ok c
      · obtain ⟨z, hz, hzc⟩ := hin
        have hzy := huniq z (by simp [hz]) hzc
        subst hzy
        exact r5 z c hz hc (fun y' hy' => huniq y' (by simp [hy']))
      · have hne : ∀ z ∈ a, ∀ c', (w z.1).cls = .ok c' → Key.cls c ≠ .cls c' := by
          intro z hz c' hc' e
          injection e with e; subst e; exact hin ⟨z, hz, hc'⟩
        rw [r4 _ hne]
        rcases List.mem_cons.mp hy with rfl | hy
        · rw [hc0] at hc
          injection hc with hc; subst hc
          simp [Disp.register]
        · exact absurd ⟨y, hy, hc⟩ hin

/-- **Names before the failing one are in force after the failed lookup, those after it are not**: the class of a name registered earlier (the only one
for that class) has its handler, and a class that none of the earlier names denotes has what it had. -/
theorem earlier_names_work (mro : Nat → List Nat) {w : World} {st : St} {l1 l2 : List (Nat × Nat)} {n h : Nat} (hl : st.d.lazyH = l1 ++ (n, h) :: l2)
    (hfine : ∀ e ∈ l1, ∃ c, w e.1 = ⟨.ok c, []⟩) (hreg : (w n).registers = []) {e : Err} (hb : (w n).cls = .error e) {k : Key}
    (h1 : st.d.handlers.get? k = none) (h2 : st.d.inherit.get? k = none) :
    (get mro w st k).2 = .error e ∧
    (∀ x c, x ∈ l1 → (w x.1).cls = .ok c → (∀ y ∈ l1, (w y.1).cls = .ok c → y = x) → ∀ w', (get mro w' (get mro w st k).1 (.cls c)).2 = .ok x.2) ∧
    ∀ k', (∀ x ∈ l1, ∀ c, (w x.1).cls = .ok c → k' ≠ .cls c) → (get mro w st k).1.d.handlers.get? k' = st.d.handlers.get? k' := by
  obtain ⟨r1, r2, r3, r4, r5⟩ := loop_until w l1 l2 n h hfine hreg hb [] l1 st rfl hl
  have hlen : l1.length + 1 + l2.length = (l1 ++ (n, h) :: l2).length := by simp; omega
  rw [hlen, List.length_nil] at r1 r2 r3 r4 r5
  have hg : get mro w st k = ((loop w (l1 ++ (n, h) :: l2).length (l1 ++ (n, h) :: l2).length 0 st).1, .error e) := by
    unfold get
    rw [h1]; dsimp only; rw [h2]; dsimp only
    unfold reload
    rw [hl]
    generalize loop w (l1 ++ (n, h) :: l2).length (l1 ++ (n, h) :: l2).length 0 st = q at *
    obtain ⟨st', r⟩ := q
    dsimp only at *
    subst r1
    rfl
  rw [hg]
  refine ⟨rfl, ?_, r4⟩
  intro x c hx hc hu w'
  unfold get
  rw [r5 x c hx hc hu]

/-- A module that registers a dotted name while it is imported makes the lookup raise RuntimeError; the next lookup of the class is answered. -/
theorem registering_import (mro : Nat → List Nat) {w : World} {n m h h' c k : Nat} (hw : w n = ⟨.ok c, [(m, h')]⟩) (hmn : m ≠ n) :
    (get mro w ⟨⟨[], [(n, h)], []⟩, []⟩ (.cls k)).2 = .error .runtimeError ∧
    (get mro w (get mro w ⟨⟨[], [(n, h)], []⟩, []⟩ (.cls k)).1 (.cls c)).2 = .ok h := by
  have hnm : ¬ n = m := fun e => hmn e.symm
  simp [get, reload, loop, importMod, executes, hw, Disp.registerLazy, Disp.register, Dict.set, Dict.get?, hnm]

/-- A module's code is run once: a name it registered and the user then registered anew keeps the user's handler. -/
theorem import_runs_once {mro : Nat → List Nat} (hm : ∀ t, ∃ rest, mro t = t :: rest) {w : World} {n m h h' h2 c cm k : Nat} (hw : w n = ⟨.ok c, [(m, h')]⟩)
    (hwm : w m = ⟨.ok cm, []⟩) (hmn : m ≠ n) (hc : cm ≠ c) :
    (get mro w (run mro ⟨⟨[], [(n, h)], []⟩, []⟩ [.get w (.cls k), .registerName m h2]) (.cls cm)).2 = .ok h2 := by
  have hnm : ¬ n = m := fun e => hmn e.symm
  have hcc : ¬ c = cm := fun e => hc e.symm
  obtain ⟨r, hr⟩ := hm cm
  simp [run, step, get, reload, loop, importMod, executes, hw, hwm, Disp.registerLazy, Disp.register, Dict.set, Dict.get?, hnm, hmn, hcc, hc, chain, hr,
    firstHandler]

/-! ## where a name is not like its class -/

/-- A handler registered for the class itself AFTER one for its name is in force only until the next lookup that finds nothing: then the older one is,
though nothing was registered in between. -/
theorem later_registration_refuted {den : Nat → Nat} {w : World} (hw : Fine den w) (mro : Nat → List Nat) (n h h' k : Nat) (hk : k ≠ den n) :
    (get mro w (run mro .empty [.registerName n h, .register (.cls (den n)) h']) (.cls (den n))).2 = .ok h' ∧
    (get mro w (run mro .empty [.registerName n h, .register (.cls (den n)) h', .get w (.cls k)]) (.cls (den n))).2 = .ok h := by
  have hk' : ¬ den n = k := fun e => hk e.symm
  constructor
  · simp [run, step, St.empty, Disp.empty, Disp.registerLazy, Disp.register, get, Dict.set, Dict.get?]
  · simp only [run, step, St.empty, Disp.empty, Disp.registerLazy, Disp.register, get, Dict.set, Dict.get?, List.foldl_cons, List.foldl_nil, Key.cls.injEq, hk',
      if_false, reload, List.length_cons, List.length_nil, loop, if_true, List.getElem?_cons_zero, hw n, importMod, executes, List.not_mem_nil,
      Bool.true_eq_false, or_self]
    rcases firstHandler [(Key.cls (den n), h)] (chain mro (Key.cls k)) with _ | x <;> simp [Dict.get?]

/-- Unregistering a name after it was resolved has no effect: its handler stays. -/
theorem unregister_name_refuted {den : Nat → Nat} {w : World} (hw : Fine den w) {mro : Nat → List Nat} (n h : Nat) (w' : World) :
    (get mro w' (run mro .empty [.registerName n h, .get w (.cls (den n)), .unregisterName n]) (.cls (den n))).2 = .ok h := by
  simp only [run, step, St.empty, Disp.empty, Disp.registerLazy, Disp.register, get, Dict.set, Dict.get?, List.foldl_cons, List.foldl_nil,
      reload, List.length_cons, List.length_nil, loop, if_true, List.getElem?_cons_zero, hw n, importMod, executes, List.not_mem_nil,
      Bool.true_eq_false, or_self, if_false, unregisterName]
  rcases firstHandler [(Key.cls (den n), h)] (chain mro (Key.cls (den n))) with _ | x <;> simp [Dict.get?]

/-- Unregistering the class before its name was resolved has no effect: the next lookup brings the handler. -/
theorem unregister_class_refuted {den : Nat → Nat} {w : World} (hw : Fine den w) {mro : Nat → List Nat} (hm : ∀ t, ∃ rest, mro t = t :: rest) (n h : Nat) :
    (get mro w (run mro .empty [.registerName n h, .unregister (.cls (den n))]) (.cls (den n))).2 = .ok h := by
  obtain ⟨r, hr⟩ := hm (den n)
  simp [run, step, St.empty, Disp.empty, Disp.registerLazy, Disp.register, Disp.unregister, get, Dict.set, Dict.get?, Dict.erase, reload, loop, hw n,
    importMod, executes, chain, hr, firstHandler]

/-- **Unregistering a name before any lookup undoes its registration**: of both nothing is left but the forgotten cache. -/
theorem unregister_name_works (mro : Nat → List Nat) {st : St} {n : Nat} (hn : ¬ Pending st n) (h : Nat) :
    run mro st [.registerName n h, .unregisterName n] = { st with d := { st.d with inherit := [] } } := by
  rw [pending_iff] at hn
  simp only [run, List.foldl_cons, List.foldl_nil, step, Disp.registerLazy, unregisterName]
  have : (st.d.lazyH.set n h).erase n = st.d.lazyH := by
    generalize st.d.lazyH = l at hn
    induction l with
    | nil => simp [Dict.set, Dict.erase]
    | cons e l ih =>
      obtain ⟨a, b⟩ := e
      simp only [Dict.keys, List.map_cons, List.mem_cons, not_or] at hn
      have ha : ¬ a = n := fun e => hn.1 e.symm
      simp only [Dict.set, ha, if_false, Dict.erase]
      rw [ih hn.2]
  rw [this]

/-- **Unregistering a class takes its handler away, and no other**: when no name waits, a lookup then finds the first class of the resolution
order that has a handler and is not the one unregistered. -/
theorem unregister_class_works {mro : Nat → List Nat} (hm : ∀ t, ∃ rest, mro t = t :: rest) {st : St} (hp : st.d.lazyH = []) (w : World) (k k' : Key)
    (h : Nat) : (get mro w (step mro st (.unregister k)) k').2 = .ok h ↔
      ∃ before c after, candidates mro k' = before ++ c :: after ∧ c ≠ k ∧ st.d.handlers.get? c = some h ∧
        ∀ b ∈ before, b = k ∨ st.d.handlers.get? b = none := by
  have key : (∃ before c after, candidates mro k' = before ++ c :: after ∧ c ≠ k ∧ st.d.handlers.get? c = some h ∧
        ∀ b ∈ before, b = k ∨ st.d.handlers.get? b = none) ↔ firstHandler (st.d.handlers.erase k) (chain mro k') = some h := by
    rw [firstHandler_iff, candidates_eq]
    constructor
    · rintro ⟨b, c, a, e, hc, hg, hb⟩
      refine ⟨b, c, a, e, ?_, fun x hx => ?_⟩
      · rw [Dict.get?_erase, if_neg (fun e => hc e.symm)]; exact hg
      · rw [Dict.get?_erase]
        by_cases hx' : k = x
        · rw [if_pos hx']
        · rw [if_neg hx']; exact (hb x hx).resolve_left (fun e => hx' e.symm)
    · rintro ⟨b, c, a, e, hg, hb⟩
      rw [Dict.get?_erase] at hg
      by_cases hc : k = c
      · rw [if_pos hc] at hg; cases hg
      · rw [if_neg hc] at hg
        refine ⟨b, c, a, e, fun e => hc e.symm, hg, fun x hx => ?_⟩
        have := hb x hx
        rw [Dict.get?_erase] at this
        by_cases hx' : k = x
        · exact .inl hx'.symm
        · rw [if_neg hx'] at this; exact .inr this
  rw [key]
  have hr : reload w (step mro st (.unregister k)) = (step mro st (.unregister k), none) := by
    simp [reload, step, Disp.unregister, hp, loop]
  have hchain : ∃ rest, chain mro k' = k' :: rest := by
    cases k' with
    | cls t => obtain ⟨r, hr⟩ := hm t; exact ⟨_, by simp [chain, hr]; rfl⟩
    | named n t => obtain ⟨r, hr⟩ := hm t; exact ⟨_, by simp [chain, hr]; rfl⟩
  obtain ⟨rest, hrest⟩ := hchain
  have hh : (step mro st (.unregister k)).d.handlers = st.d.handlers.erase k := rfl
  have hi : (step mro st (.unregister k)).d.inherit = [] := rfl
  unfold get
  rw [hh, hi]
  rcases hg : (st.d.handlers.erase k).get? k' with _ | h'
  · dsimp only [Dict.get?]
    rw [hr]
    dsimp only
    rw [hh]
    rcases firstHandler (st.d.handlers.erase k) (chain mro k') with _ | x <;> simp
  · rw [hrest]
    simp only [firstHandler, hg, Except.ok.injEq, Option.some.injEq]

example : (get (fun t => [t, 0]) (fun _ => ⟨.error .importError, []⟩)
    (run (fun t => [t, 0]) .empty [.register (.cls 0) 1, .register (.cls 3) 2, .unregister (.cls 3)]) (.cls 3)).2 = .ok 1 := by rfl
example : ¬ Pending (run (fun t => [t, 0]) .empty [.registerName 4 1]) 5 := by rw [pending_iff]; decide

/-! ## starting a pool -/

theorem reload_ok_iff {w : World} (hreg : ∀ n, (w n).registers = []) (st : St) :
    (reload w st).2 = none ↔ ∀ n h, (n, h) ∈ st.d.lazyH → ∃ c, (w n).cls = .ok c := by
  constructor
  · intro hr n h hm
    rcases hc : (w n).cls with e | c
    · have hp : Pending st n := by rw [pending_iff]; exact List.mem_map.mpr ⟨(n, h), hm, rfl⟩
      obtain ⟨⟨e', he⟩, _⟩ := reload_broken hp ⟨e, hc⟩
      rw [hr] at he; cases he
    · exact ⟨c, rfl⟩
  · intro hall
    have key : ∀ lz : Dict Nat Nat, (∀ n h, (n, h) ∈ lz → ∃ c, (w n).cls = .ok c) → ∀ todo i st, i + todo = lz.length → st.d.lazyH = lz →
        (loop w lz.length todo i st).2 = none := by
      intro lz hall todo
      induction todo with
      | zero => intro i st _ hl; simp [loop, hl]
      | succ todo ih =>
        intro i st hi hl
        have hlt : i < lz.length := by omega
        obtain ⟨⟨n, h⟩, he⟩ : ∃ e, lz[i]? = some e := ⟨lz[i], List.getElem?_eq_getElem hlt⟩
        obtain ⟨c, hc⟩ := hall n h (List.mem_of_getElem? he)
        have him : (importMod w st n).d = st.d := by unfold importMod; split <;> simp [hreg]
        simp only [loop, hl, if_true, he, hc]
        apply ih (i + 1) _ (by omega)
        simp only [Disp.register, him]; exact hl
    have := key st.d.lazyH hall st.d.lazyH.length 0 st (by omega) rfl
    unfold reload
    generalize loop w st.d.lazyH.length st.d.lazyH.length 0 st = q at *
    obtain ⟨st', r⟩ := q
    dsimp only at *
    subst this; rfl

/-- **A pool can be created only where every dotted name of every dispatcher can be imported** (imports that register nothing). -/
theorem pool_needs_all {w : World} (hreg : ∀ n, (w n).registers = []) (ds : List Disp) (imported : List Nat) :
    (reloadAll w ds imported).2 = none ↔ ∀ d ∈ ds, ∀ n h, (n, h) ∈ d.lazyH → ∃ c, (w n).cls = .ok c := by
  induction ds generalizing imported with
  | nil => simp [reloadAll]
  | cons d ds ih =>
    have h0 := reload_ok_iff hreg ⟨d, imported⟩
    simp only [reloadAll]
    generalize reload w ⟨d, imported⟩ = q at *
    obtain ⟨st', r⟩ := q
    dsimp only at *
    rcases r with _ | e
    · dsimp only
      rw [ih]
      simp only [true_iff] at h0
      constructor
      · intro h d' hd'
        rcases List.mem_cons.mp hd' with rfl | hd'
        · exact h0
        · exact h d' hd'
      · intro h d' hd'; exact h d' (by simp [hd'])
    · dsimp only
      constructor
      · intro h; cases h
      · intro h; exact absurd (h0.mpr (h d (by simp))) (by simp)

/-- the reload of all dispatchers keeps them all, in their order, also when it fails -/
theorem reload_all_keeps (w : World) (ds : List Disp) (imported : List Nat) : (reloadAll w ds imported).1.length = ds.length := by
  induction ds generalizing imported with
  | nil => rfl
  | cons d ds ih =>
    simp only [reloadAll]
    generalize reload w ⟨d, imported⟩ = q
    obtain ⟨st', r⟩ := q
    rcases r with _ | e
    · simp [ih]
    · simp

/-- **Creating a pool settles every dispatcher** (names that can be imported, imports that register nothing): afterwards no dispatcher has a name
waiting, and each has, under every class, exactly the handler in force from its own registrations. -/
theorem reload_all_settles {den : Nat → Nat} {w : World} (hw : Fine den w) (mro : Nat → List Nat) (rss : List (List Reg))
    (ha : ∀ regs ∈ rss, Apart den regs) (imported : List Nat) :
    (reloadAll w (rss.map fun regs => (run mro .empty (regs.map Reg.op)).d) imported).2 = none ∧
    ∀ (i : Nat) (regs : List Reg), rss[i]? = some regs →
      ∃ d, (reloadAll w (rss.map fun regs => (run mro .empty (regs.map Reg.op)).d) imported).1[i]? = some d ∧ d.lazyH = [] ∧
        ∀ k h, d.handlers.get? k = some h ↔ InForce den regs k h := by
  induction rss generalizing imported with
  | nil => exact ⟨rfl, by simp⟩
  | cons regs rss ih =>
    obtain ⟨hk, hi, _⟩ := regs_known mro regs (ha regs (by simp))
    obtain ⟨h1, h2, _⟩ := reload_fine hw mro regs ⟨(run mro .empty (regs.map Reg.op)).d, imported⟩ hk hi
    simp only [List.map_cons, reloadAll]
    generalize reload w ⟨(run mro .empty (regs.map Reg.op)).d, imported⟩ = q at *
    obtain ⟨st', r⟩ := q
    dsimp only at *
    subst h1
    dsimp only
    obtain ⟨j1, j2⟩ := ih (fun r hr => ha r (by simp [hr])) st'.imported
    refine ⟨j1, ?_⟩
    intro i rs hrs
    cases i with
    | zero =>
      simp only [List.getElem?_cons_zero, Option.some.injEq] at hrs; subst hrs
      exact ⟨st'.d, rfl, h2.lz, fun k h => by rw [h2.reg k, inForce_iff]⟩
    | succ i =>
      simp only [List.getElem?_cons_succ] at hrs ⊢
      exact j2 i rs hrs

/-! ## cases -/

/-- classes 3 < 2 < 0; name 70 denotes class 2 -/
def exMro : Nat → List Nat := fun t => if t = 3 then [3, 2, 0] else if t = 0 then [0] else [t, 0]
def exDen : Nat → Nat := fun n => n - 68
def exRegs : List Reg := [.byKey (.cls 0) 1, .byName 70 2]

example : Apart exDen exRegs := by
  intro n h hm r hr e
  simp only [exRegs, List.mem_cons, List.not_mem_nil, or_false] at hm hr
  rcases hm with hm | hm
  · cases hm
  · injection hm with e1 e2; subst e1
    rcases hr with rfl | rfl
    · exact absurd e (by decide)
    · exact ⟨2, rfl⟩

example : ∀ t, ∃ rest, exMro t = t :: rest := by
  intro t; unfold exMro
  by_cases h : t = 3
  · subst h; exact ⟨_, rfl⟩
  · rw [if_neg h]; by_cases h' : t = 0
    · subst h'; exact ⟨_, rfl⟩
    · rw [if_neg h']; exact ⟨_, rfl⟩

/-- an object of class 3 gets the handler of the name; with a broken name it gets none, although class 0 has one -/
example : (get exMro (fun n => ⟨.ok (exDen n), []⟩) (run exMro .empty (exRegs.map Reg.op)) (.cls 3)).2 = .ok 2 ∧
    (get exMro (fun _ => ⟨.error .importError, []⟩) (run exMro .empty (exRegs.map Reg.op)) (.cls 3)).2 = .error .importError ∧
    (get exMro (fun _ => ⟨.error .importError, []⟩) (run exMro .empty (exRegs.map Reg.op)) (.cls 0)).2 = .ok 1 := ⟨rfl, rfl, rfl⟩

end Xoscar.Lazy
