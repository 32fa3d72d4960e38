import Verif.Spec.Front
import Verif.Proof.Base
/-! # Proofs about the front of the API -/
namespace Xoscar.Front
open scoped List

theorem hasSep_iff (a : Addr) : hasSep a = true ↔ sep <:+: a := by
  induction a with
  | nil => simp [hasSep, sep]
  | cons c a ih =>
    have key : hasSep (c :: a) = true ↔ (∃ r, c :: a = sep ++ r) ∨ hasSep a = true := by
      constructor
      · intro h
        rw [hasSep.eq_def] at h
        split at h
        · rename_i r he
          exact Or.inl ⟨r, by rw [he]; rfl⟩
        · rename_i he; cases he; exact Or.inr h
        · rename_i he; cases he
      · rintro (⟨r, hr⟩ | h)
        · rw [hr]; rfl
        · rw [hasSep.eq_def]
          split
          · rfl
          · rename_i he; cases he; exact h
          · rename_i he; cases he
    rw [key, ih, List.infix_cons_iff]
    constructor
    · rintro (⟨r, hr⟩ | h)
      · exact Or.inl ⟨r, hr.symm⟩
      · exact Or.inr h
    · rintro (⟨r, hr⟩ | h)
      · exact Or.inl ⟨r, hr.symm⟩
      · exact Or.inr h

theorem schemeChar_iff (x : Char) : schemeChar x = true ↔ x.isAlpha = true ∨ x.isDigit = true ∨ x ∈ ['+', '-', '.'] := by
  simp only [schemeChar, Char.isAlphanum, Bool.or_eq_true, decide_eq_true_eq, List.mem_cons, List.not_mem_nil, or_false]
  grind

theorem isScheme_iff (s : List Char) :
    IsScheme s ↔ ∃ c rest, s = c :: rest ∧ c.isAlpha = true ∧ s.all schemeChar = true := by
  constructor
  · rintro ⟨c, rest, rfl, hc, hr⟩
    refine ⟨c, rest, rfl, hc, ?_⟩
    rw [List.all_eq_true]
    intro x hx
    rw [schemeChar_iff]
    rcases List.mem_cons.1 hx with rfl | hx
    · exact Or.inl hc
    · exact hr x hx
  · rintro ⟨c, rest, rfl, hc, hr⟩
    rw [List.all_eq_true] at hr
    exact ⟨c, rest, rfl, hc, fun x hx => (schemeChar_iff x).1 (hr x (by simp [hx]))⟩

theorem colon_not_scheme : schemeChar ':' = false := by decide

theorem isScheme_no_colon {s : List Char} (h : IsScheme s) : ':' ∉ s := by
  obtain ⟨c, rest, -, -, ha⟩ := (isScheme_iff s).1 h
  intro hm
  have := List.all_eq_true.1 ha ':' hm
  rw [colon_not_scheme] at this; cases this

theorem takeWhile_colon (p r : List Char) (h : ':' ∉ p) : (p ++ ':' :: r).takeWhile (· ≠ ':') = p := by
  induction p with
  | nil => simp
  | cons c p ih =>
    have hc : c ≠ ':' := fun e => h (by simp [e])
    have hp : ':' ∉ p := fun e => h (by simp [e])
    rw [List.cons_append, List.takeWhile_cons_of_pos (by simp [hc]), ih hp]

theorem split_colon (a : Addr) (h : ':' ∈ a) : ∃ p r, a = p ++ ':' :: r ∧ ':' ∉ p := by
  induction a with
  | nil => cases h
  | cons c a ih =>
    by_cases hc : c = ':'
    · exact ⟨[], a, by simp [hc], by simp⟩
    · obtain ⟨p, r, hpr, hp⟩ := ih (by rcases List.mem_cons.1 h with h | h; exact absurd h.symm hc; exact h)
      exact ⟨c :: p, r, by simp [hpr], by simp [hp, Ne.symm hc]⟩

theorem urlScheme_split (p r : List Char) (hp : ':' ∉ p) (s : List Char) :
    urlScheme (p ++ ':' :: r) = s ∧ s ≠ [] ↔ IsScheme p ∧ s = p.map Char.toLower := by
  have hmem : ':' ∈ p ++ ':' :: r := by simp
  have hw := takeWhile_colon p r hp
  rw [isScheme_iff]
  unfold urlScheme
  simp only [hw, if_pos hmem]
  cases p with
  | nil => simp
  | cons c p =>
    by_cases hc : (c.isAlpha && (c :: p).all schemeChar) = true
    · simp only [hc, if_true]
      rw [Bool.and_eq_true] at hc
      constructor
      · rintro ⟨rfl, -⟩; exact ⟨⟨c, p, rfl, hc.1, hc.2⟩, rfl⟩
      · rintro ⟨-, rfl⟩; exact ⟨rfl, by simp⟩
    · simp only [hc]
      constructor
      · rintro ⟨h, hne⟩; exact absurd h.symm hne
      · rintro ⟨⟨c', p', he, h1, h2⟩, -⟩
        injection he with he1 he2
        subst he1 he2
        exact absurd (by rw [h1, h2]; rfl) hc

/-- exact: the scheme of an address -/
theorem schemeOf_some (a : Addr) (s : List Char) :
    schemeOf a = some s ↔ sep <:+: a ∧ ∃ p r, a = p ++ ':' :: r ∧ IsScheme p ∧ s = p.map Char.toLower := by
  unfold schemeOf
  by_cases hs : hasSep a = true
  · rw [if_pos hs]
    have hinf := (hasSep_iff a).1 hs
    have hcol : ':' ∈ a := hinf.subset (by simp [sep])
    obtain ⟨p, r, rfl, hp⟩ := split_colon a hcol
    have key := urlScheme_split p r hp s
    have hsome : (match urlScheme (p ++ ':' :: r) with | [] => none | s => some s) = some s ↔ urlScheme (p ++ ':' :: r) = s ∧ s ≠ [] := by
      rcases hu : urlScheme (p ++ ':' :: r) with _ | ⟨c, t⟩
      · simp
      · constructor
        · intro h; injection h with h; exact ⟨h, by rw [← h]; simp⟩
        · rintro ⟨h, -⟩; rw [← h]
    refine hsome.trans (key.trans ?_)
    constructor
    · rintro ⟨h1, h2⟩; exact ⟨hinf, p, r, rfl, h1, h2⟩
    · rintro ⟨-, p', r', he, h1, h2⟩
      have hp' := isScheme_no_colon h1
      have : p = p' := by
        rw [← takeWhile_colon p r hp, he, takeWhile_colon p' r' hp']
      subst this; exact ⟨h1, h2⟩
  · rw [if_neg hs]
    constructor
    · intro h; cases h
    · rintro ⟨h, -⟩; exact absurd ((hasSep_iff a).2 h) hs

/-! ## contexts -/

theorem run_snoc (st : State) (es : List Event) (e : Event) : run st (es ++ [e]) = (step (run st es) e).1 := by
  simp [run, List.foldl_append]

theorem run_append (st : State) (a b : List Event) : run st (a ++ b) = run (run st a) b := List.foldl_append

theorem classes_run (es : List Event) (s : Option (List Char)) (k : Cls) : (run {} es).classes.get? s = some k ↔ LastReg s es k := by
  induction es using List.reverseRecOn' generalizing k with
  | nil =>
    constructor
    · intro h; simp [run] at h
    · intro h
      generalize hes : ([] : List Event) = es at h
      cases h <;> simp at hes
  | append_singleton es e ih =>
    rw [run_snoc]
    have inv : LastReg s (es ++ [e]) k ↔ e = .register s k ∨ (LastReg s es k ∧ ∀ k', e ≠ Event.register s k') := by
      constructor
      · intro h
        generalize hes : es ++ [e] = l at h
        cases h with
        | here => exact Or.inl (List.append_inj' hes rfl).2 |>.imp (fun h => by simpa using h) id
        | later h1 h2 =>
          obtain ⟨h3, h4⟩ := List.append_inj' hes rfl
          simp only [List.cons.injEq, and_true] at h4
          subst h3; subst h4
          exact Or.inr ⟨h1, h2⟩
      · rintro (rfl | ⟨h1, h2⟩)
        · exact .here
        · exact .later h1 h2
    rw [inv]
    cases e with
    | register s' k' =>
      simp only [step, Dict.get?_set]
      by_cases hs : s' = s
      · subst hs
        simp
      · rw [if_neg hs, ih]
        constructor
        · intro h; exact Or.inr ⟨h, fun k'' he => hs (by injection he)⟩
        · rintro (h | h)
          · injection h with h1; exact absurd h1 hs
          · exact h.1
    | use a =>
      have : (step (run {} es) (.use a)).1.classes = (run {} es).classes := by
        cases a with
        | none => rfl
        | some a =>
          simp only [step]
          split
          · rfl
          · split <;> rfl
      rw [this, ih]
      simp

theorem step_keeps (st : State) (e : Event) (s : Option (List Char)) (c : Ctx) (h : st.contexts.get? s = some c) :
    (step st e).1.contexts.get? s = some c := by
  cases e with
  | register _ _ => exact h
  | use a =>
    cases a with
    | none => exact h
    | some a =>
      simp only [step]
      split
      · exact h
      · rename_i hn
        split
        · exact h
        · simp only [Dict.get?_set]
          rw [if_neg, h]
          intro he; rw [he, h] at hn; cases hn

theorem run_keeps (st : State) (es : List Event) (s : Option (List Char)) (c : Ctx) (h : st.contexts.get? s = some c) :
    (run st es).contexts.get? s = some c := by
  induction es generalizing st with
  | nil => exact h
  | cons e es ih => exact ih _ (step_keeps st e s c h)

/-- contexts are of registered classes -/
theorem contexts_run (es : List Event) (s : Option (List Char)) (c : Ctx) (h : (run {} es).contexts.get? s = some c) :
    Event.register s c.cls ∈ es ∧ Event.use (some c.addr) ∈ es ∧ schemeOf c.addr = s := by
  induction es using List.reverseRecOn' with
  | nil => simp [run] at h
  | append_singleton es e ih =>
    rw [run_snoc] at h
    have lift : (run {} es).contexts.get? s = some c → Event.register s c.cls ∈ es ++ [e] ∧ Event.use (some c.addr) ∈ es ++ [e] ∧ schemeOf c.addr = s :=
      fun h => let ⟨h1, h2, h3⟩ := ih h; ⟨by simp [h1], by simp [h2], h3⟩
    cases e with
    | register _ _ => exact lift h
    | use a =>
      cases a with
      | none => exact lift h
      | some a =>
        simp only [step] at h
        split at h
        · exact lift h
        · split at h
          · exact lift h
          · rename_i k hk
            simp only [Dict.get?_set] at h
            split at h
            · rename_i hs
              injection h with h
              subst h
              have hk' : ∃ k, LastReg (schemeOf a) es k ∧ k = k := ⟨k, (classes_run es _ k).1 hk, rfl⟩
              refine ⟨?_, by simp, hs⟩
              have hreg : ∀ {es : List Event} {k}, LastReg s es k → Event.register s k ∈ es := by
                intro es k hl
                induction hl with
                | here => simp
                | later _ _ ih => simp [ih]
              rw [← hs]
              have := (classes_run es _ k).1 hk
              rw [hs] at this ⊢
              simp [hreg this]
            · exact lift h

theorem lastReg_mem {s : Option (List Char)} {es : List Event} {k : Cls} (h : LastReg s es k) : Event.register s k ∈ es := by
  induction h with
  | here => simp
  | later _ _ ih => simp [ih]

theorem lastReg_of_mem {s : Option (List Char)} {es : List Event} {k : Cls} (h : Event.register s k ∈ es) : ∃ k', LastReg s es k' := by
  induction es using List.reverseRecOn' with
  | nil => cases h
  | append_singleton es e ih =>
    by_cases he : ∃ k', e = .register s k'
    · obtain ⟨k', rfl⟩ := he; exact ⟨k', .here⟩
    · rcases List.mem_append.1 h with h | h
      · obtain ⟨k', hk⟩ := ih h
        exact ⟨k', .later hk (fun k'' e' => he ⟨k'', e'⟩)⟩
      · exact absurd ⟨k, (List.mem_singleton.1 h).symm⟩ he

/-! ## setup_cluster -/

theorem flat_set {σ ρ : Type} [DecidableEq σ] (acc : Dict σ (List ρ)) (s : σ) (x : ρ) :
    (acc.set s (((acc.get? s).getD []) ++ [x])).flatMap (·.2) ~ acc.flatMap (·.2) ++ [x] := by
  induction acc with
  | nil => simp [Dict.set, Dict.get?]
  | cons p acc ih =>
    obtain ⟨s', d⟩ := p
    by_cases hs : s' = s
    · subst hs
      simp only [Dict.set, Dict.get?, if_true, Option.getD_some, List.flatMap_cons, List.append_assoc]
      exact (List.Perm.append_left d (List.perm_append_comm))
    · simp only [Dict.set, Dict.get?, if_neg hs, List.flatMap_cons, List.append_assoc]
      exact List.Perm.append_left d ih

theorem mem_flat {σ ρ : Type} [DecidableEq σ] {acc : Dict σ (List ρ)} {s : σ} {x : ρ} (h : x ∈ (acc.get? s).getD []) :
    x ∈ acc.flatMap (·.2) := by
  rcases hg : acc.get? s with _ | d
  · rw [hg] at h; simp at h
  · rw [hg] at h
    exact List.mem_flatMap.2 ⟨(s, d), Dict.mem_of_get? hg, h⟩

/-- every group holds addresses of its scheme -/
def Sorted {ρ : Type} (g : Dict (Option (List Char)) (Dict Addr ρ)) : Prop := ∀ s d, (s, d) ∈ g → d ≠ [] ∧ ∀ a r, (a, r) ∈ d → schemeOf a = s

theorem group_spec {ρ : Type} (m : List (Option Addr × ρ)) (acc : Dict (Option (List Char)) (Dict Addr ρ)) (hw : acc.WF) (hs : Sorted acc)
    (hd : ((acc.flatMap (·.2)).map (·.1) ++ (pairs m).map (·.1)).Nodup) (hm : ∀ p ∈ m, p.1 ≠ none) :
    ∃ g, group m acc = some g ∧ g.WF ∧ Sorted g ∧ g.flatMap (·.2) ~ acc.flatMap (·.2) ++ pairs m := by
  induction m generalizing acc with
  | nil => exact ⟨acc, rfl, hw, hs, by simp [pairs]⟩
  | cons p m ih =>
    obtain ⟨a, r⟩ := p
    cases a with
    | none => exact absurd rfl (hm (none, r) (by simp))
    | some a =>
      have hp : pairs ((some a, r) :: m) = (a, r) :: pairs m := by simp [pairs]
      rw [hp] at hd ⊢
      have hnot : a ∉ ((acc.get? (schemeOf a)).getD []).keys := by
        intro hmem
        obtain ⟨⟨a', r'⟩, hm', rfl⟩ := List.mem_map.1 hmem
        have h1 : a' ∈ (acc.flatMap (·.2)).map (·.1) := List.mem_map.2 ⟨(a', r'), mem_flat hm', rfl⟩
        exact (List.nodup_append.1 hd).2.2 a' h1 a' (by simp) rfl
      have hset : ((acc.get? (schemeOf a)).getD []).set a r = ((acc.get? (schemeOf a)).getD []) ++ [(a, r)] := Dict.set_of_not_mem hnot
      have hfl := flat_set acc (schemeOf a) (a, r)
      have hs' : Sorted (acc.set (schemeOf a) (((acc.get? (schemeOf a)).getD []) ++ [(a, r)])) := by
        intro s d hmem
        rcases Dict.mem_set_of hmem with h | h
        · injection h with h1 h2
          subst h1 h2
          refine ⟨by simp, fun a' r' hm' => ?_⟩
          rcases List.mem_append.1 hm' with h' | h'
          · rcases hg : acc.get? (schemeOf a) with _ | d
            · rw [hg] at h'; simp at h'
            · rw [hg] at h'
              exact (hs _ _ (Dict.mem_of_get? hg)).2 a' r' h'
          · simp only [List.mem_singleton, Prod.mk.injEq] at h'
            rw [h'.1]
        · exact hs s d h
      obtain ⟨g, h1, h2, h3, h4⟩ := ih (acc.set (schemeOf a) (((acc.get? (schemeOf a)).getD []) ++ [(a, r)])) (hw.set ..) hs' (by
        have hp1 := hfl.map (·.1)
        have : ((acc.set (schemeOf a) (((acc.get? (schemeOf a)).getD []) ++ [(a, r)])).flatMap (·.2)).map (·.1) ++ (pairs m).map (·.1) ~
            (acc.flatMap (·.2)).map (·.1) ++ a :: (pairs m).map (·.1) := by
          refine (hp1.append_right _).trans ?_
          simp
        exact this.nodup_iff.2 (by simpa using hd)) (fun p hp => hm p (by simp [hp]))
      refine ⟨g, ?_, h2, h3, ?_⟩
      · simp only [group, hset, h1]
      · refine h4.trans ((hfl.append_right _).trans ?_)
        simp

theorem callDrivers_ok {ρ : Type} (b : Dict (Option (List Char)) Cls) (g : Dict (Option (List Char)) (Dict Addr ρ))
    (h : ∀ s d, (s, d) ∈ g → b.has s = true) :
    ∃ calls, callDrivers b g = (calls, true) ∧ calls.map (·.2) = g.vals ∧
      ∀ c d, (c, d) ∈ calls → ∃ s, (s, d) ∈ g ∧ b.get? s = some c := by
  induction g with
  | nil => exact ⟨[], rfl, rfl, by simp⟩
  | cons p g ih =>
    obtain ⟨s, d⟩ := p
    obtain ⟨calls, h1, h2, h3⟩ := ih (fun s d hm => h s d (by simp [hm]))
    have hb := h s d (by simp)
    rw [Dict.has, Option.isSome_iff_exists] at hb
    obtain ⟨c, hc⟩ := hb
    refine ⟨(c, d) :: calls, by simp only [callDrivers, hc, h1], by simp only [List.map_cons, h2, Dict.vals], ?_⟩
    intro c' d' hm
    rcases List.mem_cons.1 hm with he | hm
    · injection he with e1 e2; subst e1 e2
      exact ⟨s, by simp, hc⟩
    · obtain ⟨s', h4, h5⟩ := h3 c' d' hm
      exact ⟨s', by simp [h4], h5⟩

theorem callDrivers_fail {ρ : Type} (b : Dict (Option (List Char)) Cls) (g : Dict (Option (List Char)) (Dict Addr ρ))
    (h : ∃ s d, (s, d) ∈ g ∧ b.has s = false) : (callDrivers b g).2 = false := by
  induction g with
  | nil => obtain ⟨s, d, hm, -⟩ := h; cases hm
  | cons p g ih =>
    obtain ⟨s, d⟩ := p
    rcases hb : b.get? s with _ | c
    · simp only [callDrivers, hb]
    · simp only [callDrivers, hb]
      apply ih
      obtain ⟨s', d', hm, hn⟩ := h
      rcases List.mem_cons.1 hm with he | hm
      · injection he with e1 e2; subst e1
        rw [Dict.has, hb] at hn; cases hn
      · exact ⟨s', d', hm, hn⟩

end Xoscar.Front
