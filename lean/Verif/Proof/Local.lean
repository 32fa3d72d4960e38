import Verif.Spec.Local
import Verif.Proof.Base
/-! # Proofs about local references -/
namespace Xoscar.Local

attribute [local grind =] Dict.get?_set Dict.get?_erase

theorem run_append (w : World) (a b : List Event) : run w (a ++ b) = run (run w a) b := List.foldl_append

theorem run_snoc (w : World) (a : List Event) (e : Event) : run w (a ++ [e]) = step (run w a) e := by
  rw [run_append]; rfl

theorem madeBy_append (a b : List Event) : madeBy (a ++ b) = madeBy a ++ madeBy b := by
  induction a with
  | nil => rfl
  | cons e a ih => cases e <;> simp [madeBy, ih]

theorem mem_madeBy {es : List Event} {o : Obj} : o ∈ madeBy es ↔ ∃ u, Event.create u o ∈ es := by
  induction es with
  | nil => simp [madeBy]
  | cons e es ih =>
    cases e with
    | create u' o' =>
      simp only [madeBy, List.mem_cons, ih, Event.create.injEq]
      exact ⟨fun h => h.elim (fun h => ⟨u', Or.inl ⟨rfl, h⟩⟩) (fun ⟨u, h⟩ => ⟨u, Or.inr h⟩),
        fun ⟨u, h⟩ => h.elim (fun h => Or.inl h.2) (fun h => Or.inr ⟨u, h⟩)⟩
    | _ => simp [madeBy, ih]

/-- with distinct objects an object was created under one uid only -/
theorem create_unique {es : List Event} (hn : (madeBy es).Nodup) {u u' : Uid} {o : Obj}
    (h : Event.create u o ∈ es) (h' : Event.create u' o ∈ es) : u = u' := by
  induction es with
  | nil => cases h
  | cons e es ih =>
    cases e with
    | create v p =>
      simp only [madeBy, List.nodup_cons] at hn
      rcases List.mem_cons.1 h with h1 | h1 <;> rcases List.mem_cons.1 h' with h2 | h2
      · cases h1; cases h2; rfl
      · cases h1; exact absurd (mem_madeBy.2 ⟨_, h2⟩) hn.1
      · cases h2; exact absurd (mem_madeBy.2 ⟨_, h1⟩) hn.1
      · exact ih hn.2 h1 h2
    | _ =>
      simp only [madeBy] at hn
      exact ih hn (by simpa using h) (by simpa using h')

structure Inv (es : List Event) (w : World) : Prop where
  serving : w.serving = true ↔ Event.stop ∉ es
  actors : ∀ u, w.actors.get? u = denoted es.reverse u
  pool : w.serving = true → w.poolAlive = true
  made : ∀ o, o ∈ w.made → o ∈ madeBy es
  created : ∀ u o, w.actors.get? u = some o → Event.create u o ∈ es
  alive : w.poolAlive = true → ∀ u o, w.actors.get? u = some o → o ∈ w.alive

theorem vals_iff {d : Dict Uid Obj} (h : d.WF) (o : Obj) : o ∈ d.vals ↔ ∃ u, d.get? u = some o := by
  simp only [Dict.vals, List.mem_map]
  constructor
  · rintro ⟨⟨u, o'⟩, hm, rfl⟩
    exact ⟨u, Dict.get?_of_mem h hm⟩
  · rintro ⟨u, hu⟩
    exact ⟨(u, o), Dict.mem_of_get? hu, rfl⟩

theorem wf_run (es : List Event) : (run {} es).actors.WF := by
  induction es using List.reverseRecOn' with
  | nil => exact Dict.WF.nil
  | append_singleton es e ih =>
    rw [run_snoc]
    cases e with
    | create u o => simp only [step]; split; (· exact ih.set ..); (· exact ih)
    | destroy u => simp only [step]; split; (· exact ih.erase ..); (· exact ih)
    | collect o => simp only [step]; split; (· exact ih); (· exact ih)
    | stop => exact ih
    | dropPool => simp only [step]; split; (· exact ih); (· exact ih)

theorem inv_run (es : List Event) (hn : (madeBy es).Nodup) : Inv es (run {} es) := by
  induction es using List.reverseRecOn' with
  | nil => exact ⟨by simp [run], fun u => rfl, by simp [run], by simp [run], by simp [run], by simp [run]⟩
  | append_singleton es e ih =>
    rw [madeBy_append] at hn
    obtain ⟨h1, h2, h3, h4, h5, h6⟩ := ih (List.nodup_append.1 hn).1
    have hwf := wf_run es
    rw [run_snoc]
    generalize run {} es = w at *
    have hrev : (es ++ [e]).reverse = e :: es.reverse := by simp
    have hstop : Event.stop ∉ es.reverse ↔ Event.stop ∉ es := by simp
    cases e with
    | create u o =>
      have hfresh : o ∉ w.made := fun hm => by
        have := (List.nodup_append.1 hn).2.2 o (h4 o hm) o (by simp [madeBy])
        exact this rfl
      by_cases hc : w.serving = true ∧ w.actors.has u = false
      · have hs : step w (.create u o) = { w with actors := w.actors.set u o, alive := o :: w.alive, made := o :: w.made } := by
          simp only [step]; rw [if_pos ⟨hc.1, by simp [hc.2], hfresh⟩]
        have hnone : w.actors.get? u = none := by
          have := hc.2; rw [Dict.has] at this; simpa using this
        rw [hs]
        refine ⟨by simp [h1], fun u' => ?_, h3, ?_, ?_, ?_⟩
        · rw [hrev]; simp only [denoted, Dict.get?_set]
          by_cases hu : u = u'
          · subst hu
            rw [if_pos rfl, if_pos ⟨rfl, hstop.2 (h1.1 hc.1), by rw [← h2]; exact hnone⟩]
          · rw [if_neg hu, if_neg (fun h => hu h.1)]; exact h2 u'
        · intro o' ho'; rw [madeBy_append]; simp only [madeBy]
          rcases List.mem_cons.1 ho' with rfl | h'
          · simp
          · simp [h4 o' h']
        · intro u' o' hg
          simp only [Dict.get?_set] at hg
          split at hg
          · cases hg; subst u'; simp
          · simp [h5 u' o' hg]
        · intro hp u' o' hg
          simp only [Dict.get?_set] at hg
          split at hg
          · cases hg; simp
          · simp [h6 hp u' o' hg]
      · have hs : step w (.create u o) = w := by
          simp only [step]
          rw [if_neg]
          rintro ⟨ha, hb, -⟩
          exact hc ⟨ha, by simpa using hb⟩
        rw [hs]
        refine ⟨by simp [h1], fun u' => ?_, h3, ?_, ?_, h6⟩
        · rw [hrev]; simp only [denoted]
          rw [if_neg, h2]
          rintro ⟨rfl, hns, hd⟩
          refine hc ⟨h1.2 (hstop.1 hns), ?_⟩
          rw [Dict.has, h2, hd]; rfl
        · intro o' ho'; rw [madeBy_append]; simp [h4 o' ho']
        · intro u' o' hg; simp [h5 u' o' hg]
    | destroy u =>
      by_cases hc : w.serving = true
      · have hs : step w (.destroy u) = { w with actors := w.actors.erase u } := by simp only [step]; rw [if_pos hc]
        rw [hs]
        refine ⟨by simp [h1], fun u' => ?_, h3, ?_, ?_, ?_⟩
        · rw [hrev]; simp only [denoted, Dict.get?_erase]
          by_cases hu : u = u'
          · subst hu
            rw [if_pos rfl, if_pos ⟨rfl, hstop.2 (h1.1 hc)⟩]
          · rw [if_neg hu, if_neg (fun h => hu h.1)]; exact h2 u'
        · intro o' ho'; rw [madeBy_append]; simp [h4 o' ho']
        · intro u' o' hg
          simp only [Dict.get?_erase] at hg
          split at hg
          · cases hg
          · simp [h5 u' o' hg]
        · intro hp u' o' hg
          simp only [Dict.get?_erase] at hg
          split at hg
          · cases hg
          · exact h6 hp u' o' hg
      · have hs : step w (.destroy u) = w := by simp only [step]; rw [if_neg hc]
        rw [hs]
        refine ⟨by simp [h1], fun u' => ?_, h3, ?_, ?_, h6⟩
        · rw [hrev]; simp only [denoted]
          rw [if_neg, h2]
          rintro ⟨-, hns⟩
          exact hc (h1.2 (hstop.1 hns))
        · intro o' ho'; rw [madeBy_append]; simp [h4 o' ho']
        · intro u' o' hg; simp [h5 u' o' hg]
    | collect o =>
      have hd : ∀ u', denoted (es ++ [Event.collect o]).reverse u' = denoted es.reverse u' := by
        intro u'; rw [hrev]; rfl
      by_cases hc : o ∈ w.actors.vals ∧ w.poolAlive
      · have hs : step w (.collect o) = w := by simp only [step]; rw [if_pos hc]
        rw [hs]
        refine ⟨by simp [h1], fun u' => by rw [hd]; exact h2 u', h3, ?_, ?_, h6⟩
        · intro o' ho'; rw [madeBy_append]; simp [h4 o' ho']
        · intro u' o' hg; simp [h5 u' o' hg]
      · have hs : step w (.collect o) = { w with alive := w.alive.filter (· ≠ o) } := by simp only [step]; rw [if_neg hc]
        rw [hs]
        refine ⟨by simp [h1], fun u' => by rw [hd]; exact h2 u', h3, ?_, ?_, ?_⟩
        · intro o' ho'; rw [madeBy_append]; simp [h4 o' ho']
        · intro u' o' hg; simp [h5 u' o' hg]
        · intro hp u' o' hg
          simp only [List.mem_filter, decide_eq_true_eq]
          refine ⟨h6 hp u' o' hg, fun he => hc ⟨?_, hp⟩⟩
          subst he
          exact (vals_iff hwf o').2 ⟨u', hg⟩
    | stop =>
      refine ⟨by simp [step], fun u' => by rw [hrev]; exact h2 u', by simp [step], ?_, ?_, h6⟩
      · intro o' ho'; rw [madeBy_append]; simp [h4 o' ho']
      · intro u' o' hg; simp [h5 u' o' hg]
    | dropPool =>
      by_cases hc : w.serving = true
      · have hs : step w .dropPool = w := by simp only [step]; rw [if_pos hc]
        rw [hs]
        refine ⟨by simp [h1], fun u' => by rw [hrev]; exact h2 u', h3, ?_, ?_, h6⟩
        · intro o' ho'; rw [madeBy_append]; simp [h4 o' ho']
        · intro u' o' hg; simp [h5 u' o' hg]
      · have hs : step w .dropPool = { w with poolAlive := false } := by simp only [step]; rw [if_neg hc]
        rw [hs]
        refine ⟨by simp [h1], fun u' => by rw [hrev]; exact h2 u', fun h => absurd h hc, ?_, ?_, by simp⟩
        · intro o' ho'; rw [madeBy_append]; simp [h4 o' ho']
        · intro u' o' hg; simp [h5 u' o' hg]

theorem obtained_created {es : List Event} {r : LRef} (hn : (madeBy es).Nodup) (h : Obtained es r) :
    Event.create r.uid r.weak ∈ es := by
  induction h with
  | @make es u r hm =>
    simp only [createLocalRef, getLocalActor, Option.map_eq_some_iff] at hm
    obtain ⟨o, ho, rfl⟩ := hm
    simp only [Bool.false_eq_true, if_false] at ho
    split at ho
    · exact (inv_run es hn).created u o ho
    · cases ho
  | @later es r e _ ih =>
    rw [madeBy_append] at hn
    simp [ih (List.nodup_append.1 hn).1]
  | @used es r _ ih =>
    simp only [resolve]
    split
    · exact ih hn
    · split
      · rename_i o ho
        simp only [getLocalActor, Bool.false_eq_true, if_false] at ho
        split at ho
        · exact (inv_run es hn).created _ o ho
        · cases ho
      · exact ih hn

/-- the reference's object, when it lives and does not linger, is what its uid denotes -/
theorem resolve_denoted {es : List Event} {r : LRef} (hn : (madeBy es).Nodup) (hs : Event.stop ∉ es) (h : Obtained es r) :
    ((resolve false (run {} es) r).1 = denoted es.reverse r.uid) ↔ ¬ Lingers es r.weak := by
  have hi := inv_run es hn
  have hc := obtained_created hn h
  have hp := hi.pool (hi.serving.2 hs)
  have hg : getLocalActor false (run {} es) r.uid = denoted es.reverse r.uid := by
    simp only [getLocalActor, Bool.false_eq_true, if_false, hp, if_true]
    exact hi.actors _
  by_cases ha : r.weak ∈ (run {} es).alive
  · have hr : (resolve false (run {} es) r).1 = some r.weak := by
      simp only [resolve, deref, if_pos ha]
    rw [hr]
    constructor
    · intro he hl
      exact hl.2 _ he.symm
    · intro hl
      have : ∃ u, denoted es.reverse u = some r.weak := by
        rcases Classical.em (∃ u, denoted es.reverse u = some r.weak) with h' | h'
        · exact h'
        · exact absurd ⟨ha, fun u hu => h' ⟨u, hu⟩⟩ hl
      obtain ⟨u, hu⟩ := this
      have hcu := hi.created u _ (by rw [hi.actors]; exact hu)
      have := create_unique hn hcu hc
      subst this; exact hu.symm
  · have hr : (resolve false (run {} es) r).1 = denoted es.reverse r.uid := by
      simp only [resolve, deref, if_neg ha, hg]
      split <;> simp_all
    exact ⟨fun _ hl => ha hl.1, fun _ => hr⟩

end Xoscar.Local
