import Verif.Spec.Metric
import Verif.Proof.Base
namespace Xoscar.Metric

theorem recordAll_cons (h : Host) (i : Inner) (s : Series) (c : Call) (cs : List Call) :
    recordAll h i s (c :: cs) = ((recordAll h (record h i s c).inner (record h i s c).series cs).1,
      (recordAll h (record h i s c).inner (record h i s c).series cs).2.1,
      (record h i s c).report.toList ++ (recordAll h (record h i s c).inner (record h i s c).series cs).2.2) := rfl

theorem emit_console {h : Host} {i : Inner} {s : Series} {r : Report} {t : Option Tags} (hb : i.backend = .console) :
    emit h i s r t = some ({ i with shown := r }, s) := by
  rw [emit, hb]

theorem afterwards_console {h : Host} {i : Inner} {s : Series} {r : Report} {t : Option Tags} {reset : Inner → Inner}
    (hb : i.backend = .console) : afterwards r t h i s reset = ⟨reset { i with shown := r }, s, some r, false⟩ := by
  rw [afterwards, emit_console hb]

theorem record_counter {h : Host} {i : Inner} {s : Series} {c : Call} (hk : i.kind = .counter) (hb : i.backend = .console) :
    record h i s c = ⟨{ i with count := i.count + c.value, shown := .value (i.count + c.value) }, s, some (.value (i.count + c.value)), false⟩ := by
  cases i; simp only at hk hb; subst hk; subst hb; rfl

theorem record_gauge {h : Host} {i : Inner} {s : Series} {c : Call} (hk : i.kind = .gauge) (hb : i.backend = .console) :
    record h i s c = ⟨{ i with shown := .value c.value }, s, some (.value c.value), false⟩ := by
  cases i; simp only at hk hb; subst hk; subst hb; rfl

/-- a report of the meter is due -/
def Due (i : Inner) (c : Call) : Prop := 2000 ≤ i.count + c.value ∨ i.last + 1000000000 ≤ c.now

instance (i : Inner) (c : Call) : Decidable (Due i c) := by unfold Due; infer_instance

theorem meter_cond (i : Inner) (c : Call) :
    (i.count + c.value ≥ (threshold : Int) ∨ max (c.now - i.last) 1 ≥ interval) ↔ Due i c := by
  unfold Due threshold interval
  omega

theorem record_meter {h : Host} {i : Inner} {s : Series} {c : Call} (hk : i.kind = .meter) (hb : i.backend = .console) :
    record h i s c = if Due i c then
      ⟨{ i with count := 0, last := c.now, shown := .rate (i.count + c.value) (max (c.now - i.last) 1) }, s,
        some (.rate (i.count + c.value) (max (c.now - i.last) 1)), false⟩
    else ⟨{ i with count := i.count + c.value }, s, none, false⟩ := by
  have hc := meter_cond i c
  cases i; simp only at hk hb hc; subst hk; subst hb
  simp only [record, hc]
  rfl

/-- a report of the histogram is due -/
def Full (i : Inner) (c : Call) : Prop := 2000 ≤ i.data.length + 1 ∨ i.last + 1000000000 ≤ c.now

instance (i : Inner) (c : Call) : Decidable (Full i c) := by unfold Full; infer_instance

theorem hist_cond (i : Inner) (c : Call) :
    ((i.data ++ [c.value]).length ≥ threshold ∨ c.now - i.last ≥ interval) ↔ Full i c := by
  unfold Full threshold interval
  rw [List.length_append, List.length_singleton]
  omega

theorem record_histogram {h : Host} {i : Inner} {s : Series} {c : Call} (hk : i.kind = .histogram) (hb : i.backend = .console) :
    record h i s c = if Full i c then
      ⟨{ i with data := [], last := c.now, shown := meanOf (i.data ++ [c.value]) }, s, some (meanOf (i.data ++ [c.value])), false⟩
    else ⟨{ i with data := i.data ++ [c.value] }, s, none, false⟩ := by
  have hc := hist_cond i c
  cases i; simp only at hk hb hc; subst hk; subst hb
  simp only [record, hc]
  rfl

/-- kind and backend never change -/
theorem emit_fields {h : Host} {i j : Inner} {s s' : Series} {r : Report} {t : Option Tags} (he : emit h i s r t = some (j, s')) :
    j.kind = i.kind ∧ j.backend = i.backend ∧ j.exported = i.exported ∧ j.name = i.name ∧ j.tagKeys = i.tagKeys := by
  unfold emit at he
  split at he
  · cases he; exact ⟨rfl, rfl, rfl, rfl, rfl⟩
  · split at he
    · split at he
      · cases he; exact ⟨rfl, rfl, rfl, rfl, rfl⟩
      · cases he
    · cases he; exact ⟨rfl, rfl, rfl, rfl, rfl⟩

theorem record_fields (h : Host) (i : Inner) (s : Series) (c : Call) :
    (record h i s c).inner.kind = i.kind ∧ (record h i s c).inner.backend = i.backend ∧ (record h i s c).inner.exported = i.exported ∧
    (record h i s c).inner.name = i.name ∧ (record h i s c).inner.tagKeys = i.tagKeys := by
  have aft : ∀ (r : Report) (j : Inner) (reset : Inner → Inner),
      (∀ k, (reset k).kind = k.kind ∧ (reset k).backend = k.backend ∧ (reset k).exported = k.exported ∧ (reset k).name = k.name ∧
        (reset k).tagKeys = k.tagKeys) →
      (j.kind = i.kind ∧ j.backend = i.backend ∧ j.exported = i.exported ∧ j.name = i.name ∧ j.tagKeys = i.tagKeys) →
      ((afterwards r c.tags h j s reset).inner.kind = i.kind ∧ (afterwards r c.tags h j s reset).inner.backend = i.backend ∧
        (afterwards r c.tags h j s reset).inner.exported = i.exported ∧ (afterwards r c.tags h j s reset).inner.name = i.name ∧
        (afterwards r c.tags h j s reset).inner.tagKeys = i.tagKeys) := by
    intro r j reset hr hj
    unfold afterwards
    rcases he : emit h j s r c.tags with _ | ⟨k, s'⟩
    · exact hj
    · obtain ⟨a1, a2, a3, a4, a5⟩ := emit_fields he
      obtain ⟨b1, b2, b3, b4, b5⟩ := hr k
      obtain ⟨c1, c2, c3, c4, c5⟩ := hj
      exact ⟨b1.trans (a1.trans c1), b2.trans (a2.trans c2), b3.trans (a3.trans c3), b4.trans (a4.trans c4), b5.trans (a5.trans c5)⟩
  unfold record
  split
  · exact aft _ _ _ (fun k => ⟨rfl, rfl, rfl, rfl, rfl⟩) ⟨rfl, rfl, rfl, rfl, rfl⟩
  · exact aft _ _ _ (fun k => ⟨rfl, rfl, rfl, rfl, rfl⟩) ⟨rfl, rfl, rfl, rfl, rfl⟩
  · simp only
    split
    · exact aft _ _ _ (fun k => ⟨rfl, rfl, rfl, rfl, rfl⟩) ⟨rfl, rfl, rfl, rfl, rfl⟩
    · exact ⟨rfl, rfl, rfl, rfl, rfl⟩
  · simp only
    split
    · exact aft _ _ _ (fun k => ⟨rfl, rfl, rfl, rfl, rfl⟩) ⟨rfl, rfl, rfl, rfl, rfl⟩
    · exact ⟨rfl, rfl, rfl, rfl, rfl⟩

/-- on the console the series do not matter -/
theorem record_series {h : Host} {i : Inner} (hb : i.backend = .console) (s s' : Series) (c : Call) :
    (record h i s c).inner = (record h i s' c).inner := by
  rcases hk : i.kind with _ | _ | _ | _
  · rw [record_counter hk hb, record_counter hk hb]
  · rw [record_gauge hk hb, record_gauge hk hb]
  · rw [record_meter hk hb, record_meter hk hb]; split <;> rfl
  · rw [record_histogram hk hb, record_histogram hk hb]; split <;> rfl

theorem recordAll_series {h : Host} {i : Inner} (hb : i.backend = .console) (s s' : Series) (cs : List Call) :
    (recordAll h i s cs).1 = (recordAll h i s' cs).1 := by
  induction cs generalizing i s s' with
  | nil => rfl
  | cons c cs ih =>
    rw [recordAll_cons, recordAll_cons]
    simp only
    rw [record_series hb s s' c]
    exact ih ((record_fields h i s' c).2.1.trans hb) _ _

/-! ## The module -/

/-- no shutdown: from the initialisation on, a handle's metric sees exactly the calls on the handle -/
theorem handle_run {host : Host} {st : St} (hi : st.init = true) {n : Nat} {hd : Handle} {i : Inner} (hh : st.handles[n]? = some hd)
    (hin : hd.inner = some i) (hb : i.backend = .console) {es : List Ev} (hes : .shutdown ∉ es) :
    (run host st es).handles[n]? = some { hd with inner := some (recordAll host i [] (callsOn n es)).1 } := by
  induction es generalizing st hd i with
  | nil =>
    show st.handles[n]? = _
    rw [hh]
    obtain ⟨a, b, c, d, e⟩ := hd
    simp only at hin
    rw [hin]; rfl
  | cons e es ih =>
    have hes' : .shutdown ∉ es := fun h => hes (List.mem_cons_of_mem _ h)
    rw [run]
    cases e with
    | shutdown => exact absurd (List.mem_cons_self ..) hes
    | init b now =>
      rw [show (step host st (.init b now)).1 = st by simp only [step, hi, if_true]]
      exact ih hi hh hin hb hes'
    | create kind name tagKeys now =>
      refine ih ?_ ?_ hin hb hes'
      · rw [step, if_pos hi]; exact hi
      · rw [step, if_pos hi]
        show (st.handles ++ _)[n]? = _
        rw [List.getElem?_append_left (by
          rcases Nat.lt_or_ge n st.handles.length with h | h
          · exact h
          · rw [List.getElem?_eq_none h] at hh; cases hh)]
        exact hh
    | record m c =>
      by_cases hm : m = n
      · subst hm
        rw [callsOn, if_pos rfl]
        have hs : (step host st (.record m c)).1 =
            { st with handles := st.handles.set m { hd with inner := some (Metric.record host i st.series c).inner }, series := (Metric.record host i st.series c).series } := by
          simp only [step, hh, hin]
        rw [hs]
        have hlt : m < st.handles.length := by
          rcases Nat.lt_or_ge m st.handles.length with h | h
          · exact h
          · rw [List.getElem?_eq_none h] at hh; cases hh
        have := ih (st := { st with handles := st.handles.set m { hd with inner := some (Metric.record host i st.series c).inner }, series := (Metric.record host i st.series c).series })
          (hd := { hd with inner := some (Metric.record host i st.series c).inner })
          (i := (Metric.record host i st.series c).inner) hi (by
            show (st.handles.set m _)[m]? = _
            rw [List.getElem?_set_self hlt]) rfl ((record_fields host i st.series c).2.1.trans hb) hes'
        rw [this, recordAll_cons]
        simp only
        rw [record_series hb st.series [] c, recordAll_series ((record_fields host i [] c).2.1.trans hb) [] _]
      · rw [callsOn, if_neg hm]
        refine ih ?_ ?_ hin hb hes'
        · rw [step]; split
          · exact hi
          · split <;> exact hi
        · rw [step]
          split
          · exact hh
          · split
            · exact hh
            · show (st.handles.set m _)[n]? = _
              rw [List.getElem?_set_ne hm]
              exact hh

end Xoscar.Metric
