import Verif.Proof.Metric
/-!
# C66: metrics
-/
namespace Xoscar.Metric

/-! ## One metric on the console -/

/-- **C66** a counter shows and reports the running total of the values recorded -/
theorem counter_total {h : Host} {i : Inner} {s : Series} (hk : i.kind = .counter) (hb : i.backend = .console) (cs : List Call) :
    (recordAll h i s cs).2.2 = totals i.count cs ∧ (cs ≠ [] → (recordAll h i s cs).1.shown = .value (i.count + total cs)) ∧
    (recordAll h i s cs).1.count = i.count + total cs := by
  induction cs generalizing i s with
  | nil => exact ⟨rfl, fun h => absurd rfl h, (Int.add_zero _).symm⟩
  | cons c cs ih =>
    rw [recordAll_cons, record_counter hk hb]
    obtain ⟨h1, h2, h3⟩ := ih (i := { i with count := i.count + c.value, shown := .value (i.count + c.value) }) (s := s) hk hb
    have ht : i.count + total (c :: cs) = i.count + c.value + total cs := by
      simp only [total, List.map_cons, List.sum_cons]; omega
    refine ⟨congrArg _ h1, fun _ => ?_, ?_⟩
    · cases cs with
      | nil => simp [recordAll, total]
      | cons d ds => rw [ht]; exact h2 (by simp)
    · rw [ht]; exact h3

/-- **C66** a gauge shows the last value -/
theorem gauge_last {h : Host} {i : Inner} {s : Series} (hk : i.kind = .gauge) (hb : i.backend = .console) (cs : List Call) (c : Call) :
    (recordAll h i s (cs ++ [c])).1.shown = .value c.value := by
  induction cs generalizing i s with
  | nil =>
    show (recordAll h i s [c]).1.shown = _
    rw [recordAll_cons, record_gauge hk hb]
    rfl
  | cons d cs ih =>
    rw [List.cons_append, recordAll_cons, record_gauge hk hb]
    exact ih (i := { i with shown := .value d.value }) hk hb

/-- **C66** a meter counts every event in exactly one report: the counts of the reports and what is pending add up to what was
recorded, and the pending ones are fewer than 2000 (for calls with positive values or not: below the threshold) -/
theorem meter_conserves {h : Host} {i : Inner} {s : Series} (hk : i.kind = .meter) (hb : i.backend = .console) (cs : List Call) :
    ((recordAll h i s cs).2.2.map rateCount).sum + (recordAll h i s cs).1.count = i.count + total cs ∧
    (i.count < 2000 → (recordAll h i s cs).1.count < 2000) := by
  induction cs generalizing i s with
  | nil => exact ⟨by simp [recordAll, total], fun h => h⟩
  | cons c cs ih =>
    rw [recordAll_cons, record_meter hk hb]
    have ht : i.count + total (c :: cs) = i.count + c.value + total cs := by
      simp only [total, List.map_cons, List.sum_cons]; omega
    by_cases hd : Due i c
    · rw [if_pos hd, ht]
      obtain ⟨h1, h2⟩ := ih (i := { i with count := 0, last := c.now, shown := .rate (i.count + c.value) (max (c.now - i.last) 1) })
        (s := s) hk hb
      simp only [Option.toList_some, List.singleton_append, List.map_cons, List.sum_cons, rateCount] at h1 ⊢
      exact ⟨by omega, fun _ => h2 (show (0 : Int) < 2000 by decide)⟩
    · rw [if_neg hd, ht]
      obtain ⟨h1, h2⟩ := ih (i := { i with count := i.count + c.value }) (s := s) hk hb
      refine ⟨h1, fun _ => h2 ?_⟩
      unfold Due at hd
      simp only
      omega

/-- **C66** the rates cover the time without gap or overlap, when the clock goes forward -/
theorem meter_time {h : Host} {i : Inner} {s : Series} (hk : i.kind = .meter) (hb : i.backend = .console) (cs : List Call)
    (hl : Later i.last cs) :
    i.last + ((recordAll h i s cs).2.2.map rateTime).sum = (recordAll h i s cs).1.last := by
  have key : ∀ (cs : List Call) (i : Inner) (s : Series) (t : Nat), i.kind = .meter → i.backend = .console → i.last ≤ t → Later t cs →
      i.last + ((recordAll h i s cs).2.2.map rateTime).sum = (recordAll h i s cs).1.last := by
    intro cs
    induction cs with
    | nil => intros; simp [recordAll]
    | cons c cs ih =>
      intro i s t hk hb hle hl
      rw [recordAll_cons, record_meter hk hb]
      by_cases hd : Due i c
      · rw [if_pos hd]
        have := ih { i with count := 0, last := c.now, shown := .rate (i.count + c.value) (max (c.now - i.last) 1) } s c.now hk hb
          (Nat.le_refl _) hl.2
        simp only [Option.toList_some, List.singleton_append, List.map_cons, List.sum_cons, rateTime] at this ⊢
        have h1 := hl.1
        omega
      · rw [if_neg hd]
        exact ih { i with count := i.count + c.value } s c.now hk hb (Nat.le_trans hle (Nat.le_of_lt hl.1)) hl.2
  exact key cs i s i.last hk hb (Nat.le_refl _) hl

/-- **C66** a meter reports exactly when 2000 events are pending or a second has passed since the last report -/
theorem meter_due {h : Host} {i : Inner} {s : Series} (hk : i.kind = .meter) (hb : i.backend = .console) (c : Call) :
    (record h i s c).report ≠ none ↔ (2000 ≤ i.count + c.value ∨ i.last + 1000000000 ≤ c.now) := by
  rw [record_meter hk hb]
  by_cases hd : Due i c
  · rw [if_pos hd]; exact ⟨fun _ => hd, fun _ => by simp⟩
  · rw [if_neg hd]; exact ⟨fun h => absurd rfl h, fun h => absurd h hd⟩

/-- **C66** a histogram's reports are the means of consecutive windows of the values, each value in exactly one, each window of at
least one and at most 2000 -/
theorem histogram_windows {h : Host} {i : Inner} {s : Series} (hk : i.kind = .histogram) (hb : i.backend = .console) (cs : List Call)
    (hlen : i.data.length < 2000) :
    ∃ ws : List (List Int), (recordAll h i s cs).2.2 = ws.map meanOf ∧
      ws.flatten ++ (recordAll h i s cs).1.data = i.data ++ cs.map (·.value) ∧
      (∀ w ∈ ws, w ≠ [] ∧ w.length ≤ 2000) ∧ (recordAll h i s cs).1.data.length < 2000 := by
  induction cs generalizing i s with
  | nil => exact ⟨[], rfl, by simp [recordAll], by simp, hlen⟩
  | cons c cs ih =>
    rw [recordAll_cons, record_histogram hk hb]
    by_cases hd : Full i c
    · rw [if_pos hd]
      obtain ⟨ws, h1, h2, h3, h4⟩ := ih (i := { i with data := [], last := c.now, shown := meanOf (i.data ++ [c.value]) }) (s := s) hk hb
        (by simp)
      refine ⟨(i.data ++ [c.value]) :: ws, ?_, ?_, ?_, h4⟩
      · simp only [Option.toList_some, List.singleton_append, h1, List.map_cons]
      · rw [List.flatten_cons, List.append_assoc, h2]
        simp
      · intro w hw
        rcases List.mem_cons.1 hw with rfl | hw
        · refine ⟨by simp, ?_⟩
          rw [List.length_append, List.length_singleton]
          omega
        · exact h3 w hw
    · rw [if_neg hd]
      have hd' : ¬ (2000 ≤ i.data.length + 1 ∨ i.last + 1000000000 ≤ c.now) := hd
      obtain ⟨ws, h1, h2, h3, h4⟩ := ih (i := { i with data := i.data ++ [c.value] }) (s := s) hk hb (by
        rw [List.length_append, List.length_singleton]
        omega)
      refine ⟨ws, h1, ?_, h3, h4⟩
      rw [h2]
      simp

/-- **C66** … exactly when 2000 values are pending or a second has passed -/
theorem histogram_due {h : Host} {i : Inner} {s : Series} (hk : i.kind = .histogram) (hb : i.backend = .console) (c : Call) :
    (record h i s c).report ≠ none ↔ (2000 ≤ i.data.length + 1 ∨ i.last + 1000000000 ≤ c.now) := by
  rw [record_histogram hk hb]
  by_cases hd : Full i c
  · rw [if_pos hd]; exact ⟨fun _ => hd, fun _ => by simp⟩
  · rw [if_neg hd]; exact ⟨fun h => absurd rfl h, fun h => absurd h hd⟩

/-! ## Handles -/

theorem initAll_get (st : St) (now : Nat) (hs : List Handle) (n : Nat) {h : Handle} (hn : hs[n]? = some h) (hw : h.wrapper = true) :
    ∃ reg, (initAll st now hs).1[n]? = some { h with inner := some (make { st with registered := reg } h.kind h.name h.tagKeys now).1 } := by
  induction hs generalizing n st with
  | nil => simp at hn
  | cons a hs ih =>
    cases n with
    | zero =>
      simp only [List.getElem?_cons_zero, Option.some.injEq] at hn
      subst hn
      refine ⟨st.registered, ?_⟩
      simp [initAll, initHandle, hw]
    | succ n =>
      simp only [List.getElem?_cons_succ] at hn
      obtain ⟨reg, hr⟩ := ih { st with registered := (initHandle st now a).2 } n hn
      exact ⟨reg, hr⟩

theorem initAll_direct (st : St) (now : Nat) (hs : List Handle) (n : Nat) {h : Handle} (hn : hs[n]? = some h) (hw : h.wrapper = false) :
    (initAll st now hs).1[n]? = some h := by
  induction hs generalizing n st with
  | nil => simp at hn
  | cons a hs ih =>
    cases n with
    | zero =>
      simp only [List.getElem?_cons_zero, Option.some.injEq] at hn
      subst hn
      simp [initAll, initHandle, hw]
    | succ n =>
      simp only [List.getElem?_cons_succ] at hn
      exact ih _ n hn

theorem step_init {host : Host} {st : St} (hi : st.init = false) (b : Backend) (now : Nat) :
    (step host st (.init (some b) now)).1.init = true ∧
    (step host st (.init (some b) now)).1.handles = (initAll { st with init := true, backend := b } now st.handles).1 := by
  constructor <;> simp [step, hi]

/-- **C66** a counter on the console: from the initialisation on its value is the sum of what is recorded on it, whatever else
happens, as long as metrics are not shut down; before that it has none -/
theorem counter_value_partial {host : Host} {st : St} (hi : st.init = false) {n : Nat} {h : Handle} (hn : st.handles[n]? = some h)
    (hw : h.wrapper = true) (hk : h.kind = .counter) {now : Nat} {es : List Ev} (hes : .shutdown ∉ es) :
    valueOf (run host st (.init (some .console) now :: es)) n = some (.value (total (callsOn n es))) := by
  obtain ⟨h1, h2⟩ := step_init (host := host) hi .console now
  obtain ⟨reg, h3⟩ := initAll_get { st with init := true, backend := .console } now st.handles n hn hw
  rw [← h2] at h3
  have h4 := handle_run (host := host) h1 h3 rfl rfl hes
  rw [run, valueOf, h4]
  simp only [Option.map_some, Option.some.injEq]
  have h5 := counter_total (h := host) (i := (make { init := true, backend := .console, handles := st.handles, registered := reg, series := st.series } h.kind h.name h.tagKeys now).1) (s := []) hk rfl (callsOn n es)
  rcases hc : callsOn n es with _ | ⟨c, cs⟩
  · rfl
  · rw [hc] at h5
    rw [h5.2.1 (by simp)]
    show Report.value (0 + _) = _
    rw [Int.zero_add]

theorem uninit_run {host : Host} {st : St} (hi : st.init = false) {n : Nat} {h : Handle} (hn : st.handles[n]? = some h)
    (hin : h.inner = none) {es : List Ev} (hes : ∀ b now, .init (some b) now ∉ es) :
    (run host st es).init = false ∧ (run host st es).handles[n]? = some h := by
  induction es generalizing st with
  | nil => exact ⟨hi, hn⟩
  | cons e es ih =>
    have hes' : ∀ b now, .init (some b) now ∉ es := fun b now h => hes b now (List.mem_cons_of_mem _ h)
    rw [run]
    cases e with
    | shutdown => exact ih (st := (step host st .shutdown).1) rfl hn hes'
    | init b now =>
      cases b with
      | some b => exact absurd (List.mem_cons_self ..) (hes b now)
      | none =>
        rw [show (step host st (.init none now)).1 = st by simp [step, hi]]
        exact ih hi hn hes'
    | create kind name tagKeys now =>
      have hs : (step host st (.create kind name tagKeys now)).1 = { st with handles := st.handles ++ [⟨kind, name, tagKeys, true, none⟩] } := by
        simp [step, hi]
      rw [hs]
      refine ih hi ?_ hes'
      show (st.handles ++ _)[n]? = _
      rw [List.getElem?_append_left]
      · exact hn
      · rcases Nat.lt_or_ge n st.handles.length with h | h
        · exact h
        · rw [List.getElem?_eq_none h] at hn; cases hn
    | record m c =>
      refine ih ?_ ?_ hes'
      · rw [step]; split
        · exact hi
        · split <;> exact hi
      · rw [step]
        split
        · exact hn
        · rename_i hd hm
          split
          · exact hn
          · rename_i i hi'
            by_cases e : m = n
            · subst e; rw [hn] at hm; cases hm; rw [hin] at hi'; cases hi'
            · show (st.handles.set m _)[n]? = _
              rw [List.getElem?_set_ne e]
              exact hn

/-- **C66** the life of a counter: made before the initialisation on the console, whatever happens before and after it but no shutdown:
its value is the sum of what is recorded on it after the initialisation.  What is missing: what is recorded before, see
`before_init_refuted` -/
theorem counter_life_partial {host : Host} {st : St} (hi : st.init = false) {name : Str} {tagKeys : List Str} {t now : Nat}
    {before after : List Ev} (hb : ∀ b now, .init (some b) now ∉ before) (ha : .shutdown ∉ after) :
    valueOf (run host st (.create .counter name tagKeys t :: before ++ .init (some .console) now :: after)) st.handles.length =
      some (.value (total (callsOn st.handles.length after))) := by
  have hs : (step host st (.create .counter name tagKeys t)).1 = { st with handles := st.handles ++ [⟨.counter, name, tagKeys, true, none⟩] } := by
    simp [step, hi]
  have hrun : ∀ (a b : List Ev) (s : St), run host s (a ++ b) = run host (run host s a) b := by
    intro a b
    induction a with
    | nil => intro s; rfl
    | cons e a ih => intro s; exact ih _
  rw [List.cons_append, run, hs, hrun]
  obtain ⟨h1, h2⟩ := uninit_run (host := host) (st := { st with handles := st.handles ++ [⟨.counter, name, tagKeys, true, none⟩] })
    (n := st.handles.length) hi (h := ⟨.counter, name, tagKeys, true, none⟩) (by
      show (st.handles ++ _)[_]? = _
      simp) rfl hb
  exact counter_value_partial h1 h2 rfl rfl ha

/-- **C66** metrics start fresh, on both backends, whether made before the initialisation or after -/
theorem fresh_metric (st : St) (kind : Kind) (name : Str) (tagKeys : List Str) (now : Nat) :
    Fresh (make st kind name tagKeys now).1 kind now := by
  unfold make
  split
  · exact ⟨rfl, rfl, rfl, rfl, rfl⟩
  · split <;> exact ⟨rfl, rfl, rfl, rfl, rfl⟩

/-- the same for a counter made after the initialisation -/
theorem counter_value_direct_partial {host : Host} {st : St} (hi : st.init = true) (hb : st.backend = .console) {name : Str}
    {tagKeys : List Str} {now : Nat} {es : List Ev} (hes : .shutdown ∉ es) :
    valueOf (run host st (.create .counter name tagKeys now :: es)) st.handles.length =
      some (.value (total (callsOn st.handles.length es))) := by
  have hm : (make st .counter name tagKeys now).1.kind = .counter ∧ (make st .counter name tagKeys now).1.backend = .console ∧
      (make st .counter name tagKeys now).1.count = 0 ∧ (make st .counter name tagKeys now).1.shown = .value 0 := by
    rw [make, hb]; exact ⟨rfl, rfl, rfl, rfl⟩
  have h0 : (step host st (.create .counter name tagKeys now)).1.init = true := by simp [step, hi]
  have h1 : (step host st (.create .counter name tagKeys now)).1.handles[st.handles.length]? =
      some ⟨.counter, name, tagKeys, false, some (make st .counter name tagKeys now).1⟩ := by
    simp [step, hi]
  have h4 := handle_run (host := host) h0 h1 rfl hm.2.1 hes
  rw [run, valueOf, h4]
  simp only [Option.map_some, Option.some.injEq]
  have h5 := counter_total (h := host) (i := (make st .counter name tagKeys now).1) (s := []) hm.1 hm.2.1 (callsOn st.handles.length es)
  rcases hc : callsOn st.handles.length es with _ | ⟨c, cs⟩
  · exact hm.2.2.2
  · rw [hc] at h5
    rw [h5.2.1 (by simp), hm.2.2.1, Int.zero_add]

/-- **C66** (violation) what is recorded before `init_metrics` is lost: the state does not change, for every such call -/
theorem before_init_refuted {host : Host} {st : St} {n : Nat} {h : Handle} (hn : st.handles[n]? = some h) (hi : h.inner = none) (c : Call) :
    step host st (.record n c) = (st, false) := by
  simp only [step, hn, hi]

/-- **C66** (violation) shutting down and initialising again sets the counters made before back to zero, whatever was recorded -/
theorem reinit_refuted {host : Host} {st : St} {n : Nat} {h : Handle} (hn : st.handles[n]? = some h) (hw : h.wrapper = true) {now : Nat} :
    valueOf (run host st [.shutdown, .init (some .console) now]) n = some (.value 0) := by
  have h0 : (step host st .shutdown).1 = { st with init := false, backend := .console } := rfl
  rw [run, run, run, h0]
  obtain ⟨_, h2⟩ := step_init (host := host) (st := { st with init := false, backend := .console }) rfl .console now
  obtain ⟨reg, h3⟩ := initAll_get { st with init := true, backend := .console } now st.handles n hn hw
  rw [valueOf, h2]
  simp only at h3 ⊢
  rw [h3]
  rfl

/-- **C66** … while the metrics made after the first initialisation keep their value, and their backend -/
theorem reinit_direct {host : Host} {st : St} {n : Nat} {h : Handle} (hn : st.handles[n]? = some h) (hw : h.wrapper = false) {b : Backend}
    {now : Nat} : (run host st [.shutdown, .init (some b) now]).handles[n]? = some h := by
  have h0 : (step host st .shutdown).1 = { st with init := false, backend := .console } := rfl
  rw [run, run, run, h0]
  obtain ⟨_, h2⟩ := step_init (host := host) (st := { st with init := false, backend := .console }) rfl b now
  rw [h2]
  exact initAll_direct _ now st.handles n hn hw

/-- **C66** a second initialisation does nothing, also with another or an unknown backend; an unknown backend is refused the first time
and nothing changes -/
theorem init_once {host : Host} {st : St} (b : BackendArg) (now : Nat) :
    (st.init = true → step host st (.init b now) = (st, false)) ∧ (st.init = false → step host st (.init none now) = (st, true)) := by
  constructor
  · intro h; simp [step, h]
  · intro h; simp [step, h]

/-! ## Prometheus -/

/-- **C66** the labels of a series: host and pid of the process, the others as the caller gave them -/
theorem labels_spec (h : Host) (t : Option Tags) :
    (labels h t).get? hostKey = some h.host ∧ (labels h t).get? pidKey = some h.pid ∧
    ∀ k, k ≠ hostKey → k ≠ pidKey → (labels h t).get? k = (t.getD []).get? k := by
  have hne : hostKey ≠ pidKey := by decide
  cases t with
  | none =>
    refine ⟨rfl, ?_, ?_⟩
    · simp [labels, Host.tags, Dict.get?, hne]
    · intro k h1 h2
      simp [labels, Host.tags, Dict.get?, Ne.symm h1, Ne.symm h2]
  | some t =>
    refine ⟨?_, ?_, ?_⟩
    · simp [labels, Host.tags, Dict.update, Dict.get?_set, Ne.symm hne]
    · simp [labels, Host.tags, Dict.update, Dict.get?_set]
    · intro k h1 h2
      simp [labels, Host.tags, Dict.update, Dict.get?_set, Ne.symm h1, Ne.symm h2]

/-- **C66** names of prometheus metrics: dots become colons, nothing else changes; tags of the caller, host and pid; exported if the
name is not taken -/
theorem prom_metric {st : St} (hb : st.backend = .prometheus) (kind : Kind) (name : Str) (tagKeys : List Str) (now : Nat) :
    (∀ (n : Nat), (make st kind name tagKeys now).1.name[n]? = if name[n]? = some '.' then some ':' else name[n]?) ∧
    (∀ k, k ∈ (make st kind name tagKeys now).1.tagKeys ↔ k ∈ tagKeys ∨ k = hostKey ∨ k = pidKey) ∧
    ((make st kind name tagKeys now).1.exported = true ↔ (make st kind name tagKeys now).1.name ∉ st.registered) := by
  have hname : (make st kind name tagKeys now).1.name = promName name ∧
      (make st kind name tagKeys now).1.tagKeys = tagKeys ++ [hostKey, pidKey] ∧
      ((make st kind name tagKeys now).1.exported = true ↔ promName name ∉ st.registered) := by
    unfold make
    rw [hb]
    simp only
    by_cases h : promName name ∈ st.registered
    · rw [if_pos h]; exact ⟨rfl, rfl, by simp [h]⟩
    · rw [if_neg h]; exact ⟨rfl, rfl, by simp [h]⟩
  obtain ⟨h1, h2, h3⟩ := hname
  rw [h1, h2]
  refine ⟨?_, ?_, h3⟩
  · intro n
    rw [promName, List.getElem?_map]
    rcases name[n]? with _ | c
    · simp
    · by_cases e : c = '.'
      · simp [e]
      · simp [e]
  · intro k
    simp

/-- **C66** a call with other tags than the metric's is an error -- but a counter counts it all the same -/
theorem wrong_tags {h : Host} {i : Inner} {s : Series} {c : Call} (hk : i.kind = .counter) (hb : i.backend = .prometheus)
    (hx : i.exported = true) :
    ((record h i s c).raised = true ↔ ¬ ∀ k, (labels h c.tags).has k = true ↔ k ∈ i.tagKeys) ∧
    ((record h i s c).raised = true → (record h i s c).inner.count = i.count + c.value ∧ (record h i s c).series = s) := by
  have hl : labelsOk { i with count := i.count + c.value } (labels h c.tags) = true ↔
      ∀ k, (labels h c.tags).has k = true ↔ k ∈ i.tagKeys := by
    unfold labelsOk
    rw [decide_eq_true_eq]
    simp only [Dict.has_iff]
    exact ⟨fun ⟨h1, h2⟩ k => ⟨h1 k, h2 k⟩, fun h => ⟨fun k => (h k).1, fun k => (h k).2⟩⟩
  rcases hd : labelsOk { i with count := i.count + c.value } (labels h c.tags) with _ | _
  · have hr : record h i s c = ⟨{ i with count := i.count + c.value }, s, some (.value (i.count + c.value)), true⟩ := by
      cases i; simp only at hk hb hx hd; subst hk; subst hb; subst hx
      simp only [record, afterwards, emit, hd, if_true]
      rfl
    rw [hr]
    refine ⟨⟨fun _ h' => ?_, fun _ => rfl⟩, fun _ => ⟨rfl, rfl⟩⟩
    rw [hl.2 h'] at hd; cases hd
  · have hr : (record h i s c).raised = false := by
      cases i; simp only at hk hb hx hd; subst hk; subst hb; subst hx
      simp only [record, afterwards, emit, hd, if_true]
    rw [hr]
    exact ⟨⟨fun h => absurd h (by simp), fun h => absurd (hl.1 hd) h⟩, fun h => absurd h (by simp)⟩

theorem record_prom_counter {h : Host} {i : Inner} {s : Series} {c : Call} (hk : i.kind = .counter) (hb : i.backend = .prometheus)
    (hx : i.exported = true) (hl : labelsOk i (labels h c.tags) = true) :
    record h i s c = ⟨{ i with count := i.count + c.value }, s.set (i.name, labels h c.tags) (.value (i.count + c.value)),
      some (.value (i.count + c.value)), false⟩ := by
  have hl' : labelsOk { i with count := i.count + c.value } (labels h c.tags) = true := hl
  cases i; simp only at hk hb hx hl'; subst hk; subst hb; subst hx
  simp only [record, afterwards, emit, hl', if_true, id]

/-- **C66** a prometheus counter used with one set of tags: the series is the total -/
theorem prom_counter_partial {h : Host} {i : Inner} {s : Series} (hk : i.kind = .counter) (hb : i.backend = .prometheus)
    (hx : i.exported = true) {t : Option Tags} (hl : labelsOk i (labels h t) = true) {cs : List Call} (hcs : SameTags t cs) (hne : cs ≠ []) :
    (recordAll h i s cs).2.1.get? (i.name, labels h t) = some (.value (i.count + total cs)) := by
  induction cs generalizing i s with
  | nil => exact absurd rfl hne
  | cons c cs ih =>
    have hc : c.tags = t := hcs c (List.mem_cons_self ..)
    rw [recordAll_cons, record_prom_counter hk hb hx (by rw [hc]; exact hl)]
    have ht : i.count + total (c :: cs) = i.count + c.value + total cs := by
      simp only [total, List.map_cons, List.sum_cons]; omega
    cases cs with
    | nil =>
      rw [hc]
      simp [recordAll, total]
    | cons d ds =>
      rw [ht]
      exact ih (i := { i with count := i.count + c.value }) hk hb hx hl (fun x hx => hcs x (List.mem_cons_of_mem _ hx)) (by simp)

/-- **C66** (violation) the count is not kept by tags: after `v` with tags `a` and `w` with other tags `b`, the series of `b` is `v + w` -/
theorem tags_mixed_refuted {h : Host} {i : Inner} {s : Series} (hk : i.kind = .counter) (hb : i.backend = .prometheus)
    (hx : i.exported = true) {a b : Call} (ha : labelsOk i (labels h a.tags) = true) (hb' : labelsOk i (labels h b.tags) = true)
    (h0 : i.count = 0) : (recordAll h i s [a, b]).2.1.get? (i.name, labels h b.tags) = some (.value (a.value + b.value)) := by
  rw [recordAll_cons, record_prom_counter hk hb hx ha, recordAll_cons,
    record_prom_counter (i := { i with count := i.count + a.value }) hk hb hx hb']
  simp [recordAll, h0]

/-- **C66** (violation) two metrics whose names are the same up to `.` and `:`: the second is never exported, whatever is recorded -/
theorem same_name_refuted {h : Host} {st : St} (hb : st.backend = .prometheus) {kind kind' : Kind} {name name' : Str} {tk tk' : List Str}
    {now now' : Nat} (hn : promName name = promName name') (cs : List Call) (s : Series) :
    (recordAll h (make { st with registered := (make st kind name tk now).2 } kind' name' tk' now').1 s cs).2.1 = s := by
  have hreg : promName name' ∈ (make st kind name tk now).2 := by
    rw [make, hb]
    simp only
    split
    · rename_i h; rw [← hn]; exact h
    · rw [← hn]; simp
  have hx : (make { st with registered := (make st kind name tk now).2 } kind' name' tk' now').1.exported = false ∧
      (make { st with registered := (make st kind name tk now).2 } kind' name' tk' now').1.backend = .prometheus := by
    generalize (make st kind name tk now).2 = reg at hreg
    unfold make
    simp only [hb, if_pos hreg]
    exact ⟨trivial, trivial⟩
  generalize (make { st with registered := (make st kind name tk now).2 } kind' name' tk' now').1 = j at hx
  clear hreg
  induction cs generalizing j with
  | nil => rfl
  | cons c cs ih =>
    have hs : (record h j s c).series = s := by
      have aft : ∀ (r : Report) (k : Inner) (reset : Inner → Inner), k.backend = .prometheus → k.exported = false →
          (afterwards r c.tags h k s reset).series = s := by
        intro r k reset h1 h2
        simp [afterwards, emit, h1, h2]
      unfold record
      split
      · exact aft _ _ _ hx.2 hx.1
      · exact aft _ _ _ hx.2 hx.1
      · simp only
        split
        · exact aft _ _ _ hx.2 hx.1
        · rfl
      · simp only
        split
        · exact aft _ _ _ hx.2 hx.1
        · rfl
    rw [recordAll_cons, hs]
    exact ih _ ⟨(record_fields h j s c).2.2.1.trans hx.1, (record_fields h j s c).2.1.trans hx.2⟩

/-- **C66** (violation) the caller's dict of tags is changed: `host` and `pid` are added or overwritten -/
theorem tags_changed_refuted {h : Host} {i : Inner} {s : Series} {c : Call} (hk : i.kind = .counter) (hb : i.backend = .prometheus)
    (hx : i.exported = true) (t : Tags) :
    (tagsAfter h i (record h i s c) t).get? hostKey = some h.host ∧ (tagsAfter h i (record h i s c) t).get? pidKey = some h.pid := by
  have hr : (record h i s c).report ≠ none := by
    rw [record, hk]
    simp only [afterwards]
    split <;> simp
  have : tagsAfter h i (record h i s c) t = t.update h.tags := by
    rw [tagsAfter, hb]
    simp only [hx, hr, ne_eq, not_false_eq_true, and_self, if_true]
  rw [this]
  have hne : hostKey ≠ pidKey := by decide
  constructor
  · simp [Host.tags, Dict.update, Dict.get?_set, Ne.symm hne]
  · simp [Host.tags, Dict.update, Dict.get?_set]

/-! ## Examples -/

def here : Host := ⟨"h".toList, "1".toList⟩

def story : List Ev :=
  [.create .counter "a.b".toList [] 0, .record 0 ⟨5, none, 1⟩, .init (some .console) 2, .record 0 ⟨1, none, 3⟩, .create .gauge "g".toList [] 4,
    .record 1 ⟨7, none, 5⟩, .record 0 ⟨2, none, 6⟩]

example : valueOf (run here {} story) 0 = some (.value 3) := by decide
example : valueOf (run here {} story) 1 = some (.value 7) := by decide
example : valueOf (run here {} (story ++ [.shutdown, .init (some .console) 9])) 0 = some (.value 0) := by decide
example : (run here {} [.init (some .prometheus) 0, .create .counter "a".toList ["k".toList] 1,
    .record 0 ⟨1, some [("k".toList, "x".toList)], 2⟩, .record 0 ⟨1, some [("k".toList, "y".toList)], 3⟩]).series.vals =
    [.value 1, .value 2] := by decide

/-- a meter: a report after a second, none before -/
example : (recordAll here { kind := .meter, backend := .console, name := [], tagKeys := [], last := 0, exported := false } []
    [⟨3, none, 10⟩, ⟨4, none, 2000000000⟩, ⟨5, none, 2000000001⟩]).2.2 = [.rate 7 2000000000] := by decide

/-! ### names and errors -/

/-- **C66** only an unknown backend and a metric with wrong tags raise; creating, shutting down and recording on a metric that is not there yet
never do -/
theorem raises_exact (host : Host) (st : St) (e : Ev) : (step host st e).2 = true ↔
    (∃ now, e = .init none now ∧ st.init = false) ∨
    (∃ n c h i, e = .record n c ∧ st.handles[n]? = some h ∧ h.inner = some i ∧ (record host i st.series c).raised = true) := by
  cases e with
  | init b now =>
    cases hi : st.init <;> cases b <;> simp [step, hi]
  | shutdown => simp [step]
  | create kind name tagKeys now => cases hi : st.init <;> simp [step, hi]
  | record n c =>
    rcases hn : st.handles[n]? with _ | h
    · simp [step, hn]
    · rcases hh : h.inner with _ | i
      · simp [step, hn, hh]
      · simp only [step, hn, hh]
        constructor
        · intro h'; exact .inr ⟨n, c, h, i, rfl, hn, hh, h'⟩
        · rintro (⟨_, e, _⟩ | ⟨n', c', h', i', e, h1, h2, h3⟩)
          · cases e
          · cases e; rw [hn] at h1; cases h1; rw [hh] at h2; cases h2; exact h3

/-- what is exported is registered, and nothing is exported twice -/
structure NInv (st : St) : Prop where
  reg : ∀ (n : Nat) h i, st.handles[n]? = some h → h.inner = some i → i.backend = .prometheus → i.exported = true → i.name ∈ st.registered
  uniq : ∀ (n m : Nat) h i h' i', st.handles[n]? = some h → h.inner = some i → i.backend = .prometheus → i.exported = true →
    st.handles[m]? = some h' → h'.inner = some i' → i'.backend = .prometheus → i'.exported = true → i.name = i'.name → n = m

theorem make_new (st : St) (kind : Kind) (name : Str) (tagKeys : List Str) (now : Nat) :
    (∀ x, x ∈ st.registered → x ∈ (make st kind name tagKeys now).2) ∧
    ((make st kind name tagKeys now).1.backend = .prometheus → (make st kind name tagKeys now).1.exported = true →
      (make st kind name tagKeys now).1.name ∉ st.registered ∧ (make st kind name tagKeys now).1.name ∈ (make st kind name tagKeys now).2) := by
  unfold make
  split
  · exact ⟨fun _ h => h, fun h => nomatch h⟩
  · split
    · exact ⟨fun _ h => h, fun _ h => nomatch h⟩
    · next hn => exact ⟨fun _ h => List.mem_append_left _ h, fun _ _ => ⟨hn, by simp⟩⟩

theorem record_same (host : Host) (i : Inner) (s : Series) (c : Call) : (record host i s c).inner.name = i.name ∧
    (record host i s c).inner.backend = i.backend ∧ (record host i s c).inner.exported = i.exported := by
  have hset : ∀ (h : Host) (i : Inner) (s : Series) (r : Report) (t : Option Tags) (i' : Inner) (s' : Series),
      emit h i s r t = some (i', s') → i'.name = i.name ∧ i'.backend = i.backend ∧ i'.exported = i.exported := by
    intro h i s r t i' s' hs
    unfold emit at hs
    grind
  have haft : ∀ (r : Report) (t : Option Tags) (h : Host) (i : Inner) (s : Series) (f : Inner → Inner),
      (∀ i, (f i).name = i.name ∧ (f i).backend = i.backend ∧ (f i).exported = i.exported) →
      (afterwards r t h i s f).inner.name = i.name ∧ (afterwards r t h i s f).inner.backend = i.backend ∧ (afterwards r t h i s f).inner.exported = i.exported := by
    intro r t h i s f hf
    unfold afterwards
    split
    · exact ⟨rfl, rfl, rfl⟩
    · next i' s' hs =>
      have := hset _ _ _ _ _ _ _ hs
      have := hf i'
      grind
  unfold record
  split
  · exact haft _ _ _ _ _ _ (fun _ => ⟨rfl, rfl, rfl⟩)
  · exact haft _ _ _ _ _ _ (fun _ => ⟨rfl, rfl, rfl⟩)
  · dsimp only
    split
    · exact haft _ _ _ _ _ _ (fun _ => ⟨rfl, rfl, rfl⟩)
    · exact ⟨rfl, rfl, rfl⟩
  · dsimp only
    split
    · exact haft _ _ _ _ _ _ (fun _ => ⟨rfl, rfl, rfl⟩)
    · exact ⟨rfl, rfl, rfl⟩

/-- what the loop of `init_metrics` does with names -/
theorem initAll_names (now : Nat) (hs : List Handle) : ∀ st : St,
    (∀ x, x ∈ st.registered → x ∈ (initAll st now hs).2) ∧
    (∀ (n : Nat) h i, (initAll st now hs).1[n]? = some h → h.inner = some i → i.backend = .prometheus → i.exported = true →
      (hs[n]? = some h ∧ h.wrapper = false) ∨ (i.name ∉ st.registered ∧ i.name ∈ (initAll st now hs).2 ∧ h.wrapper = true)) ∧
    (∀ (n m : Nat) h i h' i', (initAll st now hs).1[n]? = some h → h.inner = some i → i.backend = .prometheus → i.exported = true → h.wrapper = true →
      (initAll st now hs).1[m]? = some h' → h'.inner = some i' → i'.backend = .prometheus → i'.exported = true → h'.wrapper = true →
      i.name = i'.name → n = m) := by
  induction hs with
  | nil => intro st; exact ⟨fun _ h => h, by simp [initAll], by simp [initAll]⟩
  | cons a hs ih =>
    intro st
    have e : initAll st now (a :: hs) = ((initHandle st now a).1 :: (initAll { st with registered := (initHandle st now a).2 } now hs).1,
      (initAll { st with registered := (initHandle st now a).2 } now hs).2) := rfl
    rw [e]
    obtain ⟨i1, i2, i3⟩ := ih { st with registered := (initHandle st now a).2 }
    have a1 : ∀ x, x ∈ st.registered → x ∈ (initHandle st now a).2 := by
      unfold initHandle; split
      · exact (make_new st _ _ _ _).1
      · exact fun _ h => h
    have a2 : ∀ i, (initHandle st now a).1.inner = some i → i.backend = .prometheus → i.exported = true →
        (a = (initHandle st now a).1 ∧ a.wrapper = false) ∨ (i.name ∉ st.registered ∧ i.name ∈ (initHandle st now a).2 ∧ a.wrapper = true) := by
      intro i
      unfold initHandle
      split
      · next hw => intro h hb hx; cases h
                   have := (make_new st _ _ _ _).2 hb hx
                   exact .inr ⟨this.1, this.2, hw⟩
      · next hw => intro _ _ _; exact .inl ⟨rfl, by simpa using hw⟩
    have a3 : (initHandle st now a).1.wrapper = a.wrapper := by unfold initHandle; split <;> simp_all
    generalize initHandle st now a = ia at *
    refine ⟨fun x hx => i1 x (a1 x hx), ?_, ?_⟩
    · intro n h i hn hi hb hx
      cases n with
      | zero =>
        simp only [List.getElem?_cons_zero, Option.some.injEq] at hn; subst hn
        rcases a2 i hi hb hx with ⟨h1, h2⟩ | ⟨h1, h2, h3⟩
        · exact .inl ⟨by simp [← h1], by rw [a3]; exact h2⟩
        · exact .inr ⟨h1, i1 _ h2, by rw [a3]; exact h3⟩
      | succ n =>
        simp only [List.getElem?_cons_succ] at hn ⊢
        rcases i2 n h i hn hi hb hx with h1 | ⟨h1, h2, h3⟩
        · exact .inl h1
        · exact .inr ⟨fun hr => h1 (a1 _ hr), h2, h3⟩
    · have cross : ∀ (m : Nat) h i h' i', some ia.1 = some h → h.inner = some i → i.backend = .prometheus → i.exported = true → h.wrapper = true →
          (initAll { st with registered := ia.2 } now hs).1[m]? = some h' → h'.inner = some i' → i'.backend = .prometheus → i'.exported = true →
          h'.wrapper = true → i.name = i'.name → False := by
        intro m h i h' i' hn hi hb hx hw hm hi' hb' hx' hw' he
        cases hn
        rcases a2 i hi hb hx with ⟨-, h2⟩ | ⟨-, h2, -⟩
        · rw [a3, h2] at hw; cases hw
        · rcases i2 m h' i' hm hi' hb' hx' with ⟨-, h3⟩ | ⟨h3, -, -⟩
          · rw [h3] at hw'; cases hw'
          · exact h3 (he ▸ h2)
      intro n m h i h' i' hn hi hb hx hw hm hi' hb' hx' hw' he
      cases n <;> cases m
      · rfl
      · simp only [List.getElem?_cons_zero, List.getElem?_cons_succ] at hn hm
        exact (cross _ h i h' i' hn hi hb hx hw hm hi' hb' hx' hw' he).elim
      · simp only [List.getElem?_cons_zero, List.getElem?_cons_succ] at hn hm
        exact (cross _ h' i' h i hm hi' hb' hx' hw' hn hi hb hx hw he.symm).elim
      · simp only [List.getElem?_cons_succ] at hn hm
        rw [i3 _ _ h i h' i' hn hi hb hx hw hm hi' hb' hx' hw' he]

theorem NInv.step {st : St} (hv : NInv st) (host : Host) (e : Ev) : NInv (step host st e).1 := by
  cases e with
  | init b now =>
    unfold Metric.step
    by_cases hi : st.init = true
    · simp only [hi, if_true]; exact hv
    · simp only [hi, if_false]
      cases b with
      | none => exact hv
      | some b =>
        dsimp only
        obtain ⟨i1, i2, i3⟩ := initAll_names now st.handles { st with init := true, backend := b }
        generalize initAll { st with init := true, backend := b } now st.handles = r at *
        constructor
        · intro n h i hn hh hb hx
          rcases i2 n h i hn hh hb hx with ⟨h1, -⟩ | ⟨-, h1, -⟩
          · exact i1 _ (hv.reg n h i h1 hh hb hx)
          · exact h1
        · intro n m h i h' i' hn hh hb hx hm hh' hb' hx' he
          rcases i2 n h i hn hh hb hx with ⟨h1, h2⟩ | ⟨h1, h2, h3⟩ <;> rcases i2 m h' i' hm hh' hb' hx' with ⟨k1, k2⟩ | ⟨k1, k2, k3⟩
          · exact hv.uniq n m h i h' i' h1 hh hb hx k1 hh' hb' hx' he
          · exact absurd (he ▸ hv.reg n h i h1 hh hb hx) k1
          · exact absurd (he ▸ hv.reg m h' i' k1 hh' hb' hx') h1
          · exact i3 n m h i h' i' hn hh hb hx h3 hm hh' hb' hx' k3 he
  | shutdown => exact ⟨hv.reg, hv.uniq⟩
  | create kind name tagKeys now =>
    unfold Metric.step
    by_cases hi : st.init = true
    · simp only [hi, if_true]
      obtain ⟨m1, m2⟩ := make_new st kind name tagKeys now
      generalize make st kind name tagKeys now = r at *
      have old : ∀ (n : Nat) h i, (st.handles ++ [⟨kind, name, tagKeys, false, some r.1⟩])[n]? = some h → h.inner = some i →
          (st.handles[n]? = some h) ∨ (n = st.handles.length ∧ i = r.1) := by
        intro n h i hn hh
        rw [List.getElem?_append] at hn
        split at hn
        · exact .inl hn
        · next hl =>
          rcases hk : n - st.handles.length with _ | k
          · rw [hk] at hn; simp only [List.getElem?_cons_zero, Option.some.injEq] at hn; subst hn
            simp only [Option.some.injEq] at hh
            exact .inr ⟨by omega, hh.symm⟩
          · rw [hk] at hn; simp at hn
      constructor
      · intro n h i hn hh hb hx
        rcases old n h i hn hh with h1 | ⟨-, rfl⟩
        · exact m1 _ (hv.reg n h i h1 hh hb hx)
        · exact (m2 hb hx).2
      · intro n m h i h' i' hn hh hb hx hm hh' hb' hx' he
        rcases old n h i hn hh with h1 | ⟨h1, rfl⟩ <;> rcases old m h' i' hm hh' with k1 | ⟨k1, rfl⟩
        · exact hv.uniq n m h i h' i' h1 hh hb hx k1 hh' hb' hx' he
        · exact absurd (he ▸ hv.reg n h i h1 hh hb hx) (m2 hb' hx').1
        · exact absurd (he ▸ hv.reg m h' i' k1 hh' hb' hx') (m2 hb hx).1
        · omega
    · simp only [hi, if_false]
      have old : ∀ (n : Nat) h i, (st.handles ++ [⟨kind, name, tagKeys, true, none⟩])[n]? = some h → h.inner = some i → st.handles[n]? = some h := by
        intro n h i hn hh
        rw [List.getElem?_append] at hn
        split at hn
        · exact hn
        · rcases hk : n - st.handles.length with _ | k
          · rw [hk] at hn; simp only [List.getElem?_cons_zero, Option.some.injEq] at hn; subst hn; cases hh
          · rw [hk] at hn; simp at hn
      exact ⟨fun n h i hn hh => hv.reg n h i (old n h i hn hh) hh,
        fun n m h i h' i' hn hh hb hx hm hh' => hv.uniq n m h i h' i' (old n h i hn hh) hh hb hx (old m h' i' hm hh') hh'⟩
  | record k c =>
    unfold Metric.step
    rcases hk : st.handles[k]? with _ | g
    · simp only [hk]; exact hv
    · rcases hg : g.inner with _ | j
      · simp only [hk, hg]; exact hv
      · simp only [hk, hg]
        have same := record_same host j st.series c
        generalize record host j st.series c = o at *
        have old : ∀ (n : Nat) h i, (st.handles.set k { g with inner := some o.inner })[n]? = some h → h.inner = some i →
            ∃ h0 i0, st.handles[n]? = some h0 ∧ h0.inner = some i0 ∧ i0.name = i.name ∧ i0.backend = i.backend ∧ i0.exported = i.exported := by
          intro n h i hn hh
          rw [List.getElem?_set] at hn
          split at hn
          · next he =>
            subst he
            split at hn
            · cases hn; cases hh; exact ⟨g, j, hk, hg, same.1.symm, same.2.1.symm, same.2.2.symm⟩
            · cases hn
          · exact ⟨h, i, hn, hh, rfl, rfl, rfl⟩
        constructor
        · intro n h i hn hh hb hx
          obtain ⟨h0, i0, e1, e2, e3, e4, e5⟩ := old n h i hn hh
          exact e3 ▸ hv.reg n h0 i0 e1 e2 (e4.trans hb) (e5.trans hx)
        · intro n m h i h' i' hn hh hb hx hm hh' hb' hx' he
          obtain ⟨h0, i0, e1, e2, e3, e4, e5⟩ := old n h i hn hh
          obtain ⟨h1, i1, f1, f2, f3, f4, f5⟩ := old m h' i' hm hh'
          exact hv.uniq n m h0 i0 h1 i1 e1 e2 (e4.trans hb) (e5.trans hx) f1 f2 (f4.trans hb') (f5.trans hx') (e3.trans (he.trans f3.symm))

/-- **C66** no two metrics are exported under one name, whatever is created, recorded, shut down and initialised again -/
theorem exported_unique (host : Host) (es : List Ev) (n m : Nat) (h h' : Handle) (i i' : Inner) (hn : (run host {} es).handles[n]? = some h)
    (hi : h.inner = some i) (hb : i.backend = .prometheus) (hx : i.exported = true) (hm : (run host {} es).handles[m]? = some h')
    (hi' : h'.inner = some i') (hb' : i'.backend = .prometheus) (hx' : i'.exported = true) (he : i.name = i'.name) : n = m := by
  have key : ∀ es st, NInv st → NInv (run host st es) := by
    intro es
    induction es with
    | nil => intro st h; exact h
    | cons e es ih => intro st h; exact ih _ (h.step host e)
  exact (key es {} ⟨by simp, by simp⟩).uniq n m h i h' i' hn hi hb hx hm hi' hb' hx' he

example : ((run ⟨[], []⟩ {} [.init (some .prometheus) 0, .create .counter ['a'] [] 0, .create .gauge ['a'] [] 0, .create .gauge ['b'] [] 0]).handles.map
    (fun h => h.inner.map (·.exported))) = [some true, some false, some true] := by rfl

/-- **C66** the console backend leaves the caller's tags alone -/
theorem console_tags (h : Host) (i : Inner) (o : Outcome) (t : Tags) (hb : i.backend = .console) : tagsAfter h i o t = t := by
  unfold tagsAfter; rw [hb]

end Xoscar.Metric
