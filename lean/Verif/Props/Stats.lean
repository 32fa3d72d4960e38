import Verif.Proof.Stats
/-!
# C42 (percentile), C43 (slow calls), C44 (call cycles)
-/
namespace Xoscar.Stats

/-! ## C42 Percentile

Specification: `v` is the k-th smallest element of the window `w` (counting multiplicity). -/

/-- `v` is the `k`-th order statistic (1-based, ascending) of `w`. -/
def IsKthSmallest (w : List Int) (k : Nat) (v : Int) : Prop :=
  v ∈ w ∧ (w.countP (fun x => decide (x < v))) < k ∧ k ≤ w.countP (fun x => decide (x ≤ v))

/-- One full window, starting from a fresh window, triggers the callback exactly once, at its
end, with the `min capacity window`-th smallest observation, and leaves a fresh window. -/
theorem window_callback (s : Pct) (w : List Int) (hc : 0 < s.capacity) (hw : 0 < s.window)
    (hs : s.heap = [] ∧ s.curNum = 0) (hlen : w.length = s.window) :
    ∃ v, (∀ rest, s.run (w ++ rest) = v :: s.run rest) ∧
      IsKthSmallest w (min s.capacity s.window) v := by
  -- generalise to a partially filled window
  have gen : ∀ (todo cur drop : List Int) (t : Pct), PctInv t cur drop → t.curNum = cur.length →
      t.capacity = s.capacity → t.window = s.window → cur.length + todo.length = s.window →
      todo ≠ [] →
      ∃ v, (∀ rest, t.run (todo ++ rest) = v :: s.run rest) ∧
        IsKthSmallest (cur.reverse ++ todo) (min s.capacity s.window) v := by
    intro todo
    induction todo with
    | nil => intro _ _ _ _ _ _ _ _ h; contradiction
    | cons x xs ih =>
      intro cur drop t hinv hnum htc htw hsum _
      obtain ⟨drop', hinv'⟩ := store_inv (by omega) hinv x
      by_cases hx : xs = []
      · subst hx
        simp at hsum
        have hmod : (t.curNum + 1) % t.window = 0 := by
          rw [hnum, htw, hsum]; exact Nat.mod_self _
        have hne : t.store x ≠ [] := by
          intro e
          have := hinv'.len
          simp [e] at this; omega
        obtain ⟨m, hm⟩ := minOf_isSome hne
        obtain ⟨hmem, hmin⟩ := minOf_spec hm
        refine ⟨-1 * m, ?_, ?_⟩
        · intro rest
          simp only [List.cons_append, List.nil_append, Pct.run, Pct.record, hmod, if_true, hm,
            Option.map_some, Option.toList_some]
          have : ({ t with heap := [], curNum := 0 } : Pct) = s := by
            cases t; cases s; simp_all
          rw [this]
        · have hpw : ((cur.reverse ++ [x]).map (fun v => -1 * v)).Perm (t.store x ++ drop') := by
            refine List.Perm.trans (List.Perm.map _ ?_) hinv'.perm
            exact (List.perm_append_comm).trans ((List.reverse_perm cur).cons x)
          have hl : (t.store x).length = min s.capacity s.window := by
            have := hinv'.len
            simp at this; rw [this, htc]; congr 1
          refine ⟨?_, ?_, ?_⟩
          · have : m ∈ (cur.reverse ++ [x]).map (fun v => -1 * v) :=
              hpw.mem_iff.mpr (List.mem_append.mpr (Or.inl hmem))
            obtain ⟨y, hy, hye⟩ := List.mem_map.mp this
            have : -1 * m = y := by omega
            rw [this]; exact hy
          · have e1 : (cur.reverse ++ [x]).countP (fun y => decide (y < -1 * m)) =
                ((cur.reverse ++ [x]).map (fun v => -1 * v)).countP (fun z => decide (m < z)) := by
              rw [List.countP_map]; congr 1; funext y; simp only [Function.comp]
              exact decide_eq_decide.mpr (by omega)
            rw [e1, hpw.countP_eq, List.countP_append]
            have e2 : drop'.countP (fun z => decide (m < z)) = 0 := by
              rw [List.countP_eq_zero]; intro d hd
              have := hinv'.le d hd m hmem
              simp; omega
            rw [e2, (List.perm_cons_erase hmem).countP_eq, List.countP_cons]
            have := List.countP_le_length (p := fun z => decide (m < z)) (l := (t.store x).erase m)
            rw [List.length_erase_of_mem hmem] at this
            have := List.length_pos_of_mem hmem
            simp; omega
          · have e1 : (cur.reverse ++ [x]).countP (fun y => decide (y ≤ -1 * m)) =
                ((cur.reverse ++ [x]).map (fun v => -1 * v)).countP (fun z => decide (m ≤ z)) := by
              rw [List.countP_map]; congr 1; funext y; simp only [Function.comp]
              exact decide_eq_decide.mpr (by omega)
            rw [e1, hpw.countP_eq, List.countP_append]
            have : (t.store x).countP (fun z => decide (m ≤ z)) = (t.store x).length := by
              rw [List.countP_eq_length]; intro y hy; simpa using hmin y hy
            omega
      · have hpos : 0 < xs.length := List.length_pos_iff.mpr hx
        have hmod : (t.curNum + 1) % t.window ≠ 0 := by
          simp at hsum
          rw [hnum, htw, Nat.mod_eq_of_lt (by omega)]; omega
        have hinv'' : PctInv { t with heap := t.store x, curNum := t.curNum + 1 } (x :: cur) drop' :=
          ⟨hinv'.perm, hinv'.le, hinv'.len⟩
        obtain ⟨v, hv1, hv2⟩ := ih (x :: cur) drop'
          { t with heap := t.store x, curNum := t.curNum + 1 } hinv'' (by simp [hnum]) htc htw
          (by simp at *; omega) hx
        refine ⟨v, ?_, by simpa using hv2⟩
        intro rest
        simp only [List.cons_append, Pct.run, Pct.record, hmod, if_false, Option.toList_none,
          List.nil_append]
        exact hv1 rest
  have hw0 : w ≠ [] := by intro e; simp [e] at hlen; omega
  have := gen w [] [] s ⟨by simp [hs.1], by simp, by simp [hs.1]⟩ (by simp [hs.2]) rfl rfl
    (by simpa using hlen) hw0
  simpa using this

/-- Over a whole stream: one callback per completed window, each with the order statistic of
its own window; an unfinished window triggers nothing. -/
theorem stream_callbacks (s : Pct) (ws : List (List Int)) (tail : List Int) (hc : 0 < s.capacity)
    (hw : 0 < s.window) (hs : s.heap = [] ∧ s.curNum = 0) (hlen : ∀ w ∈ ws, w.length = s.window)
    (ht : tail.length < s.window) :
    ∃ vs, s.run (ws.flatten ++ tail) = vs ∧ vs.length = ws.length ∧
      ∀ (i : Nat) w v, ws[i]? = some w → vs[i]? = some v →
        IsKthSmallest w (min s.capacity s.window) v := by
  induction ws with
  | nil =>
    have : ∀ (tl : List Int) (t : Pct), t.window = s.window → t.curNum + tl.length < s.window →
        t.run tl = [] := by
      intro tl
      induction tl with
      | nil => intros; rfl
      | cons x xs ih =>
        intro t h1 h2
        simp at h2
        have hmod : (t.curNum + 1) % t.window ≠ 0 := by
          rw [h1, Nat.mod_eq_of_lt (by omega)]; omega
        simp only [Pct.run, Pct.record, hmod, if_false, Option.toList_none, List.nil_append]
        exact ih _ h1 (by simp; omega)
    exact ⟨[], by simpa using this tail s rfl (by omega), rfl, by simp⟩
  | cons w ws ih =>
    obtain ⟨vs, h1, h2, h3⟩ := ih (fun w hw => hlen w (List.mem_cons_of_mem _ hw))
    obtain ⟨v, hv1, hv2⟩ := window_callback s w hc hw hs (hlen w List.mem_cons_self)
    refine ⟨v :: vs, ?_, by simp [h2], ?_⟩
    · rw [List.flatten_cons, List.append_assoc, hv1, h1]
    · intro i w' v' hi hv
      cases i with
      | zero => simp at hi hv; subst hi hv; exact hv2
      | succ i => simp at hi hv; exact h3 i w' v' hi hv

/-- Non-positive parameters are rejected, all others accepted. -/
theorem new_accepts (c w : Int) : (Pct.new c w).isSome ↔ 0 < c ∧ 0 < w := by
  unfold Pct.new; split <;> simp <;> omega

/-- … and a recorder that was just made calls back with the order statistic of each window of `w` observations in turn -/
theorem new_callbacks {c w : Int} {s : Pct} (hn : Pct.new c w = some s) (ws : List (List Int)) (tail : List Int)
    (hlen : ∀ x ∈ ws, (x.length : Int) = w) (ht : (tail.length : Int) < w) :
    ∃ vs, s.run (ws.flatten ++ tail) = vs ∧ vs.length = ws.length ∧
      ∀ (i : Nat) x v, ws[i]? = some x → vs[i]? = some v → IsKthSmallest x (min c w).toNat v := by
  unfold Pct.new at hn
  split at hn
  · simp at hn
  · next hp =>
    injection hn with hn
    subst hn
    have := stream_callbacks ⟨c.toNat, w.toNat, [], 0⟩ ws tail (by simp only; omega) (by simp only; omega) ⟨rfl, rfl⟩
      (fun x hx => by have := hlen x hx; simp only; omega) (by simp only; omega)
    have e : (min c w).toNat = min c.toNat w.toNat := by omega
    rw [e]
    exact this

example : (Pct.mk 2 4 [] 0).run [5, 1, 9, 3, 7, 7, 7, 2, 0] = [3, 7] := by decide

/-! ## C43 slow calls -/

/-- The slow part of a history, newest first. -/
def slowHist (thr : Int) (h : List (Nat × Call)) : List Call :=
  (h.map Prod.snd).reverse.filter (fun c => decide (thr ≤ c.1))

def CallStats.init (thr : Int) : CallStats := ⟨thr, [], []⟩

theorem run_inv (thr : Int) (h : List (Nat × Call)) :
    ((CallStats.init thr).run h).threshold = thr ∧
    ∃ drop, SlowInv ((CallStats.init thr).run h).slow (slowHist thr h) drop := by
  induction h using List.reverseRecOn' with
  | nil => exact ⟨rfl, [], by simp [CallStats.run, CallStats.init, slowHist]; exact ⟨by simp, by simp, by simp⟩⟩
  | append_singleton h kc ih =>
    obtain ⟨ht, drop, hi⟩ := ih
    have hrun : (CallStats.init thr).run (h ++ [kc]) =
        ((CallStats.init thr).run h).collect kc.1 kc.2 := by simp [CallStats.run]
    have hsl : slowHist thr (h ++ [kc]) =
        if thr ≤ kc.2.1 then kc.2 :: slowHist thr h else slowHist thr h := by
      simp [slowHist, List.filter_cons]
    rw [hrun, hsl]
    by_cases hc : thr ≤ kc.2.1
    · rw [if_pos hc]
      obtain ⟨drop', hd⟩ := push_inv hi kc.2
      have heq : (((CallStats.init thr).run h).collect kc.1 kc.2).threshold = thr ∧
          (((CallStats.init thr).run h).collect kc.1 kc.2).slow =
            pushSlow ((CallStats.init thr).run h).slow kc.2 := by
        unfold CallStats.collect pushSlow
        simp only [ht]
        rw [if_neg (by omega)]
        split
        · exact ⟨rfl, rfl⟩
        · cases minCall ((CallStats.init thr).run h).slow <;> exact ⟨rfl, rfl⟩
      rw [heq.2]; exact ⟨heq.1, drop', hd⟩
    · rw [if_neg hc]
      have heq : (((CallStats.init thr).run h).collect kc.1 kc.2).threshold = thr ∧
          (((CallStats.init thr).run h).collect kc.1 kc.2).slow =
            ((CallStats.init thr).run h).slow := by
        unfold CallStats.collect
        simp only [ht]
        rw [if_pos (by omega)]
        exact ⟨rfl, rfl⟩
      rw [heq.2]; exact ⟨heq.1, drop, hi⟩

/-- At most 10 entries, every one above the threshold and really observed (with multiplicity),
and as many as possible. -/
theorem slow_report_sound (thr : Int) (h : List (Nat × Call)) :
    ((CallStats.init thr).run h).slow.length = min 10 (slowHist thr h).length ∧
    (∀ c ∈ ((CallStats.init thr).run h).slow, thr ≤ c.1) ∧
    (∀ c, ((CallStats.init thr).run h).slow.count c ≤ (slowHist thr h).count c) := by
  obtain ⟨_, drop, hi⟩ := run_inv thr h
  refine ⟨hi.len, ?_, ?_⟩
  · intro c hc
    have : c ∈ slowHist thr h := hi.perm.mem_iff.mpr (List.mem_append.mpr (Or.inl hc))
    simpa using (List.mem_filter.mp this).2
  · intro c; rw [hi.perm.count_eq, List.count_append]; omega

/-- The nine slowest calls are always in the report: a slow call with at most nine slow calls
(itself included) that are at least as slow is reported. -/
theorem slow_report_top9_partial (thr : Int) (h : List (Nat × Call)) (c : Call)
    (hc : c ∈ slowHist thr h) (h9 : (slowHist thr h).countP (fun x => callLe c x) ≤ 9) :
    c ∈ ((CallStats.init thr).run h).slow := by
  obtain ⟨_, drop, hi⟩ := run_inv thr h
  rcases List.mem_append.mp (hi.perm.mem_iff.mp hc) with h' | h'
  · exact h'
  · have h1 := hi.top c h'
    rw [hi.perm.countP_eq, List.countP_append] at h9
    have : 0 < drop.countP (fun x => callLe c x) :=
      List.countP_pos_iff.mpr ⟨c, h', callLe_refl c⟩
    omega

/-- The full claim – the report holds the ten slowest – is false: a fresh call just above the
threshold displaces a slower one. -/
theorem slow_report_top10_refuted :
    ¬ ∀ thr (h : List (Nat × Call)) (c : Call), c ∈ slowHist thr h →
      (slowHist thr h).countP (fun x => callLe c x) ≤ 10 →
      c ∈ ((CallStats.init thr).run h).slow := by
  intro hall
  have := hall 1 ((List.range 10).map (fun i => (0, ((100 : Int), i))) ++ [(0, (1, 0))]) (100, 0)
    (by decide) (by decide)
  revert this; decide

/-- Call counts are exact: the counter of a key is the number of collected calls with it. -/
theorem counter_exact (thr : Int) (h : List (Nat × Call)) (k : Nat) :
    (((CallStats.init thr).run h).counter.get? k).getD 0 = (h.map Prod.fst).count k := by
  induction h using List.reverseRecOn' with
  | nil => simp [CallStats.run, CallStats.init]
  | append_singleton h kc ih =>
    have hrun : (CallStats.init thr).run (h ++ [kc]) =
        ((CallStats.init thr).run h).collect kc.1 kc.2 := by simp [CallStats.run]
    have hcnt : (((CallStats.init thr).run h).collect kc.1 kc.2).counter =
        ((CallStats.init thr).run h).counter.set kc.1
          ((((CallStats.init thr).run h).counter.get? kc.1).getD 0 + 1) := by
      unfold CallStats.collect; simp only
      split
      · rfl
      · split
        · rfl
        · split <;> rfl
    rw [hrun, hcnt, Dict.get?_set]
    simp only [List.map_append, List.map_cons, List.map_nil, List.count_append, List.count_singleton]
    by_cases e : kc.1 = k
    · subst e; simp [ih]
    · simp [e, ih]

example : ((CallStats.init 5).run [(1, (7, 0)), (1, (3, 0)), (2, (9, 1))]).slow = [(9, 1), (7, 0)] ∧
    (7, 0) ∈ slowHist 5 [(1, (7, 0)), (1, (3, 0)), (2, (9, 1))] := by decide

/-! ### the report -/

theorem insDesc_perm {α} (key : α → Int) (x : α) (l : List α) : (insDesc key x l).Perm (x :: l) := by
  induction l with
  | nil => exact List.Perm.refl _
  | cons y l ih =>
    unfold insDesc
    split
    · exact List.Perm.refl _
    · exact (ih.cons y).trans (List.Perm.swap x y l)

theorem sortDesc_perm {α} (key : α → Int) (l : List α) : (sortDesc key l).Perm l := by
  induction l with
  | nil => exact List.Perm.refl _
  | cons x l ih => exact (insDesc_perm key x _).trans (ih.cons x)

theorem insDesc_sorted {α} (key : α → Int) (x : α) (l : List α) (h : l.Pairwise (fun a b => key b ≤ key a)) :
    (insDesc key x l).Pairwise (fun a b => key b ≤ key a) := by
  induction l with
  | nil => simp [insDesc]
  | cons y l ih =>
    rw [List.pairwise_cons] at h
    unfold insDesc
    split
    · rename_i hle
      rw [List.pairwise_cons]
      refine ⟨?_, List.pairwise_cons.mpr h⟩
      intro z hz
      rcases List.mem_cons.mp hz with rfl | hz
      · exact hle
      · have := h.1 z hz; omega
    · rename_i hlt
      rw [List.pairwise_cons]
      refine ⟨?_, ih h.2⟩
      intro z hz
      rcases List.mem_cons.mp ((insDesc_perm key x l).mem_iff.mp hz) with rfl | hz
      · omega
      · exact h.1 z hz

theorem sortDesc_sorted {α} (key : α → Int) (l : List α) : (sortDesc key l).Pairwise (fun a b => key b ≤ key a) := by
  induction l with
  | nil => exact List.Pairwise.nil
  | cons x l ih => exact insDesc_sorted key x _ ih

theorem counter_wf (thr : Int) (h : List (Nat × Call)) : ((CallStats.init thr).run h).counter.WF ∧
    ∀ k n, ((CallStats.init thr).run h).counter.get? k = some n → 0 < n := by
  induction h using List.reverseRecOn' with
  | nil => exact ⟨Dict.WF.nil, by simp [CallStats.run, CallStats.init]⟩
  | append_singleton h kc ih =>
    have hrun : (CallStats.init thr).run (h ++ [kc]) =
        ((CallStats.init thr).run h).collect kc.1 kc.2 := by simp [CallStats.run]
    have hcnt : (((CallStats.init thr).run h).collect kc.1 kc.2).counter =
        ((CallStats.init thr).run h).counter.set kc.1
          ((((CallStats.init thr).run h).counter.get? kc.1).getD 0 + 1) := by
      unfold CallStats.collect; simp only
      split
      · rfl
      · split
        · rfl
        · split <;> rfl
    rw [hrun, hcnt]
    refine ⟨ih.1.set _ _, ?_⟩
    intro k n hn
    rw [Dict.get?_set] at hn
    by_cases e : kc.1 = k
    · rw [if_pos e] at hn; injection hn with hn; omega
    · rw [if_neg e] at hn; exact ih.2 k n hn

/-- The report of the most frequent calls: at most ten, most frequent first, each once and with its exact number; a call that is not in it was not made
more often than any in it; and all calls are in it if there are at most ten. -/
theorem most_calls_report (thr : Int) (h : List (Nat × Call)) :
    let r := ((CallStats.init thr).run h).mostCalls
    r.length = min 10 ((h.map Prod.fst).foldl (fun acc k => if k ∈ acc then acc else acc ++ [k]) []).length ∧ (r.map Prod.fst).Nodup ∧
    (∀ k n, (k, n) ∈ r → 0 < n ∧ n = (h.map Prod.fst).count k) ∧
    r.Pairwise (fun a b => b.2 ≤ a.2) ∧
    ∀ k, k ∈ h.map Prod.fst → k ∉ r.map Prod.fst → r.length = 10 ∧ ∀ k' n, (k', n) ∈ r → (h.map Prod.fst).count k ≤ n := by
  intro r
  obtain ⟨hwf, hpos⟩ := counter_wf thr h
  have hcnt := counter_exact thr h
  have hlen : ((CallStats.init thr).run h).counter.keys = (h.map Prod.fst).foldl (fun acc k => if k ∈ acc then acc else acc ++ [k]) [] := by
    clear hwf hpos hcnt r
    induction h using List.reverseRecOn' with
    | nil => rfl
    | append_singleton h kc ih =>
      have hrun : (CallStats.init thr).run (h ++ [kc]) =
          ((CallStats.init thr).run h).collect kc.1 kc.2 := by simp [CallStats.run]
      have hc : (((CallStats.init thr).run h).collect kc.1 kc.2).counter =
          ((CallStats.init thr).run h).counter.set kc.1
            ((((CallStats.init thr).run h).counter.get? kc.1).getD 0 + 1) := by
        unfold CallStats.collect; simp only
        split
        · rfl
        · split
          · rfl
          · split <;> rfl
      rw [hrun, hc, Dict.keys_set, List.map_append, List.foldl_append, ← ih]
      rfl
  generalize hC : ((CallStats.init thr).run h).counter = C at hwf hpos hcnt hlen
  have hr : r = (sortDesc (fun (x : Nat × Nat) => (x.2 : Int)) C).take 10 := by
    show ((CallStats.init thr).run h).mostCalls = _
    rw [CallStats.mostCalls, hC]
  have hperm := sortDesc_perm (fun (x : Nat × Nat) => (x.2 : Int)) C
  have hsort := sortDesc_sorted (fun (x : Nat × Nat) => (x.2 : Int)) C
  generalize hS : sortDesc (fun (x : Nat × Nat) => (x.2 : Int)) C = S at hperm hsort hr
  have hmem : ∀ k n, (k, n) ∈ S → C.get? k = some n := fun k n hm => Dict.get?_of_mem hwf (hperm.mem_iff.mp hm)
  have hnum : ∀ k n, C.get? k = some n → n = (h.map Prod.fst).count k := by
    intro k n hk; have := hcnt k; rw [hk] at this; exact this
  have hall : ∀ k, k ∈ h.map Prod.fst → ∃ n, (k, n) ∈ S := by
    intro k hk
    have hc : 0 < (h.map Prod.fst).count k := List.count_pos_iff.mpr hk
    rcases hg : C.get? k with _ | n
    · have := hcnt k; rw [hg] at this; simp at this; omega
    · exact ⟨n, hperm.mem_iff.mpr (Dict.mem_of_get? hg)⟩
  refine ⟨?_, ?_, ?_, ?_, ?_⟩
  · rw [hr, List.length_take, hperm.length_eq, ← hlen]; simp [Dict.keys]
  · rw [hr]
    have hn : (S.map Prod.fst).Nodup := ((hperm.map Prod.fst).nodup_iff).mpr hwf
    exact ((List.take_sublist 10 S).map Prod.fst).nodup hn
  · intro k n hm
    rw [hr] at hm
    have := hmem k n (List.mem_of_mem_take hm)
    exact ⟨hpos k n this, hnum k n this⟩
  · rw [hr]
    have : (S.take 10).Pairwise (fun a b => ((b.2 : Nat) : Int) ≤ ((a.2 : Nat) : Int)) := hsort.sublist (List.take_sublist 10 S)
    exact this.imp (fun hh => by omega)
  · intro k hk hn
    obtain ⟨n, hkn⟩ := hall k hk
    have hdrop : (k, n) ∈ S.drop 10 := by
      rw [← List.take_append_drop 10 S] at hkn
      rcases List.mem_append.mp hkn with hh | hh
      · exfalso; apply hn; rw [hr]; exact List.mem_map.mpr ⟨(k, n), hh, rfl⟩
      · exact hh
    constructor
    · rw [hr, List.length_take]
      have : 0 < (S.drop 10).length := List.length_pos_of_mem hdrop
      rw [List.length_drop] at this
      omega
    · intro k' n' hm
      rw [hr] at hm
      rw [← List.take_append_drop 10 S] at hsort
      have hp := (List.pairwise_append.mp hsort).2.2 (k', n') hm (k, n) hdrop
      have : n ≤ n' := by simpa using hp
      rw [← hnum k n (hmem k n hkn)]; exact this

example : ((CallStats.init 5).run [(1, (7, 0)), (2, (3, 0)), (2, (9, 1))]).mostCalls = [(2, 2), (1, 1)] := by decide

theorem fillSlow_get (cs : List Call) (d : Dict Nat Int) (k : Nat) :
    (fillSlow d cs).get? k = ((cs.filter (fun c => c.2 = k)).getLast?.map Prod.fst).or (d.get? k) := by
  induction cs generalizing d with
  | nil => rfl
  | cons c cs ih =>
    rw [fillSlow, ih, Dict.get?_set]
    by_cases hc : c.2 = k
    · rw [List.filter_cons_of_pos (by simpa using hc), if_pos hc, List.getLast?_cons]
      rcases hg : (cs.filter (fun c => c.2 = k)).getLast? with _ | z
      · rw [hg]; rfl
      · rw [hg]; rfl
    · rw [List.filter_cons_of_neg (by simpa using hc), if_neg hc]

/-- The report of the slow calls has an entry for every kind of call kept, and its duration is that of one of them: of the fastest. -/
theorem slow_calls_report (thr : Int) (h : List (Nat × Call)) (k : Nat) (d : Int) :
    ((CallStats.init thr).run h).slowCalls.get? k = some d ↔
      (d, k) ∈ ((CallStats.init thr).run h).slow ∧ ∀ d', (d', k) ∈ ((CallStats.init thr).run h).slow → d ≤ d' := by
  generalize (CallStats.init thr).run h = s
  have hperm := sortDesc_perm (fun (c : Call) => c.1) s.slow
  have hsort := sortDesc_sorted (fun (c : Call) => c.1) s.slow
  unfold CallStats.slowCalls
  rw [fillSlow_get]
  generalize sortDesc (fun (c : Call) => c.1) s.slow = S at hperm hsort
  have hf : (S.filter (fun c => c.2 = k)).Pairwise (fun a b => b.1 ≤ a.1) := hsort.sublist List.filter_sublist
  rcases hl : (S.filter (fun c => c.2 = k)).getLast? with _ | z
  · have hnil : S.filter (fun c => c.2 = k) = [] := List.getLast?_eq_none_iff.mp hl
    constructor
    · intro hh; rw [hl] at hh; exact (nomatch hh)
    · rintro ⟨hm, _⟩
      have : (d, k) ∈ S.filter (fun c => c.2 = k) := List.mem_filter.mpr ⟨hperm.mem_iff.mpr hm, by simp⟩
      rw [hnil] at this; cases this
  · obtain ⟨ys, hys⟩ := List.getLast?_eq_some_iff.mp hl
    have hz : z ∈ S.filter (fun c => c.2 = k) := by rw [hys]; simp
    obtain ⟨hz1, hz2⟩ := List.mem_filter.mp hz
    have hz2 : z.2 = k := by simpa using hz2
    have hmin : ∀ d', (d', k) ∈ s.slow → z.1 ≤ d' := by
      intro d' hm
      have hm' : (d', k) ∈ S.filter (fun c => c.2 = k) := List.mem_filter.mpr ⟨hperm.mem_iff.mpr hm, by simp⟩
      rw [hys] at hm' hf
      rcases List.mem_append.mp hm' with hh | hh
      · exact (List.pairwise_append.mp hf).2.2 _ hh z (by simp)
      · simp at hh; rw [← hh]; exact Int.le_refl _
    have hzs : (z.1, k) ∈ s.slow := by rw [← hz2]; exact hperm.mem_iff.mp hz1
    constructor
    · intro hh
      rw [hl] at hh
      have hh : z.1 = d := Option.some.inj hh
      rw [← hh]; exact ⟨hzs, hmin⟩
    · rintro ⟨hm, hd⟩
      have h1 := hmin d hm
      have h2 := hd z.1 hzs
      have : z.1 = d := by omega
      rw [hl, ← this]; rfl

/-- **Refuted**: "the report shows how slow the slowest calls were": of calls of the same method with the same arguments it shows the fastest. -/
theorem slow_calls_slowest_refuted (thr a b : Int) (ha : thr ≤ a) (hab : a < b) (k m : Nat) :
    ((CallStats.init thr).run [(m, (b, k)), (m, (a, k))]).slowCalls.get? k = some a ∧
    (b, k) ∈ slowHist thr [(m, (b, k)), (m, (a, k))] := by
  constructor
  · rw [slow_calls_report]
    have hs : ((CallStats.init thr).run [(m, (b, k)), (m, (a, k))]).slow = [(a, k), (b, k)] := by
      have hb : ¬ b < thr := by omega
      have ha' : ¬ a < thr := by omega
      simp [CallStats.run, CallStats.collect, CallStats.init, hb, ha']
    rw [hs]
    refine ⟨by simp, ?_⟩
    intro d' hd
    simp at hd; omega
  · simp [slowHist]; omega
example : (5 : Int) ≤ 7 ∧ (7 : Int) < 100 ∧ ((CallStats.init 5).run [(1, (100, 3)), (1, (7, 3))]).slowCalls = [(3, 7)] := by decide

/-! ## C44 call cycles -/

/-- The actors of the chain that are waiting for a reply when call number `i` is made: the
callees of the calls before it since the last call that did not wait. -/
def openCallers : List (TraceItem × Bool) → List TraceItem
  | [] => []
  | (r, w) :: before =>          -- newest first
    if w then openCallers before ++ [r] else [r]

/-- Warnings exactly for calls, waiting for the reply, to an actor already on the chain of
callers, in chains of any length with arbitrary tells in between. -/
theorem chain_warnings (calls : List (TraceItem × Bool)) (i : Nat) (r : TraceItem) (w : Bool)
    (hi : calls[i]? = some (r, w)) :
    (chain true none calls)[i]? = some (w && ((openCallers (calls.take i).reverse).any
      (fun c => c.uid == r.uid && c.address == r.address))) := by
  have gen : ∀ (calls before : List (TraceItem × Bool)) (var : Option (List TraceItem)) (i : Nat)
      (r : TraceItem) (w : Bool), var.getD [] = openCallers before → calls[i]? = some (r, w) →
      (chain true var calls)[i]? = some (w && ((openCallers ((calls.take i).reverse ++ before)).any
        (fun c => c.uid == r.uid && c.address == r.address))) := by
    intro calls
    induction calls with
    | nil => intro _ _ _ _ _ _ h; simp at h
    | cons c cs ih =>
      obtain ⟨r', w'⟩ := c
      intro before var i r w hv hi
      cases i with
      | zero =>
        simp at hi
        obtain ⟨rfl, rfl⟩ := hi
        simp only [chain, detectCycle]
        cases w' <;> simp [hv]
      | succ i =>
        simp at hi
        simp only [chain, List.getElem?_cons_succ, if_true]
        rw [ih ((r', w') :: before) _ i r w _ hi]
        · simp
        · simp only [detectCycle, recordTrace, openCallers]
          cases w' <;> simp [hv]
  simpa using gen calls [] none i r w rfl hi

/-- With the option off nothing is ever flagged. -/
theorem chain_off (calls : List (TraceItem × Bool)) (var) :
    ∀ b ∈ chain false var calls, b = false := by
  induction calls generalizing var with
  | nil => simp [chain]
  | cons c cs ih => 
    simp only [chain, detectCycle, List.mem_cons]
    rintro b (rfl | hb)
    · simp
    · exact ih _ b hb

example : chain true none [(⟨1, 1, 0⟩, true), (⟨2, 1, 0⟩, true), (⟨1, 1, 5⟩, true)]
    = [false, false, true] := by decide

end Xoscar.Stats
