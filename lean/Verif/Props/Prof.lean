import Verif.Proof.Prof
/-!
# C89: profiling data are kept per task and add up
-/
namespace Xoscar.Prof
open scoped List

/-! ## The invariant over all steps -/

theorem inv_same {st st' : St} (hi : Inv st) (h1 : st'.heap = st.heap) (h2 : st'.next = st.next) (h3 : st'.data = st.data) : Inv st' := by
  obtain ⟨a, b, c, d, e, f⟩ := hi
  refine ⟨?_, ?_, ?_, ?_, ?_, ?_⟩
  · rw [h1, h2]; exact a
  · rw [h1, h3]; exact b
  · rw [h1]; exact c
  · rw [h1]; exact d
  · rw [h1, h3]; exact e
  · rw [h3]; exact f

theorem initData_get (st : St) (t : Task) (x : Nat) : (initData st t).heap.get? x =
    if x = st.next then some (freshDict st.next)
    else if st.next < x ∧ x < st.next + 5 then some [] else st.heap.get? x := by
  simp only [initData, Dict.get?_set]
  grind

theorem fresh_edge {n : Nat} {k : Nat} {c : Nat} : (freshDict n).get? k = some (.dict c) ↔ k < 4 ∧ c = n + 1 + k := by
  rcases k with _ | _ | _ | _ | k
  all_goals simp [freshDict, Dict.get?]
  all_goals omega

theorem initData_edge {st : St} {t : Task} {o : Nat} {d : Dict Nat Val} {k : Nat} {c : Nat} (h : (initData st t).heap.get? o = some d)
    (hk : d.get? k = some (.dict c)) (hi : Inv st) :
    (o = st.next ∧ k < 4 ∧ c = st.next + 1 + k) ∨ (o < st.next ∧ c < st.next ∧ st.heap.get? o = some d) := by
  rw [initData_get] at h
  by_cases h1 : o = st.next
  · rw [if_pos h1] at h; injection h with h; subst h
    exact .inl ⟨h1, fresh_edge.mp hk⟩
  · rw [if_neg h1] at h
    by_cases h2 : st.next < o ∧ o < st.next + 5
    · rw [if_pos h2] at h; injection h with h; subst h; cases hk
    · rw [if_neg h2] at h
      exact .inr ⟨hi.bound o (by rw [h]; simp), hi.bound c (hi.child o d k c h hk), h⟩

theorem initData_old {st : St} {t : Task} {x : Nat} (hx : x < st.next) : (initData st t).heap.get? x = st.heap.get? x := by
  rw [initData_get, if_neg (by omega), if_neg (by omega)]

theorem inv_initData {st : St} (hi : Inv st) (t : Task) : Inv (initData st t) := by
  have hdata : ∀ t' o, (initData st t).data.get? t' = some o → (t' = t ∧ o = st.next) ∨ (t' ≠ t ∧ st.data.get? t' = some o) := by
    intro t' o h
    simp only [initData, Dict.get?_set] at h
    by_cases ht : t = t'
    · rw [if_pos ht] at h; injection h with h; exact .inl ⟨ht.symm, h.symm⟩
    · rw [if_neg ht] at h; exact .inr ⟨fun e => ht e.symm, h⟩
  have hlt : ∀ t' o, st.data.get? t' = some o → o < st.next := fun t' o h => hi.bound o (hi.root t' o h)
  refine ⟨?_, ?_, ?_, ?_, ?_, ?_⟩
  · intro o h
    rw [initData_get] at h
    show o < st.next + 5
    by_cases h1 : o = st.next
    · omega
    · rw [if_neg h1] at h
      by_cases h2 : st.next < o ∧ o < st.next + 5
      · omega
      · rw [if_neg h2] at h; have := hi.bound o h; omega
  · intro t' o h
    rcases hdata t' o h with ⟨_, rfl⟩ | ⟨_, h⟩
    · rw [initData_get, if_pos rfl]; simp
    · rw [initData_old (hlt t' o h)]; exact hi.root t' o h
  · intro o d k c h hk
    rcases initData_edge h hk hi with ⟨_, h4, rfl⟩ | ⟨_, hc, h'⟩
    · rw [initData_get, if_neg (by omega), if_pos (by omega)]; simp
    · rw [initData_old hc]; exact hi.child o d k c h' hk
  · intro o1 d1 k1 o2 d2 k2 c h1 g1 h2 g2
    rcases initData_edge h1 g1 hi with ⟨e1, _, e2⟩ | ⟨_, hc, a⟩
    · rcases initData_edge h2 g2 hi with ⟨f1, _, f2⟩ | ⟨_, hc, b⟩
      · exact ⟨by omega, by omega⟩
      · omega
    · rcases initData_edge h2 g2 hi with ⟨f1, _, f2⟩ | ⟨_, hc', b⟩
      · omega
      · exact hi.uniq _ _ _ _ _ _ c a g1 b g2
  · intro o d k c t' h hk hd
    rcases initData_edge h hk hi with ⟨_, _, hc⟩ | ⟨_, hc, a⟩
    · rcases hdata t' c hd with ⟨_, e⟩ | ⟨_, e⟩
      · omega
      · have := hlt t' c e; omega
    · rcases hdata t' c hd with ⟨_, e⟩ | ⟨_, e⟩
      · omega
      · exact hi.noRoot o d k c t' a hk e
  · intro t1 t2 o h1 h2
    rcases hdata t1 o h1 with ⟨e1, e2⟩ | ⟨_, e⟩
    · rcases hdata t2 o h2 with ⟨f1, _⟩ | ⟨_, f⟩
      · rw [e1, f1]
      · have := hlt t2 o f; omega
    · rcases hdata t2 o h2 with ⟨_, f2⟩ | ⟨_, f⟩
      · have := hlt t1 o e; omega
      · exact hi.roots t1 t2 o e f

/-- the state after the data of a task were taken out -/
theorem takeData_some {st : St} {t : Task} {o : Nat} (ho : st.data.get? t = some o) (most slow : Dict Nat Int) :
    takeData st t most slow = ({ st with
      heap := ((st.heap.set o ((((st.heap.get? o).getD []).set 2 (.dict st.next)).set 3 (.dict (st.next + 1)))).set st.next
                (most.map (fun x => (x.1, Val.num x.2)))).set (st.next + 1) (slow.map (fun x => (x.1, Val.num x.2))),
      next := st.next + 2, data := st.data.erase t }, some o) := by
  simp only [takeData, ho]

theorem map_get (m : Dict Nat Int) (k : Nat) : Dict.get? (m.map (fun x => (x.1, Val.num x.2))) k = (m.get? k).map Val.num := by
  induction m with
  | nil => rfl
  | cons x m ih =>
    obtain ⟨a, b⟩ := x
    simp only [List.map_cons, Dict.get?_cons, ih]
    by_cases h : a = k
    · rw [if_pos h, if_pos h]; rfl
    · rw [if_neg h, if_neg h]

theorem takeData_edge {st : St} (hi : Inv st) {t : Task} {o : Nat} (ho : st.data.get? t = some o) (most slow : Dict Nat Int)
    {d0 : Dict Nat Val} (hd0 : st.heap.get? o = some d0) {x : Nat} {d : Dict Nat Val} {k : Nat} {c : Nat}
    (h : (takeData st t most slow).1.heap.get? x = some d) (hk : d.get? k = some (.dict c)) :
    (x = o ∧ ((k = 2 ∧ c = st.next) ∨ (k = 3 ∧ c = st.next + 1) ∨ (k ≠ 2 ∧ k ≠ 3 ∧ d0.get? k = some (.dict c)))) ∨
    (x ≠ o ∧ st.heap.get? x = some d) := by
  have hlt := hi.bound o (hi.root t o ho)
  rw [takeData_some ho] at h
  simp only [Dict.get?_set, hd0, Option.getD_some] at h
  by_cases h1 : st.next + 1 = x
  · rw [if_pos h1] at h; injection h with h; subst h
    rw [map_get] at hk; rcases hg : slow.get? k with _ | y <;> rw [hg] at hk <;> cases hk
  · rw [if_neg h1] at h
    by_cases h2 : st.next = x
    · rw [if_pos h2] at h; injection h with h; subst h
      rw [map_get] at hk; rcases hg : most.get? k with _ | y <;> rw [hg] at hk <;> cases hk
    · rw [if_neg h2] at h
      by_cases h3 : o = x
      · rw [if_pos h3] at h; injection h with h; subst h
        left
        refine ⟨h3.symm, ?_⟩
        simp only [Dict.get?_set] at hk
        by_cases k3 : (3 : Nat) = k
        · rw [if_pos k3] at hk; injection hk with hk; injection hk with hk
          exact .inr (.inl ⟨k3.symm, hk.symm⟩)
        · rw [if_neg k3] at hk
          by_cases k2 : (2 : Nat) = k
          · rw [if_pos k2] at hk; injection hk with hk; injection hk with hk
            exact .inl ⟨k2.symm, hk.symm⟩
          · rw [if_neg k2] at hk
            exact .inr (.inr ⟨fun e => k2 e.symm, fun e => k3 e.symm, hk⟩)
      · rw [if_neg h3] at h
        exact .inr ⟨fun e => h3 e.symm, h⟩

theorem takeData_keep {st : St} {t : Task} {o : Nat} (ho : st.data.get? t = some o) (most slow : Dict Nat Int) {x : Nat}
    (hx : x < st.next) (hxo : x ≠ o) : (takeData st t most slow).1.heap.get? x = st.heap.get? x := by
  rw [takeData_some ho]
  simp only [Dict.get?_set]
  rw [if_neg (by omega), if_neg (by omega), if_neg (fun e => hxo e.symm)]

theorem inv_takeData {st : St} (hi : Inv st) (t : Task) (most slow : Dict Nat Int) : Inv (takeData st t most slow).1 := by
  rcases ho : st.data.get? t with _ | o
  · simp only [takeData, ho]; exact hi
  have hlt := hi.bound o (hi.root t o ho)
  rcases hd0 : st.heap.get? o with _ | d0
  · exact absurd hd0 (hi.root t o ho)
  have hdata : ∀ t' x, (takeData st t most slow).1.data.get? t' = some x → t' ≠ t ∧ st.data.get? t' = some x := by
    intro t' x h
    rw [takeData_some ho] at h
    simp only [Dict.get?_erase] at h
    by_cases ht : t = t'
    · rw [if_pos ht] at h; cases h
    · rw [if_neg ht] at h; exact ⟨fun e => ht e.symm, h⟩
  have hin : ∀ x, st.heap.get? x ≠ none → (takeData st t most slow).1.heap.get? x ≠ none := by
    intro x hx
    by_cases hxo : x = o
    · subst hxo; rw [takeData_some ho]; simp only [Dict.get?_set]
      rw [if_neg (by omega), if_neg (by omega)]; simp
    · rw [takeData_keep ho most slow (hi.bound x hx) hxo]; exact hx
  have hnew : (takeData st t most slow).1.heap.get? st.next ≠ none ∧ (takeData st t most slow).1.heap.get? (st.next + 1) ≠ none := by
    rw [takeData_some ho]; simp only [Dict.get?_set]
    constructor
    · rw [if_neg (by omega)]; simp
    · simp
  have old : ∀ x d k c, st.heap.get? x = some d → d.get? k = some (.dict c) → c < st.next :=
    fun x d k c h hk => hi.bound c (hi.child x d k c h hk)
  refine ⟨?_, ?_, ?_, ?_, ?_, ?_⟩
  · intro x hx
    have e : (takeData st t most slow).1.next = st.next + 2 := by rw [takeData_some ho]
    rw [e]
    rw [takeData_some ho] at hx
    simp only [Dict.get?_set] at hx
    by_cases h1 : st.next + 1 = x
    · omega
    · rw [if_neg h1] at hx
      by_cases h2 : st.next = x
      · omega
      · rw [if_neg h2] at hx
        by_cases h3 : o = x
        · omega
        · rw [if_neg h3] at hx; have := hi.bound x hx; omega
  · intro t' x h
    exact hin x (hi.root t' x (hdata t' x h).2)
  · intro x d k c h hk
    rcases takeData_edge hi ho most slow hd0 h hk with ⟨_, ⟨_, rfl⟩ | ⟨_, rfl⟩ | ⟨_, _, h'⟩⟩ | ⟨_, h'⟩
    · exact hnew.1
    · exact hnew.2
    · exact hin c (hi.child o d0 k c hd0 h')
    · exact hin c (hi.child x d k c h' hk)
  · intro o1 d1 k1 o2 d2 k2 c h1 g1 h2 g2
    rcases takeData_edge hi ho most slow hd0 h1 g1 with ⟨e1, a⟩ | ⟨e1, a⟩
    · rcases takeData_edge hi ho most slow hd0 h2 g2 with ⟨f1, b⟩ | ⟨f1, b⟩
      · refine ⟨e1.trans f1.symm, ?_⟩
        rcases a with ⟨_, _⟩ | ⟨_, _⟩ | ⟨_, _, a⟩ <;> rcases b with ⟨_, _⟩ | ⟨_, _⟩ | ⟨_, _, b⟩
        · omega
        · omega
        · have := old o d0 k2 c hd0 b; omega
        · omega
        · omega
        · have := old o d0 k2 c hd0 b; omega
        · have := old o d0 k1 c hd0 a; omega
        · have := old o d0 k1 c hd0 a; omega
        · exact (hi.uniq _ _ _ _ _ _ c hd0 a hd0 b).2
      · have hc := old o2 d2 k2 c b g2
        rcases a with ⟨_, _⟩ | ⟨_, _⟩ | ⟨_, _, a⟩
        · omega
        · omega
        · exact absurd (hi.uniq _ _ _ _ _ _ c hd0 a b g2).1.symm f1
    · have hc := old o1 d1 k1 c a g1
      rcases takeData_edge hi ho most slow hd0 h2 g2 with ⟨f1, b⟩ | ⟨f1, b⟩
      · rcases b with ⟨_, _⟩ | ⟨_, _⟩ | ⟨_, _, b⟩
        · omega
        · omega
        · exact absurd (hi.uniq _ _ _ _ _ _ c a g1 hd0 b).1 e1
      · exact hi.uniq _ _ _ _ _ _ c a g1 b g2
  · intro x d k c t' h hk hd
    obtain ⟨_, hd⟩ := hdata t' c hd
    have hc := hi.bound c (hi.root t' c hd)
    rcases takeData_edge hi ho most slow hd0 h hk with ⟨_, ⟨_, e⟩ | ⟨_, e⟩ | ⟨_, _, h'⟩⟩ | ⟨_, h'⟩
    · omega
    · omega
    · exact hi.noRoot o d0 k c t' hd0 h' hd
    · exact hi.noRoot x d k c t' h' hk hd
  · intro t1 t2 x h1 h2
    exact hi.roots t1 t2 x (hdata t1 x h1).2 (hdata t2 x h2).2

theorem stopLoop_same (st : St) (t : Task) :
    (stopLoop st t).heap = st.heap ∧ (stopLoop st t).next = st.next ∧ (stopLoop st t).data = st.data ∧ (stopLoop st t).logged = st.logged := by
  unfold stopLoop
  split
  · exact ⟨rfl, rfl, rfl, rfl⟩
  · exact ⟨rfl, rfl, rfl, rfl⟩

theorem inv_use {st : St} (hi : Inv st) (op : Operator) (u : Use) (hk : known st op = true) : Inv (used st (use st op u)) := by
  rcases op with _ | ⟨n | o⟩
  · exact hi
  · exact hi
  · simp only [known, Dict.has_iff] at hk
    rcases hd : st.heap.get? o with _ | d
    · rw [Dict.get?_eq_none_iff] at hd; exact absurd hk hd
    · rcases use_write hi hd u with ⟨h, _⟩ | ⟨k, v, _, h, _⟩
      · rw [h]; exact hi
      · exact h

theorem getItem_on {st : St} {t : Task} {path : List Nat} {w : Val} (h : getItem st t path = some (.on w)) :
    ∃ r, st.data.get? t = some r ∧ At st (.dict r) path w := by
  unfold getItem at h
  split at h
  · cases h
  · rename_i r hr
    exact ⟨r, hr, (follow_iff _ _ _ _).mp h⟩

theorem getItem_known {st : St} (hi : Inv st) {t : Task} {path : List Nat} {op : Operator} (h : getItem st t path = some op) : known st op = true := by
  rcases op with _ | ⟨n | o⟩
  · rfl
  · rfl
  · obtain ⟨r, hr, ha⟩ := getItem_on h
    simp only [known, Dict.has_iff]
    have := at_exists hi (hi.root t r hr) ha
    by_cases hm : o ∈ st.heap.keys
    · exact hm
    · exact absurd ((Dict.get?_eq_none_iff _ _).mpr hm) this

theorem inv_step {st st' : St} {l : Label} (hi : Inv st) (hs : step st l = some st') : Inv st' := by
  cases l with
  | init t o =>
    cases o <;> simp only [step] at hs <;> injection hs with hs <;> subst hs
    · exact hi
    · exact inv_initData hi t
    · exact inv_same (inv_initData hi t) rfl rfl rfl
  | pop t most slow =>
    simp only [step] at hs
    split at hs
    · injection hs with hs; subst hs
      obtain ⟨h1, h2, h3, _⟩ := stopLoop_same st t
      exact inv_takeData (inv_same hi h1 h2 h3) t most slow
    · cases hs
  | use t path u =>
    simp only [step] at hs
    split at hs
    · injection hs with hs; subst hs; exact hi
    · rename_i op h
      injection hs with hs; subst hs
      exact inv_use hi op u (getItem_known hi h)
  | held op u =>
    simp only [step] at hs
    split at hs
    · rename_i h; injection hs with hs; subst hs; exact inv_use hi op u h
    · cases hs
  | tick l =>
    simp only [step] at hs
    split at hs
    · split at hs <;> (injection hs with hs; subst hs; exact inv_same hi rfl rfl rfl)
    · cases hs
  | stop l =>
    simp only [step] at hs
    split at hs
    · injection hs with hs; subst hs; exact inv_same hi rfl rfl rfl
    · cases hs
  | callback l =>
    simp only [step] at hs
    split at hs
    · injection hs with hs; subst hs; exact inv_same hi rfl rfl rfl
    · cases hs

theorem inv_init : Inv init := by
  refine ⟨?_, ?_, ?_, ?_, ?_, ?_⟩ <;> simp [init]

theorem run_inv {ls : List Label} {s : St} (h : Run ls s) : Inv s := by
  induction h with
  | init => exact inv_init
  | snoc _ hs ih => exact inv_step ih hs

/-! ## What the data contain -/

theorem contains_same {st st' : St} {c : Content} (hc : Contains st c) (h1 : st'.heap = st.heap) (h2 : st'.data = st.data) : Contains st' c := by
  have hat : ∀ v q w, At st v q w → At st' v q w := by
    intro v q w h
    induction h with
    | here => exact .here
    | step a b _ ih => exact .step (by rw [h1]; exact a) b ih
  have hat' : ∀ v q w, At st' v q w → At st v q w := by
    intro v q w h
    induction h with
    | here => exact .here
    | step a b _ ih => exact .step (by rw [← h1]; exact a) b ih
  intro t
  have := hc t
  rcases hct : c t with _ | tree
  · rw [hct] at this; simpa [h2] using this
  · rw [hct] at this
    obtain ⟨o, ho, hs⟩ := this
    refine ⟨o, by rw [h2]; exact ho, fun q y => ?_⟩
    rw [hs q y]
    exact ⟨fun ⟨w, a, b⟩ => ⟨w, hat _ _ _ a, b⟩, fun ⟨w, a, b⟩ => ⟨w, hat' _ _ _ a, b⟩⟩

theorem shows_keep {st st' : St} (hi : Inv st) {r : Nat} (hr : st.heap.get? r ≠ none) {tree : Tree} (hs : Shows st r tree)
    (hk : ∀ q x, At st (.dict r) q (.dict x) → st'.heap.get? x = st.heap.get? x) : Shows st' r tree := by
  intro q y
  rw [hs q y]
  exact ⟨fun ⟨w, a, b⟩ => ⟨w, (same_at hi hr hk q w).mpr a, b⟩, fun ⟨w, a, b⟩ => ⟨w, (same_at hi hr hk q w).mp a, b⟩⟩

theorem contains_init {st : St} (hi : Inv st) {c : Content} (hc : Contains st c) (t : Task) :
    Contains (initData st t) (fun x => if x = t then some blank else c x) := by
  intro x
  by_cases hx : x = t
  · subst hx
    simp only [if_true]
    refine ⟨st.next, by simp [initData, Dict.get?_set], ?_⟩
    have hroot : (initData st x).heap.get? st.next = some (freshDict st.next) := by rw [initData_get, if_pos rfl]
    have hsub : ∀ k, k < 4 → (initData st x).heap.get? (st.next + 1 + k) = some [] := by
      intro k hk; rw [initData_get, if_neg (by omega), if_pos (by omega)]
    have hfd : ∀ k v, (freshDict st.next).get? k = some v ↔ k < 4 ∧ v = .dict (st.next + 1 + k) := by
      intro k v
      cases v with
      | dict c => rw [fresh_edge]; simp
      | num n =>
        constructor
        · intro h
          rcases k with _ | _ | _ | _ | k <;> simp [freshDict, Dict.get?] at h
        · rintro ⟨_, h⟩; cases h
    intro q y
    rcases q with _ | ⟨k, _ | ⟨j, q⟩⟩
    · constructor
      · intro h; simp only [blank] at h; injection h with h; subst h; exact ⟨_, .here, rfl⟩
      · rintro ⟨w, h, rfl⟩; cases h; rfl
    · simp only [blank]
      constructor
      · intro h
        by_cases hk : k < 4
        · rw [if_pos hk] at h; injection h with h; subst h
          exact ⟨_, .step hroot ((hfd k _).mpr ⟨hk, rfl⟩) .here, rfl⟩
        · rw [if_neg hk] at h; cases h
      · rintro ⟨w, h, rfl⟩
        cases h with
        | step h1 h2 h3 =>
          rw [hroot] at h1; injection h1 with h1; subst h1
          cases h3
          obtain ⟨hk, rfl⟩ := (hfd k _).mp h2
          rw [if_pos hk]; rfl
    · simp only [blank]
      constructor
      · intro h; cases h
      · rintro ⟨w, h, rfl⟩
        cases h with
        | step h1 h2 h3 =>
          rw [hroot] at h1; injection h1 with h1; subst h1
          obtain ⟨hk, rfl⟩ := (hfd k _).mp h2
          cases h3 with
          | step g1 g2 _ =>
            rw [hsub k hk] at g1; injection g1 with g1; subst g1; cases g2
  · simp only [if_neg hx]
    have hx' : ¬ t = x := fun e => hx e.symm
    have hcx := hc x
    rcases he : c x with _ | tree
    · rw [he] at hcx
      simp only [initData, Dict.get?_set, if_neg hx']
      exact hcx
    · rw [he] at hcx
      obtain ⟨r, h1, h2⟩ := hcx
      have hr := hi.root x r h1
      refine ⟨r, by simp only [initData, Dict.get?_set, if_neg hx']; exact h1, shows_keep hi hr h2 ?_⟩
      intro q y hy
      exact initData_old (hi.bound y (at_exists hi hr hy))

theorem contains_take {st : St} (hi : Inv st) {c : Content} (hc : Contains st c) (t : Task) (most slow : Dict Nat Int) :
    Contains (takeData st t most slow).1 (fun x => if x = t then none else c x) := by
  rcases ho : st.data.get? t with _ | o
  · have e : (takeData st t most slow).1 = st := by simp only [takeData, ho]
    rw [e]
    intro x
    by_cases hx : x = t
    · simp only [if_pos hx, hx]; exact ho
    · simp only [if_neg hx]; exact hc x
  · intro x
    by_cases hx : x = t
    · simp only [if_pos hx, hx, takeData_some ho, Dict.get?_erase, if_true]
    · simp only [if_neg hx]
      have hx' : ¬ t = x := fun e => hx e.symm
      have hcx := hc x
      rcases he : c x with _ | tree
      · rw [he] at hcx
        simp only [takeData_some ho, Dict.get?_erase, if_neg hx']
        exact hcx
      · rw [he] at hcx
        obtain ⟨r, h1, h2⟩ := hcx
        have hr := hi.root x r h1
        refine ⟨r, by simp only [takeData_some ho, Dict.get?_erase, if_neg hx']; exact h1, shows_keep hi hr h2 ?_⟩
        intro q y hy
        refine takeData_keep ho most slow (hi.bound y (at_exists hi hr hy)) ?_
        rintro rfl
        exact hx (at_uniq hi h1 ho hy .here).1

theorem put_same (c : Content) (t : Task) (f : Tree → Tree) (h : ∀ tree, c t = some tree → f tree = tree) :
    (fun x => if x = t then (c t).map f else c x) = c := by
  funext x
  by_cases hx : x = t
  · rw [if_pos hx, hx]
    rcases he : c t with _ | tree
    · rfl
    · rw [Option.map_some, h tree he]
  · rw [if_neg hx]

/-- a use of the dictionary at a place -/
theorem contains_use {st : St} (hi : Inv st) {c : Content} (hc : Contains st c) {t : Task} {r : Nat} (ht : st.data.get? t = some r) {p : List Nat}
    {o : Nat} (hp : At st (.dict r) p (.dict o)) (u : Use) :
    Contains (used st (use st (.on (.dict o)) u)) (fun x => if x = t then (c t).map (fun tree => tree.use p u) else c x) := by
  rcases hd : st.heap.get? o with _ | d
  · exact absurd hd (at_exists hi (hi.root t r ht) hp)
  -- the tree of the task
  have htree : ∀ tree, c t = some tree → tree p = some .dict ∧ ∀ k, tree (p ++ [k]) = (d.get? k).map leaf := by
    intro tree he
    have := hc t
    rw [he] at this
    obtain ⟨o', h1, h2⟩ := this
    rw [ht] at h1; injection h1 with h1; subst h1
    exact ⟨(h2 _ _).mpr ⟨_, hp, rfl⟩, tree_at h2 hp hd⟩
  have key : ∀ k v, Write st (used st (use st (.on (.dict o)) u)) o k v →
      (∀ tree, c t = some tree → tree.use p u = tree.put (p ++ [k]) (leaf v)) →
      Contains (used st (use st (.on (.dict o)) u)) (fun x => if x = t then (c t).map (fun tree => tree.use p u) else c x) := by
    intro k v hw he
    have := contains_write hw hi hc ht hp
    have hfun : (fun x => if x = t then (c t).map (fun tree => tree.use p u) else c x) =
        (fun x => if x = t then (c t).map (fun tree => tree.put (p ++ [k]) (leaf v)) else c x) := by
      funext x
      by_cases hx : x = t
      · rw [if_pos hx, if_pos hx]
        rcases hct : c t with _ | tree
        · rfl
        · rw [Option.map_some, Option.map_some, he tree hct]
      · rw [if_neg hx, if_neg hx]
    rw [hfun]; exact this
  rcases use_write hi hd u with ⟨h, hu⟩ | ⟨k, v, hw, _, hu⟩
  · rw [h, put_same]
    · exact hc
    · intro tree he
      obtain ⟨h1, h2⟩ := htree tree he
      rcases hu with ⟨k, a, c', rfl, hk⟩ | ⟨k, w, rfl, hk⟩
      · simp only [Tree.use, if_pos h1, h2, hk, Option.map_some, leaf]
      · simp only [Tree.use, if_pos h1, h2, hk, Option.map_some]
  · apply key k v hw
    intro tree he
    obtain ⟨h1, h2⟩ := htree tree he
    rcases hu with ⟨rfl, n, rfl⟩ | ⟨a, old, rfl, hk, rfl⟩ | ⟨a, rfl, hk, rfl⟩ | ⟨rfl, hk, rfl⟩
    · simp only [Tree.use, if_pos h1, leaf]
    · simp only [Tree.use, if_pos h1, h2, hk, Option.map_some, leaf]
    · simp only [Tree.use, if_pos h1, h2, hk, Option.map_none, leaf]
    · simp only [Tree.use, if_pos h1, h2, hk, Option.map_none, leaf]

theorem contains_step {st st' : St} {l : Label} (hi : Inv st) {c : Content} (hc : Contains st c) (hs : step st l = some st')
    (hh : ∀ op u, l ≠ .held op u) : Contains st' (expect c l) := by
  cases l with
  | init t o =>
    cases o <;> simp only [step] at hs <;> injection hs with hs <;> subst hs
    · exact hc
    · exact contains_init hi hc t
    · exact contains_same (contains_init hi hc t) rfl rfl
  | pop t most slow =>
    simp only [step] at hs
    split at hs
    · injection hs with hs; subst hs
      obtain ⟨h1, h2, h3, _⟩ := stopLoop_same st t
      exact contains_take (inv_same hi h1 h2 h3) (contains_same hc h1 h3) t most slow
    · cases hs
  | use t path u =>
    simp only [step] at hs
    -- nothing happens unless there is a dictionary
    have none_case : (∀ o, getItem st t path ≠ some (.on (.dict o))) → st' = st → Contains st' (expect c (.use t path u)) := by
      intro hn he
      subst he
      simp only [expect]
      rw [put_same]
      · exact hc
      · intro tree he
        have := hc t
        rw [he] at this
        obtain ⟨o, h1, h2⟩ := this
        have hne : tree path ≠ some .dict := by
          intro hd
          obtain ⟨w, hw, hl⟩ := (h2 _ _).mp hd
          cases w with
          | num n => cases hl
          | dict x =>
            apply hn x
            simp only [getItem, h1]
            exact (follow_iff _ _ _ _).mpr hw
        simp only [Tree.use, if_neg hne]
    rcases hg : getItem st t path with _ | op
    · rw [hg] at hs; injection hs with hs
      exact none_case (by rw [hg]; simp) hs.symm
    · rw [hg] at hs; injection hs with hs
      rcases op with _ | ⟨n | o⟩
      · exact none_case (by rw [hg]; simp) (by rw [← hs]; rfl)
      · exact none_case (by rw [hg]; simp) (by rw [← hs]; rfl)
      · obtain ⟨r, hr, ha⟩ := getItem_on hg
        rw [← hs]
        exact contains_use hi hc hr ha u
  | held op u => exact absurd rfl (hh op u)
  | tick l =>
    simp only [step] at hs
    split at hs
    · split at hs <;> (injection hs with hs; subst hs; exact contains_same hc rfl rfl)
    · cases hs
  | stop l =>
    simp only [step] at hs
    split at hs
    · injection hs with hs; subst hs; exact contains_same hc rfl rfl
    · cases hs
  | callback l =>
    simp only [step] at hs
    split at hs
    · injection hs with hs; subst hs; exact contains_same hc rfl rfl
    · cases hs

theorem expected_snoc (ls : List Label) (l : Label) : expected (ls ++ [l]) = expect (expected ls) l := by
  simp [expected]

/-- After any sequence of operations on any tasks the profiling data contain exactly what the operations should give: every task its own, four
empty dictionaries when initialised, numbers set and added up, nested dictionaries; and nothing for tasks that were popped or never
initialised. -/
theorem content_expected {ls : List Label} {s : St} (h : Run ls s) (hh : NoHeld ls) : Contains s (expected ls) := by
  induction h with
  | init => intro t; rfl
  | snoc h hs ih =>
    rename_i ls l s s'
    rw [expected_snoc]
    refine contains_step (run_inv h) (ih (fun op u hm => hh op u (List.mem_append.mpr (.inl hm)))) hs ?_
    intro op u he
    exact hh op u (by simp [he])

/-- An operator someone has kept acts at the one place of the one task where its dictionary is; and if that dictionary is in no task's data any
more (the task was popped or initialised again, or the dictionary was overwritten), it changes nothing in the data of any task. -/
theorem kept_operators {ls : List Label} {s s' : St} (h : Run ls s) {op : Operator} {u : Use} (hs : step s (.held op u) = some s') {c : Content}
    (hc : Contains s c) :
    (∃ t path, getItem s t path = some op ∧ (∀ t' path', getItem s t' path' = some op → (∃ o, op = .on (.dict o)) → t' = t ∧ path' = path) ∧
      Contains s' (expect c (.use t path u))) ∨
    ((∀ t path, getItem s t path = some op → op = .dummy ∨ ∃ n, op = .on (.num n)) ∧ Contains s' c) := by
  have hi := run_inv h
  simp only [step] at hs
  split at hs
  · rename_i hk
    injection hs with hs; subst hs
    rcases op with _ | ⟨n | o⟩
    · exact .inr ⟨fun _ _ _ => .inl rfl, hc⟩
    · exact .inr ⟨fun _ _ _ => .inr ⟨n, rfl⟩, hc⟩
    · by_cases hex : ∃ t r p, s.data.get? t = some r ∧ At s (.dict r) p (.dict o)
      · obtain ⟨t, r, p, hr, ha⟩ := hex
        refine .inl ⟨t, p, ?_, ?_, contains_use hi hc hr ha u⟩
        · simp only [getItem, hr]; exact (follow_iff _ _ _ _).mpr ha
        · intro t' p' hg _
          obtain ⟨r', hr', ha'⟩ := getItem_on hg
          exact at_uniq hi hr' hr ha' ha
      · refine .inr ⟨?_, ?_⟩
        · intro t p hg
          obtain ⟨r, hr, ha⟩ := getItem_on hg
          exact absurd ⟨t, r, p, hr, ha⟩ hex
        · simp only [known, Dict.has_iff] at hk
          rcases hd : s.heap.get? o with _ | d
          · rw [Dict.get?_eq_none_iff] at hd; exact absurd hk hd
          · rcases use_write hi hd u with ⟨he, _⟩ | ⟨k, v, hw, _, _⟩
            · rw [he]; exact hc
            · exact contains_away hw hi hc (fun t r q hr ha => hex ⟨t, r, q, hr, ha⟩)
  · cases hs

/-- `pop` gives the data of the task with the report of its calls, once: a task that is not profiled gives nothing, and after `pop` it is not. -/
theorem pop_returns {ls : List Label} {s : St} (h : Run ls s) (t : Task) (most slow : Dict Nat Int) {c : Content} (hc : Contains s c) :
    (match c t with
     | none => (pop s t most slow).2 = none
     | some tree => ∃ o, (pop s t most slow).2 = some o ∧ Shows (pop s t most slow).1 o (tree.withReport most slow)) ∧
    (pop s t most slow).1.data.get? t = none := by
  have hi0 := run_inv h
  obtain ⟨h1, h2, h3, _⟩ := stopLoop_same s t
  have hi := inv_same hi0 h1 h2 h3
  have hc' : Contains (stopLoop s t) c := contains_same hc h1 h3
  unfold pop
  generalize stopLoop s t = st at hi hc'
  have hct := hc' t
  rcases he : c t with _ | tree
  · rw [he] at hct
    have hct : st.data.get? t = none := hct
    simp only [takeData, hct]
    exact ⟨trivial, trivial⟩
  · rw [he] at hct
    obtain ⟨o, ho, hs⟩ := hct
    have hr := hi.root t o ho
    have hlt := hi.bound o hr
    refine ⟨⟨o, by rw [takeData_some ho], ?_⟩, by simp [takeData_some ho, Dict.get?_erase]⟩
    rcases hd0 : st.heap.get? o with _ | d0
    · exact absurd hd0 hr
    have hroot : (takeData st t most slow).1.heap.get? o = some ((d0.set 2 (.dict st.next)).set 3 (.dict (st.next + 1))) := by
      rw [takeData_some ho]; simp only [Dict.get?_set, hd0, Option.getD_some]
      rw [if_neg (by omega), if_neg (by omega), if_pos trivial]
    have hmost : (takeData st t most slow).1.heap.get? st.next = some (most.map (fun x => (x.1, Val.num x.2))) := by
      rw [takeData_some ho]; simp only [Dict.get?_set]
      rw [if_neg (by omega), if_pos trivial]
    have hslow : (takeData st t most slow).1.heap.get? (st.next + 1) = some (slow.map (fun x => (x.1, Val.num x.2))) := by
      rw [takeData_some ho]; simp only [Dict.get?_set, if_true]
    generalize hst' : (takeData st t most slow).1 = st' at hroot hmost hslow
    -- what is under a key of the dictionary taken out
    have under : ∀ k ks w, At st' (.dict o) (k :: ks) w ↔
        (k = 2 ∧ At st' (.dict st.next) ks w) ∨ (k = 3 ∧ At st' (.dict (st.next + 1)) ks w) ∨
        (k ≠ 2 ∧ k ≠ 3 ∧ At st (.dict o) (k :: ks) w) := by
      intro k ks w
      have hsub : ∀ v, d0.get? k = some v → (At st' v ks w ↔ At st v ks w) := by
        intro v hv
        cases v with
        | num n => constructor <;> (intro hh; cases hh; exact .here)
        | dict x =>
          apply same_at hi (hi.child o d0 k x hd0 hv)
          intro q y hy
          have hne := at_exists hi (hi.child o d0 k x hd0 hv) hy
          rw [← hst']
          apply takeData_keep ho most slow (hi.bound y hne)
          rintro rfl
          have hcyc : At st (.dict y) (k :: q) (.dict y) := .step hd0 hv hy
          have := (at_uniq hi ho ho hcyc .here).2
          cases this
      constructor
      · intro hh
        cases hh with
        | step g1 g2 g3 =>
          rw [hroot] at g1; injection g1 with g1; subst g1
          simp only [Dict.get?_set] at g2
          by_cases k3 : 3 = k
          · rw [if_pos k3] at g2; injection g2 with g2; subst g2
            exact .inr (.inl ⟨k3.symm, g3⟩)
          · rw [if_neg k3] at g2
            by_cases k2 : 2 = k
            · rw [if_pos k2] at g2; injection g2 with g2; subst g2
              exact .inl ⟨k2.symm, g3⟩
            · rw [if_neg k2] at g2
              exact .inr (.inr ⟨fun e => k2 e.symm, fun e => k3 e.symm, .step hd0 g2 ((hsub _ g2).mp g3)⟩)
      · rintro (⟨rfl, g⟩ | ⟨rfl, g⟩ | ⟨k2, k3, g⟩)
        · exact .step hroot (by simp [Dict.get?_set]) g
        · exact .step hroot (by simp [Dict.get?_set]) g
        · cases g with
          | step g1 g2 g3 =>
            rw [hd0] at g1; injection g1 with g1; subst g1
            refine .step hroot ?_ ((hsub _ g2).mpr g3)
            simp only [Dict.get?_set]
            rw [if_neg (fun e => k3 e.symm), if_neg (fun e => k2 e.symm)]; exact g2
    have report : ∀ (m : Dict Nat Int) (n : Nat), st'.heap.get? n = some (m.map (fun x => (x.1, Val.num x.2))) → ∀ ks y,
        ((match ks with | [] => some Leaf.dict | [k] => (m.get? k).map Leaf.num | _ => none) = some y ↔ ∃ w, At st' (.dict n) ks w ∧ leaf w = y) := by
      intro m n hm ks y
      rcases ks with _ | ⟨k, _ | ⟨j, ks⟩⟩
      · constructor
        · intro hh; injection hh with hh; exact ⟨_, .here, hh⟩
        · rintro ⟨w, hh, rfl⟩; cases hh; rfl
      · constructor
        · intro hh
          change (m.get? k).map Leaf.num = some y at hh
          rcases hk : m.get? k with _ | a
          · rw [hk] at hh; cases hh
          · rw [hk] at hh; injection hh with hh
            exact ⟨.num a, .step hm (by rw [map_get, hk]; rfl) .here, hh⟩
        · rintro ⟨w, hh, rfl⟩
          cases hh with
          | step g1 g2 g3 =>
            cases g3
            rw [hm] at g1; injection g1 with g1; subst g1
            rw [map_get] at g2
            rcases hk : m.get? k with _ | a
            · rw [hk] at g2; cases g2
            · rw [hk] at g2; injection g2 with g2; subst g2; simp [hk, leaf]
      · constructor
        · intro hh; cases hh
        · rintro ⟨w, hh, rfl⟩
          cases hh with
          | step g1 g2 g3 =>
            rw [hm] at g1; injection g1 with g1; subst g1
            rw [map_get] at g2
            rcases hk : m.get? k with _ | a
            · rw [hk] at g2; cases g2
            · rw [hk] at g2; injection g2 with g2; subst g2; cases g3
    intro q y
    rcases q with _ | ⟨k, ks⟩
    · show tree [] = some y ↔ _
      rw [hs [] y]
      constructor
      · rintro ⟨w, hh, e⟩; cases hh; exact ⟨_, .here, e⟩
      · rintro ⟨w, hh, e⟩; cases hh; exact ⟨_, .here, e⟩
    · by_cases k2 : k = 2
      · subst k2
        simp only [Tree.withReport]
        refine Iff.trans ?_ (Iff.trans (report most st.next hmost ks y) ?_)
        · rcases ks with _ | ⟨a, _ | ⟨b, ks⟩⟩ <;> exact Iff.rfl
        · constructor
          · rintro ⟨w, hh, e⟩; exact ⟨w, (under 2 ks w).mpr (.inl ⟨rfl, hh⟩), e⟩
          · rintro ⟨w, hh, e⟩
            rcases (under 2 ks w).mp hh with ⟨_, g⟩ | ⟨g, _⟩ | ⟨g, _⟩
            · exact ⟨w, g, e⟩
            · cases g
            · exact absurd rfl g
      · by_cases k3 : k = 3
        · subst k3
          simp only [Tree.withReport]
          refine Iff.trans ?_ (Iff.trans (report slow (st.next + 1) hslow ks y) ?_)
          · rcases ks with _ | ⟨a, _ | ⟨b, ks⟩⟩ <;> exact Iff.rfl
          · constructor
            · rintro ⟨w, hh, e⟩; exact ⟨w, (under 3 ks w).mpr (.inr (.inl ⟨rfl, hh⟩)), e⟩
            · rintro ⟨w, hh, e⟩
              rcases (under 3 ks w).mp hh with ⟨g, _⟩ | ⟨_, g⟩ | ⟨_, g, _⟩
              · cases g
              · exact ⟨w, g, e⟩
              · exact absurd rfl g
        · have e : tree.withReport most slow (k :: ks) = tree (k :: ks) := by
            unfold Tree.withReport
            split
            · rename_i hh; injection hh with hh; exact absurd hh k2
            · rename_i hh; injection hh with hh; exact absurd hh k3
            · rfl
          rw [e, hs (k :: ks) y]
          constructor
          · rintro ⟨w, hh, e⟩; exact ⟨w, (under k ks w).mpr (.inr (.inr ⟨k2, k3, hh⟩)), e⟩
          · rintro ⟨w, hh, e⟩
            rcases (under k ks w).mp hh with ⟨g, _⟩ | ⟨g, _⟩ | ⟨_, _, g⟩
            · exact absurd g k2
            · exact absurd g k3
            · exact ⟨w, g, e⟩

/-! ## Sums -/

theorem blank_adds (t : Task) (o : Options) (ho : o ≠ .invalid) (c : Content) (g k : Nat) (hg : g < 4) (ls : List Label)
    (h1 : ∀ o', Label.init t o' ∉ ls) (h2 : ∀ m s, Label.pop t m s ∉ ls)
    (h3 : ∀ path u, Label.use t path u ∈ ls → ∃ g' k' v, path = [g'] ∧ u = .inc k' v) :
    ∃ tree, (ls.foldl expect (expect c (.init t o))) t = some tree ∧ (∀ g', g' < 4 → tree [g'] = some .dict) ∧ (∀ g', 4 ≤ g' → tree [g'] = none) ∧
      (∀ g' k', tree [g', k'] ≠ some .dict) ∧
      tree [g, k] = if added t g k ls = [] then none else some (.num (added t g k ls).sum) := by
  induction ls using List.reverseRecOn' with
  | nil =>
    refine ⟨blank, ?_, ?_, ?_, ?_, ?_⟩
    · cases o with
      | invalid => exact absurd rfl ho
      | noDebug => simp [expect]
      | debug => simp [expect]
    · intro g' hg'; simp [blank, hg']
    · intro g' hg'; simp only [blank]; rw [if_neg (by omega)]
    · intro g' k'; simp [blank]
    · simp [blank, added]
  | append_singleton ls l ih =>
    obtain ⟨tree, e1, e2, e2', e3, e4⟩ := ih (fun o' hm => h1 o' (by simp [hm])) (fun m s hm => h2 m s (by simp [hm]))
      (fun path u hm => h3 path u (by simp [hm]))
    rw [List.foldl_append]
    have hadd : ∀ l', added t g k (ls ++ [l']) = added t g k ls ++ added t g k [l'] := by
      intro l'; simp only [added, List.filterMap_append]
    generalize hcc : List.foldl expect (expect c (.init t o)) ls = cc at e1
    have same : (∀ x, expect cc l t = x → x = some tree) → added t g k [l] = [] →
        ∃ tree, (List.foldl expect cc [l]) t = some tree ∧ (∀ g', g' < 4 → tree [g'] = some .dict) ∧
          (∀ g', 4 ≤ g' → tree [g'] = none) ∧ (∀ g' k', tree [g', k'] ≠ some .dict) ∧
          tree [g, k] = if added t g k (ls ++ [l]) = [] then none else some (.num (added t g k (ls ++ [l])).sum) := by
      intro hx ha
      refine ⟨tree, hx _ rfl, e2, e2', e3, ?_⟩
      rw [hadd l, ha, List.append_nil]; exact e4
    cases l with
    | init t' o' =>
      have hne : t' ≠ t := by rintro rfl; exact h1 o' (by simp)
      apply same _ rfl
      intro x hx
      cases o' <;> simp only [expect, if_neg (Ne.symm hne)] at hx <;> rw [← hx, e1]
    | pop t' m s =>
      have hne : t' ≠ t := by rintro rfl; exact h2 m s (by simp)
      apply same _ rfl
      intro x hx
      simp only [expect, if_neg (Ne.symm hne)] at hx
      rw [← hx, e1]
    | use t' path u =>
      by_cases ht : t' = t
      · subst ht
        obtain ⟨g', k', v, rfl, rfl⟩ := h3 path u (by simp)
        have hexp : (List.foldl expect cc [.use t' [g'] (.inc k' v)]) t' =
            some (tree.use [g'] (.inc k' v)) := by
          simp only [List.foldl_cons, List.foldl_nil, expect, if_true, e1, Option.map_some]
        by_cases hg' : g' < 4
        · have hd := e2 g' hg'
          -- the new value
          have hnew : ∃ n, tree.use [g'] (.inc k' v) = tree.put [g', k'] (.num n) ∧
              n = (match tree [g', k'] with | some (.num a) => a | _ => 0) + v := by
            simp only [Tree.use, if_pos hd, List.cons_append, List.nil_append]
            rcases hv : tree [g', k'] with _ | ⟨a⟩ | _
            · exact ⟨v, rfl, by simp⟩
            · exact ⟨a + v, rfl, rfl⟩
            · exact absurd hv (e3 g' k')
          obtain ⟨n, hn1, hn2⟩ := hnew
          refine ⟨tree.put [g', k'] (.num n), by rw [hexp, hn1], ?_, ?_, ?_, ?_⟩
          · intro a ha
            simp only [Tree.put]
            rw [if_neg (by simp), if_neg]
            · exact e2 a ha
            · intro hp; have := hp.length_le; simp at this
          · intro a ha
            simp only [Tree.put]
            rw [if_neg (by simp), if_neg]
            · exact e2' a ha
            · intro hp; have := hp.length_le; simp at this
          · intro a b
            simp only [Tree.put]
            split
            · simp
            · split
              · simp
              · exact e3 a b
          · rw [hadd]
            have ha1 : added t' g k [.use t' [g'] (.inc k' v)] = if g' = g ∧ k' = k then [v] else [] := by
              simp only [added, List.filterMap_cons, adds, List.filterMap_nil, true_and]
              split <;> rename_i h <;> split at h <;> simp_all
            rw [ha1]
            simp only [Tree.put]
            by_cases hm : g' = g ∧ k' = k
            · obtain ⟨rfl, rfl⟩ := hm
              simp only [and_self, if_true, List.append_eq_nil_iff, reduceCtorEq, and_false, if_false, List.sum_append,
                List.sum_cons, List.sum_nil]
              rw [hn2, e4]
              by_cases ha : added t' g' k' ls = []
              · rw [if_pos ha, ha]; simp
              · rw [if_neg ha]; simp
            · have hne : ¬ ([g, k] = [g', k']) := by
                intro he; apply hm; simp only [List.cons.injEq, and_true] at he; exact ⟨he.1.symm, he.2.symm⟩
              have hnp : ¬ ([g', k'] <+: [g, k]) := by
                intro hp
                exact hne (hp.eq_of_length (by simp)).symm
              rw [if_neg hne, if_neg hnp, if_neg hm, List.append_nil]
              exact e4
        · have hnd := e2' g' (by omega)
          have : tree.use [g'] (.inc k' v) = tree := by
            simp only [Tree.use, hnd, reduceCtorEq, if_false]
          refine ⟨tree, by rw [hexp, this], e2, e2', e3, ?_⟩
          rw [hadd]
          have hz : added t' g k [.use t' [g'] (.inc k' v)] = [] := by
            simp only [added, List.filterMap_cons, adds, List.filterMap_nil]
            rw [if_neg]
            rintro ⟨_, rfl, _⟩; exact hg' hg
          rw [hz, List.append_nil]; exact e4
      · apply same
        · intro x hx
          simp only [expect, if_neg (Ne.symm ht)] at hx
          rw [← hx, e1]
        · have : adds t g k (.use t' path u) = none := by
            unfold adds
            split
            · rename_i ha
              injection ha with ha1 _ _
              rw [if_neg (by rintro ⟨h, _⟩; exact ht (ha1.trans h))]
            · rfl
          simp only [added, List.filterMap_cons, this, List.filterMap_nil]
    | held op u => apply same (fun x hx => by rw [← hx]; simpa [expect] using e1) rfl
    | tick l => apply same (fun x hx => by rw [← hx]; simpa [expect] using e1) rfl
    | stop l => apply same (fun x hx => by rw [← hx]; simpa [expect] using e1) rfl
    | callback l => apply same (fun x hx => by rw [← hx]; simpa [expect] using e1) rfl

/-- Numbers added to a key of one of a task's dictionaries since it was initialised add up, whatever happens to other tasks in between. -/
theorem sums {ls1 ls2 : List Label} {t : Task} {o : Options} (ho : o ≠ .invalid) {s : St} (h : Run (ls1 ++ .init t o :: ls2) s)
    (hh : NoHeld (ls1 ++ .init t o :: ls2)) (g k : Nat) (hg : g < 4) (h1 : ∀ o', Label.init t o' ∉ ls2) (h2 : ∀ m s, Label.pop t m s ∉ ls2)
    (h3 : ∀ path u, Label.use t path u ∈ ls2 → ∃ g' k' v, path = [g'] ∧ u = .inc k' v) (ha : added t g k ls2 ≠ []) :
    getItem s t [g, k] = some (.on (.num (added t g k ls2).sum)) := by
  have hc := content_expected h hh
  obtain ⟨tree, e1, _, _, _, e4⟩ := blank_adds t o ho (expected ls1) g k hg ls2 h1 h2 h3
  have he : expected (ls1 ++ .init t o :: ls2) t = some tree := by
    simp only [expected, List.foldl_append, List.foldl_cons]; exact e1
  have := hc t
  rw [he] at this
  obtain ⟨r, hr, hs⟩ := this
  rw [if_neg ha] at e4
  obtain ⟨w, hw, hl⟩ := (hs _ _).mp e4
  cases w with
  | dict x => cases hl
  | num n =>
    simp only [leaf] at hl; injection hl with hl; subst hl
    simp only [getItem, hr]
    exact (follow_iff _ _ _ _).mpr hw

/-! ## Reading -/

/-- dictionaries have every key once -/
def Wfs (st : St) : Prop := ∀ o d, st.heap.get? o = some d → d.WF

theorem wf_map {m : Dict Nat Int} (h : m.keys.Nodup) : Dict.WF (m.map (fun x => (x.1, Val.num x.2))) := by
  have : Dict.keys (m.map (fun x => (x.1, Val.num x.2))) = m.keys := by simp [Dict.keys, Function.comp_def]
  unfold Dict.WF; rw [this]; exact h

theorem wfs_step {st st' : St} {l : Label} (hi : Inv st) (hw : Wfs st) (hs : step st l = some st') : Wfs st' := by
  have huse : ∀ op u, known st op = true → Wfs (used st (use st op u)) := by
    intro op u hk
    rcases op with _ | ⟨n | o⟩
    · exact hw
    · exact hw
    · simp only [known, Dict.has_iff] at hk
      rcases hd : st.heap.get? o with _ | d
      · rw [Dict.get?_eq_none_iff] at hd; exact absurd hk hd
      · rcases use_write hi hd u with ⟨h, _⟩ | ⟨k, v, h, _, _⟩
        · rw [h]; exact hw
        · intro x e hx
          obtain ⟨d', g1, g2⟩ := h.old
          by_cases hxo : x = o
          · subst hxo; rw [g2] at hx; injection hx with hx; subst hx; exact (hw x d' g1).set k v
          · by_cases hv : v = .dict x
            · rw [(h.fresh x hv).2.1] at hx; injection hx with hx; subst hx; exact Dict.WF.nil
            · rw [h.rest x hxo hv] at hx; exact hw x e hx
  have hinit : ∀ t, Wfs (initData st t) := by
    intro t o d h
    rw [initData_get] at h
    by_cases h1 : o = st.next
    · rw [if_pos h1] at h; injection h with h; subst h
      unfold Dict.WF; simp [freshDict, Dict.keys]
    · rw [if_neg h1] at h
      by_cases h2 : st.next < o ∧ o < st.next + 5
      · rw [if_pos h2] at h; injection h with h; subst h; exact Dict.WF.nil
      · rw [if_neg h2] at h; exact hw o d h
  cases l with
  | init t o =>
    cases o <;> simp only [step] at hs <;> injection hs with hs <;> subst hs
    · exact hw
    · exact hinit t
    · exact hinit t
  | pop t most slow =>
    simp only [step] at hs
    split at hs
    · rename_i hn
      injection hs with hs; subst hs
      obtain ⟨g1, g2, g3, _⟩ := stopLoop_same st t
      have hw1 : Wfs (stopLoop st t) := by unfold Wfs; rw [g1]; exact hw
      have hi1 := inv_same hi g1 g2 g3
      unfold pop
      generalize stopLoop st t = st at hw1 hi1
      rcases ho : st.data.get? t with _ | o
      · simp only [takeData, ho]; exact hw1
      · intro x e hx
        rw [takeData_some ho] at hx
        simp only [Dict.get?_set] at hx
        by_cases h1 : st.next + 1 = x
        · rw [if_pos h1] at hx; injection hx with hx; subst hx; exact wf_map hn.2
        · rw [if_neg h1] at hx
          by_cases h2 : st.next = x
          · rw [if_pos h2] at hx; injection hx with hx; subst hx; exact wf_map hn.1
          · rw [if_neg h2] at hx
            by_cases h3 : o = x
            · rw [if_pos h3] at hx; injection hx with hx; subst hx
              rcases hd : st.heap.get? o with _ | d
              · exact absurd hd (hi1.root t o ho)
              · exact ((hw1 o d hd).set _ _).set _ _
            · rw [if_neg h3] at hx; exact hw1 x e hx
    · cases hs
  | use t path u =>
    simp only [step] at hs
    split at hs
    · injection hs with hs; subst hs; exact hw
    · rename_i op h
      injection hs with hs; subst hs
      exact huse op u (getItem_known hi h)
  | held op u =>
    simp only [step] at hs
    split at hs
    · rename_i h; injection hs with hs; subst hs; exact huse op u h
    · cases hs
  | tick l =>
    simp only [step] at hs
    split at hs
    · split at hs <;> (injection hs with hs; subst hs; exact hw)
    · cases hs
  | stop l =>
    simp only [step] at hs
    split at hs
    · injection hs with hs; subst hs; exact hw
    · cases hs
  | callback l =>
    simp only [step] at hs
    split at hs
    · injection hs with hs; subst hs; exact hw
    · cases hs

theorem run_wfs {ls : List Label} {s : St} (h : Run ls s) : Wfs s := by
  induction h with
  | init => intro o d h; simp [init] at h
  | snoc h hs ih => exact wfs_step (run_inv h) ih hs

/-- Reading: `ProfilingData[task, *path]` finds what is there; the values of a dictionary found are what is at its keys, and it is empty if there
is nothing; where there is nothing one gets an operator without values; only going through a number raises. -/
theorem reads {ls : List Label} {s : St} (h : Run ls s) {c : Content} (hc : Contains s c) (t : Task) (path : List Nat) :
    match (c t).bind (fun tree => tree path) with
    | some (.num n) => getItem s t path = some (.on (.num n))
    | some .dict => ∃ op vs, getItem s t path = some op ∧ op ≠ .dummy ∧ values s op = some vs ∧ empty s op = some vs.isEmpty ∧
        ∀ x, x ∈ vs.map leaf ↔ ∃ k, (c t).bind (fun tree => tree (path ++ [k])) = some x
    | none => (getItem s t path = some .dummy ∧ values s .dummy = some [] ∧ empty s .dummy = some true) ∨
        (getItem s t path = none ∧ ∃ p n, p <+: path ∧ p ≠ path ∧ (c t).bind (fun tree => tree p) = some (.num n)) := by
  have hct := hc t
  rcases he : c t with _ | tree
  · rw [he] at hct
    have hct : s.data.get? t = none := hct
    exact .inl ⟨by simp only [getItem, hct], rfl, rfl⟩
  · rw [he] at hct
    obtain ⟨r, hr, hs⟩ := hct
    simp only [Option.bind_some]
    have hget : getItem s t path = follow s (.dict r) path := by simp only [getItem, hr]
    rcases hx : tree path with _ | ⟨n⟩ | _
    · rcases hf : follow s (.dict r) path with _ | op
      · refine .inr ⟨by rw [hget, hf], ?_⟩
        have gen : ∀ (q : List Nat) (v : Val), follow s v q = none → ∃ p n, p <+: q ∧ p ≠ q ∧ At s v p (.num n) := by
          intro q
          induction q with
          | nil => intro v hv; cases v <;> simp [follow] at hv
          | cons k ks ih =>
            intro v hv
            cases v with
            | num n => exact ⟨[], n, by simp, by simp, .here⟩
            | dict o =>
              simp only [follow] at hv
              rcases hg : s.heap.get? o with _ | d
              · rw [hg] at hv; simp at hv
              · rw [hg, Option.getD_some] at hv
                rcases hk : d.get? k with _ | v'
                · rw [hk] at hv; cases hv
                · rw [hk] at hv
                  obtain ⟨p, n, a, b, e⟩ := ih v' hv
                  exact ⟨k :: p, n, List.cons_prefix_cons.mpr ⟨rfl, a⟩, fun hh => b (by injection hh), .step hg hk e⟩
        obtain ⟨p, n, a, b, e⟩ := gen path _ hf
        exact ⟨p, n, a, b, (hs _ _).mpr ⟨_, e, rfl⟩⟩
      · rcases op with _ | w
        · exact .inl ⟨by rw [hget, hf], rfl, rfl⟩
        · have := (hs path (leaf w)).mpr ⟨w, (follow_iff _ _ _ _).mp hf, rfl⟩
          rw [hx] at this; cases this
    · obtain ⟨w, hw, hl⟩ := (hs _ _).mp hx
      cases w with
      | dict x => cases hl
      | num m =>
        simp only [leaf] at hl; injection hl with hl; subst hl
        simp only; rw [hget]; exact (follow_iff _ _ _ _).mpr hw
    · obtain ⟨w, hw, hl⟩ := (hs _ _).mp hx
      cases w with
      | num m => cases hl
      | dict x =>
        have hi := run_inv h
        rcases hd : s.heap.get? x with _ | d
        · exact absurd hd (at_exists hi (hi.root t r hr) hw)
        · refine ⟨.on (.dict x), d.vals, by rw [hget]; exact (follow_iff _ _ _ _).mpr hw, by simp, by simp only [values, hd, Option.getD_some],
            ?_, ?_⟩
          · simp only [empty, hd, Option.getD_some, Dict.vals, List.isEmpty_map]
          · intro y
            have hwf := run_wfs h x d hd
            simp only [tree_at hs hw hd, Dict.vals, List.map_map, List.mem_map, Option.map_eq_some_iff]
            constructor
            · rintro ⟨⟨k, v⟩, hm, hy⟩
              exact ⟨k, v, Dict.get?_of_mem hwf hm, hy⟩
            · rintro ⟨k, v, hk, hy⟩
              exact ⟨(k, v), Dict.mem_of_get? hk, hy⟩

/-- Going through a number raises. -/
theorem through_number {ls : List Label} {s : St} (_h : Run ls s) {c : Content} (hc : Contains s c) (t : Task) (path p : List Nat) (n : Int)
    (hp : p <+: path) (hne : p ≠ path) (hn : (c t).bind (fun tree => tree p) = some (.num n)) : getItem s t path = none := by
  have hct := hc t
  rcases he : c t with _ | tree
  · rw [he] at hn; cases hn
  · rw [he] at hct hn
    obtain ⟨r, hr, hs⟩ := hct
    obtain ⟨w, hw, hl⟩ := (hs _ _).mp hn
    cases w with
    | dict x => cases hl
    | num m =>
      have gen : ∀ (v w : Val) (p : List Nat), At s v p w → ∀ q, p <+: q → p ≠ q → w = .num m → follow s v q = none := by
        intro v w p ha
        induction ha with
        | here =>
          intro q _ hq hw
          subst hw
          cases q with
          | nil => exact absurd rfl hq
          | cons => rfl
        | step h1 h2 _ ih =>
          intro q hq hq' hw
          cases q with
          | nil => simp at hq
          | cons k ks =>
            obtain ⟨rfl, hq2⟩ := List.cons_prefix_cons.mp hq
            simp only [follow, h1, Option.getD_some, h2]
            exact ih ks hq2 (fun e => hq' (by rw [e])) hw
      simp only [getItem, hr]
      exact gen _ _ _ hw path hp hne rfl

/-- Using the operator of a dictionary: `set` succeeds, `inc` raises only for a dictionary, `nest` only for a number; and `nest` gives the operator
of the nested dictionary, new or not. -/
theorem use_gives {ls : List Label} {s : St} (h : Run ls s) {c : Content} (hc : Contains s c) {t : Task} {tree : Tree} (hct : c t = some tree)
    {path : List Nat} (hp : tree path = some .dict) :
    ∃ op, getItem s t path = some op ∧ (∀ k v, use s op (.set k v) ≠ none) ∧
      (∀ k v, use s op (.inc k v) = none ↔ tree (path ++ [k]) = some .dict) ∧
      ∀ k, (use s op (.nest k) = none ↔ ∃ n, tree (path ++ [k]) = some (.num n)) ∧
        ∀ s' op', use s op (.nest k) = some (s', op') → (∃ o, op' = .on (.dict o)) ∧ getItem s' t (path ++ [k]) = some op' := by
  have hi := run_inv h
  have ht := hc t
  rw [hct] at ht
  obtain ⟨r, hr, hs⟩ := ht
  obtain ⟨w, hw, hl⟩ := (hs _ _).mp hp
  cases w with
  | num n => cases hl
  | dict o =>
    rcases hd : s.heap.get? o with _ | d
    · exact absurd hd (at_exists hi (hi.root t r hr) hw)
    have hta := tree_at hs hw hd
    refine ⟨.on (.dict o), by simp only [getItem, hr]; exact (follow_iff _ _ _ _).mpr hw, fun k v => by simp [use], fun k v => ?_, fun k => ⟨?_, ?_⟩⟩
    · rw [hta]; simp only [use, hd, Option.getD_some]
      rcases d.get? k with _ | ⟨n | c⟩ <;> simp [leaf]
    · rw [hta]; simp only [use, hd, Option.getD_some]
      rcases d.get? k with _ | ⟨n | c⟩ <;> simp [leaf]
    · intro s' op' hu
      rcases use_write hi hd (.nest k) with ⟨hsame, hu'⟩ | ⟨k', v, hwr, _, hu'⟩
      · rcases hu' with ⟨_, _, _, e, _⟩ | ⟨k', w, e, hk⟩
        · cases e
        · injection e with e; subst e
          simp only [use, hd, Option.getD_some, hk] at hu
          cases w with
          | num n => cases hu
          | dict c =>
            injection hu with hu; injection hu with h1 h2; subst h1; subst h2
            exact ⟨⟨c, rfl⟩, by simp only [getItem, hr]; exact (follow_iff _ _ _ _).mpr (at_snoc.mpr ⟨o, d, hw, hd, hk⟩)⟩
      · rcases hu' with ⟨e, _⟩ | ⟨_, _, e, _⟩ | ⟨_, e, _⟩ | ⟨e, hk, hv⟩
        · cases e
        · cases e
        · cases e
        · injection e with e; subst e
          simp only [used, hu] at hwr
          simp only [use, hd, Option.getD_some, hk] at hu
          have ha := (write_at hwr hi (hi.root t r hr) hw (fun q hq => (at_uniq hi hr hr hq hw).2) (path ++ [k]) v).mpr (.inl ⟨rfl, rfl⟩)
          injection hu with hu; injection hu with h1 h2
          subst h2
          refine ⟨⟨_, rfl⟩, ?_⟩
          have hdat : s'.data.get? t = some r := by rw [hwr.data]; exact hr
          simp only [getItem, hdat]
          rw [hv] at ha
          exact (follow_iff _ _ _ _).mpr ha

/-- What `pop` gave is the dictionary itself: **refuted**: "the data given by `pop` stay as they are": an operator kept from before changes them. -/
theorem popped_changes_refuted (t : Task) (k : Nat) (v : Int) :
    ∃ ls s o op s', Run ls s ∧ s.data.get? t = none ∧ (∃ ls1, ls = ls1 ++ [.pop t [] []] ∧ ∃ s1, Run ls1 s1 ∧ (pop s1 t [] []).2 = some o) ∧
      step s (.held op (.set k v)) = some s' ∧ (∀ w, ¬ At s (.dict o) [0, k] w) ∧ At s' (.dict o) [0, k] (.num v) := by
  have hr1 : Run ([] ++ [.init t .noDebug]) (initData init t) := Run.snoc Run.init rfl
  have hr2 : Run (([] ++ [.init t .noDebug]) ++ [.pop t [] []]) (pop (initData init t) t [] []).1 := Run.snoc hr1 (by simp [step, Dict.keys])
  have ho : (initData init t).data.get? t = some 0 := by simp [initData, init]
  have hst : stopLoop (initData init t) t = initData init t := by simp [stopLoop, initData, init]
  have e : pop (initData init t) t [] [] = takeData (initData init t) t [] [] := by rw [pop, hst]
  have h0 : (pop (initData init t) t [] []).1.heap.get? 0 = some [(0, .dict 1), (1, .dict 2), (2, .dict 5), (3, .dict 6)] := by
    rw [e, takeData_some ho]; rfl
  have h1 : (pop (initData init t) t [] []).1.heap.get? 1 = some [] := by
    rw [e, takeData_some ho]; rfl
  generalize hs : (pop (initData init t) t [] []).1 = s at h0 h1 hr2
  refine ⟨_, s, 0, .on (.dict 1), { s with heap := s.heap.set 1 [(k, .num v)] }, hr2, ?_, ⟨_, rfl, _, hr1, ?_⟩, ?_, ?_, ?_⟩
  · rw [← hs, e, takeData_some ho]; simp
  · rw [e, takeData_some ho]
  · have hk : s.heap.has 1 = true := by
      rw [Dict.has_iff]
      by_cases hm : 1 ∈ s.heap.keys
      · exact hm
      · rw [(Dict.get?_eq_none_iff _ _).mpr hm] at h1; cases h1
    simp only [step, known, hk, if_true, use, used, h1, Option.getD_some, Dict.set]
  · intro w ha
    cases ha with
    | step g1 g2 g3 =>
      rw [h0] at g1; injection g1 with g1; subst g1
      simp [Dict.get?] at g2; subst g2
      cases g3 with
      | step f1 f2 f3 => rw [h1] at f1; injection f1 with f1; subst f1; cases f2
  · exact .step (d := [(0, .dict 1), (1, .dict 2), (2, .dict 5), (3, .dict 6)]) (v := .dict 1)
      (by simp [h0]) (by simp [Dict.get?]) (.step (d := [(k, .num v)]) (by simp) (by simp [Dict.get?]) .here)

/-! ## The debug loops -/

/-- A loop logs its own task, and only while it is profiled; nothing else logs. -/
theorem logs_profiled {s s' : St} {l : Label} (hs : step s l = some s') :
    s'.logged = s.logged ∨ ∃ n t, l = .tick n ∧ s.loops.get? n = some (t, .running) ∧ s.data.get? t ≠ none ∧ s'.logged = s.logged ++ [(n, t)] := by
  cases l with
  | init t o => cases o <;> simp only [step] at hs <;> injection hs with hs <;> subst hs <;> exact .inl rfl
  | pop t most slow =>
    simp only [step] at hs
    split at hs
    · injection hs with hs; subst hs
      left
      rw [pop]
      rcases ho : (stopLoop s t).data.get? t with _ | o
      · simp only [takeData, ho]; exact (stopLoop_same s t).2.2.2
      · rw [takeData_some ho]; exact (stopLoop_same s t).2.2.2
    · cases hs
  | use t path u =>
    simp only [step] at hs
    split at hs
    · injection hs with hs; subst hs; exact .inl rfl
    · rename_i op h
      injection hs with hs; subst hs
      left
      rcases op with _ | ⟨n | o⟩
      · rfl
      · rfl
      · cases u <;> simp only [use] <;> (try split) <;> rfl
  | held op u =>
    simp only [step] at hs
    split at hs
    · injection hs with hs; subst hs
      left
      rcases op with _ | ⟨n | o⟩
      · rfl
      · rfl
      · cases u <;> simp only [use] <;> (try split) <;> rfl
    · cases hs
  | tick n =>
    simp only [step] at hs
    split at hs
    · rename_i t hl
      split at hs
      · rename_i hd
        injection hs with hs; subst hs
        refine .inr ⟨n, t, rfl, hl, ?_, rfl⟩
        intro hn
        rw [Dict.get?_eq_none_iff] at hn
        exact hn ((Dict.has_iff _ _).mp hd)
      · injection hs with hs; subst hs; exact .inl rfl
    · cases hs
  | stop n =>
    simp only [step] at hs
    split at hs
    · injection hs with hs; subst hs; exact .inl rfl
    · cases hs
  | callback n =>
    simp only [step] at hs
    split at hs
    · injection hs with hs; subst hs; exact .inl rfl
    · cases hs

/-- A loop whose task is no longer profiled ends by itself the next time it runs. -/
theorem loop_ends {s : St} {n : Nat} {t : Task} (hl : s.loops.get? n = some (t, .running)) (hd : s.data.get? t = none) :
    ∃ s', step s (.tick n) = some s' ∧ s'.loops.get? n = some (t, .ended) ∧ s'.logged = s.logged := by
  have hh : s.data.has t = false := by simp [Dict.has, hd]
  exact ⟨{ s with loops := s.loops.set n (t, .ended) }, by simp only [step, hl, hh, Bool.false_eq_true, if_false], by simp, rfl⟩

theorem used_loops (st : St) (op : Operator) (u : Use) :
    (used st (use st op u)).loops = st.loops ∧ (used st (use st op u)).debug = st.debug ∧ (used st (use st op u)).nextLoop = st.nextLoop := by
  rcases op with _ | ⟨n | o⟩
  · exact ⟨rfl, rfl, rfl⟩
  · exact ⟨rfl, rfl, rfl⟩
  · cases u <;> simp only [use] <;> (try split) <;> exact ⟨rfl, rfl, rfl⟩

theorem take_loops (st : St) (t : Task) (most slow : Dict Nat Int) : (takeData st t most slow).1.loops = st.loops ∧
    (takeData st t most slow).1.debug = st.debug ∧ (takeData st t most slow).1.nextLoop = st.nextLoop := by
  rcases ho : st.data.get? t with _ | o
  · simp only [takeData, ho, and_self]
  · rw [takeData_some ho]; exact ⟨rfl, rfl, rfl⟩

/-- with care: one loop of a task at a time, and the table knows it while it runs -/
structure CInv (st : St) : Prop where
  new : ∀ n, st.loops.get? n ≠ none → n < st.nextLoop
  one : ∀ n m t a b, st.loops.get? n = some (t, a) → st.loops.get? m = some (t, b) → a ≠ .gone → b ≠ .gone → n = m
  known : ∀ n t, st.loops.get? n = some (t, .running) → st.debug.get? t = some n
  table : ∀ n t, st.debug.get? t = some n → ∃ a, st.loops.get? n = some (t, a) ∧ a ≠ .gone

attribute [local grind =] Dict.get?_set Dict.get?_erase in
theorem careful_inv {ls : List Label} {s : St} (h : Careful ls s) : CInv s := by
  induction h with
  | init => refine ⟨?_, ?_, ?_, ?_⟩ <;> simp [init]
  | snoc hp hs hc ih =>
    rename_i ls l s s'
    obtain ⟨i1, i2, i3, i4⟩ := ih
    have same : ∀ st' : St, st'.loops = s.loops → st'.debug = s.debug → st'.nextLoop = s.nextLoop → CInv st' := by
      intro st' e1 e2 e3
      refine ⟨?_, ?_, ?_, ?_⟩
      · rw [e1, e3]; exact i1
      · rw [e1]; exact i2
      · rw [e1, e2]; exact i3
      · rw [e1, e2]; exact i4
    cases l with
    | init t o =>
      have hal := hc t o rfl
      have hna : ∀ n a, s.loops.get? n = some (t, a) → a = .gone := by
        intro n a hn
        by_cases ha : a = .gone
        · exact ha
        · exact absurd ⟨n, a, hn, ha⟩ hal
      cases o <;> simp only [step] at hs <;> injection hs with hs <;> subst hs
      · exact same _ rfl rfl rfl
      · exact same _ rfl rfl rfl
      · have hfresh : s.loops.get? s.nextLoop = none := by
          rcases hg : s.loops.get? s.nextLoop with _ | _
          · rfl
          · have := i1 _ (by rw [hg]; simp); omega
        refine ⟨?_, ?_, ?_, ?_⟩
        · intro n hn
          simp only [startLoop, initData] at hn ⊢
          by_cases h : s.nextLoop = n
          · omega
          · rw [Dict.get?_set, if_neg h] at hn; have := i1 n hn; omega
        · simp only [startLoop, initData]; grind
        · simp only [startLoop, initData]; grind
        · simp only [startLoop, initData]
          intro n t' h
          rw [Dict.get?_set] at h
          by_cases ht : t = t'
          · rw [if_pos ht] at h; injection h with h; subst h; subst ht
            exact ⟨.running, by simp, by simp⟩
          · rw [if_neg ht] at h
            obtain ⟨a, ha, hg⟩ := i4 n t' h
            refine ⟨a, ?_, hg⟩
            rw [Dict.get?_set, if_neg (by rintro rfl; rw [hfresh] at ha; cases ha)]; exact ha
    | pop t most slow =>
      simp only [step] at hs
      split at hs
      · injection hs with hs; subst hs
        obtain ⟨e1, e2, e3⟩ := take_loops (stopLoop s t) t most slow
        have goal : CInv (stopLoop s t) := by
          unfold stopLoop
          rcases hd : s.debug.get? t with _ | n
          · exact ⟨i1, i2, i3, i4⟩
          · obtain ⟨a, ha, hag⟩ := i4 n t hd
            dsimp only
            rw [ha]
            cases a with
            | running => refine ⟨?_, ?_, ?_, ?_⟩ <;> dsimp only <;> grind
            | cancelled => refine ⟨?_, ?_, ?_, ?_⟩ <;> dsimp only <;> grind
            | ended => refine ⟨?_, ?_, ?_, ?_⟩ <;> dsimp only <;> grind
            | gone => exact absurd rfl hag
        obtain ⟨j1, j2, j3, j4⟩ := goal
        refine ⟨?_, ?_, ?_, ?_⟩
        · rw [pop, e1, e3]; exact j1
        · rw [pop, e1]; exact j2
        · rw [pop, e1, e2]; exact j3
        · rw [pop, e1, e2]; exact j4
      · cases hs
    | use t path u =>
      simp only [step] at hs
      split at hs
      · injection hs with hs; subst hs; exact same _ rfl rfl rfl
      · injection hs with hs; subst hs
        obtain ⟨e1, e2, e3⟩ := used_loops s _ u
        exact same _ e1 e2 e3
    | held op u =>
      simp only [step] at hs
      split at hs
      · injection hs with hs; subst hs
        obtain ⟨e1, e2, e3⟩ := used_loops s op u
        exact same _ e1 e2 e3
      · cases hs
    | tick n =>
      simp only [step] at hs
      split at hs
      · split at hs
        · injection hs with hs; subst hs; exact same _ rfl rfl rfl
        · injection hs with hs; subst hs
          refine ⟨?_, ?_, ?_, ?_⟩ <;> dsimp only <;> grind
      · cases hs
    | stop n =>
      simp only [step] at hs
      split at hs
      · injection hs with hs; subst hs
        refine ⟨?_, ?_, ?_, ?_⟩ <;> dsimp only <;> grind
      · cases hs
    | callback n =>
      simp only [step] at hs
      split at hs
      · injection hs with hs; subst hs
        refine ⟨?_, ?_, ?_, ?_⟩ <;> dsimp only <;> grind
      · cases hs

/-- With care (a task is initialised again only when nothing of its earlier loops is left) at most one loop logs a task at any time, and `pop` stops
it. -/
theorem one_logger_partial {ls : List Label} {s : St} (h : Careful ls s) (t : Task) :
    (∀ n m, s.loops.get? n = some (t, .running) → s.loops.get? m = some (t, .running) → n = m) ∧
    ∀ most slow n, (pop s t most slow).1.loops.get? n ≠ some (t, .running) := by
  have hi := careful_inv h
  refine ⟨fun n m hn hm => hi.one n m t _ _ hn hm (by simp) (by simp), ?_⟩
  intro most slow n hn
  rw [pop, (take_loops _ _ _ _).1] at hn
  unfold stopLoop at hn
  rcases hd : s.debug.get? t with _ | m
  · rw [hd] at hn
    have := hi.known n t hn
    rw [hd] at this; cases this
  · rw [hd] at hn
    dsimp only at hn
    obtain ⟨a, ha, _⟩ := hi.table m t hd
    rw [ha] at hn
    cases a with
    | running =>
      dsimp only at hn
      rw [Dict.get?_set] at hn
      by_cases hmn : m = n
      · rw [if_pos hmn] at hn; cases hn
      · rw [if_neg hmn] at hn
        exact hmn (by have := hi.known n t hn; rw [hd] at this; injection this)
    | cancelled =>
      have := hi.known n t hn
      rw [hd] at this; injection this with this; subst this
      rw [ha] at hn; cases hn
    | ended =>
      have := hi.known n t hn
      rw [hd] at this; injection this with this; subst this
      rw [ha] at hn; cases hn
    | gone =>
      have := hi.known n t hn
      rw [hd] at this; injection this with this; subst this
      rw [ha] at hn; cases hn

theorem run_of (ls0 ls : List Label) (s0 s : St) (h0 : Run ls0 s0) (h : ls.foldlM step s0 = some s) : Run (ls0 ++ ls) s := by
  induction ls generalizing ls0 s0 with
  | nil => simp only [List.foldlM_nil] at h; injection h with h; subst h; simpa using h0
  | cons a as ih =>
    simp only [List.foldlM_cons] at h
    rcases hl : step s0 a with _ | s1
    · rw [hl] at h; cases h
    · rw [hl] at h
      have := ih (ls0 ++ [a]) s1 (Run.snoc h0 hl) h
      simpa using this

/-- **Refuted**: "a profiled task is logged by one loop, and `pop` stops it", even if the task is initialised and popped in turn: the callback of
an earlier loop, late, takes the later loop out of the table; `pop` no longer finds it, and after the next `init` two loops log the task. -/
theorem two_loggers_refuted :
    ∃ ls s s2, InTurn 7 false ls ∧ Run ls s ∧ Run (ls ++ [.pop 7 [] []]) s2 ∧ s2.loops.get? 1 = some (7, .running) ∧
      ∃ ls' s', InTurn 7 false ls' ∧ Run ls' s' ∧ s'.logged = [(1, 7), (2, 7)] ∧ s'.data.get? 7 ≠ none :=
  ⟨[.init 7 .debug, .pop 7 [] [], .init 7 .debug, .stop 0, .callback 0], _, _, by simp [InTurn],
    run_of [] _ init _ Run.init rfl, run_of [] _ init _ Run.init rfl, rfl,
    [.init 7 .debug, .pop 7 [] [], .init 7 .debug, .stop 0, .callback 0, .pop 7 [] [], .init 7 .debug, .tick 1, .tick 2], _, by simp [InTurn],
    run_of [] _ init _ Run.init rfl, rfl, by decide⟩

/-! ## Concrete cases -/

def exOps : List Label :=
  [.init 1 .noDebug, .use 1 [0] (.inc 9 5), .init 2 .debug, .use 1 [0] (.nest 4), .use 2 [0] (.inc 9 100), .use 1 [0, 4] (.set 3 8),
   .use 1 [0] (.inc 9 2), .use 3 [0] (.inc 9 1), .tick 0, .use 1 [0, 9] (.set 1 1)]

example : ∃ s, Run exOps s ∧ NoHeld exOps ∧ getItem s 1 [0, 9] = some (.on (.num 7)) ∧ getItem s 2 [0, 9] = some (.on (.num 100)) ∧
    getItem s 1 [0, 4, 3] = some (.on (.num 8)) ∧ getItem s 3 [0] = some .dummy ∧ getItem s 1 [0, 9, 1] = none ∧ s.logged = [(0, 2)] :=
  ⟨_, run_of [] exOps init _ Run.init rfl, by intro op u h; simp [exOps] at h, rfl, rfl, rfl, rfl, rfl, rfl⟩
/-- the sum of what was added, with another task at work in between -/
example : added 1 0 9 [.use 1 [0] (.inc 9 5), .use 2 [0] (.inc 9 100), .use 1 [0] (.inc 9 2)] = [5, 2] := by decide
/-- a kept operator whose task was initialised again: its dictionary is nobody's -/
example : ∃ s, Run [.init 1 .noDebug, .init 1 .noDebug] s ∧ (step s (.held (.on (.dict 1)) (.set 3 8))).isSome = true ∧
    getItem s 1 [0] = some (.on (.dict 6)) := ⟨_, run_of [] _ init _ Run.init rfl, rfl, rfl⟩
/-- a careful history with two rounds -/
example : ∃ ls s, Careful ls s ∧ ls.length = 5 ∧ s.loops.get? 1 = some (7, .running) :=
  ⟨[.init 7 .debug, .pop 7 [] [], .stop 0, .callback 0, .init 7 .debug], _,
    .snoc (ls := [.init 7 .debug, .pop 7 [] [], .stop 0, .callback 0])
      (.snoc (ls := [.init 7 .debug, .pop 7 [] [], .stop 0]) (.snoc (ls := [.init 7 .debug, .pop 7 [] []])
        (.snoc (ls := [.init 7 .debug]) (.snoc (ls := []) .init rfl (by intro t o _ ⟨l, ph, h, _⟩; simp [init] at h)) rfl (by intro t o h; cases h))
        rfl (by intro t o h; cases h)) rfl (by intro t o h; cases h)) rfl
      (by
        intro t o h ⟨l, ph, hl, hg⟩
        have hm := Dict.mem_of_get? hl
        have hmem : (l, (t, ph)) ∈ [((0 : Nat), ((7 : Nat), Phase.gone))] := hm
        simp only [List.mem_singleton, Prod.mk.injEq] at hmem
        exact hg hmem.2.2), rfl, rfl⟩

end Xoscar.Prof
