import Verif.Spec.Create
import Verif.Props.Config
namespace Xoscar.Create
open Config

/-- the table of processes, in order -/
def tab (idx : Nat → Nat) (f : Nat → α) (n : Nat) : Dict Nat α := (List.range n).map (fun i => (idx i, f i))

theorem tab_keys (idx : Nat → Nat) (f : Nat → α) (n : Nat) : (tab idx f n).keys = (List.range n).map idx := by
  simp [tab, Dict.keys, List.map_map, Function.comp_def]

theorem tab_succ (idx : Nat → Nat) (f : Nat → α) (n : Nat) : tab idx f (n + 1) = tab idx f n ++ [(idx n, f n)] := by
  simp [tab, List.range_succ]

theorem tab_congr {idx : Nat → Nat} {f g : Nat → α} {n : Nat} (h : ∀ i, i < n → f i = g i) : tab idx f n = tab idx g n := by
  unfold tab
  apply List.map_congr_left
  intro i hi
  rw [h i (by simpa using hi)]

def InjTo (idx : Nat → Nat) (n : Nat) : Prop := ∀ i j, i < n → j < n → idx i = idx j → i = j

theorem tab_set_new {idx : Nat → Nat} {f : Nat → α} {n : Nat} (hi : InjTo idx (n + 1)) :
    (tab idx f n).set (idx n) (f n) = tab idx f (n + 1) := by
  rw [tab_succ, Dict.set_of_not_mem]
  rw [tab_keys]
  simp only [List.mem_map, List.mem_range, not_exists, not_and]
  intro i h e
  have := hi i n (by omega) (by omega) e
  omega

theorem set_append_left {α β} [DecidableEq α] (d e : Dict α β) (k : α) (v : β) (h : k ∈ Dict.keys d) :
    Dict.set (d ++ e) k v = Dict.set d k v ++ e := by
  induction d with
  | nil => simp [Dict.keys] at h
  | cons x xs ih =>
    obtain ⟨a, b⟩ := x
    simp only [List.cons_append, Dict.set]
    by_cases ha : a = k
    · simp [ha]
    · simp only [ha, if_false, List.cons_append]
      rw [ih (by simp [Dict.keys] at h ⊢; rcases h with h | h; exact absurd h.symm ha; exact h)]

theorem set_append_right {α β} [DecidableEq α] (d e : Dict α β) (k : α) (v : β) (h : k ∉ Dict.keys d) :
    Dict.set (d ++ e) k v = d ++ Dict.set e k v := by
  induction d with
  | nil => rfl
  | cons x xs ih =>
    obtain ⟨a, b⟩ := x
    simp only [Dict.keys, List.map_cons, List.mem_cons, not_or] at h
    simp only [List.cons_append, Dict.set]
    rw [if_neg (fun e => h.1 e.symm), ih h.2]

theorem tab_set {idx : Nat → Nat} {f : Nat → α} {n i : Nat} (hi : InjTo idx n) (h : i < n) (v : α) :
    (tab idx f n).set (idx i) v = tab idx (fun j => if j = i then v else f j) n := by
  induction n with
  | zero => omega
  | succ n ih =>
    have hin : InjTo idx n := fun a b ha hb => hi a b (by omega) (by omega)
    rw [tab_succ, tab_succ]
    by_cases e : i = n
    · subst e
      rw [set_append_right]
      · simp only [Dict.set, if_true]
        rw [tab_congr (g := fun j => if j = i then v else f j)]
        intro j hj
        rw [if_neg (by omega)]
      · rw [tab_keys]
        simp only [List.mem_map, List.mem_range, not_exists, not_and]
        intro j hj e
        have := hi j i (by omega) (by omega) e
        omega
    · rw [set_append_left, ih hin (by omega), if_neg (by omega)]
      rw [tab_keys]
      exact List.mem_map_of_mem (by simp; omega)

theorem tab_wf {idx : Nat → Nat} {f : Nat → α} {n : Nat} (hi : InjTo idx n) : (tab idx f n).WF := by
  rw [Dict.WF, tab_keys]
  rw [List.Nodup, List.pairwise_map]
  refine List.Pairwise.imp_of_mem ?_ List.nodup_range
  intro a b ha hb hne e
  exact hne (hi a b (by simpa using ha) (by simpa using hb) e)

theorem tab_get? {idx : Nat → Nat} {f : Nat → α} {n i : Nat} (hi : InjTo idx n) (h : i < n) :
    (tab idx f n).get? (idx i) = some (f i) := by
  apply Dict.get?_of_mem (tab_wf hi)
  exact List.mem_map.mpr ⟨i, by simpa using h, rfl⟩

theorem ext_tab (idx : Nat → Nat) (f : Nat → PoolConf) (n : Nat) (m : Dict Addr (Option Addr)) (g : Nat → Addr)
    (hf : ∀ i, i < n → (f i).external = [g i]) :
    externalAddresses ⟨tab idx f n, m⟩ none = (List.range n).map g := by
  simp only [externalAddresses, tab, List.filterMap_map]
  have : ∀ l : List Nat, (∀ i ∈ l, i < n) →
      l.filterMap ((fun e : Nat × PoolConf => match (none : Option String) with
        | none => e.2.external.head?
        | some x => if e.2.label = some x then e.2.external.head? else none) ∘ fun i => (idx i, f i)) = l.map g := by
    intro l
    induction l with
    | nil => simp
    | cons x xs ih =>
      intro h
      rw [List.map_cons, ← ih (fun i hi => h i (by simp [hi])), List.filterMap_cons]
      simp [hf x (h x (by simp))]
  exact this _ (by simp)

/-! ## The mapping while addresses are being replaced -/

structure World where
  n : Nat
  idx : Nat → Nat
  lab : Nat → Option String
  int : Nat → Option Addr
  ext : Nat → Addr
  bound : Nat → Addr
  idx_inj : InjTo idx n
  bound_inj : ∀ i j, i < n → j < n → bound i = bound j → i = j
  fresh : ∀ i j, i < n → j < n → bound i = ext j → i = j
  notUnix : ∀ i j, i < n → j < n → int i ≠ some (ext j)

def World.row (w : World) (done : Nat → Bool) (i : Nat) : PoolConf := ⟨w.lab i, w.int i, [if done i then w.bound i else w.ext i]⟩

structure Inv (w : World) (done : Nat → Bool) (c : Config) : Prop where
  pools : c.pools = tab w.idx (w.row done) w.n
  isDone : ∀ i, i < w.n → done i = true → c.mapping.get? (w.bound i) = some (w.int i)
  known : ∀ a, c.mapping.get? a ≠ none → (∃ i, i < w.n ∧ done i = true ∧ a = w.bound i) ∨ (∃ i, i < w.n ∧ done i = false ∧ a = w.ext i)
  concrete : ∀ i, i < w.n → done i = false → w.bound i = w.ext i → c.mapping.get? (w.ext i) = some (w.int i)

theorem reset_row (c : Config) (idx : Nat) (p : PoolConf) (old new : Addr) (hp : c.pools.get? idx = some p) (ho : p.external = [old])
    (hi : p.internal ≠ some old) :
    resetExternal c idx [new] = some ⟨c.pools.set idx { p with external := [new] }, (c.mapping.erase old).set new p.internal⟩ := by
  simp [resetExternal, hp, ho, dropOld, hi, setAll]

theorem Inv.reset {w : World} {done : Nat → Bool} {c : Config} (h : Inv w done c) {i : Nat} (hi : i < w.n) (hd : done i = false) :
    ∃ c', resetExternal c (w.idx i) [w.bound i] = some c' ∧ Inv w (fun j => if j = i then true else done j) c' := by
  have hp : c.pools.get? (w.idx i) = some (w.row done i) := by rw [h.pools]; exact tab_get? w.idx_inj hi
  have he : (w.row done i).external = [w.ext i] := by simp [World.row, hd]
  refine ⟨_, reset_row c (w.idx i) _ (w.ext i) (w.bound i) hp he (w.notUnix i i hi hi), ?_, ?_, ?_, ?_⟩
  · simp only [h.pools]
    rw [tab_set w.idx_inj hi]
    apply tab_congr
    intro j hj
    by_cases e : j = i
    · subst e; simp [World.row]
    · simp [World.row, e]
  · intro j hj hdj
    have e : (w.row done i).internal = w.int i := rfl
    simp only [Dict.get?_set, Dict.get?_erase, e]
    by_cases e : j = i
    · subst e; simp
    · have h1 : w.bound i ≠ w.bound j := fun h' => e (w.bound_inj i j hi hj h').symm
      have h2 : w.ext i ≠ w.bound j := fun h' => e (w.fresh j i hj hi h'.symm)
      simp only [e, if_false] at hdj
      simp [h1, h2, h.isDone j hj hdj]
  · intro a ha
    simp only [Dict.get?_set, Dict.get?_erase] at ha
    by_cases h1 : w.bound i = a
    · exact .inl ⟨i, hi, by simp, h1.symm⟩
    · by_cases h2 : w.ext i = a
      · simp [h1, h2] at ha
      · simp only [h1, h2, if_false] at ha
        rcases h.known a ha with ⟨j, hj, hdj, e⟩ | ⟨j, hj, hdj, e⟩
        · refine .inl ⟨j, hj, ?_, e⟩
          split
          · rfl
          · exact hdj
        · refine .inr ⟨j, hj, ?_, e⟩
          rw [if_neg]
          · exact hdj
          · rintro rfl; exact h2 e.symm
  · intro j hj hdj hb
    have hji : j ≠ i := by rintro rfl; simp at hdj
    simp only [hji, if_false] at hdj
    have h1 : w.bound i ≠ w.ext j := fun h' => hji (w.fresh i j hi hj h').symm
    have h2 : w.ext i ≠ w.ext j := fun h' => hji (w.fresh j i hj hi (hb.trans h'.symm))
    simp [h1, h2, h.concrete j hj hdj hb]

theorem Inv.resetAll {w : World} : ∀ (k s : Nat) (done : Nat → Bool) (c : Config), Inv w done c → s + k ≤ w.n →
    (∀ i, s ≤ i → i < w.n → done i = false) →
    ∃ c', Create.resetAll w.idx w.bound c (List.range' s k) = some c' ∧
      Inv w (fun j => if s ≤ j ∧ j < s + k then true else done j) c' := by
  intro k
  induction k with
  | zero =>
    intro s done c h _ _
    refine ⟨c, rfl, ?_⟩
    have : (fun j => if s ≤ j ∧ j < s + 0 then true else done j) = done := by
      funext j; rw [if_neg (by omega)]
    rw [this]; exact h
  | succ k ih =>
    intro s done c h hs hd
    obtain ⟨c1, hc1, h1⟩ := h.reset (i := s) (by omega) (hd s (Nat.le_refl _) (by omega))
    obtain ⟨c2, hc2, h2⟩ := ih (s + 1) _ c1 h1 (by omega) (by
      intro i hi hin
      rw [if_neg (by omega)]
      exact hd i (by omega) hin)
    refine ⟨c2, ?_, ?_⟩
    · simp only [List.range'_succ, Create.resetAll, hc1, hc2]
    · have : (fun j => if s ≤ j ∧ j < s + (k + 1) then true else done j) =
          (fun j => if s + 1 ≤ j ∧ j < s + 1 + k then true else if j = s then true else done j) := by
        funext j
        by_cases e : j = s
        · subst e; simp
        · by_cases e2 : s + 1 ≤ j ∧ j < s + 1 + k
          · rw [if_pos (by omega), if_pos e2]
          · rw [if_neg (by omega), if_neg e2, if_neg e]
      rw [this]; exact h2

/-- when every process has its address in the table -/
theorem Inv.final {w : World} {done : Nat → Bool} {c : Config} (h : Inv w done c)
    (hd : ∀ i, i < w.n → done i = true ∨ w.bound i = w.ext i) :
    c.pools = tab w.idx (fun i => ⟨w.lab i, w.int i, [w.bound i]⟩) w.n ∧
    ∀ a x, c.mapping.get? a = some x ↔ ∃ i, i < w.n ∧ a = w.bound i ∧ x = w.int i := by
  constructor
  · rw [h.pools]
    apply tab_congr
    intro i hi
    rcases hd i hi with e | e
    · simp [World.row, e]
    · simp [World.row, e]
  · have key : ∀ i, i < w.n → c.mapping.get? (w.bound i) = some (w.int i) := by
      intro i hi
      rcases hdi : done i with _ | _
      · rcases hd i hi with e | e
        · simp [hdi] at e
        · rw [e]; exact h.concrete i hi hdi e
      · exact h.isDone i hi hdi
    intro a x
    constructor
    · intro hx
      rcases h.known a (by simp [hx]) with ⟨i, hi, _, rfl⟩ | ⟨i, hi, hdi, rfl⟩
      · rw [key i hi] at hx; cases hx; exact ⟨i, hi, rfl, rfl⟩
      · rcases hd i hi with e | e
        · simp [hdi] at e
        · rw [← e, key i hi] at hx; cases hx; exact ⟨i, hi, e.symm, rfl⟩
    · rintro ⟨i, hi, rfl, rfl⟩; exact key i hi

/-! ## Adding the entries -/

/-- entries for the first `k` processes -/
structure Added (w : World) (k : Nat) (c : Config) : Prop where
  pools : c.pools = tab w.idx (w.row fun _ => false) k
  known : ∀ a, c.mapping.get? a ≠ none → ∃ i, i < k ∧ a = w.ext i
  concrete : ∀ i, i < k → w.bound i = w.ext i → c.mapping.get? (w.ext i) = some (w.int i)

theorem Added.step {w : World} {k : Nat} {c : Config} (h : Added w k c) (hk : k < w.n) :
    Added w (k + 1) (addPool c (w.idx k) ⟨w.lab k, w.int k, [w.ext k]⟩) := by
  refine ⟨?_, ?_, ?_⟩
  · simp only [addPool, h.pools]
    have : (⟨w.lab k, w.int k, [w.ext k]⟩ : PoolConf) = w.row (fun _ => false) k := rfl
    rw [this, tab_set_new (fun a b ha hb => w.idx_inj a b (by omega) (by omega))]
  · intro a ha
    simp only [addPool, setAll, List.foldl_cons, List.foldl_nil, Dict.get?_set] at ha
    by_cases e : w.ext k = a
    · exact ⟨k, by omega, e.symm⟩
    · simp only [e, if_false] at ha
      obtain ⟨i, hi, e⟩ := h.known a ha
      exact ⟨i, by omega, e⟩
  · intro i hi hb
    simp only [addPool, setAll, List.foldl_cons, List.foldl_nil, Dict.get?_set]
    by_cases e : i = k
    · subst e; simp
    · have : w.ext k ≠ w.ext i := fun h' => e (w.fresh i k (by omega) hk (hb.trans h'.symm))
      rw [if_neg this]
      exact h.concrete i (by omega) hb

theorem Added.inv {w : World} {c : Config} (h : Added w w.n c) : Inv w (fun _ => false) c where
  pools := h.pools
  isDone := by simp
  known a ha := by obtain ⟨i, hi, e⟩ := h.known a ha; exact .inr ⟨i, hi, rfl, e⟩
  concrete i hi _ hb := h.concrete i hi hb

theorem Same.refl (c : Config) : Same c c := ⟨rfl, fun _ => rfl⟩

theorem same_of_final {w : World} {d d' : Nat → Bool} {c c' : Config} (h : Inv w d c) (h' : Inv w d' c')
    (hd : ∀ i, i < w.n → d i = true ∨ w.bound i = w.ext i) (hd' : ∀ i, i < w.n → d' i = true ∨ w.bound i = w.ext i) : Same c c' := by
  refine ⟨(h.final hd).1.trans (h'.final hd').1.symm, fun a => ?_⟩
  apply Option.ext
  intro x
  rw [(h.final hd).2, (h'.final hd').2]

theorem attachAll_get? (l : List (Addr × Nat)) (d : Dict Addr Nat) (a : Addr) (hl : (l.map (·.1)).Nodup) (hd : ∀ x ∈ l, x.1 ∉ d.keys) (i : Nat) :
    (attachAll d l).get? a = some i ↔ (a, i) ∈ l ∨ d.get? a = some i := by
  induction l generalizing d with
  | nil => simp [attachAll]
  | cons x xs ih =>
    obtain ⟨k, v⟩ := x
    simp only [List.map_cons, List.nodup_cons] at hl
    rw [attachAll, ih (Dict.set d k v) hl.2]
    · simp only [Dict.get?_set, List.mem_cons, Prod.mk.injEq]
      by_cases e : k = a
      · subst e
        have hn := (Dict.get?_eq_none_iff d k).mpr (hd (k, v) (by simp))
        simp only [if_true, Option.some.injEq, hn]
        constructor
        · rintro (h | h)
          · exact .inl (.inr h)
          · exact .inl (.inl ⟨trivial, h.symm⟩)
        · rintro ((⟨_, h⟩ | h) | h)
          · exact .inr h.symm
          · exact .inl h
          · simp at h
      · have e' : ¬ a = k := fun h => e h.symm
        simp [e, e']
    · intro y hy
      rw [Dict.mem_keys_set]
      rintro (h | h)
      · exact hl.1 (List.mem_map.mpr ⟨y, hy, h⟩)
      · exact hd y (by simp [hy]) h

end Xoscar.Create
