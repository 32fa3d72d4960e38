import Verif.Proof.Create
/-!
# C59, C60: starting pools
-/
namespace Xoscar.Create
open Config

/-! ## C59: arguments -/

/-- **C59** (arguments): `create_actor_pool` goes on exactly if every list given has the right length and `auto_recover` is
one of the four values; True means "actor", internal addresses are on by default -/
theorem check_iff (a : Args) (flags : List Bool) (r : AutoRecover) :
    check a = .ok (flags, r) ↔ Accepted a ∧
      ((a.flags = [] ∧ flags = List.replicate (a.n + 1) true) ∨ (a.flags ≠ [] ∧ flags = a.flags)) ∧
      ((a.autoRecover = .true_ ∧ r = .actor) ∨ (a.autoRecover ≠ .true_ ∧ r = a.autoRecover)) := by
  have e : Accepted a ↔ (a.labels = [] ∨ a.labels.length = a.n + 1) ∧ (a.envs = [] ∨ a.envs.length = a.n) ∧
      (a.schemes = [] ∨ a.schemes.length = a.n + 1) ∧ (a.flags = [] ∨ a.flags.length = a.n + 1) ∧ a.autoRecover ≠ .other :=
    ⟨fun h => ⟨h.labels, h.envs, h.schemes, h.flags, h.recover⟩, fun h => ⟨h.1, h.2.1, h.2.2.1, h.2.2.2.1, h.2.2.2.2⟩⟩
  rw [e]
  unfold check
  by_cases h1 : a.labels ≠ [] ∧ a.labels.length ≠ a.n + 1
  · rw [if_pos h1]
    simp only [reduceCtorEq, false_iff]
    rintro ⟨⟨h, _⟩, _⟩
    rcases h with h | h
    · exact h1.1 h
    · exact h1.2 h
  rw [if_neg h1]
  by_cases h2 : a.envs ≠ [] ∧ a.envs.length ≠ a.n
  · rw [if_pos h2]
    simp only [reduceCtorEq, false_iff]
    rintro ⟨⟨_, h, _⟩, _⟩
    rcases h with h | h
    · exact h2.1 h
    · exact h2.2 h
  rw [if_neg h2]
  by_cases h3 : a.schemes ≠ [] ∧ a.schemes.length ≠ a.n + 1
  · rw [if_pos h3]
    simp only [reduceCtorEq, false_iff]
    rintro ⟨⟨_, _, h, _⟩, _⟩
    rcases h with h | h
    · exact h3.1 h
    · exact h3.2 h
  rw [if_neg h3]
  by_cases h4 : a.flags ≠ [] ∧ a.flags.length ≠ a.n + 1
  · rw [if_pos h4]
    simp only [reduceCtorEq, false_iff]
    rintro ⟨⟨_, _, _, h, _⟩, _⟩
    rcases h with h | h
    · exact h4.1 h
    · exact h4.2 h
  rw [if_neg h4]
  have g1 : a.labels = [] ∨ a.labels.length = a.n + 1 := by
    by_cases h : a.labels = []; exact .inl h; exact .inr (Classical.byContradiction fun h' => h1 ⟨h, h'⟩)
  have g2 : a.envs = [] ∨ a.envs.length = a.n := by
    by_cases h : a.envs = []; exact .inl h; exact .inr (Classical.byContradiction fun h' => h2 ⟨h, h'⟩)
  have g3 : a.schemes = [] ∨ a.schemes.length = a.n + 1 := by
    by_cases h : a.schemes = []; exact .inl h; exact .inr (Classical.byContradiction fun h' => h3 ⟨h, h'⟩)
  have g4 : a.flags = [] ∨ a.flags.length = a.n + 1 := by
    by_cases h : a.flags = []; exact .inl h; exact .inr (Classical.byContradiction fun h' => h4 ⟨h, h'⟩)
  by_cases hf : a.flags = [] <;> rcases hr : a.autoRecover with _ | _ | _ | _ | _ <;>
    (try have g4' := g4.resolve_left hf) <;> simp only [g1, g2, g3, hf] <;>
    simp_all [eq_comm] <;> grind

/-- whatever is not accepted is refused with ValueError, before anything is started -/
theorem check_error (a : Args) (e : Err) : check a = .error e → e = .valueError ∧ ¬ Accepted a := by
  intro h
  have : ¬ Accepted a := by
    intro hacc
    have := (check_iff a (if a.flags = [] then List.replicate (a.n + 1) true else a.flags)
      (if a.autoRecover = .true_ then .actor else a.autoRecover)).mpr ⟨hacc, by split <;> simp_all, by split <;> simp_all⟩
    rw [h] at this
    simp at this
  refine ⟨?_, this⟩
  unfold check at h
  repeat' (first | (cases h; done) | split at h)
  all_goals first | (cases h; rfl) | cases h

theorem not_accepted (a : Args) (exts : List Addr) (idx : Nat → Nat) (bound : Nat → Addr) (h : ¬ Accepted a) :
    create a exts idx bound = .error .valueError := by
  unfold create
  rcases hc : check a with e | ⟨flags, r⟩
  · simp only; rw [(check_error a e hc).1]
  · exact absurd ((check_iff a flags r).mp hc).1 h

/-! ## C59: the pool that results -/

def mkWorld (a : Args) (flags : List Bool) (exts : List Addr) (idx : Nat → Nat) (bound : Nat → Addr)
    (h : Real a.n exts idx bound) : World where
  n := a.n + 1
  idx := idx
  lab := labelOf a
  int i := if (flags[i]?).getD true then some (internalAddress (idx i)) else none
  ext i := (exts[i]?).getD ""
  bound := bound
  idx_inj i j hi hj := h.idx_inj i j (by omega) (by omega)
  bound_inj i j hi hj := h.bound_inj i j (by omega) (by omega)
  fresh i j hi hj e := by
    have := h.len
    have hj' : j < exts.length := by omega
    refine h.fresh i j (by omega) hj' ?_
    simpa [List.getElem?_eq_getElem hj'] using e
  notUnix i j hi hj := by
    have := h.len
    have hj' : j < exts.length := by omega
    have := h.notUnix i j (by omega) hj'
    split
    · simp only [List.getElem?_eq_getElem hj', Option.getD_some, ne_eq, Option.some.injEq]
      exact fun e => this e.symm
    · simp

theorem addAll_added {a : Args} {flags : List Bool} {exts : List Addr} {idx : Nat → Nat} {bound : Nat → Addr}
    (h : Real a.n exts idx bound) (es : List Addr) (i : Nat) (c : Full)
    (hc : Added (mkWorld a flags exts idx bound h) i c.conf) (he : c.env = tab idx (envOf a) i)
    (hes : es = exts.drop i) :
    Added (mkWorld a flags exts idx bound h) (i + es.length) (addAll a flags idx c i es).conf ∧
      (addAll a flags idx c i es).env = tab idx (envOf a) (i + es.length) := by
  induction es generalizing i c with
  | nil => exact ⟨hc, he⟩
  | cons e es ih =>
    have hl := h.len
    have hi : i < exts.length := by
      have := congrArg List.length hes
      simp at this; omega
    rw [List.drop_eq_getElem_cons hi] at hes
    obtain ⟨rfl, rfl⟩ := List.cons.inj hes
    have := ih (i + 1) (addOne a flags idx c i exts[i]) (by
        have := hc.step (show i < a.n + 1 by omega)
        simp only [mkWorld, List.getElem?_eq_getElem hi, Option.getD_some] at this
        exact this) (by
        simp only [addOne, he]
        exact tab_set_new (fun x y hx hy => h.idx_inj x y (by omega) (by omega))) rfl
    simp only [addAll, List.length_cons]
    rw [show i + ((exts.drop (i + 1)).length + 1) = i + 1 + (exts.drop (i + 1)).length by omega]
    exact this

theorem subConfs_mem {c : Config} {idx : Nat → Nat} {bound : Nat → Addr} {l : List Nat} {x : Nat × Config}
    (h : x ∈ subConfs c idx bound l) : ∃ i ∈ l, x = (idx i, (update c (idx i) (bound i)).getD c) := by
  induction l with
  | nil => simp [subConfs] at h
  | cons i is ih =>
    rcases List.mem_cons.mp h with rfl | h
    · exact ⟨i, by simp, rfl⟩
    · obtain ⟨j, hj, e⟩ := ih h; exact ⟨j, by simp [hj], e⟩

theorem subConfs_keys (c : Config) (idx : Nat → Nat) (bound : Nat → Addr) (l : List Nat) :
    (subConfs c idx bound l).keys = l.map idx := by
  induction l with
  | nil => rfl
  | cons i is ih => simp [subConfs, Dict.keys] at *; exact ih

/-- **C59**: when the processes start, the configuration has one entry per process, in order, with the label, environment,
internal address asked for and the address it really listens on; addresses lead to internal addresses exactly as in those
entries; the main pool has every sub process under its address; and all sub pools have the same configuration as the
main pool — although several of them may have been asked for the same address with port 0 -/
theorem created {a : Args} {exts : List Addr} {idx : Nat → Nat} {bound : Nat → Addr}
    (ha : Accepted a) (h : Real a.n exts idx bound) :
    ∃ m, create a exts idx bound = .ok m ∧
      processIndexes m.conf = (List.range (a.n + 1)).map idx ∧
      (∀ i, i ≤ a.n → ∃ l x, m.conf.pools.get? (idx i) = some ⟨l, x, [bound i]⟩ ∧ Label_ a i l ∧ Internal a idx i x) ∧
      (∀ addr x, m.conf.mapping.get? addr = some x ↔ ∃ i, i ≤ a.n ∧ addr = bound i ∧ Internal a idx i x) ∧
      (∀ i, i ≤ a.n → ∃ e, m.env.get? (idx i) = some e ∧ Env_ a i e) ∧
      (∀ addr i, m.processes.get? addr = some i ↔ 1 ≤ i ∧ i ≤ a.n ∧ addr = bound i) ∧
      m.subs.keys = (List.range' 1 a.n).map idx ∧ (∀ k c, (k, c) ∈ m.subs → Same c m.conf) := by
  obtain ⟨flags, r, hc⟩ : ∃ flags r, check a = .ok (flags, r) := by
    refine ⟨if a.flags = [] then List.replicate (a.n + 1) true else a.flags,
      if a.autoRecover = .true_ then .actor else a.autoRecover, (check_iff a _ _).mpr ⟨ha, ?_, ?_⟩⟩ <;> split <;> simp_all
  have hflags := ((check_iff a flags r).mp hc).2.1
  obtain ⟨hadd, henv⟩ := addAll_added (flags := flags) h exts 0 ⟨empty, []⟩
    ⟨rfl, by simp [empty], by simp⟩ rfl (by simp)
  simp only [Nat.zero_add, h.len] at hadd henv
  generalize hfull : addAll a flags idx ⟨empty, []⟩ 0 exts = full at hadd henv
  generalize hw : mkWorld a flags exts idx bound h = w at hadd
  have wn : w.n = a.n + 1 := by subst hw; rfl
  have wi : w.idx = idx := by subst hw; rfl
  have wb : w.bound = bound := by subst hw; rfl
  have wl : w.lab = labelOf a := by subst hw; rfl
  have wx : w.int = fun i => if (flags[i]?).getD true then some (internalAddress (idx i)) else none := by subst hw; rfl
  have hinv : Inv w (fun _ => false) full.conf := by rw [← wn] at hadd; exact hadd.inv
  -- the addresses of the sub pools
  obtain ⟨c1, hr1, hi1⟩ := Inv.resetAll a.n 1 _ _ hinv (by omega) (fun _ _ _ => rfl)
  rw [wi, wb] at hr1
  -- the main pool's own address
  have hrow0 : c1.pools.get? (idx 0) = some (w.row (fun j => if 1 ≤ j ∧ j < 1 + a.n then true else false) 0) := by
    rw [hi1.pools, wi, ← wi]; exact tab_get? w.idx_inj (by omega)
  obtain ⟨c2, d2, hu, hi2, hd2⟩ : ∃ c2 d2, update c1 (idx 0) (bound 0) = some c2 ∧ Inv w d2 c2 ∧
      ∀ i, i < w.n → d2 i = true ∨ w.bound i = w.ext i := by
    unfold update
    simp only [hrow0]
    by_cases e : (w.row (fun j => if 1 ≤ j ∧ j < 1 + a.n then true else false) 0).external = [bound 0]
    · refine ⟨c1, _, by rw [if_pos e], hi1, ?_⟩
      intro i hi
      by_cases h0 : i = 0
      · subst h0
        right
        simp only [World.row] at e
        rw [if_neg (by simp)] at e
        rw [wb]; exact (List.cons.inj e).1.symm
      · left; rw [if_pos (by omega)]
    · obtain ⟨c2, hc2, hi2⟩ := hi1.reset (i := 0) (by omega) (by simp)
      rw [wi, wb] at hc2
      refine ⟨c2, _, by rw [if_neg e]; exact hc2, hi2, ?_⟩
      intro i hi
      left
      by_cases h0 : i = 0
      · simp [h0]
      · rw [if_neg h0, if_pos (by omega)]
  obtain ⟨hpools, hmap⟩ := hi2.final hd2
  rw [wn, wi, wb] at hpools
  have hnow : externalAddresses c2 none = (List.range (a.n + 1)).map bound := by
    have := ext_tab idx (fun i => ⟨w.lab i, w.int i, [bound i]⟩) (a.n + 1) c2.mapping bound (fun _ _ => rfl)
    rw [← hpools] at this; exact this
  have hold : externalAddresses full.conf none = (List.range (a.n + 1)).map w.ext := by
    have hp := hinv.pools
    rw [wn, wi] at hp
    have := ext_tab idx (w.row fun _ => false) (a.n + 1) full.conf.mapping w.ext (fun _ _ => rfl)
    rw [← hp] at this; exact this
  -- spelled out
  have hlab : ∀ i, i ≤ a.n → Label_ a i (w.lab i) := by
    intro i hi
    rw [wl]
    rcases ha.labels with e | e
    · exact .inl ⟨e, by simp [labelOf, e]⟩
    · right
      simp [labelOf, List.getElem?_eq_getElem (show i < a.labels.length by omega)]
  have hint : ∀ i, i ≤ a.n → ∀ x, Internal a idx i x ↔ x = w.int i := by
    intro i hi x
    rw [wx]
    simp only [Internal]
    rcases hflags with ⟨e1, e2⟩ | ⟨e1, e2⟩
    · subst e2
      simp [e1, List.getElem?_replicate, show i < a.n + 1 by omega]
    · subst e2
      have hlen : a.flags.length = a.n + 1 := by
        rcases ha.flags with e | e
        · exact absurd e e1
        · exact e
      rw [List.getElem?_eq_getElem (show i < a.flags.length by omega)]
      rcases a.flags[i] with _ | _ <;> simp
  refine ⟨⟨c2, full.env, sync (sameSet ((List.range (a.n + 1)).map w.ext) ((List.range (a.n + 1)).map bound))
      (subConfs full.conf idx bound (List.range' 1 a.n)) c2, attachAll [] (((List.range (a.n + 1)).map bound |>.drop 1).zip (List.range' 1 a.n))⟩, ?_, ?_, ?_, ?_, ?_, ?_, ?_⟩
  case refine_1 =>
    unfold create
    simp only [hc, hfull, hr1, Option.bind_some, hu, hnow, hold]
  case refine_2 => simp only [processIndexes, hpools, tab_keys]
  case refine_3 =>
    intro i hi
    refine ⟨w.lab i, w.int i, ?_, hlab i hi, (hint i hi _).mpr rfl⟩
    simp only [hpools]
    exact tab_get? (fun x y hx hy => h.idx_inj x y (by omega) (by omega)) (by omega)
  case refine_4 =>
    intro addr x
    simp only [hmap, wn, wb]
    constructor
    · rintro ⟨i, hi, e1, e2⟩; exact ⟨i, by omega, e1, (hint i (by omega) x).mpr e2⟩
    · rintro ⟨i, hi, e1, e2⟩; exact ⟨i, by omega, e1, (hint i hi x).mp e2⟩
  case refine_5 =>
    intro i hi
    refine ⟨envOf a i, ?_, ?_⟩
    · simp only [henv]
      exact tab_get? (fun x y hx hy => h.idx_inj x y (by omega) (by omega)) (by omega)
    · cases i with
      | zero => exact .inl ⟨.inl rfl, rfl⟩
      | succ i =>
        rcases ha.envs with e | e
        · exact .inl ⟨.inr e, by simp [envOf, e]⟩
        · right
          refine ⟨by omega, a.envs[i]'(by omega), ?_, ?_⟩
          · simp
          · simp [envOf]
  case refine_6 =>
    intro addr i
    have hz : (((List.range (a.n + 1)).map bound |>.drop 1).zip (List.range' 1 a.n)) =
        (List.range' 1 a.n).map (fun i => (bound i, i)) := by
      rw [List.range_eq_range', ← List.map_drop, List.drop_range', Nat.add_sub_cancel, List.zip_map_left]
      have : ∀ l : List Nat, l.zip l = l.map (fun i => (i, i)) := by
        intro l; induction l with
        | nil => rfl
        | cons x xs ih => simp [ih]
      simp only [Nat.zero_add, Nat.one_mul, this, List.map_map]
      rfl
    simp only [hz]
    rw [attachAll_get?]
    · simp only [List.mem_map, List.mem_range', Prod.mk.injEq, Dict.get?_nil, reduceCtorEq, or_false]
      constructor
      · rintro ⟨j, ⟨k, hk, rfl⟩, h1, h2⟩; subst h2; exact ⟨by omega, by omega, h1.symm⟩
      · rintro ⟨h1, h2, h3⟩; exact ⟨i, ⟨i - 1, by omega, by omega⟩, h3.symm, rfl⟩
    · rw [List.map_map, List.Nodup, List.pairwise_map]
      refine List.Pairwise.imp_of_mem ?_ (List.nodup_range' (s := 1) (n := a.n))
      intro x y hx hy hne e
      simp only [List.mem_range'] at hx hy
      obtain ⟨kx, hkx, rfl⟩ := hx
      obtain ⟨ky, hky, rfl⟩ := hy
      exact hne (h.bound_inj _ _ (by omega) (by omega) e)
    · simp [Dict.keys]
  case refine_7 =>
    have hupd : ∀ i, i < w.n → w.bound i = w.ext i → update full.conf (idx i) (bound i) = some full.conf := by
      intro i hi e
      have : full.conf.pools.get? (idx i) = some (w.row (fun _ => false) i) := by
        rw [hinv.pools, ← wi]; exact tab_get? w.idx_inj hi
      unfold update
      simp only [this]
      rw [if_pos]
      simp [World.row, ← e, wb]
    simp only [sync]
    by_cases hs : sameSet ((List.range (a.n + 1)).map w.ext) ((List.range (a.n + 1)).map bound) = true
    · have hall : ∀ i, i < w.n → w.bound i = w.ext i := by
        intro j hj
        rw [sameSet, Bool.and_eq_true, List.all_eq_true] at hs
        have := hs.1 (w.ext j) (List.mem_map_of_mem (by simp; omega))
        simp only [List.mem_map, List.mem_range, decide_eq_true_eq] at this
        obtain ⟨i, hi, e⟩ := this
        rw [← wb] at e
        have := w.fresh i j (by omega) hj e
        subst this
        exact e
      simp only [hs, if_true]
      refine ⟨subConfs_keys _ _ _ _, ?_⟩
      intro k c hm
      obtain ⟨i, hi, e⟩ := subConfs_mem hm
      simp only [List.mem_range'] at hi
      obtain ⟨j, hj, rfl⟩ := hi
      rw [hupd _ (by omega) (hall _ (by omega))] at e
      cases e
      exact same_of_final hinv hi2 (fun i hi => .inr (hall i hi)) hd2
    · simp only [hs]
      refine ⟨?_, ?_⟩
      · have := subConfs_keys full.conf idx bound (List.range' 1 a.n)
        simp only [Dict.keys] at this ⊢
        simp only [Bool.false_eq_true, if_false, List.map_map]
        rw [← this]
        rfl
      · intro k c hm
        simp only [Bool.false_eq_true, if_false, List.mem_map] at hm
        obtain ⟨x, _, e⟩ := hm
        cases e
        exact Same.refl _

/-! ### Example: three sub pools, two of them on a port the system chooses -/

def sampleArgs : Args := ⟨2, [some "main", some "cpu", none], [[("A", "1")], []], [], [true, true, false], .true_⟩
def sampleIdx (i : Nat) : Nat := 100 + i
def sampleExts : List Addr := ["h:7", "h:0", "h:0"]
def sampleBound : Nat → Addr
  | 0 => "h:7"
  | 1 => "h:41"
  | _ => "h:42"

theorem sample_real : Real 2 sampleExts sampleIdx sampleBound := by
  have h3 : ∀ i : Nat, i ≤ 2 → i = 0 ∨ i = 1 ∨ i = 2 := by omega
  have h3' : ∀ i : Nat, i < 3 → i = 0 ∨ i = 1 ∨ i = 2 := by omega
  refine ⟨rfl, ?_, ?_, ?_, ?_⟩
  · intro i j _ _ h; simp [sampleIdx] at h; exact h
  · intro i j hi hj h
    rcases h3 i hi with rfl | rfl | rfl <;> rcases h3 j hj with rfl | rfl | rfl <;> revert h <;> decide
  · intro i j hi hj h
    rcases h3 i hi with rfl | rfl | rfl <;> rcases h3' j hj with rfl | rfl | rfl <;> simp [sampleBound, sampleExts] at h ⊢
  · intro i j hi hj
    have hu : ∀ k : Nat, (internalAddress k).toList.head? = some 'u' := by
      intro k
      simp only [internalAddress, toString, String.toList_append]
      rfl
    intro e
    have := hu (sampleIdx i)
    rw [← e] at this
    rcases h3' j hj with rfl | rfl | rfl
    · exact absurd (show "h:7".toList.head? = some 'u' from this) (by decide)
    · exact absurd (show "h:0".toList.head? = some 'u' from this) (by decide)
    · exact absurd (show "h:0".toList.head? = some 'u' from this) (by decide)

theorem sample_accepted : Accepted sampleArgs :=
  ⟨.inr rfl, .inr rfl, .inl rfl, .inr rfl, by decide⟩

/-- both sub pools are in the tables although both were requested as "h:0" -/
example : ∃ m, create sampleArgs sampleExts sampleIdx sampleBound = .ok m ∧
    m.processes = [("h:41", 1), ("h:42", 2)] ∧ (externalAddresses m.conf none) = ["h:7", "h:41", "h:42"] ∧
    m.conf.mapping.get? "h:0" = none ∧ m.conf.mapping.get? "h:42" = some none :=
  ⟨_, rfl, rfl, rfl, rfl, rfl⟩

/-! ## The results about configurations (C27, C28) apply to started pools -/

/-- **C59** with C27/C28: the configuration of a started pool has the content of one made by the proper operations, so
everything proved of those (`Config.Hist`) holds of it -/
theorem created_hist {a : Args} {exts : List Addr} {idx : Nat → Nat} {bound : Nat → Addr} {m : Made}
    (h : Real a.n exts idx bound) (hm : create a exts idx bound = .ok m) :
    ∃ c, Hist c ∧ Same c m.conf := by
  have ha : Accepted a := by
    apply Classical.byContradiction
    intro hn
    rw [not_accepted a exts idx bound hn] at hm
    simp at hm
  obtain ⟨m', hm', hidx, hpool, hmap, _⟩ := created ha h
  rw [hm] at hm'
  cases hm'
  -- the rows
  let row (i : Nat) : PoolConf := (m.conf.pools.get? (idx i)).getD ⟨none, none, []⟩
  have hrow : ∀ i, i ≤ a.n → m.conf.pools.get? (idx i) = some (row i) := by
    intro i hi; obtain ⟨l, x, e, _⟩ := hpool i hi; simp [row, e]
  have hext : ∀ i, i ≤ a.n → (row i).external = [bound i] := by
    intro i hi; obtain ⟨l, x, e, _⟩ := hpool i hi; simp [row, e]
  have hinj : InjTo idx (a.n + 1) := fun i j hi hj => h.idx_inj i j (by omega) (by omega)
  have build : ∀ k, k ≤ a.n + 1 → ∃ c, Hist c ∧ c.pools = tab idx row k := by
    intro k
    induction k with
    | zero => intro _; exact ⟨empty, .empty, rfl⟩
    | succ k ih =>
      intro hk
      obtain ⟨c, hc, hp⟩ := ih (by omega)
      have hget : ∀ i, i < k → c.pools.get? (idx i) = some (row i) := by
        intro i hi; rw [hp]; exact tab_get? (fun x y hx hy => hinj x y (by omega) (by omega)) hi
      refine ⟨addPool c (idx k) (row k), .step (op := .add (idx k) (row k)) hc ⟨?_, ?_, ?_⟩ rfl, ?_⟩
      · rw [Dict.get?_eq_none_iff, hp, tab_keys]
        simp only [List.mem_map, List.mem_range, not_exists, not_and]
        intro i hi e
        have := hinj i k (by omega) (by omega) e
        omega
      · rw [hext k (by omega)]; simp
      · intro x hx j q hq
        rw [hext k (by omega), List.mem_singleton] at hx
        subst hx
        have hj : j ∈ c.pools.keys := by
          rw [← Dict.get?_isSome_iff, hq]; rfl
        rw [hp, tab_keys] at hj
        simp only [List.mem_map, List.mem_range] at hj
        obtain ⟨i, hi, rfl⟩ := hj
        rw [hget i hi] at hq
        cases hq
        rw [hext i (by omega), List.mem_singleton]
        intro e
        have := h.bound_inj k i (by omega) (by omega) e
        omega
      · simp only [addPool, hp]
        exact tab_set_new (fun x y hx hy => hinj x y (by omega) (by omega))
  obtain ⟨c, hc, hp⟩ := build (a.n + 1) (Nat.le_refl _)
  have hp2 : c.pools = m.conf.pools := by
    -- both have the same keys in the same order and the same entries
    have hk : m.conf.pools.keys = (List.range (a.n + 1)).map idx := hidx
    have gen : ∀ (d : Dict Nat PoolConf) (l : List Nat), d.WF → d.keys = l.map idx → (∀ i ∈ l, d.get? (idx i) = some (row i)) →
        d = l.map (fun i => (idx i, row i)) := by
      intro d l
      induction l generalizing d with
      | nil => intro _ hk _; simp [Dict.keys] at hk; simp [hk]
      | cons i l ih =>
        intro hw hk hg
        cases d with
        | nil => simp [Dict.keys] at hk
        | cons x xs =>
          obtain ⟨k, v⟩ := x
          simp only [Dict.keys, List.map_cons, List.cons.injEq] at hk
          obtain ⟨rfl, hk⟩ := hk
          have hv := hg i (by simp)
          simp only [Dict.get?, if_true, Option.some.injEq] at hv
          subst hv
          simp only [Dict.WF, Dict.keys, List.map_cons, List.nodup_cons] at hw
          rw [List.map_cons, ih xs hw.2 hk]
          intro j hj
          have := hg j (by simp [hj])
          rw [Dict.get?_cons] at this
          rw [if_neg] at this
          · exact this
          · intro e
            exact hw.1 (e ▸ hk ▸ List.mem_map_of_mem hj)
    rw [hp]
    refine (gen m.conf.pools (List.range (a.n + 1)) ?_ hk ?_).symm
    · rw [Dict.WF, hk, ← tab_keys (f := row)]; exact tab_wf hinj
    · intro i hi; exact hrow i (by simp at hi; omega)
  refine ⟨c, hc, hp2, fun x => ?_⟩
  apply Option.ext
  intro y
  rw [mapping_exact hc x y, hmap x y]
  constructor
  · rintro ⟨k, p, hk, hx, hy⟩
    rw [hp2] at hk
    have : k ∈ m.conf.pools.keys := by rw [← Dict.get?_isSome_iff, hk]; rfl
    rw [show m.conf.pools.keys = _ from hidx] at this
    simp only [List.mem_map, List.mem_range] at this
    obtain ⟨i, hi, rfl⟩ := this
    obtain ⟨l, z, e, _, hz⟩ := hpool i (by omega)
    rw [e] at hk
    cases hk
    simp only [List.mem_singleton] at hx
    subst hy
    exact ⟨i, by omega, hx, hz⟩
  · rintro ⟨i, hi, rfl, hy⟩
    obtain ⟨l, z, e, _, hz⟩ := hpool i hi
    refine ⟨idx i, _, by rw [hp2]; exact e, by simp, ?_⟩
    rcases hy with ⟨h1, rfl⟩ | ⟨h1, rfl⟩ <;> rcases hz with ⟨h2, rfl⟩ | ⟨h2, rfl⟩
    · rfl
    · exact absurd h1 h2
    · exact absurd h2 h1
    · rfl

/-- allocation looks at the content of the configuration only -/
theorem allocate_same {c c' : Config} (h : Same c c') (s : Strategy) (al : Addr → List Strategy) (r : Nat) :
    allocate s c al r = allocate s c' al r := by
  have e1 : externalAddresses c = externalAddresses c' := by funext l; simp only [externalAddresses, h.1]
  have e2 : processIndexes c = processIndexes c' := by simp only [processIndexes, h.1]
  have e3 : externalAddress c = externalAddress c' := by funext l; simp only [externalAddress, h.1]
  cases s <;> simp only [allocate, e1, e2, e3]

/-! ## C60: nothing left behind -/

/-- **C60 refuted**: whatever fails during start-up, the sub pools that could be started go on running -/
theorem failed_start_leaves_processes (subOk : List Bool) (mainOk : Bool) (_ : (start subOk mainOk).1 ≠ none) (i : Nat) :
    i ∈ (start subOk mainOk).2 ↔ subOk[i]? = some true := by
  have e : (start subOk mainOk).2 = (List.range subOk.length).filter (fun i => (subOk[i]?).getD false) := by
    unfold start; split <;> (try split) <;> rfl
  rw [e]
  simp only [List.mem_filter, List.mem_range]
  rcases hs : subOk[i]? with _ | b
  · simp
  · have : i < subOk.length := (List.getElem?_eq_some_iff.mp hs).1
    cases b <;> simp [this]

/-- **C60**: the start of a pool is reported as failed exactly if one of its processes could not be started -/
theorem start_error_iff (subOk : List Bool) (mainOk : Bool) :
    (start subOk mainOk).1 = none ↔ (∀ b ∈ subOk, b = true) ∧ mainOk = true := by
  unfold start
  by_cases h : subOk.all id = true
  · have : ∀ b ∈ subOk, b = true := List.all_eq_true.mp h
    rw [if_pos h]
    cases mainOk
    · simp
    · exact ⟨fun _ => ⟨this, rfl⟩, fun _ => rfl⟩
  · have : ¬ ∀ b ∈ subOk, b = true := fun hh => h (List.all_eq_true.mpr hh)
    rw [if_neg h]
    exact ⟨fun e => (Option.some_ne_none _ e).elim, fun e => absurd e.1 this⟩

/-- one of three sub pools cannot be started: the other two are left; the main pool's port is taken: all three are left -/
theorem failed_start_refuted : start [true, false, true] true = (some .osError, [0, 2]) ∧
    start [true, true, true] false = (some .osError, [0, 1, 2]) := by decide

/-! ## C60: sub pools added and removed while the pool runs -/

/-- `append_sub_pool` without an explicit address: the placeholder `ph` (port 0); nobody listens on it -/
def Default (ph : Addr) : Label → Prop
  | .append _ _ e => e = ph
  | .started _ b => b ≠ ph
  | _ => True

/-- the sub pools whose start failed -/
def failedOf (ls : List Label) : List Nat := ls.filterMap (fun l => match l with | .failed i => some i | _ => none)

structure Ok (mi : Nat) (ma ph : Addr) (ls : List Label) (s : St) : Prop where
  wf : s.conf.pools.WF
  main : ∃ p, s.conf.pools.get? mi = some p ∧ p.external = [ma]
  mainNot : mi ∉ s.pending ∧ s.running.get? mi = none ∧ mi ∉ failedOf ls
  entry : ∀ i p, s.conf.pools.get? i = some p → i = mi ∨ (i ∈ s.pending ∧ p.external = [ph]) ∨
    (∃ a, s.running.get? i = some a ∧ p.external = [a]) ∨ (i ∈ failedOf ls ∧ p.external = [ph])
  run : ∀ i a, s.running.get? i = some a → (∃ p, s.conf.pools.get? i = some p ∧ p.external = [a]) ∧
    s.processes.get? a = some i ∧ a ≠ ph ∧ a ≠ ma ∧ s.conf.mapping.get? a ≠ none
  proc : ∀ a i, s.processes.get? a = some i → s.running.get? i = some a
  pend : ∀ i, i ∈ s.pending → (∃ p, s.conf.pools.get? i = some p ∧ p.external = [ph]) ∧ s.running.get? i = none
  failedNot : ∀ i, i ∈ failedOf ls → s.running.get? i = none ∧ i ∉ s.pending ∧ (∃ p, s.conf.pools.get? i = some p)
  pnodup : s.pending.Nodup

theorem failedOf_snoc (ls : List Label) (l : Label) : failedOf (ls ++ [l]) = failedOf ls ++ failedOf [l] := by
  simp [failedOf]

theorem processIndex_some {c : Config} {a : Addr} {k : Nat} (hw : c.pools.WF) (h : processIndex c a = some k) :
    ∃ p, c.pools.get? k = some p ∧ a ∈ p.external := by
  simp only [processIndex, Option.map_eq_some_iff] at h
  obtain ⟨x, hx, rfl⟩ := h
  have := List.find?_some hx
  have hm := List.mem_of_find?_eq_some hx
  exact ⟨x.2, Dict.get?_of_mem hw hm, by simpa using this⟩

theorem processIndex_isSome {c : Config} {a : Addr} {k : Nat} {p : PoolConf} (h : c.pools.get? k = some p) (ha : a ∈ p.external) :
    ∃ k', processIndex c a = some k' := by
  have : (c.pools.find? (fun e => decide (a ∈ e.2.external))).isSome := by
    rw [List.find?_isSome]
    exact ⟨(k, p), Dict.mem_of_get? h, by simpa using ha⟩
  obtain ⟨x, hx⟩ := Option.isSome_iff_exists.mp this
  exact ⟨x.1, by simp [processIndex, hx]⟩

/-- in a good state an address belongs to one running sub pool -/
theorem Ok.owner {mi : Nat} {ma ph : Addr} {ls : List Label} {s : St} (h : Ok mi ma ph ls s) {a : Addr} {i k : Nat} {p : PoolConf}
    (hr : s.running.get? i = some a) (hk : s.conf.pools.get? k = some p) (ha : a ∈ p.external) : k = i := by
  obtain ⟨_, hp, h1, h2, _⟩ := h.run i a hr
  rcases h.entry k p hk with rfl | ⟨_, e⟩ | ⟨b, hb, e⟩ | ⟨_, e⟩
  · obtain ⟨q, hq, e⟩ := h.main
    rw [hk] at hq; cases hq
    rw [e] at ha; simp at ha; exact absurd ha h2
  · rw [e] at ha; simp at ha; exact absurd ha h1
  · rw [e] at ha; simp at ha; subst ha
    have := (h.run k a hb).2.1
    rw [hp] at this; cases this; rfl
  · rw [e] at ha; simp at ha; exact absurd ha h1

theorem Ok.step {mi : Nat} {ma ph : Addr} (hne : ma ≠ ph) {ls : List Label} {l : Label} {s s' : St} (h : Ok mi ma ph ls s) (hd : Default ph l)
    (hs : step s l = some s') : Ok mi ma ph (ls ++ [l]) s' := by
  obtain ⟨pm, hm1, hm2⟩ := h.main
  obtain ⟨hn1, hn2, hn3⟩ := h.mainNot
  cases l with
  | append idx label ext =>
    simp only [Default] at hd
    subst hd
    simp only [Create.step] at hs
    split at hs
    · simp at hs
    next hi =>
    cases hs
    have hi : s.conf.pools.get? idx = none := by
      rw [Dict.has_iff, ← Dict.get?_isSome_iff] at hi
      simpa using hi
    have hf : failedOf (ls ++ [.append idx label ext]) = failedOf ls := by simp [failedOf_snoc, failedOf]
    have hmi : idx ≠ mi := by rintro rfl; rw [hi] at hm1; simp at hm1
    have hri : s.running.get? idx = none := by
      rcases hr : s.running.get? idx with _ | a
      · rfl
      · obtain ⟨⟨p, hp, _⟩, _⟩ := h.run idx a hr; rw [hi] at hp; simp at hp
    refine ⟨h.wf.set _ _, ⟨pm, by simp [addPool, hmi, hm1], hm2⟩, ⟨?_, hn2, by rw [hf]; exact hn3⟩, ?_, ?_, h.proc, ?_, ?_, ?_⟩
    · simp [hn1]; exact fun e => hmi e.symm
    · intro i p hp
      simp only [addPool, Dict.get?_set] at hp
      by_cases e : idx = i
      · subst e; simp at hp; subst hp; right; left; simp
      · simp only [e, if_false] at hp
        rcases h.entry i p hp with h1 | ⟨h1, h2⟩ | h1 | h1
        · exact .inl h1
        · exact .inr (.inl ⟨by simp [h1], h2⟩)
        · exact .inr (.inr (.inl h1))
        · rw [hf]; exact .inr (.inr (.inr h1))
    · intro i a hr
      obtain ⟨⟨p, hp, hp2⟩, h1, h2, h3, h4⟩ := h.run i a hr
      have : idx ≠ i := by rintro rfl; rw [hi] at hp; simp at hp
      refine ⟨⟨p, by simp [addPool, this, hp], hp2⟩, h1, h2, h3, ?_⟩
      simp only [addPool, setAll, List.foldl_cons, List.foldl_nil, Dict.get?_set]
      split
      · simp
      · exact h4
    · intro i hp
      simp only [List.mem_append, List.mem_singleton] at hp
      rcases hp with hp | rfl
      · obtain ⟨⟨p, hp1, hp2⟩, h1⟩ := h.pend i hp
        have : idx ≠ i := by rintro rfl; rw [hi] at hp1; simp at hp1
        exact ⟨⟨p, by simp [addPool, this, hp1], hp2⟩, h1⟩
      · exact ⟨⟨_, by simp [addPool]; rfl, rfl⟩, hri⟩
    · intro i hif
      rw [hf] at hif
      obtain ⟨h1, h2, p, h3⟩ := h.failedNot i hif
      have : idx ≠ i := by rintro rfl; rw [hi] at h3; simp at h3
      exact ⟨h1, by simp [h2]; exact fun e => this e.symm, p, by simp [addPool, this, h3]⟩
    · rw [List.nodup_append]
      refine ⟨h.pnodup, by simp, ?_⟩
      rintro x hx y hy rfl
      simp at hy; subst hy
      obtain ⟨⟨p, hp1, _⟩, _⟩ := h.pend x hx
      rw [hi] at hp1; simp at hp1
  | started idx bound =>
    simp only [Default] at hd
    simp only [Create.step] at hs
    split at hs
    case isFalse => simp at hs
    next hpe =>
    obtain ⟨⟨p, hp, hpx⟩, hrn⟩ := h.pend idx hpe
    split at hs
    case h_1 => simp at hs
    next c hc =>
    split at hs
    case isTrue => simp at hs
    next hfree =>
    cases hs
    simp only [resetExternal, hp, Option.some.injEq] at hc
    subst hc
    have hmi : idx ≠ mi := by rintro rfl; exact hn1 hpe
    have hfree : ∀ i q, s.conf.pools.get? i = some q → i ≠ idx → bound ∉ q.external := by
      intro i q hq hi hb
      apply hfree
      rw [List.any_eq_true]
      exact ⟨(i, q), Dict.mem_of_get? hq, by simp [hi, hb]⟩
    have hbm : bound ≠ ma := by
      rintro rfl; exact hfree mi pm hm1 (fun e => hmi e.symm) (by simp [hm2])
    have hbr : ∀ i a, s.running.get? i = some a → a ≠ bound := by
      rintro i a hr rfl
      obtain ⟨⟨q, hq, hqx⟩, _⟩ := h.run i a hr
      refine hfree i q hq ?_ (by simp [hqx])
      rintro rfl; rw [hrn] at hr; simp at hr
    have hf : failedOf (ls ++ [.started idx bound]) = failedOf ls := by simp [failedOf_snoc, failedOf]
    have hfi : idx ∉ failedOf ls := fun hx => (h.failedNot idx hx).2.1 hpe
    refine ⟨h.wf.set _ _, ⟨pm, by simp [hmi, hm1], hm2⟩, ⟨?_, by simp [hmi, hn2], by rw [hf]; exact hn3⟩, ?_, ?_, ?_, ?_, ?_, ?_⟩
    · exact fun e => hn1 (List.mem_of_mem_erase e)
    · intro i q hq
      simp only [Dict.get?_set] at hq
      by_cases e : idx = i
      · subst e; simp at hq; subst hq
        exact .inr (.inr (.inl ⟨bound, by simp, rfl⟩))
      · simp only [e, if_false] at hq
        rcases h.entry i q hq with h1 | ⟨h1, h2⟩ | ⟨a, h1, h2⟩ | h1
        · exact .inl h1
        · exact .inr (.inl ⟨(List.mem_erase_of_ne (fun e' => e e'.symm)).mpr h1, h2⟩)
        · exact .inr (.inr (.inl ⟨a, by simp [e, h1], h2⟩))
        · rw [hf]; exact .inr (.inr (.inr h1))
    · intro i a hr
      simp only [Dict.get?_set] at hr
      by_cases e : idx = i
      · subst e; simp at hr; subst hr
        refine ⟨⟨_, by simp; rfl, rfl⟩, by simp, hd, hbm, ?_⟩
        simp [setAll]
      · simp only [e, if_false] at hr
        obtain ⟨⟨q, hq, hqx⟩, h1, h2, h3, h4⟩ := h.run i a hr
        have hab := hbr i a hr
        have hba : ¬ bound = a := fun e => hab e.symm
        refine ⟨⟨q, by simp [e, hq], hqx⟩, by simp [hba, h1], h2, h3, ?_⟩
        simp only [setAll_get?, List.mem_singleton, hab, if_false]
        rw [dropOld_fst, hpx]
        simp [h2, h4]
    · intro a i hpr
      simp only [Dict.get?_set] at hpr ⊢
      by_cases e : bound = a
      · subst e; simp at hpr; subst hpr; simp
      · simp only [e, if_false] at hpr
        have := h.proc a i hpr
        have : idx ≠ i := by rintro rfl; rw [hrn] at this; simp at this
        simp [this]; exact h.proc a i hpr
    · intro i hpi
      have hi' : i ∈ s.pending := List.mem_of_mem_erase hpi
      have : i ≠ idx := by
        rintro rfl
        exact absurd hpi (List.Nodup.not_mem_erase h.pnodup)
      obtain ⟨⟨q, hq, hqx⟩, h1⟩ := h.pend i hi'
      have this' : ¬ idx = i := fun e => this e.symm
      exact ⟨⟨q, by simp [this', hq], hqx⟩, by simp [this', h1]⟩
    · intro i hi
      rw [hf] at hi
      obtain ⟨h1, h2, q, h3⟩ := h.failedNot i hi
      have : ¬ idx = i := by rintro rfl; exact hfi hi
      exact ⟨by simp [this, h1], fun e => h2 (List.mem_of_mem_erase e), q, by simp [this, h3]⟩
    · exact h.pnodup.erase _
  | failed idx =>
    simp only [Create.step] at hs
    split at hs
    case isFalse => simp at hs
    next hpe =>
    cases hs
    have hmi : idx ≠ mi := by rintro rfl; exact hn1 hpe
    have hf : failedOf (ls ++ [.failed idx]) = failedOf ls ++ [idx] := by simp [failedOf_snoc, failedOf]
    obtain ⟨⟨p, hp, hpx⟩, hrn⟩ := h.pend idx hpe
    refine ⟨h.wf, h.main, ⟨fun e => hn1 (List.mem_of_mem_erase e), hn2, ?_⟩, ?_, h.run, h.proc, ?_, ?_, h.pnodup.erase _⟩
    · rw [hf]; simp [hn3]; exact fun e => hmi e.symm
    · intro i q hq
      rw [hf]
      rcases h.entry i q hq with h1 | ⟨h1, h2⟩ | h1 | ⟨h1, h2⟩
      · exact .inl h1
      · by_cases e : i = idx
        · exact .inr (.inr (.inr ⟨by simp [e], h2⟩))
        · exact .inr (.inl ⟨(List.mem_erase_of_ne e).mpr h1, h2⟩)
      · exact .inr (.inr (.inl h1))
      · exact .inr (.inr (.inr ⟨by simp [h1], h2⟩))
    · intro i hi; exact h.pend i (List.mem_of_mem_erase hi)
    · intro i hi
      rw [hf] at hi
      simp only [List.mem_append, List.mem_singleton] at hi
      rcases hi with hi | rfl
      · obtain ⟨h1, h2, h3⟩ := h.failedNot i hi
        exact ⟨h1, fun e => h2 (List.mem_of_mem_erase e), h3⟩
      · exact ⟨hrn, List.Nodup.not_mem_erase h.pnodup, p, hp⟩
  | remove a =>
    simp only [Create.step] at hs
    split at hs
    case h_1 => simp at hs
    next i hpr =>
    have hr := h.proc a i hpr
    split at hs
    case h_1 => simp at hs
    next k hk =>
    obtain ⟨q, hq, hqx⟩ := processIndex_some h.wf hk
    have := h.owner hr hq hqx
    subst this
    split at hs
    case h_1 => simp at hs
    next c hc =>
    cases hs
    obtain ⟨⟨p, hp, hpx⟩, h1, h2, h3, h4⟩ := h.run k a hr
    have hce : c = ⟨s.conf.pools.erase k, s.conf.mapping.erase a⟩ := by
      simp only [removePool, externalAddress, hp, hpx, List.head?_cons] at hc
      split at hc
      · exact (Option.some.inj hc).symm
      · simp at hc
    subst hce
    have hmk : k ≠ mi := by rintro rfl; rw [hn2] at hr; simp at hr
    have hf : failedOf (ls ++ [.remove a]) = failedOf ls := by simp [failedOf_snoc, failedOf]
    have hrf : ∀ j, j ∈ failedOf ls → k ≠ j := by
      rintro j hj rfl; have := (h.failedNot k hj).1; rw [hr] at this; simp at this
    have hrp : ∀ j, j ∈ s.pending → k ≠ j := by
      rintro j hj rfl; have := (h.pend k hj).2; rw [hr] at this; simp at this
    refine ⟨h.wf.erase _, ⟨pm, by simp [hmk, hm1], hm2⟩, ⟨hn1, by simp [hmk, hn2], by rw [hf]; exact hn3⟩, ?_, ?_, ?_, ?_, ?_, h.pnodup⟩
    · intro i q hq
      simp only [Dict.get?_erase] at hq
      split at hq
      · simp at hq
      next e =>
      rcases h.entry i q hq with g | g | ⟨b, g1, g2⟩ | g
      · exact .inl g
      · exact .inr (.inl g)
      · exact .inr (.inr (.inl ⟨b, by simp [e, g1], g2⟩))
      · rw [hf]; exact .inr (.inr (.inr g))
    · intro i b hb
      simp only [Dict.get?_erase] at hb
      split at hb
      · simp at hb
      next e =>
      obtain ⟨⟨q, hq, hqx⟩, g1, g2, g3, g4⟩ := h.run i b hb
      have hab : a ≠ b := by rintro rfl; rw [h1] at g1; exact e (Option.some.inj g1)
      exact ⟨⟨q, by simp [e, hq], hqx⟩, by simp [hab, g1], g2, g3, by simp [hab, g4]⟩
    · intro b i hb
      simp only [Dict.get?_erase] at hb ⊢
      split at hb
      · simp at hb
      next e =>
      have := h.proc b i hb
      rw [if_neg]
      · exact this
      · rintro rfl; rw [hr] at this; exact e (Option.some.inj this)
    · intro j hj
      obtain ⟨⟨q, hq, hqx⟩, g⟩ := h.pend j hj
      exact ⟨⟨q, by simp [hrp j hj, hq], hqx⟩, by simp [hrp j hj, g]⟩
    · intro j hj
      rw [hf] at hj
      obtain ⟨g1, g2, q, g3⟩ := h.failedNot j hj
      exact ⟨by simp [hrf j hj, g1], g2, q, by simp [hrf j hj, g3]⟩
  | create a uid =>
    simp only [Create.step] at hs
    split at hs
    · cases hs
      have hf : failedOf (ls ++ [.create a uid]) = failedOf ls := by simp [failedOf_snoc, failedOf]
      exact ⟨h.wf, h.main, by rw [hf]; exact h.mainNot, by rw [hf]; exact h.entry, h.run, h.proc, h.pend, by rw [hf]; exact h.failedNot, h.pnodup⟩
    · simp at hs

theorem Ok.of_run {mi : Nat} {ma ph : Addr} (hne : ma ≠ ph) {s₀ : St} (h₀ : Ok mi ma ph [] s₀) {ls : List Label} {s : St}
    (hr : Run s₀ ls s) (hd : ∀ l ∈ ls, Default ph l) : Ok mi ma ph ls s := by
  induction hr with
  | init => exact h₀
  | snoc _ hs ih => exact (ih (fun l hl => hd l (by simp [hl]))).step hne (hd _ (by simp)) hs

/-- the main pool right after `create_actor_pool` -/
structure Started (m : Made) (n : Nat) (idx : Nat → Nat) (bound : Nat → Addr) (s : St) : Prop where
  conf : s.conf = m.conf
  pending : s.pending = []
  processes : ∀ a k, s.processes.get? a = some k ↔ ∃ i, m.processes.get? a = some i ∧ k = idx i
  running : ∀ k a, s.running.get? k = some a ↔ ∃ i, 1 ≤ i ∧ i ≤ n ∧ k = idx i ∧ a = bound i

theorem started_ok {a : Args} {exts : List Addr} {idx : Nat → Nat} {bound : Nat → Addr} {m : Made} {s : St} {ph : Addr}
    (h : Real a.n exts idx bound) (hm : create a exts idx bound = .ok m) (hs : Started m a.n idx bound s)
    (hph : ∀ i, i ≤ a.n → bound i ≠ ph) : Ok (idx 0) (bound 0) ph [] s := by
  have ha : Accepted a := by
    apply Classical.byContradiction
    intro hn
    rw [not_accepted a exts idx bound hn] at hm
    simp at hm
  obtain ⟨m', hm', hidx, hpool, hmap, _, hproc, _⟩ := created ha h
  rw [hm] at hm'
  cases hm'
  have hkeys : m.conf.pools.keys = (List.range (a.n + 1)).map idx := hidx
  have hinj : InjTo idx (a.n + 1) := fun i j hi hj => h.idx_inj i j (by omega) (by omega)
  refine ⟨?_, ?_, ⟨by simp [hs.pending], ?_, by simp [failedOf]⟩, ?_, ?_, ?_, by simp [hs.pending], by simp [failedOf], by simp [hs.pending]⟩
  · rw [hs.conf, Dict.WF, hkeys, ← tab_keys (f := fun _ => ())]; exact tab_wf hinj
  · obtain ⟨l, x, e, _⟩ := hpool 0 (by omega)
    exact ⟨_, by rw [hs.conf]; exact e, rfl⟩
  · rcases hr : s.running.get? (idx 0) with _ | b
    · rfl
    · obtain ⟨i, h1, h2, h3, _⟩ := (hs.running _ _).mp hr
      have := h.idx_inj 0 i (by omega) h2 h3
      omega
  · intro k p hk
    rw [hs.conf] at hk
    have : k ∈ m.conf.pools.keys := by rw [← Dict.get?_isSome_iff, hk]; rfl
    rw [hkeys] at this
    simp only [List.mem_map, List.mem_range] at this
    obtain ⟨i, hi, rfl⟩ := this
    by_cases h0 : i = 0
    · exact .inl (by rw [h0])
    · obtain ⟨l, x, e, _⟩ := hpool i (by omega)
      rw [e] at hk; cases hk
      exact .inr (.inr (.inl ⟨bound i, (hs.running _ _).mpr ⟨i, by omega, by omega, rfl, rfl⟩, rfl⟩))
  · intro k b hr
    obtain ⟨i, h1, h2, rfl, rfl⟩ := (hs.running _ _).mp hr
    obtain ⟨l, x, e, _, hx⟩ := hpool i h2
    refine ⟨⟨_, by rw [hs.conf]; exact e, rfl⟩, (hs.processes _ _).mpr ⟨i, (hproc _ _).mpr ⟨h1, h2, rfl⟩, rfl⟩, hph i h2, ?_, ?_⟩
    · intro e; have := h.bound_inj i 0 h2 (by omega) e; omega
    · rw [hs.conf, (hmap _ _).mpr ⟨i, h2, rfl, hx⟩]; simp
  · intro b k hk
    obtain ⟨i, h1, rfl⟩ := (hs.processes _ _).mp hk
    obtain ⟨g1, g2, rfl⟩ := (hproc _ _).mp h1
    exact (hs.running _ _).mpr ⟨i, g1, g2, rfl, rfl⟩

/-- **C60** (who is listed): the addresses offered to the allocation strategies are the main pool's, those of the running sub
pools — and the placeholder, as long as a sub pool is being started or once a start has failed -/
theorem listed_iff {mi : Nat} {ma ph : Addr} {ls : List Label} {s : St} (h : Ok mi ma ph ls s) (a : Addr) :
    a ∈ externalAddresses s.conf none ↔
      a = ma ∨ (∃ i, s.running.get? i = some a) ∨ (a = ph ∧ (s.pending ≠ [] ∨ failedOf ls ≠ [])) := by
  obtain ⟨pm, hm1, hm2⟩ := h.main
  have hmem : a ∈ externalAddresses s.conf none ↔ ∃ k p, s.conf.pools.get? k = some p ∧ p.external.head? = some a := by
    simp only [externalAddresses, List.mem_filterMap]
    constructor
    · rintro ⟨x, hx, e⟩; exact ⟨x.1, x.2, Dict.get?_of_mem h.wf hx, e⟩
    · rintro ⟨k, p, hk, e⟩; exact ⟨(k, p), Dict.mem_of_get? hk, e⟩
  rw [hmem]
  constructor
  · rintro ⟨k, p, hk, e⟩
    rcases h.entry k p hk with rfl | ⟨h1, h2⟩ | ⟨b, h1, h2⟩ | ⟨h1, h2⟩
    · rw [hm1] at hk; cases hk
      rw [hm2] at e; simp at e; exact .inl e.symm
    · rw [h2] at e; simp at e
      exact .inr (.inr ⟨e.symm, .inl (by rintro hn; rw [hn] at h1; simp at h1)⟩)
    · rw [h2] at e; simp at e; subst e; exact .inr (.inl ⟨k, h1⟩)
    · rw [h2] at e; simp at e
      exact .inr (.inr ⟨e.symm, .inr (by rintro hn; rw [hn] at h1; simp at h1)⟩)
  · rintro (rfl | ⟨i, hi⟩ | ⟨rfl, hp | hf⟩)
    · exact ⟨mi, pm, hm1, by simp [hm2]⟩
    · obtain ⟨⟨p, hp, hpx⟩, _⟩ := h.run i a hi
      exact ⟨i, p, hp, by simp [hpx]⟩
    · obtain ⟨i, hi⟩ := List.exists_mem_of_ne_nil _ hp
      obtain ⟨⟨p, hp, hpx⟩, _⟩ := h.pend i hi
      exact ⟨i, p, hp, by simp [hpx]⟩
    · obtain ⟨i, hi⟩ := List.exists_mem_of_ne_nil _ hf
      obtain ⟨h1, h2, p, hp⟩ := h.failedNot i hi
      refine ⟨i, p, hp, ?_⟩
      rcases h.entry i p hp with rfl | ⟨g, _⟩ | ⟨b, g, _⟩ | ⟨_, g⟩
      · exact absurd hi h.mainNot.2.2
      · exact absurd g h2
      · rw [h1] at g; simp at g
      · simp [g]

/-- **C60**, the part that holds: after any history of `append_sub_pool` and `remove_sub_pool` without failed starts, when
none is under way, the addresses offered are exactly those of the pools that run -/
theorem listed_running_partial {mi : Nat} {ma ph : Addr} (hne : ma ≠ ph) {s₀ s : St} {ls : List Label} (h₀ : Ok mi ma ph [] s₀)
    (hr : Run s₀ ls s) (hd : ∀ l ∈ ls, Default ph l) (hf : failedOf ls = []) (hp : s.pending = []) (a : Addr) :
    a ∈ externalAddresses s.conf none ↔ a = ma ∨ ∃ i, s.running.get? i = some a := by
  rw [listed_iff (Ok.of_run hne h₀ hr hd) a]
  simp [hf, hp]

/-- **C60** (removal): `remove_sub_pool` of a listed sub pool succeeds, removes that one and no other, and its address is
offered no more -/
theorem remove_exact {mi : Nat} {ma ph : Addr} (hne : ma ≠ ph) {s₀ s : St} {ls : List Label} (h₀ : Ok mi ma ph [] s₀)
    (hr : Run s₀ ls s) (hd : ∀ l ∈ ls, Default ph l) {i : Nat} {a : Addr} (hi : s.running.get? i = some a) :
    ∃ s', step s (.remove a) = some s' ∧ (∀ j, s'.running.get? j = if j = i then none else s.running.get? j) ∧
      a ∉ externalAddresses s'.conf none := by
  have h := Ok.of_run hne h₀ hr hd
  obtain ⟨⟨p, hp, hpx⟩, hpr, hph, hma, hmap⟩ := h.run i a hi
  obtain ⟨k, hk⟩ := processIndex_isSome hp (show a ∈ p.external by simp [hpx])
  obtain ⟨q, hq, hqx⟩ := processIndex_some h.wf hk
  have hki := h.owner hi hq hqx
  subst hki
  have hrem : removePool s.conf k = some ⟨s.conf.pools.erase k, s.conf.mapping.erase a⟩ := by
    simp only [removePool, externalAddress, hp, hpx, List.head?_cons]
    rw [if_pos]
    rw [Dict.has_iff, ← Dict.get?_isSome_iff]
    rcases hx : s.conf.mapping.get? a with _ | x
    · exact absurd hx hmap
    · rfl
  have hst : step s (.remove a) = some { s with conf := ⟨s.conf.pools.erase k, s.conf.mapping.erase a⟩, processes := s.processes.erase a, running := s.running.erase k } := by
    simp only [step, hpr, hk, hrem]
  refine ⟨_, hst, ?_, ?_⟩
  · intro j
    simp only [Dict.get?_erase]
    by_cases e : k = j
    · simp [e]
    · have : ¬ j = k := fun h => e h.symm
      simp [e, this]
  · have h' := Ok.of_run hne h₀ (.snoc hr hst) (by
      intro l hl
      rcases List.mem_append.mp hl with hl | hl
      · exact hd l hl
      · simp at hl; subst hl; trivial)
    rw [listed_iff h']
    rintro (e | ⟨j, hj⟩ | ⟨e, _⟩)
    · exact hma e
    · simp only [Dict.get?_erase] at hj
      split at hj
      · simp at hj
      next e =>
      have := (h.run j a hj).2.1
      rw [hpr] at this
      exact e (Option.some.inj this)
    · exact hph e

/-! ### Example and refutations -/

def main0 : St := ⟨addPool empty 1 ⟨none, some "unixsocket:///1", ["h:7"]⟩, [], [], [], []⟩

theorem main0_ok : Ok 1 "h:7" "h:0" [] main0 := by
  refine ⟨by unfold Dict.WF; decide, ⟨_, rfl, rfl⟩, by decide, ?_, ?_, ?_, ?_, ?_, by decide⟩
  · intro i p hp
    simp only [main0, addPool, empty, Dict.get?_set, Dict.get?_nil] at hp
    split at hp
    · next e => exact .inl e.symm
    · simp at hp
  · intro i a h; simp [main0] at h
  · intro i a h; simp [main0] at h
  · intro i h; simp [main0] at h
  · intro i h; simp [failedOf] at h

/-- two sub pools appended at the same time, the second ready first, the first removed again -/
def sampleRun : List Label :=
  [.append 2 none "h:0", .append 3 (some "gpu") "h:0", .started 3 "h:43", .started 2 "h:42", .create "h:42" 9, .remove "h:42"]

theorem sampleRun_run : ∃ s, Run main0 sampleRun s ∧ s.pending = [] ∧ s.running = [(3, "h:43")] ∧ hasActor s 9 = true ∧
    externalAddresses s.conf none = ["h:7", "h:43"] :=
  ⟨_, .snoc (.snoc (.snoc (.snoc (.snoc (.snoc .init rfl) rfl) rfl) rfl) rfl) rfl, rfl, rfl, rfl, rfl⟩

example : ∀ l ∈ sampleRun, Default "h:0" l := by
  simp [sampleRun, Default]

/-- **C60 refuted** (failed append): the sub pool that could not be started stays in the configuration, and a strategy that
picks a sub pool picks it -/
theorem failed_append_refuted : ∃ s, Run main0 [.append 2 none "h:0", .failed 2] s ∧ s.running = [] ∧
    allocate .randomSubPool s.conf (fun _ => []) 0 = .ok "h:0" :=
  ⟨_, .snoc (.snoc .init rfl) rfl, rfl, rfl⟩

/-- **C60 refuted** (append under way): so it does while a sub pool is being started -/
theorem starting_pool_offered_refuted : ∃ s, Run main0 [.append 2 none "h:0"] s ∧ s.running = [] ∧
    allocate .randomSubPool s.conf (fun _ => []) 0 = .ok "h:0" :=
  ⟨_, .snoc .init rfl, rfl, rfl⟩

/-- **C60 refuted** (removed actors): the main pool goes on answering that an actor of a removed sub pool exists -/
theorem removed_actor_exists_refuted : ∃ s, Run main0 [.append 2 none "h:0", .started 2 "h:42", .create "h:42" 9, .remove "h:42"] s ∧
    s.running = [] ∧ hasActor s 9 = true :=
  ⟨_, .snoc (.snoc (.snoc (.snoc .init rfl) rfl) rfl) rfl, rfl, rfl⟩

/-- the run as a function, to compute examples -/
def exec : St → List Label → Option St
  | s, [] => some s
  | s, l :: ls => match step s l with
    | none => none
    | some s' => exec s' ls

theorem run_append {s₀ s s' : St} {ls ls' : List Label} (h : Run s₀ ls s) (h' : Run s ls' s') : Run s₀ (ls ++ ls') s' := by
  induction h' with
  | init => simpa using h
  | snoc _ hs ih => rw [← List.append_assoc]; exact .snoc ih hs

theorem run_of_exec {s s' : St} {ls : List Label} (h : exec s ls = some s') : Run s ls s' := by
  induction ls generalizing s with
  | nil => simp only [exec, Option.some.injEq] at h; subst h; exact .init
  | cons l ls ih =>
    rcases hs : step s l with _ | t
    · simp [exec, hs] at h
    · simp only [exec, hs] at h
      exact run_append (ls := [l]) (.snoc (ls := []) .init hs) (ih h)

/-- **C60 refuted** (append at an address in use): the start fails, but from then on the address of the sub pool that was
there leads to the socket of the one that never started -/
theorem append_taken_address_refuted : ∃ s s', Run main0 [.append 2 none "h:0", .started 2 "h:42"] s ∧
    Run main0 [.append 2 none "h:0", .started 2 "h:42", .append 3 none "h:42", .failed 3] s' ∧ s'.running = s.running ∧
    s.conf.mapping.get? "h:42" = some (some "unixsocket:///2") ∧ s'.conf.mapping.get? "h:42" = some (some "unixsocket:///3") :=
  ⟨(exec main0 [.append 2 none "h:0", .started 2 "h:42"]).get (by decide),
   (exec main0 [.append 2 none "h:0", .started 2 "h:42", .append 3 none "h:42", .failed 3]).get (by decide),
   run_of_exec (by simp), run_of_exec (by simp), by decide, by decide, by decide⟩

end Xoscar.Create
