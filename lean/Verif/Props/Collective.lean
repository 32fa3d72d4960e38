import Verif.Model.Collective
import Verif.Proof.Base
/-!
# C47: collective groups agree across ranks
-/
namespace Xoscar.Collective
open scoped List
attribute [local grind =] Dict.get?_set Dict.get?_erase

/-! ## Specification -/

/-- the ranks of a group: different ranks of the job -/
def Valid (world : Int) (ranks : List Int) : Prop := ranks.Nodup ∧ ∀ r ∈ ranks, 0 ≤ r ∧ r < world

/-- the position of `r` among the members: how many are smaller -/
def position (ranks : List Int) (r : Int) : Nat := (ranks.filter (fun x => decide (x < r))).length

/-- the hash has no collision on the names in use, and is never the name of the default group -/
structure NoCollision (hash : List Char → Name) : Prop where
  inj : ∀ x y, hash x = hash y → x = y
  dflt : ∀ x, hash x ≠ dflt

/-- an actor after some calls of `new_group` -/
inductive Reach (hash : List Char → Name) : Actor → Prop
  | create (rank world : Nat) (backend : Name) : Reach hash (create rank world backend)
  | call {a : Actor} (connected : Bool) (ranks : List Int) : Reach hash a → Reach hash (newGroup hash connected a ranks).1

/-! ## Checks -/

theorem nodup_of_length_pySet {l : List Int} (h : (pySet l).length = l.length) : l.Nodup := by
  have hle : ∀ l : List Int, (pySet l).length ≤ l.length := by
    intro l
    refine (nodup_pySet l).length_le_of_subset (fun x hx => mem_pySet.mp hx)
  induction l with
  | nil => simp
  | cons x xs ih =>
    have e : pySet (x :: xs) = (pySet xs).insert x := rfl
    rw [e] at h
    by_cases hx : x ∈ pySet xs
    · rw [List.insert_of_mem hx] at h
      have := hle xs
      simp at h; omega
    · rw [List.insert_of_not_mem hx] at h
      simp only [List.length_cons, Nat.add_right_cancel_iff] at h
      exact List.nodup_cons.mpr ⟨fun hh => hx (mem_pySet.mpr hh), ih h⟩

theorem length_pySet_of_nodup {l : List Int} (h : l.Nodup) : (pySet l).length = l.length :=
  Nat.le_antisymm ((nodup_pySet l).length_le_of_subset (fun _ hx => mem_pySet.mp hx)) (h.length_le_of_subset (fun _ hx => mem_pySet.mpr hx))

/-- different ranks of the job are at most as many as there are in the job -/
theorem Valid.length_le {world : Nat} {ranks : List Int} (h : Valid world ranks) : ranks.length ≤ world := by
  have : ranks ⊆ (List.range world).map Int.ofNat := by
    intro r hr
    obtain ⟨h1, h2⟩ := h.2 r hr
    simp only [List.mem_map, List.mem_range]
    exact ⟨r.toNat, by omega, Int.toNat_of_nonneg h1⟩
  simpa using h.1.length_le_of_subset this

/-- **C47** (accepted): a list of ranks is accepted exactly when it consists of different ranks of the job -/
theorem accepted_iff {world : Nat} {ranks : List Int} : checks world ranks = none ↔ Valid world ranks := by
  constructor
  · intro h
    simp only [checks] at h
    split at h
    · cases h
    split at h
    · cases h
    split at h
    · cases h
    next h1 h2 h3 =>
    simp only [Classical.not_not, List.all_eq_true, decide_eq_true_eq] at h1 h2 h3
    exact ⟨nodup_of_length_pySet h3, fun r hr => ⟨(h2 r hr).2, (h2 r hr).1⟩⟩
  · intro h
    have hl := h.length_le
    simp only [checks]
    rw [if_neg (by simp; omega), if_neg, if_neg]
    · simp [length_pySet_of_nodup h.1]
    · simp only [Classical.not_not, List.all_eq_true, decide_eq_true_eq]
      exact fun r hr => ⟨(h.2 r hr).2, (h.2 r hr).1⟩

theorem checks_perm {world : Int} {r1 r2 : List Int} (h : r1 ~ r2) : checks world r1 = checks world r2 := by
  have h2 : r1.all (fun r => decide (world > r ∧ r ≥ 0)) = r2.all (fun r => decide (world > r ∧ r ≥ 0)) := by
    rw [Bool.eq_iff_iff]; simp only [List.all_eq_true]
    exact ⟨fun hh x hx => hh x (h.mem_iff.mpr hx), fun hh x hx => hh x (h.mem_iff.mp hx)⟩
  have h3 : (pySet r1).length = (pySet r2).length :=
    Nat.le_antisymm ((nodup_pySet r1).length_le_of_subset (fun x hx => mem_pySet.mpr (h.mem_iff.mp (mem_pySet.mp hx))))
      ((nodup_pySet r2).length_le_of_subset (fun x hx => mem_pySet.mpr (h.mem_iff.mpr (mem_pySet.mp hx))))
  simp only [checks, h.length_eq, h2, h3]

/-- **C47** (rejected alike): a list that is not acceptable is rejected on every rank, with the same error, in whatever order each rank has it -/
theorem rejected_alike (hash : List Char → Name) {a b : Actor} {world : Nat} (ha : a.world = world) (hb : b.world = world) {r1 r2 : List Int} (hp : r1 ~ r2)
    (hn : ¬ Valid world r1) (c1 c2 : Bool) :
    ∃ e, (newGroup hash c1 a r1).2 = .error e ∧ (newGroup hash c2 b r2).2 = .error e ∧ (newGroup hash c1 a r1).1 = a ∧ (newGroup hash c2 b r2).1 = b := by
  rcases hc : checks world r1 with _ | e
  · exact absurd (accepted_iff.mp hc) hn
  · have hc2 := checks_perm (world := world) hp
    rw [hc] at hc2
    refine ⟨e, ?_⟩
    simp only [newGroup, ha, hb, hc, ← hc2, true_and, and_self]

/-! ## Sorting -/

theorem sorted_perm (l : List Int) : sorted l ~ l := List.mergeSort_perm _ _

theorem sorted_pairwise (l : List Int) : (sorted l).Pairwise (· ≤ ·) := by
  have := List.pairwise_mergeSort (le := fun a b : Int => decide (a ≤ b)) (by simp; omega) (by simp; omega) l
  exact this.imp (by simp)

theorem sorted_eq {l1 l2 : List Int} (h : l1 ~ l2) : sorted l1 = sorted l2 := by
  refine List.Perm.eq_of_pairwise (le := (· ≤ ·)) (fun a b _ _ h1 h2 => Int.le_antisymm h1 h2) (sorted_pairwise l1) (sorted_pairwise l2) ?_
  exact ((sorted_perm l1).trans h).trans (sorted_perm l2).symm

theorem idxOf_sorted {l : List Int} (hs : l.Pairwise (· ≤ ·)) (hn : l.Nodup) {r : Int} (hr : r ∈ l) : l.idxOf r = position l r := by
  induction l with
  | nil => cases hr
  | cons x xs ih =>
    rw [List.pairwise_cons] at hs
    rw [List.nodup_cons] at hn
    by_cases hx : x = r
    · subst hx
      have : position (x :: xs) x = 0 := by
        simp only [position, List.length_eq_zero_iff, List.filter_eq_nil_iff, decide_eq_true_eq]
        intro y hy
        simp only [List.mem_cons] at hy
        rcases hy with rfl | hy
        · omega
        · have := hs.1 y hy; omega
      rw [this]; simp
    · have hr' : r ∈ xs := by
        rcases List.mem_cons.mp hr with h | h
        · exact absurd h.symm hx
        · exact h
      have hlt : x < r := by have := hs.1 r hr'; omega
      rw [List.idxOf_cons]
      have : (x == r) = false := by simpa using hx
      rw [this]
      simp only [cond_false, ih hs.2 hn.2 hr']
      simp [position, hlt]

theorem position_perm {l1 l2 : List Int} (h : l1 ~ l2) (r : Int) : position l1 r = position l2 r := (h.filter _).length_eq

theorem idxOf_sorted' {l : List Int} (hn : l.Nodup) {r : Int} (hr : r ∈ l) : (sorted l).idxOf r = position l r := by
  rw [idxOf_sorted (sorted_pairwise l) ((sorted_perm l).nodup_iff.mpr hn) ((sorted_perm l).mem_iff.mpr hr), position_perm (sorted_perm l)]

/-- **C47** (ranks of a group): every number below the size of the group is the position of exactly one member -/
theorem positions {l : List Int} (hn : l.Nodup) : (∀ r ∈ l, position l r < l.length) ∧
    ∀ i < l.length, ∃ r ∈ l, position l r = i ∧ ∀ r' ∈ l, position l r' = i → r' = r := by
  have hsn := (sorted_perm l).nodup_iff.mpr hn
  have hlen := (sorted_perm l).length_eq
  refine ⟨fun r hr => ?_, fun i hi => ?_⟩
  · rw [← idxOf_sorted' hn hr, ← hlen]
    exact List.idxOf_lt_length_iff.mpr ((sorted_perm l).mem_iff.mpr hr)
  · have hi' : i < (sorted l).length := by omega
    refine ⟨(sorted l)[i], (sorted_perm l).mem_iff.mp (List.getElem_mem _), ?_, ?_⟩
    · rw [← idxOf_sorted' hn ((sorted_perm l).mem_iff.mp (List.getElem_mem _)), hsn.idxOf_getElem]
    · intro r' hr' hp
      rw [← idxOf_sorted' hn hr'] at hp
      subst hp
      exact (List.getElem_idxOf hi').symm

/-! ## Names -/

theorem digits_no_underscore {r : Int} (h : 0 ≤ r) : '_' ∉ (toString r).toList ∧ (toString r).toList ≠ [] := by
  obtain ⟨n, rfl⟩ := Int.eq_ofNat_of_zero_le h
  have : (toString (n : Int)).toList = Nat.toDigits 10 n := by
    show (Int.repr (n : Int)).toList = _
    rw [Int.repr_eq_if, if_pos (by omega), Nat.toList_repr]; simp
  rw [this]
  exact ⟨Nat.underscore_not_in_toDigits, Nat.toDigits_ne_nil⟩

theorem digits_inj {r s : Int} (hr : 0 ≤ r) (hs : 0 ≤ s) (h : (toString r).toList = (toString s).toList) : r = s := by
  obtain ⟨n, rfl⟩ := Int.eq_ofNat_of_zero_le hr
  obtain ⟨m, rfl⟩ := Int.eq_ofNat_of_zero_le hs
  have e : ∀ n : Nat, (toString (n : Int)).toList = Nat.toDigits 10 n := by
    intro n
    show (Int.repr (n : Int)).toList = _
    rw [Int.repr_eq_if, if_pos (by omega), Nat.toList_repr]; simp
  rw [e, e] at h
  have := congrArg (fun l => Nat.ofDigitChars 10 l 0) h
  simp only [Nat.ofDigitChars_ten_toDigits] at this
  rw [this]

theorem split_eq {a b s t : List Char} (ha : '_' ∉ a) (hb : '_' ∉ b) (hs : s = [] ∨ ∃ s', s = '_' :: s') (ht : t = [] ∨ ∃ t', t = '_' :: t')
    (h : a ++ s = b ++ t) : a = b ∧ s = t := by
  induction a generalizing b with
  | nil =>
    cases b with
    | nil => exact ⟨rfl, by simpa using h⟩
    | cons y ys =>
      simp only [List.nil_append, List.cons_append] at h
      rcases hs with rfl | ⟨s', rfl⟩
      · cases h
      · cases h; simp at hb
  | cons x xs ih =>
    cases b with
    | nil =>
      simp only [List.nil_append, List.cons_append] at h
      rcases ht with rfl | ⟨t', rfl⟩
      · cases h
      · cases h; simp at ha
    | cons y ys =>
      simp only [List.cons_append, List.cons.injEq] at h
      obtain ⟨rfl, h⟩ := h
      obtain ⟨h1, h2⟩ := ih (fun hh => ha (by simp [hh])) (fun hh => hb (by simp [hh])) h
      exact ⟨by rw [h1], h2⟩

/-- the joined digits after the first number -/
def joined (l : List Int) : List Char := ['_'].intercalate (l.map (fun r => (toString r).toList))

theorem joined_cons (x : Int) (xs : List Int) : ∃ s, joined (x :: xs) = (toString x).toList ++ s ∧ (s = [] ∨ ∃ s', s = '_' :: s') ∧
    (xs = [] → s = []) ∧ (xs ≠ [] → s = '_' :: joined xs) := by
  cases xs with
  | nil => exact ⟨[], by simp [joined, List.intercalate], .inl rfl, fun _ => rfl, fun h => absurd rfl h⟩
  | cons y ys =>
    refine ⟨'_' :: joined (y :: ys), ?_, .inr ⟨_, rfl⟩, fun h => (by cases h), fun _ => rfl⟩
    simp only [joined, List.map_cons, List.intercalate_cons_cons, List.append_assoc, List.cons_append, List.nil_append]

theorem joined_inj {l1 l2 : List Int} (h1 : ∀ r ∈ l1, 0 ≤ r) (h2 : ∀ r ∈ l2, 0 ≤ r) (h : joined l1 = joined l2) : l1 = l2 := by
  induction l1 generalizing l2 with
  | nil =>
    cases l2 with
    | nil => rfl
    | cons y ys =>
      obtain ⟨s, hs, _⟩ := joined_cons y ys
      have : joined [] = [] := rfl
      rw [this, hs] at h
      exact absurd (List.append_eq_nil_iff.mp h.symm).1 (digits_no_underscore (h2 y (by simp))).2
  | cons x xs ih =>
    obtain ⟨s, hs, hs2, hs3, hs4⟩ := joined_cons x xs
    cases l2 with
    | nil =>
      have : joined [] = [] := rfl
      rw [this, hs] at h
      exact absurd (List.append_eq_nil_iff.mp h).1 (digits_no_underscore (h1 x (by simp))).2
    | cons y ys =>
      obtain ⟨t, ht, ht2, ht3, ht4⟩ := joined_cons y ys
      rw [hs, ht] at h
      obtain ⟨e1, e2⟩ := split_eq (digits_no_underscore (h1 x (by simp))).1 (digits_no_underscore (h2 y (by simp))).1 hs2 ht2 h
      have hxy := digits_inj (h1 x (by simp)) (h2 y (by simp)) e1
      subst hxy
      congr 1
      by_cases hx : xs = []
      · by_cases hy : ys = []
        · rw [hx, hy]
        · rw [hs3 hx, ht4 hy] at e2; cases e2
      · by_cases hy : ys = []
        · rw [hs4 hx, ht3 hy] at e2; cases e2
        · rw [hs4 hx, ht4 hy] at e2
          simp only [List.cons.injEq, true_and] at e2
          exact ih (fun r hr => h1 r (by simp [hr])) (fun r hr => h2 r (by simp [hr])) e2

theorem plain_inj {backend : Name} {l1 l2 : List Int} (h1 : ∀ r ∈ l1, 0 ≤ r) (h2 : ∀ r ∈ l2, 0 ≤ r) (h : plain backend l1 = plain backend l2) : l1 = l2 :=
  joined_inj h1 h2 (List.append_cancel_left h)

/-! ## Groups -/

/-- **C47** (same name): all members get the same name, in whatever order each of them has the ranks -/
theorem same_name (hash : List Char → Name) {a b : Actor} (hw : a.world = b.world) (hb : a.backend = b.backend) {r1 r2 : List Int} (hp : r1 ~ r2)
    {c1 c2 : Bool} {n1 n2 : Name} (h1 : (newGroup hash c1 a r1).2 = .ok (some n1)) (h2 : (newGroup hash c2 b r2).2 = .ok (some n2)) : n1 = n2 := by
  have key : ∀ (a : Actor) (r : List Int) (c : Bool) (n : Name), (newGroup hash c a r).2 = .ok (some n) →
      n = if (r.length : Int) = a.world then dflt else hash (plain a.backend (sorted r)) := by
    intro a r c n h
    simp only [newGroup] at h
    split at h
    · cases h
    split at h
    · cases h
    split at h
    · next hl => cases h; rw [if_pos hl]
    · next hl =>
      rw [if_neg hl]
      repeat' split at h
      all_goals cases h
      all_goals rfl
  rw [key _ _ _ _ h1, key _ _ _ _ h2, hp.length_eq, hw, hb, sorted_eq hp]

/-- **C47** (others): who is not a member of an acceptable group gets nothing, and nothing changes for it -/
theorem non_member (hash : List Char → Name) {a : Actor} {world : Nat} (hw : a.world = world) {ranks : List Int} (hv : Valid world ranks)
    (hr : a.rank ∉ ranks) (c : Bool) : newGroup hash c a ranks = (a, .ok none) := by
  simp only [newGroup, hw, accepted_iff.mpr hv, hr, not_false_eq_true, if_true]

/-- the groups of an actor -/
def GroupsOk (hash : List Char → Name) (a : Actor) : Prop :=
  (∃ w : Nat, a.world = w) ∧
  ∀ n g, a.groups.get? n = some g → (n = dflt ∧ (g.rank : Int) = a.rank ∧ (g.world : Int) = a.world) ∨
    ∃ ranks, Valid a.world ranks ∧ a.rank ∈ ranks ∧ n = hash (plain a.backend (sorted ranks)) ∧ g = ⟨position ranks a.rank, ranks.length⟩

theorem newGroup_static (hash : List Char → Name) (c : Bool) (a : Actor) (ranks : List Int) :
    (newGroup hash c a ranks).1.rank = a.rank ∧ (newGroup hash c a ranks).1.world = a.world ∧ (newGroup hash c a ranks).1.backend = a.backend := by
  simp only [newGroup]
  repeat' split
  all_goals exact ⟨rfl, rfl, rfl⟩

theorem groupsOk_reach {hash : List Char → Name} {a : Actor} (h : Reach hash a) : GroupsOk hash a ∧ (a.groups.get? dflt).isSome := by
  induction h with
  | create rank world backend =>
    refine ⟨⟨⟨world, rfl⟩, ?_⟩, ?_⟩
    · intro n g hg
      simp only [create, Dict.get?_cons] at hg
      split at hg
      · next hd =>
        cases hg
        exact .inl ⟨by rw [← hd], rfl, rfl⟩
      · cases hg
    · simp [create, Dict.get?_cons]
  | call c ranks hr ih =>
    rename_i a
    obtain ⟨⟨⟨w, hw⟩, ih1⟩, ih2⟩ := ih
    simp only [newGroup]
    split
    · exact ⟨⟨⟨w, hw⟩, ih1⟩, ih2⟩
    next hc =>
    have hv : Valid a.world ranks := by rw [hw] at hc ⊢; exact accepted_iff.mp hc
    split
    · exact ⟨⟨⟨w, hw⟩, ih1⟩, ih2⟩
    next hmem =>
    split
    · exact ⟨⟨⟨w, hw⟩, ih1⟩, ih2⟩
    repeat' split
    all_goals first | exact ⟨⟨⟨w, hw⟩, ih1⟩, ih2⟩ | skip
    refine ⟨⟨⟨w, hw⟩, ?_⟩, ?_⟩
    · intro n g hg
      simp only [Dict.get?_set] at hg
      split at hg
      · next hn =>
        cases hg
        have hmem' : a.rank ∈ ranks := by simpa using hmem
        exact .inr ⟨ranks, hv, hmem', hn.symm, by rw [idxOf_sorted' hv.1 hmem', (sorted_perm ranks).length_eq]⟩
      · exact ih1 n g hg
    · simp only [Dict.get?_set]
      split
      · rfl
      · exact ih2

/-- a full group contains every rank, so its positions are the global ranks -/
theorem position_full {world : Nat} {ranks : List Int} (hv : Valid world ranks) (hl : ranks.length = world) {r : Int} (hr : r ∈ ranks) :
    (position ranks r : Int) = r := by
  -- the ranks are a permutation of 0 … world-1
  have hall : ∀ i : Nat, i < world → (i : Int) ∈ ranks := by
    intro i hi
    rcases Classical.em ((i : Int) ∈ ranks) with h | h
    · exact h
    · exfalso
      have hv' : Valid world ((i : Int) :: ranks) := ⟨List.nodup_cons.mpr ⟨h, hv.1⟩, by
        intro x hx
        simp only [List.mem_cons] at hx
        rcases hx with rfl | hx
        · omega
        · exact hv.2 x hx⟩
      have := hv'.length_le
      simp only [List.length_cons] at this
      omega
  obtain ⟨h0, h1⟩ := hv.2 r hr
  -- smaller members are exactly 0 … r-1
  have le1 : position ranks r ≤ r.toNat := by
    have hsub : ranks.filter (fun x => decide (x < r)) ⊆ (List.range r.toNat).map Int.ofNat := by
      intro x hx
      simp only [List.mem_filter, decide_eq_true_eq] at hx
      have := hv.2 x hx.1
      simp only [List.mem_map, List.mem_range]
      exact ⟨x.toNat, by omega, Int.toNat_of_nonneg this.1⟩
    have := List.Nodup.length_le_of_subset (hv.1.filter (fun x => decide (x < r))) hsub
    simpa [position] using this
  have le2 : r.toNat ≤ position ranks r := by
    have hsub : (List.range r.toNat).map Int.ofNat ⊆ ranks.filter (fun x => decide (x < r)) := by
      intro x hx
      simp only [List.mem_map, List.mem_range] at hx
      obtain ⟨i, hi, rfl⟩ := hx
      simp only [List.mem_filter, decide_eq_true_eq]
      exact ⟨hall i (by omega), by show (i : Int) < r; omega⟩
    have hnd : ((List.range r.toNat).map Int.ofNat).Nodup := by
      exact List.Pairwise.map _ (fun a b hab hh => hab (Int.ofNat.inj hh)) List.nodup_range
    have := hnd.length_le_of_subset hsub
    simpa [position] using this
  omega

/-- **C47** (the group behind the name): the name a member gets stands for the group of exactly these ranks, in which the member has its
position and whose size is their number - whatever groups were made before, as long as the hash has no collision -/
theorem group_of_ranks {hash : List Char → Name} (hh : NoCollision hash) {a a' : Actor} (hr : Reach hash a) {ranks : List Int} {c : Bool} {n : Name}
    (h : newGroup hash c a ranks = (a', .ok (some n))) :
    a'.groups.get? n = some ⟨position ranks a.rank, ranks.length⟩ ∧ Valid a.world ranks ∧ a.rank ∈ ranks := by
  obtain ⟨⟨⟨w, hw⟩, hg⟩, hd⟩ := groupsOk_reach hr
  simp only [newGroup] at h
  split at h
  · cases h
  next hc =>
  have hv : Valid a.world ranks := by rw [hw] at hc ⊢; exact accepted_iff.mp hc
  split at h
  · cases h
  next hmem =>
  have hmem' : a.rank ∈ ranks := by simpa using hmem
  refine ⟨?_, hv, hmem'⟩
  have hv' : Valid w ranks := hw ▸ hv
  split at h
  · next hl =>
    cases h
    rcases hdg : a.groups.get? dflt with _ | g
    · rw [hdg] at hd; cases hd
    · rcases hg _ _ hdg with ⟨_, h1, h2⟩ | ⟨_, _, _, hn, _⟩
      · congr 1
        have hp := position_full hv' (by rw [hw] at hl; omega) hmem'
        obtain ⟨gr, gw⟩ := g
        simp only at h1 h2
        have e1 : gr = position ranks a.rank := by omega
        have e2 : gw = ranks.length := by omega
        rw [e1, e2]
      · exact absurd hn.symm (hh.dflt _)
  · split at h
    · next hs =>
      cases h
      rcases hdg : a.groups.get? (hash (plain a.backend (sorted ranks))) with _ | g
      · rw [hdg] at hs; cases hs
      · rcases hg _ _ hdg with ⟨hn, _⟩ | ⟨ranks', hv2, _, hn, hgg⟩
        · exact absurd hn (hh.dflt _)
        · have hpl := plain_inj (fun r hr => (hv.2 r ((sorted_perm ranks).mem_iff.mp hr)).1)
            (fun r hr => (hv2.2 r ((sorted_perm ranks').mem_iff.mp hr)).1) (hh.inj _ _ hn)
          have hp : ranks ~ ranks' := (sorted_perm ranks).symm.trans ((hpl ▸ sorted_perm ranks' : sorted ranks ~ ranks'))
          rw [hgg, position_perm hp, hp.length_eq]
    · repeat' split at h
      all_goals cases h
      simp only [Dict.get?_set, if_true]
      rw [idxOf_sorted' hv.1 hmem', (sorted_perm ranks).length_eq]

/-- **C47** (when a group is made): a member that calls for a group it does not have yet gets it if its backend is gloo or nccl and the
members could be connected; it then keeps all its other groups.  Otherwise it gets an error and keeps what it has. -/
theorem group_made_iff {hash : List Char → Name} (hh : NoCollision hash) {a : Actor} (hr : Reach hash a) {ranks : List Int} {c : Bool}
    (hv : Valid a.world ranks) (hm : a.rank ∈ ranks) (hl : (ranks.length : Int) ≠ a.world)
    (hnew : ∀ n g, a.groups.get? n = some g → n ≠ hash (plain a.backend (sorted ranks))) :
    ((∃ n, (newGroup hash c a ranks).2 = .ok (some n)) ↔
      (a.backend = ['g', 'l', 'o', 'o'] ∨ a.backend = ['n', 'c', 'c', 'l']) ∧ c = true) ∧
    (∀ e, (newGroup hash c a ranks).2 = .error e → (newGroup hash c a ranks).1 = a) ∧
    (∀ n' g, a.groups.get? n' = some g → (newGroup hash c a ranks).1.groups.get? n' = some g) := by
  obtain ⟨⟨⟨w, hw⟩, hg⟩, hd⟩ := groupsOk_reach hr
  have hc : checks a.world ranks = none := by rw [hw] at hv ⊢; exact accepted_iff.mpr hv
  have hn : a.groups.get? (hash (plain a.backend (sorted ranks))) = none := by
    rcases h : a.groups.get? (hash (plain a.backend (sorted ranks))) with _ | g
    · rfl
    · exact absurd rfl (hnew _ _ h)
  have e : newGroup hash c a ranks = if a.backend = gloo ∨ a.backend = nccl then
        if c then ({ a with groups := a.groups.set (hash (plain a.backend (sorted ranks))) ⟨(sorted ranks).idxOf a.rank, (sorted ranks).length⟩ }, .ok (some (hash (plain a.backend (sorted ranks)))))
        else (a, .error .connect)
      else (a, .error .noBackend) := by
    simp only [newGroup, hc, hm, not_true_eq_false, if_false, hl, hn, Option.isSome_none, Bool.false_eq_true]
  rw [e]
  simp only [gloo, nccl]
  by_cases hb : a.backend = ['g', 'l', 'o', 'o'] ∨ a.backend = ['n', 'c', 'c', 'l']
  · cases c
    · simp [hb]
    · simp only [hb, if_true]
      refine ⟨⟨fun _ => ⟨trivial, trivial⟩, fun _ => ⟨_, rfl⟩⟩, fun e h => by simp at h, fun n' g h => ?_⟩
      have := hnew n' g h
      rw [Dict.get?_set, if_neg (fun h => this h.symm)]
      exact h
  · simp [hb]

/-- **C47** (different groups): groups of different ranks have different names -/
theorem different_names {hash : List Char → Name} (hh : NoCollision hash) {a b : Actor} {world : Nat} (ha : a.world = world) (hb : b.world = world)
    (hbk : a.backend = b.backend) {r1 r2 : List Int} (hp : ¬ r1 ~ r2) {c1 c2 : Bool} {n1 n2 : Name}
    (h1 : (newGroup hash c1 a r1).2 = .ok (some n1)) (h2 : (newGroup hash c2 b r2).2 = .ok (some n2)) : n1 ≠ n2 := by
  have key : ∀ (a : Actor) (r : List Int) (c : Bool) (n : Name), a.world = world → (newGroup hash c a r).2 = .ok (some n) →
      Valid world r ∧ n = if r.length = world then dflt else hash (plain a.backend (sorted r)) := by
    intro a r c n hw h
    simp only [newGroup, hw] at h
    split at h
    · cases h
    next hc =>
    refine ⟨accepted_iff.mp hc, ?_⟩
    split at h
    · cases h
    split at h
    · next hl => cases h; rw [if_pos (by omega)]
    · next hl =>
      rw [if_neg (by omega)]
      repeat' split at h
      all_goals cases h
      all_goals rfl
  obtain ⟨v1, e1⟩ := key _ _ _ _ ha h1
  obtain ⟨v2, e2⟩ := key _ _ _ _ hb h2
  intro he
  rw [e1, e2] at he
  have full : ∀ r, Valid world r → r.length = world → r ~ (List.range world).map Int.ofNat := by
    intro r hv hl
    have h1 := (sorted_perm r)
    refine h1.symm.trans ?_
    have : sorted r = (List.range world).map Int.ofNat := by
      apply List.ext_getElem
      · rw [(sorted_perm r).length_eq, hl]; simp
      · intro i hi1 hi2
        have hmem : (sorted r)[i] ∈ r := (sorted_perm r).mem_iff.mp (List.getElem_mem _)
        have hp := position_full hv hl hmem
        rw [← idxOf_sorted' hv.1 hmem, ((sorted_perm r).nodup_iff.mpr hv.1).idxOf_getElem] at hp
        simp [← hp]
    rw [this]
  split at he
  · next l1 =>
    split at he
    · next l2 => exact hp ((full r1 v1 l1).trans (full r2 v2 l2).symm)
    · exact hh.dflt _ he.symm
  · split at he
    · exact hh.dflt _ he
    · rw [hbk] at he
      have hpl := plain_inj (fun r hr => (v1.2 r ((sorted_perm r1).mem_iff.mp hr)).1)
        (fun r hr => (v2.2 r ((sorted_perm r2).mem_iff.mp hr)).1) (hh.inj _ _ he)
      exact hp ((sorted_perm r1).symm.trans ((hpl ▸ sorted_perm r2 : sorted r1 ~ r2)))

/-! ## The communicator of an nccl group -/

/-- what the exchange needs: the first member sends to the others, and they listen to it -/
def NcclOk (members : List Int) : Prop := ncclSends members = members.tail ∧ (members.tail ≠ [] → members.head? = some ncclSource)

/-- **refuted** (nccl): the id is sent to the group ranks as if they were global ranks.  It reaches the members only if they are the first
ranks of the job -/
theorem nccl_exchange_iff (members : List Int) : (NcclOk members) ↔ members.length ≤ 1 ∨ members = (List.range members.length).map Int.ofNat := by
  cases members with
  | nil => simp [NcclOk, ncclSends]
  | cons x xs =>
    have hsend : ncclSends (x :: xs) = ((List.range xs.length).map (fun i : Nat => Int.ofNat (i + 1))) := by
      simp [ncclSends, List.range_succ_eq_map]
    have hrange : (List.range (x :: xs).length).map Int.ofNat = 0 :: (List.range xs.length).map (fun i : Nat => Int.ofNat (i + 1)) := by
      simp [List.range_succ_eq_map]
    rw [hrange]
    simp only [NcclOk, hsend, List.tail_cons, List.head?_cons, ncclSource, Option.some.injEq, List.length_cons, List.cons.injEq]
    constructor
    · rintro ⟨h1, h2⟩
      by_cases hx : xs = []
      · left; simp [hx]
      · right; exact ⟨h2 hx, h1.symm⟩
    · rintro (h | ⟨h1, h2⟩)
      · have : xs = [] := List.length_eq_zero_iff.mp (by omega)
        subst this; simp
      · exact ⟨h2.symm, fun _ => h1⟩

/-- the group of ranks 1 and 2 of three: the id is sent to rank 1 (the sender itself) and awaited from rank 0 (not a member) -/
theorem nccl_exchange_refuted : Valid 3 [1, 2] ∧ ¬ NcclOk (sorted [1, 2]) ∧ ncclSends (sorted [1, 2]) = [1] := by
  have hs : sorted [1, 2] = [1, 2] := by
    refine List.Perm.eq_of_pairwise (le := (· ≤ ·)) (fun a b _ _ h1 h2 => Int.le_antisymm h1 h2) (sorted_pairwise _) (by simp) (sorted_perm _)
  rw [hs]
  refine ⟨⟨by simp, by simp⟩, ?_, by simp [ncclSends, List.range_succ_eq_map]⟩
  rw [nccl_exchange_iff]; simp [List.range_succ_eq_map]

/-! ## Examples -/

/-- a collision-free hash exists -/
def demoHash (x : List Char) : Name := '#' :: x

theorem demoHash_ok : NoCollision demoHash := ⟨fun _ _ h => by cases h; rfl, fun x h => by cases h⟩

/-- ranks 2, 1 and 3 of four, given in another order on each: the same name, ranks 0, 1, 2 -/
example : (newGroup demoHash true (create 2 4 gloo) [2, 3, 1]).2 = .ok (some (demoHash (plain gloo [1, 2, 3]))) ∧
    (newGroup demoHash true (create 3 4 gloo) [1, 3, 2]).2 = .ok (some (demoHash (plain gloo [1, 2, 3]))) ∧
    position [2, 3, 1] 2 = 1 ∧ position [1, 3, 2] 3 = 2 := by
  have hs : ∀ l, l ~ [1, 2, 3] → sorted l = [1, 2, 3] := fun l hl => by
    rw [sorted_eq hl]
    exact List.Perm.eq_of_pairwise (le := (· ≤ ·)) (fun a b _ _ h1 h2 => Int.le_antisymm h1 h2) (sorted_pairwise _) (by simp) (sorted_perm _)
  have c1 : checks 4 [2, 3, 1] = none := by decide
  have c2 : checks 4 [1, 3, 2] = none := by decide
  have p1 : ([2, 3, 1] : List Int) ~ [1, 2, 3] := by decide
  have p2 : ([1, 3, 2] : List Int) ~ [1, 2, 3] := by decide
  refine ⟨?_, ?_, by decide, by decide⟩
  · simp [newGroup, create, c1, hs _ p1, gloo, Dict.get?_cons, dflt, demoHash]
  · simp [newGroup, create, c2, hs _ p2, gloo, Dict.get?_cons, dflt, demoHash]

/-- a rejected list -/
example : (newGroup demoHash true (create 0 4 gloo) [0, 4]).2 = .error .illegal ∧ (newGroup demoHash true (create 0 4 gloo) [0, 0]).2 = .error .duplicate ∧
    (newGroup demoHash true (create 3 4 gloo) [0, 1, 2, 3, 4]).2 = .error .tooLarge := ⟨rfl, rfl, rfl⟩

end Xoscar.Collective
