import Verif.Spec.Nd
import Verif.Proof.Base

namespace Xoscar.Nd
open Xoscar
open scoped List

mutual
theorem DType.WF.noObject : ∀ {d : DType}, d.WF → d.hasObject = false
  | .scalar .., _ => rfl
  | .object, h => by simp [DType.WF] at h
  | .struct fs n, h => by
    simp only [DType.WF] at h
    simp only [DType.hasObject]
    exact Fields.WF.noObject h.2.2
theorem Fields.WF.noObject : ∀ {fs : Fields} {n : Nat}, fs.WF n → fs.hasObject = false
  | .nil, _, _ => rfl
  | .cons nm o t r, n, h => by
    simp only [Fields.WF] at h
    simp only [Fields.hasObject, DType.WF.noObject h.2.1, Fields.WF.noObject h.2.2.2, Bool.or_self]
end

theorem DType.WF.size_pos {d : DType} (h : d.WF) : 0 < d.size := by
  cases d with
  | scalar => exact h
  | object => simp [DType.WF] at h
  | struct => exact h.1

theorem isPad_pad (n : Nat) : isPad "" (.scalar "|V" n) = true := by
  simp [isPad]

theorem isPad_named {name : String} (h : name ≠ "") (d : DType) : isPad name d = false := by
  cases d <;> simp [isPad, h]

theorem padItem_toFields (num offset : Nat) (r : DescrItems) :
    (padItem num r).toFields offset = r.toFields (offset + num) := by
  simp [padItem, DescrItems.toFields, Descr.toDType, isPad_pad, DType.size]

theorem padItem_total (num offset : Nat) (r : DescrItems) :
    (padItem num r).total offset = r.total (offset + num) := by
  simp [padItem, DescrItems.total, Descr.toDType, DType.size]

mutual
theorem descr_roundtrip : ∀ {d : DType} {x : Descr}, d.WF → d.toDescr = some x → x.toDType = d
  | .scalar s n, x, _, h => by
    simp only [DType.toDescr, Option.some.injEq] at h
    subst h
    simp [Descr.toDType]
  | .object, _, h, _ => by simp [DType.WF] at h
  | .struct fs n, x, hw, h => by
    simp only [DType.WF] at hw
    simp only [DType.toDescr, Option.map_eq_some_iff] at h
    obtain ⟨items, h, rfl⟩ := h
    have := items_roundtrip hw.2.2 (by omega) h
    simp [Descr.toDType, this.1, this.2]
theorem items_roundtrip : ∀ {fs : Fields} {offset size : Nat} {items : DescrItems}, fs.WF size →
    offset ≤ size → fs.toItems offset size = some items →
    items.toFields offset = fs ∧ items.total offset = size
  | .nil, offset, size, items, _, hs, h => by
    simp only [Fields.toItems] at h
    split at h
    · simp only [Option.some.injEq] at h
      subst h
      rw [padItem_toFields, padItem_total]
      simp only [DescrItems.toFields, DescrItems.total, true_and]
      omega
    · simp only [Option.some.injEq] at h
      subst h
      simp only [DescrItems.toFields, DescrItems.total, true_and]
      omega
  | .cons nm o t r, offset, size, items, hw, hs, h => by
    simp only [Fields.WF] at hw
    simp only [Fields.toItems] at h
    split at h
    · cases h
    rename_i ho
    rcases hd : t.toDescr with _ | d
    · simp [hd] at h
    rcases hi : r.toItems (o + t.size) size with _ | its
    · simp [hd, hi] at h
    simp only [hd, hi, Option.some.injEq] at h
    have hx := descr_roundtrip hw.2.1 hd
    have hr := items_roundtrip hw.2.2.2 hw.2.2.1 hi
    split at h
    · subst h
      rw [padItem_toFields, padItem_total]
      simp only [DescrItems.toFields, DescrItems.total, hx, isPad_named hw.1, Bool.false_eq_true, if_false]
      have : offset + (o - offset) = o := by omega
      rw [this]
      exact ⟨by rw [hr.1], hr.2⟩
    · subst h
      simp only [DescrItems.toFields, DescrItems.total, hx, isPad_named hw.1, Bool.false_eq_true, if_false]
      have : offset = o := by omega
      rw [this]
      exact ⟨by rw [hr.1], hr.2⟩
end

mutual
theorem toDescr_isSome : ∀ {d : DType}, d.toDescr.isSome = true ↔ d.Ordered
  | .scalar .. => by simp [DType.toDescr, DType.Ordered]
  | .object => by simp [DType.toDescr, DType.Ordered]
  | .struct fs n => by
    simp only [DType.toDescr, DType.Ordered, Option.isSome_map]
    rw [toItems_isSome]
    simp
theorem toItems_isSome : ∀ {fs : Fields} {offset size : Nat}, (fs.toItems offset size).isSome = true ↔
    (∀ x ∈ fs.toList, offset ≤ x.2.1) ∧ fs.toList.Pairwise Before ∧ fs.Ordered
  | .nil, offset, size => by
    simp only [Fields.toItems, Fields.toList, Fields.Ordered]
    split <;> simp
  | .cons nm o t r, offset, size => by
    have h1 := @toDescr_isSome t
    have h2 := @toItems_isSome r (o + t.size) size
    simp only [Fields.toItems, Fields.toList, Fields.Ordered, List.mem_cons, forall_eq_or_imp, List.pairwise_cons]
    rcases hd : t.toDescr with _ | d
    · rw [hd] at h1
      have h1 : ¬ t.Ordered := by simpa using h1
      simp only [h1, false_and, and_false, iff_false]
      split <;> simp
    · rw [hd] at h1
      have h1 : t.Ordered := by simpa using h1
      rcases hi : r.toItems (o + t.size) size with _ | its
      · rw [hi] at h2
        simp only [Option.isSome_none, Bool.false_eq_true, false_iff] at h2
        constructor
        · intro h; split at h <;> simp at h
        · rintro ⟨_, ⟨h3, h4⟩, _, h5⟩
          exact absurd ⟨h3, h4, h5⟩ h2
      · rw [hi] at h2
        simp only [Option.isSome_some, true_iff] at h2
        by_cases ho : o < offset
        · simp only [ho, if_true, Option.isSome_none, Bool.false_eq_true, false_iff]
          rintro ⟨⟨h3, _⟩, _⟩
          omega
        · simp only [ho, if_false, Option.isSome_some, true_iff]
          refine ⟨⟨by omega, fun x hx => ?_⟩, ⟨h2.1, h2.2.1⟩, h1, h2.2.2⟩
          have := h2.1 x hx
          omega
end

/-! ### Reordering -/

theorem ofList_toList : ∀ (fs : Fields), Fields.ofList fs.toList = fs
  | .nil => rfl
  | .cons n o t r => by simp [Fields.toList, Fields.ofList, ofList_toList r]

theorem toList_ofList : ∀ (l : List FieldRow), (Fields.ofList l).toList = l
  | [] => rfl
  | (n, o, t) :: l => by simp [Fields.toList, Fields.ofList, toList_ofList l]

theorem insertField_perm (x : FieldRow) (l : List FieldRow) : insertField x l ~ x :: l := by
  induction l with
  | nil => exact .refl _
  | cons y l ih =>
    simp only [insertField]
    split
    · exact .refl _
    · exact (List.Perm.cons _ ih).trans (List.Perm.swap ..)

theorem sortFields_perm (l : List FieldRow) : sortFields l ~ l := by
  induction l with
  | nil => exact .refl _
  | cons x l ih => exact (insertField_perm _ _).trans (.cons _ ih)

theorem insertField_sorted (x : FieldRow) (l : List FieldRow)
    (h : l.Pairwise fun a b => a.2.1 ≤ b.2.1) : (insertField x l).Pairwise fun a b => a.2.1 ≤ b.2.1 := by
  induction l with
  | nil => simp [insertField]
  | cons y l ih =>
    simp only [insertField]
    rw [List.pairwise_cons] at h
    split
    · rename_i hx
      refine List.pairwise_cons.2 ⟨?_, List.pairwise_cons.2 h⟩
      intro z hz
      rcases List.mem_cons.1 hz with rfl | hz
      · exact hx
      · have := h.1 z hz; omega
    · rename_i hx
      refine List.pairwise_cons.2 ⟨?_, ih h.2⟩
      intro z hz
      rcases List.mem_cons.1 ((insertField_perm x l).mem_iff.1 hz) with rfl | hz
      · omega
      · exact h.1 z hz

theorem sortFields_sorted (l : List FieldRow) : (sortFields l).Pairwise fun a b => a.2.1 ≤ b.2.1 := by
  induction l with
  | nil => simp [sortFields]
  | cons x l ih => exact insertField_sorted _ _ ih

theorem find_of_nodup {l : List FieldRow} (hn : (l.map (·.1)).Nodup) {x : FieldRow} (hx : x ∈ l) :
    l.find? (·.1 == x.1) = some x := by
  induction l with
  | nil => simp at hx
  | cons y l ih =>
    rw [List.map_cons, List.nodup_cons] at hn
    rw [List.find?_cons]
    rcases List.mem_cons.1 hx with rfl | hx
    · simp
    · have : y.1 ≠ x.1 := fun e => hn.1 (e ▸ List.mem_map.2 ⟨x, hx, rfl⟩)
      have : (y.1 == x.1) = false := by simpa using this
      rw [this]
      exact ih hn.2 hx

theorem mapM_find {l m : List FieldRow} (hn : (l.map (·.1)).Nodup) (hm : ∀ x ∈ m, x ∈ l) :
    (m.map (·.1)).mapM (fun k => l.find? (·.1 == k)) = some m := by
  induction m with
  | nil => rfl
  | cons x m ih =>
    simp only [List.map_cons, List.mapM_cons, find_of_nodup hn (hm x (by simp)),
      ih (fun y hy => hm y (by simp [hy]))]
    rfl

theorem select_perm {fs : Fields} {n : Nat} (hn : (fs.toList.map (·.1)).Nodup) {m : List FieldRow}
    (hm : m ~ fs.toList) : select (m.map (·.1)) (.struct fs n) = some (.struct (Fields.ofList m) n) := by
  simp only [select, mapM_find hn (fun x hx => hm.mem_iff.1 hx), Option.map_some]

theorem fieldsWF_iff : ∀ {fs : Fields} {n : Nat}, fs.WF n ↔
    ∀ x ∈ fs.toList, x.1 ≠ "" ∧ x.2.2.WF ∧ x.2.1 + x.2.2.size ≤ n
  | .nil, n => by simp [Fields.WF, Fields.toList]
  | .cons nm o t r, n => by
    simp only [Fields.WF, Fields.toList, List.mem_cons, forall_eq_or_imp, fieldsWF_iff (fs := r)]
    constructor
    · rintro ⟨a, b, c, d⟩; exact ⟨⟨a, b, c⟩, d⟩
    · rintro ⟨⟨a, b, c⟩, d⟩; exact ⟨a, b, c, d⟩

theorem fieldsOrdered_iff : ∀ {fs : Fields}, fs.Ordered ↔ ∀ x ∈ fs.toList, x.2.2.Ordered
  | .nil => by simp [Fields.Ordered, Fields.toList]
  | .cons nm o t r => by
    simp only [Fields.Ordered, Fields.toList, List.mem_cons, forall_eq_or_imp, fieldsOrdered_iff (fs := r)]

theorem pairwise_before_iff {l : List FieldRow} (hp : ∀ x ∈ l, 0 < x.2.2.size)
    (hs : l.Pairwise fun a b => a.2.1 ≤ b.2.1) :
    l.Pairwise Before ↔ l.Pairwise (fun x y => Before x y ∨ Before y x) := by
  induction l with
  | nil => simp
  | cons x l ih =>
    rw [List.pairwise_cons] at hs
    simp only [List.pairwise_cons, ih (fun y hy => hp y (by simp [hy])) hs.2]
    constructor
    · rintro ⟨h1, h2⟩; exact ⟨fun y hy => .inl (h1 y hy), h2⟩
    · rintro ⟨h1, h2⟩
      refine ⟨fun y hy => ?_, h2⟩
      rcases h1 y hy with h | h
      · exact h
      · have := hs.1 y hy
        have := hp y (by simp [hy])
        unfold Before at *
        omega

theorem disjoint_perm {l m : List FieldRow} (h : l ~ m) :
    l.Pairwise (fun x y => Before x y ∨ Before y x) ↔ m.Pairwise (fun x y => Before x y ∨ Before y x) :=
  h.pairwise_iff (fun h => h.symm)

/-- The sorted version of a structured dtype. -/
theorem sorted_ordered_iff {fs : Fields} {n : Nat} (hw : (DType.struct fs n).WF) :
    (DType.struct (Fields.ofList (sortFields fs.toList)) n).Ordered ↔ (DType.struct fs n).Sendable := by
  have hp := sortFields_perm fs.toList
  simp only [DType.WF] at hw
  have hw2 := fieldsWF_iff.1 hw.2.2
  simp only [DType.Ordered, DType.Sendable, toList_ofList, fieldsOrdered_iff]
  rw [pairwise_before_iff (fun x hx => (hw2 x (hp.mem_iff.1 hx)).2.1.size_pos) (sortFields_sorted _), disjoint_perm hp]
  refine and_congr_right fun _ => ⟨fun h x hx => h x (hp.mem_iff.2 hx), fun h x hx => h x (hp.mem_iff.1 hx)⟩

theorem sorted_wf {fs : Fields} {n : Nat} (hw : (DType.struct fs n).WF) :
    (DType.struct (Fields.ofList (sortFields fs.toList)) n).WF := by
  have hp := sortFields_perm fs.toList
  simp only [DType.WF] at hw ⊢
  refine ⟨hw.1, ?_, ?_⟩
  · rw [toList_ofList]; exact (hp.map _).nodup_iff.2 hw.2.1
  · rw [fieldsWF_iff, toList_ofList]
    exact fun x hx => fieldsWF_iff.1 hw.2.2 x (hp.mem_iff.1 hx)

theorem sendable_of_ordered {d : DType} (h : d.Ordered) : d.Sendable := by
  cases d with
  | struct fs n =>
    exact ⟨h.1.imp fun h => .inl h, h.2⟩
  | _ => trivial

theorem describe_isSome {d : DType} (hw : d.WF) : (describe d).isSome = true ↔ d.Sendable := by
  unfold describe
  rcases h : d.toDescr with _ | x
  · simp only
    cases d with
    | scalar => simp [DType.toDescr] at h
    | object => simp [DType.toDescr] at h
    | struct fs n =>
      simp only [DType.rows]
      rw [select_perm hw.2.1 (sortFields_perm _)]
      simp only [Option.isSome_map]
      rw [toDescr_isSome, sorted_ordered_iff hw]
  · simp only [Option.isSome_some, true_iff]
    exact sendable_of_ordered (toDescr_isSome.1 (by rw [h]; rfl))

theorem undescribe_describe {d : DType} (hw : d.WF) {x : Descr} {order : List String}
    (h : describe d = some (x, order)) : undescribe x order = some d := by
  unfold describe at h
  rcases h1 : d.toDescr with _ | y
  · simp only [h1] at h
    cases d with
    | scalar => simp [DType.toDescr] at h1
    | object => simp [DType.toDescr] at h1
    | struct fs n =>
      simp only [DType.rows] at h
      rw [select_perm hw.2.1 (sortFields_perm _)] at h
      simp only [Option.map_eq_some_iff, Prod.mk.injEq] at h
      obtain ⟨y, hy, rfl, rfl⟩ := h
      have := descr_roundtrip (sorted_wf hw) hy
      unfold undescribe
      have hne : (fs.toList.map (·.1)).isEmpty = false := by
        cases fs with
        | nil =>
          exfalso
          revert h1
          simp only [DType.toDescr, Fields.toItems]
          split <;> simp
        | cons => simp [Fields.toList]
      rw [this, hne]
      simp only [Bool.false_eq_true, if_false]
      rw [select_perm (m := fs.toList), ofList_toList]
      · rw [toList_ofList]; exact ((sortFields_perm _).map _).nodup_iff.2 hw.2.1
      · rw [toList_ofList]; exact (sortFields_perm _).symm
  · simp only [h1, Option.some.injEq, Prod.mk.injEq] at h
    obtain ⟨rfl, rfl⟩ := h
    simp [undescribe, descr_roundtrip hw h1]

end Xoscar.Nd
