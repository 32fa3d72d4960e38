import Verif.Model.Base
namespace Xoscar

/-- induction from the right end of a list -/
theorem _root_.List.reverseRecOn' {α} {motive : List α → Prop} (l : List α) (nil : motive [])
    (append_singleton : ∀ (l : List α) (a : α), motive l → motive (l ++ [a])) : motive l := by
  rw [← List.reverse_reverse l]
  induction l.reverse with
  | nil => exact nil
  | cons x xs ih => rw [List.reverse_cons]; exact append_singleton _ _ ih

theorem mem_pySet {α} [DecidableEq α] {l : List α} {a : α} : a ∈ pySet l ↔ a ∈ l := by
  induction l with
  | nil => simp [pySet]
  | cons x xs ih => simp only [pySet, List.foldr_cons] at *; simp [ih]

theorem nodup_pySet {α} [DecidableEq α] (l : List α) : (pySet l).Nodup := by
  induction l with
  | nil => simp [pySet]
  | cons x xs ih =>
    simp only [pySet, List.foldr_cons] at *
    rw [List.insert]
    split
    · exact ih
    · next h => exact List.nodup_cons.mpr ⟨by simpa using h, ih⟩

theorem length_filter_split {α} (p : α → Bool) (l : List α) :
    l.length = (l.filter p).length + (l.filter (fun x => !p x)).length := by
  induction l with
  | nil => rfl
  | cons x xs ih => simp only [List.filter_cons]; cases p x <;> simp <;> omega

namespace Dict
variable {α β : Type} [DecidableEq α]

@[simp] theorem get?_nil (k : α) : get? ([] : Dict α β) k = none := rfl

theorem get?_cons (k' : α) (v : β) (d : Dict α β) (k : α) :
    get? ((k', v) :: d) k = if k' = k then some v else get? d k := rfl

@[simp] theorem get?_set (d : Dict α β) (k k' : α) (v : β) :
    get? (set d k v) k' = if k = k' then some v else get? d k' := by
  induction d with
  | nil => simp [set, get?]
  | cons x xs ih =>
    obtain ⟨a, b⟩ := x
    simp only [set]
    split <;> simp only [get?] <;> grind

@[simp] theorem get?_erase (d : Dict α β) (k k' : α) :
    get? (erase d k) k' = if k = k' then none else get? d k' := by
  induction d with
  | nil => simp [erase, get?]
  | cons x xs ih =>
    obtain ⟨a, b⟩ := x
    simp only [erase]
    split <;> simp only [get?] <;> grind

theorem get?_isSome_iff (d : Dict α β) (k : α) : (get? d k).isSome ↔ k ∈ keys d := by
  induction d with
  | nil => simp [get?, keys]
  | cons x xs ih =>
    obtain ⟨a, b⟩ := x
    simp only [get?, keys, List.map_cons, List.mem_cons] at *
    split
    · simp_all
    · rw [ih]; constructor
      · exact Or.inr
      · rintro (h | h)
        · exact absurd h.symm ‹_›
        · exact h

theorem get?_eq_none_iff (d : Dict α β) (k : α) : get? d k = none ↔ k ∉ keys d := by
  rw [← get?_isSome_iff]; cases get? d k <;> simp

theorem has_iff (d : Dict α β) (k : α) : has d k = true ↔ k ∈ keys d := get?_isSome_iff d k

theorem mem_of_get? {d : Dict α β} {k : α} {v : β} (h : get? d k = some v) : (k, v) ∈ d := by
  induction d with
  | nil => simp at h
  | cons x xs ih =>
    obtain ⟨a, b⟩ := x
    simp only [get?] at h
    split at h
    · cases h; subst_vars; exact List.mem_cons_self
    · exact List.mem_cons_of_mem _ (ih h)

theorem get?_of_mem {d : Dict α β} (hw : d.WF) {k : α} {v : β} (h : (k, v) ∈ d) :
    get? d k = some v := by
  induction d with
  | nil => simp at h
  | cons x xs ih =>
    obtain ⟨a, b⟩ := x
    simp only [WF, keys, List.map_cons, List.nodup_cons] at hw
    simp only [get?]
    rcases List.mem_cons.mp h with h | h
    · cases h; simp
    · have : a ≠ k := by
        intro e; subst e
        exact hw.1 (List.mem_map.mpr ⟨(a, v), h, rfl⟩)
      simp [this]; exact ih hw.2 h

theorem keys_set (d : Dict α β) (k : α) (v : β) :
    keys (set d k v) = if k ∈ keys d then keys d else keys d ++ [k] := by
  induction d with
  | nil => simp [set, keys]
  | cons x xs ih =>
    obtain ⟨a, b⟩ := x
    simp only [set, keys] at *
    split
    · simp_all
    · simp only [List.map_cons, ih, List.mem_cons]; grind

theorem mem_keys_set (d : Dict α β) (k k' : α) (v : β) :
    k' ∈ keys (set d k v) ↔ k' = k ∨ k' ∈ keys d := by
  rw [keys_set]; split <;> grind

theorem keys_erase (d : Dict α β) (k : α) : keys (erase d k) = (keys d).filter (· ≠ k) := by
  induction d with
  | nil => simp [erase, keys]
  | cons x xs ih =>
    obtain ⟨a, b⟩ := x
    simp only [erase, keys] at *
    split
    · simp_all
    · simp_all

theorem mem_keys_erase (d : Dict α β) (k k' : α) :
    k' ∈ keys (erase d k) ↔ k' ∈ keys d ∧ k' ≠ k := by
  rw [keys_erase]; simp

omit [DecidableEq α] in
theorem WF.nil : WF ([] : Dict α β) := List.nodup_nil

theorem WF.set {d : Dict α β} (h : d.WF) (k : α) (v : β) : (d.set k v).WF := by
  unfold WF at *; rw [keys_set]; split
  · exact h
  · rw [List.nodup_append]; refine ⟨h, by simp, ?_⟩
    rintro a ha b hb rfl; simp at hb; subst hb; contradiction

theorem WF.erase {d : Dict α β} (h : d.WF) (k : α) : (d.erase k).WF := by
  unfold WF at *; rw [keys_erase]; exact h.filter _

theorem mem_erase {d : Dict α β} {k : α} {p : α × β} : p ∈ erase d k ↔ p ∈ d ∧ p.1 ≠ k := by
  induction d with
  | nil => simp [erase]
  | cons x xs ih =>
    obtain ⟨a, b⟩ := x
    simp only [erase]; split <;> grind

theorem mem_set_of {d : Dict α β} {k : α} {v : β} {p : α × β} (h : p ∈ set d k v) :
    p = (k, v) ∨ (p ∈ d) := by
  induction d with
  | nil => simp [set] at h; exact Or.inl h
  | cons x xs ih =>
    obtain ⟨a, b⟩ := x
    simp only [set] at h; split at h <;> grind

theorem erase_of_not_mem {d : Dict α β} {k : α} (h : k ∉ keys d) : erase d k = d := by
  induction d with
  | nil => rfl
  | cons x xs ih =>
    obtain ⟨a, b⟩ := x
    simp only [keys, List.map_cons, List.mem_cons, not_or] at *
    simp only [erase]; rw [if_neg (fun e => h.1 e.symm), ih h.2]

theorem set_of_not_mem {d : Dict α β} {k : α} {v : β} (h : k ∉ keys d) : set d k v = d ++ [(k, v)] := by
  induction d with
  | nil => rfl
  | cons x xs ih =>
    obtain ⟨a, b⟩ := x
    simp only [keys, List.map_cons, List.mem_cons, not_or] at *
    simp only [set]; rw [if_neg (fun e => h.1 e.symm), ih h.2]; rfl

theorem get?_update (d other : Dict α β) (hw : other.WF) (k : α) :
    get? (update d other) k = (get? other k).or (get? d k) := by
  unfold update
  induction other generalizing d with
  | nil => simp
  | cons x xs ih =>
    obtain ⟨a, b⟩ := x
    have hw' := hw
    simp only [WF, keys, List.map_cons, List.nodup_cons] at hw
    simp only [List.foldl_cons]
    rw [ih _ hw.2, get?_set, get?_cons]
    split
    · subst_vars
      have : get? xs a = none := (get?_eq_none_iff _ _).mpr hw.1
      simp [this]
    · rfl

theorem mem_keys_update (d other : Dict α β) (k : α) :
    k ∈ keys (update d other) ↔ k ∈ keys d ∨ k ∈ keys other := by
  unfold update
  induction other generalizing d with
  | nil => simp [keys]
  | cons x xs ih =>
    obtain ⟨a, b⟩ := x
    simp only [List.foldl_cons]
    rw [ih, mem_keys_set]; simp only [keys, List.map_cons, List.mem_cons]; grind

theorem WF.update {d : Dict α β} (h : d.WF) (other : Dict α β) : (d.update other).WF := by
  unfold Dict.update
  induction other generalizing d with
  | nil => exact h
  | cons x xs ih => exact ih (h.set _ _)

end Dict
end Xoscar
