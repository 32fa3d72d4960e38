import Verif.Model.Addr
namespace Xoscar.Addr

theorem splitC_ne_nil (c : Char) (s : List Char) : splitC c s ≠ [] := by
  induction s with
  | nil => simp [splitC]
  | cons x xs ih => simp only [splitC]; split <;> simp; split <;> simp

theorem splitC_of_not_mem {c : Char} {s : List Char} (h : c ∉ s) : splitC c s = [s] := by
  induction s with
  | nil => simp [splitC]
  | cons x xs ih =>
    simp only [List.mem_cons, not_or] at h
    simp only [splitC]
    rw [if_neg (fun e => h.1 e.symm), ih h.2]

theorem splitC_append (c : Char) (s t : List Char) :
    splitC c (s ++ c :: t) = splitC c s ++ splitC c t := by
  induction s with
  | nil => simp [splitC]
  | cons x xs ih =>
    simp only [List.cons_append, splitC]
    split
    · simp [ih]
    · rw [ih]
      rcases hx : splitC c xs with _ | ⟨h, t'⟩
      · exact absurd hx (splitC_ne_nil _ _)
      · simp

theorem joinC_splitC (c : Char) (s : List Char) : joinC c (splitC c s) = s := by
  induction s with
  | nil => simp [splitC, joinC]
  | cons x xs ih =>
    simp only [splitC]
    rcases hx : splitC c xs with _ | ⟨h, t⟩
    · exact absurd hx (splitC_ne_nil _ _)
    · rw [hx] at ih
      split
      · subst_vars; simp [joinC]
      · cases t with
        | nil => simp [joinC] at *; exact ih
        | cons q r => simp [joinC] at *; exact ih

theorem split_host_port {c : Char} {h p : List Char} (hp : c ∉ p) :
    splitC c (h ++ c :: p) = splitC c h ++ [p] := by
  rw [splitC_append, splitC_of_not_mem hp]

theorem lastPart_host_port {c : Char} {h p : List Char} (hp : c ∉ p) :
    lastPart c (h ++ c :: p) = p := by
  unfold lastPart; rw [split_host_port hp]; simp [List.getLastD_eq_getLast?]

theorem host_host_port {c : Char} {h p : List Char} (hp : c ∉ p) :
    joinC c (splitC c (h ++ c :: p)).dropLast = h := by
  rw [split_host_port hp]; simp [joinC_splitC]

/-- `s.split("://")` on a text without '/' has one piece -/
theorem splitScheme_of_no_slash (acc s : List Char) (h : '/' ∉ s) :
    splitScheme acc s = [acc.reverse ++ s] := by
  induction s generalizing acc with
  | nil => simp [splitScheme]
  | cons x xs ih =>
    simp only [List.mem_cons, not_or] at h
    unfold splitScheme
    split
    · simp_all
    · next heq => cases heq; rw [ih _ h.2]; simp
    · simp_all

theorem body_of_no_slash {s : List Char} (h : '/' ∉ s) : body s = s := by
  unfold body; rw [splitScheme_of_no_slash _ _ h]; simp

theorem splitScheme_ne_nil (acc s : List Char) : splitScheme acc s ≠ [] := by
  fun_induction splitScheme acc s <;> simp_all

theorem splitScheme_prefix (acc sch s : List Char) (h : ':' ∉ sch) :
    splitScheme acc (sch ++ "://".toList ++ s) = (acc.reverse ++ sch) :: splitScheme [] s := by
  induction sch generalizing acc with
  | nil => simp [splitScheme]
  | cons x xs ih =>
    simp only [List.mem_cons, not_or] at h
    show splitScheme acc (x :: (xs ++ "://".toList ++ s)) = _
    rw [splitScheme.eq_def]
    split
    · next heq => injection heq with h1 _; exact absurd h1.symm h.1
    · next heq => injection heq with h1 h2; subst h1 h2; rw [ih _ h.2]; simp
    · next heq => cases heq

/-- a scheme prefix does not change the part that is inspected -/
theorem body_scheme (sch s : List Char) (h : ':' ∉ sch) :
    body (sch ++ "://".toList ++ s) = body s := by
  unfold body
  rw [splitScheme_prefix _ _ _ h]
  rcases hs : splitScheme [] s with _ | ⟨a, t⟩
  · exact absurd hs (splitScheme_ne_nil _ _)
  · simp [List.getLastD_eq_getLast?]

theorem v6Loop_all_empty (hex) (l : List (List Char)) (h : ∀ p ∈ l, p = [] ∨ hex p = some 0) :
    v6Loop hex l = some true := by
  induction l with
  | nil => rfl
  | cons p ps ih =>
    simp only [v6Loop]
    have ih := ih (fun q hq => h q (List.mem_cons_of_mem _ hq))
    split
    · rcases h p List.mem_cons_self with h | h
      · contradiction
      · rw [h]; simpa using ih
    · exact ih

end Xoscar.Addr
