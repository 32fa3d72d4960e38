import Verif.Spec.Marker
import Verif.Proof.Base
namespace Xoscar.Marker

theorem pyLower_eq : pyLower = lower := rfl
theorem isDigits_eq : isDigits = digits := rfl

theorem pyInt_eq : pyInt = number := by
  have key : ∀ (s : Str) (n : Nat), s.foldl (fun n c => 10 * n + (c.toNat - '0'.toNat)) n = n * 10 ^ s.length + number s := by
    intro s
    induction s with
    | nil => intro n; simp [number]
    | cons c s ih =>
      intro n
      rw [List.foldl_cons, ih, number, List.length_cons, Nat.pow_succ]
      have : '0'.toNat = 48 := rfl
      rw [this, Nat.add_mul, Nat.mul_comm 10 n, Nat.mul_assoc, Nat.mul_comm 10, Nat.add_assoc]
  funext s
  rw [pyInt, key]
  simp

theorem pyBool_eq : pyBool = truthy := by
  funext v
  cases v <;> try rfl
  rename_i s
  cases s <;> simp [pyBool, truthy]

/-! ## Dotted texts -/

theorem splitDot_ne_nil (s : Str) : splitDot s ≠ [] := by
  unfold splitDot
  split
  · simp
  · simp
  · split <;> simp

theorem splitDot_cons {c : Char} (hc : c ≠ '.') (s : Str) :
    ∃ p ps, splitDot s = p :: ps ∧ splitDot (c :: s) = (c :: p) :: ps := by
  rcases h : splitDot s with _ | ⟨p, ps⟩
  · exact absurd h (splitDot_ne_nil s)
  · refine ⟨p, ps, rfl, ?_⟩
    rw [splitDot.eq_3 _ _ (fun h => hc h), h]

theorem dotted_splitDot (s : Str) : dotted (splitDot s) = s := by
  induction s with
  | nil => rfl
  | cons c s ih =>
    by_cases hc : c = '.'
    · subst hc
      rw [splitDot]
      rcases h : splitDot s with _ | ⟨p, ps⟩
      · exact absurd h (splitDot_ne_nil s)
      · rw [h] at ih
        simpa [dotted, List.intercalate] using ih
    · obtain ⟨p, ps, h1, h2⟩ := splitDot_cons hc s
      rw [h2]
      rw [h1] at ih
      rw [← ih]
      cases ps <;> simp [dotted, List.intercalate]

theorem splitDot_nodot {p : Str} (h : '.' ∉ p) : splitDot p = [p] := by
  induction p with
  | nil => rfl
  | cons c p ih =>
    simp only [List.mem_cons, not_or] at h
    obtain ⟨q, qs, h1, h2⟩ := splitDot_cons (Ne.symm h.1) p
    rw [ih h.2] at h1
    cases h1
    exact h2

theorem splitDot_append {p : Str} (h : '.' ∉ p) (s : Str) : splitDot (p ++ '.' :: s) = p :: splitDot s := by
  induction p with
  | nil => rfl
  | cons c p ih =>
    simp only [List.mem_cons, not_or] at h
    obtain ⟨q, qs, h1, h2⟩ := splitDot_cons (Ne.symm h.1) (p ++ '.' :: s)
    rw [ih h.2] at h1
    cases h1
    exact h2

theorem splitDot_dotted {ps : List Str} (hne : ps ≠ []) (h : ∀ p ∈ ps, '.' ∉ p) : splitDot (dotted ps) = ps := by
  induction ps with
  | nil => exact absurd rfl hne
  | cons p ps ih =>
    cases ps with
    | nil => simpa [dotted, List.intercalate] using splitDot_nodot (h p (by simp))
    | cons q qs =>
      have : dotted (p :: q :: qs) = p ++ '.' :: dotted (q :: qs) := by simp [dotted, List.intercalate]
      rw [this, splitDot_append (h p (by simp)), ih (by simp) (fun x hx => h x (by simp [hx]))]

theorem dot_mem_iff (s : Str) : '.' ∈ s ↔ 2 ≤ (splitDot s).length := by
  induction s with
  | nil => simp [splitDot]
  | cons c s ih =>
    by_cases hc : c = '.'
    · subst hc
      rw [splitDot]
      rcases h : splitDot s with _ | ⟨p, ps⟩
      · exact absurd h (splitDot_ne_nil s)
      · simp
    · obtain ⟨p, ps, h1, h2⟩ := splitDot_cons hc s
      rw [h2, List.mem_cons, ih, h1]
      simp only [List.length_cons, or_iff_right_iff_imp]
      intro h
      exact absurd h.symm hc

theorem digits_nodot {p : Str} (h : digits p = true) : '.' ∉ p := by
  intro hm
  simp only [digits, List.all_eq_true] at h
  exact absurd (h _ hm) (by decide)

theorem dotted_head_digit {parts : List Str} (hlen : 2 ≤ parts.length) (h : ∀ p ∈ parts, digits p = true) :
    ∀ c ∈ dotted parts, c.isDigit = true ∨ c = '.' := by
  clear hlen
  induction parts with
  | nil => simp [dotted, List.intercalate]
  | cons p ps ih =>
    intro c hc
    cases ps with
    | nil =>
      have hc : c ∈ p := by simpa [dotted, List.intercalate] using hc
      left
      have := h p (by simp)
      simp only [digits, List.all_eq_true] at this
      exact this c hc
    | cons q qs =>
      have e : dotted (p :: q :: qs) = p ++ '.' :: dotted (q :: qs) := by simp [dotted, List.intercalate]
      rw [e, List.mem_append, List.mem_cons] at hc
      rcases hc with hc | hc | hc
      · left
        have := h p (by simp)
        simp only [digits, List.all_eq_true] at this
        exact this c hc
      · exact Or.inr hc
      · exact ih (fun x hx => h x (by simp [hx])) c hc

theorem dotted_not_word {parts : List Str} (hlen : 2 ≤ parts.length) (h : ∀ p ∈ parts, digits p = true) :
    '.' ∈ dotted parts := by
  rw [dot_mem_iff, splitDot_dotted (by intro h; simp [h] at hlen) (fun p hp => digits_nodot (h p hp))]
  exact hlen

theorem lower_yes_nodot {s : Str} (h : lower s = yes ∨ lower s = no) : '.' ∉ s := by
  intro hm
  have : Char.toLower '.' ∈ lower s := List.mem_map_of_mem hm
  rw [show Char.toLower '.' = '.' from by decide] at this
  rcases h with h | h <;> rw [h] at this <;> revert this <;> decide

theorem normalize_iff {v w : Val} : normalize v = .ok w ↔ Reads false v w := by
  cases v with
  | none => exact ⟨fun h => by cases h; exact .none, fun h => by cases h; rfl⟩
  | bool b => exact ⟨fun h => by cases h; exact .bool, fun h => by cases h; rfl⟩
  | int n => exact ⟨fun h => by cases h; exact .int, fun h => by cases h; rfl⟩
  | ver l => exact ⟨fun h => by cases h; exact .ver, fun h => by cases h; rfl⟩
  | str s =>
    rw [normalize, pyLower_eq, isDigits_eq, pyInt_eq]
    constructor
    · intro h
      by_cases h1 : lower s = yes
      · rw [if_pos (show lower s = ['t', 'r', 'u', 'e'] from h1)] at h
        cases h; exact .yes h1
      rw [if_neg (show ¬ lower s = ['t', 'r', 'u', 'e'] from h1)] at h
      by_cases h2 : lower s = no
      · rw [if_pos (show lower s = ['f', 'a', 'l', 's', 'e'] from h2)] at h
        cases h; exact .no h2
      rw [if_neg (show ¬ lower s = ['f', 'a', 'l', 's', 'e'] from h2)] at h
      by_cases h3 : '.' ∈ s ∧ (splitDot s).all (fun p => p.isEmpty || digits p) = true
      · rw [if_pos h3] at h
        by_cases h4 : (splitDot s).any List.isEmpty = true
        · rw [if_pos h4] at h; cases h
        · rw [if_neg h4] at h
          cases h
          have := Reads.version (arch := false) (parts := splitDot s) ((dot_mem_iff s).1 h3.1) (by
            intro p hp
            have hne : p.isEmpty = false := by
              rcases hb : p.isEmpty with _ | _
              · rfl
              · exact absurd (List.any_eq_true.2 ⟨p, hp, hb⟩) h4
            have := List.all_eq_true.1 h3.2 p hp
            rw [hne] at this
            refine ⟨?_, by simpa using this⟩
            intro e
            rw [e] at hne
            exact absurd hne (by decide))
          rwa [dotted_splitDot] at this
      · rw [if_neg h3] at h
        cases h
        refine .text h1 h2 ?_ (by simp)
        intro parts hlen hd e
        apply h3
        rw [e, splitDot_dotted (by intro h; simp [h] at hlen) (fun p hp => digits_nodot (hd p hp))]
        refine ⟨dotted_not_word hlen hd, ?_⟩
        rw [List.all_eq_true]
        intro p hp
        simp [hd p hp]
    · intro h
      cases h with
      | yes h => rw [if_pos (show lower s = ['t', 'r', 'u', 'e'] from h)]
      | no h =>
        rw [if_neg, if_pos (show lower s = ['f', 'a', 'l', 's', 'e'] from h)]
        rw [show lower s = no from h]; decide
      | @version parts hlen hp =>
        have hd : ∀ p ∈ parts, digits p = true := fun p h => (hp p h).2
        have hdot := dotted_not_word hlen hd
        have hs := splitDot_dotted (by intro h; simp [h] at hlen) (fun p hp => digits_nodot (hd p hp))
        have h1 : ¬ lower (dotted parts) = ['t', 'r', 'u', 'e'] := fun h => lower_yes_nodot (.inl h) hdot
        have h2 : ¬ lower (dotted parts) = ['f', 'a', 'l', 's', 'e'] := fun h => lower_yes_nodot (.inr h) hdot
        rw [if_neg h1, if_neg h2, if_pos, if_neg, hs]
        · rw [hs, List.any_eq_true]
          rintro ⟨p, h1, h2⟩
          exact (hp p h1).1 (by simpa using h2)
        · rw [hs]
          refine ⟨hdot, ?_⟩
          rw [List.all_eq_true]
          intro p hp
          simp [hd p hp]
      | text h1 h2 h3 _ =>
        rw [if_neg (show ¬ lower s = ['t', 'r', 'u', 'e'] from h1), if_neg (show ¬ lower s = ['f', 'a', 'l', 's', 'e'] from h2), if_neg]
        rintro ⟨hdot, hall⟩
        refine h3 (splitDot s) ((dot_mem_iff s).1 hdot) ?_ (dotted_splitDot s).symm
        intro p hp
        have := List.all_eq_true.1 hall p hp
        rcases hp : p with _ | _
        · rfl
        · rw [hp] at this; simpa using this
      | arch h => cases h

theorem sm_not_word {r : Str} (_ : digits r = true) : lower ('s' :: 'm' :: '_' :: r) ≠ yes ∧ lower ('s' :: 'm' :: '_' :: r) ≠ no := by
  have : Char.toLower 's' = 's' := by decide
  constructor <;> intro h <;> simp only [lower, List.map_cons, yes, no, List.cons.injEq, this] at h <;> exact absurd h.1 (by decide)

theorem sm_not_dotted {r : Str} {parts : List Str} (hlen : 2 ≤ parts.length) (hd : ∀ p ∈ parts, digits p = true) :
    's' :: 'm' :: '_' :: r ≠ dotted parts := by
  intro e
  have := dotted_head_digit hlen hd 's' (by rw [← e]; simp)
  revert this
  decide

theorem operand_iff {v w : Val} : operand v = .ok w ↔ Reads true v w := by
  unfold operand
  constructor
  · intro h
    rcases hn : normalize v with e | u
    · rw [hn] at h; cases h
    · rw [hn] at h
      have hr := normalize_iff.1 hn
      cases hr with
      | yes h' => cases h; exact .yes h'
      | no h' => cases h; exact .no h'
      | version h1 h2 => cases h; exact .version h1 h2
      | arch h' => cases h'
      | none => cases h; exact .none
      | bool => cases h; exact .bool
      | int => cases h; exact .int
      | ver => cases h; exact .ver
      | @text s h1 h2 h3 _ =>
        simp only [parseArch, isDigits_eq, pyInt_eq] at h
        split at h
        · rename_i r
          split at h
          · rename_i hc
            cases h
            exact .arch rfl (by simpa using hc.1) hc.2
          · rename_i hc
            cases h
            refine .text h1 h2 h3 ?_
            rintro _ r' hr hd e
            injection e with _ e; injection e with _ e; injection e with _ e
            subst e
            exact hc ⟨by simpa using hr, hd⟩
        · rename_i hno
          cases h
          refine .text h1 h2 h3 ?_
          rintro _ r' _ _ e
          exact hno r' e
  · intro h
    cases h with
    | yes h => rw [normalize_iff.2 (.yes h)]; rfl
    | no h => rw [normalize_iff.2 (.no h)]; rfl
    | version h1 h2 => rw [normalize_iff.2 (.version h1 h2)]; rfl
    | none => rfl
    | bool => rfl
    | int => rfl
    | ver => rfl
    | arch _ h1 h2 =>
      rw [normalize_iff.2 (.text (sm_not_word h2).1 (sm_not_word h2).2 (fun parts a b => sm_not_dotted a b) (by simp))]
      simp [parseArch, isDigits_eq, pyInt_eq, h1, h2]
    | text h1 h2 h3 h4 =>
      rw [normalize_iff.2 (.text h1 h2 h3 (by simp))]
      simp only [parseArch]
      split
      · rename_i r
        rw [if_neg]
        rintro ⟨ha, hb⟩
        exact h4 rfl r (by simpa using ha) hb rfl
      · rfl

/-! ## Order of versions and texts -/

/-- no zero at the end -/
def NZ : List Nat → Prop
  | [] => True
  | [a] => a ≠ 0
  | _ :: b :: l => NZ (b :: l)

theorem NZ.tail {a : Nat} {l : List Nat} (h : NZ (a :: l)) : NZ l := by
  cases l with
  | nil => trivial
  | cons b l => exact h

theorem dropZeros_append (l : List Nat) (a : Nat) : dropZeros (l ++ [a]) = if a = 0 then dropZeros l else l ++ [a] := by
  unfold dropZeros
  rw [List.reverse_append]
  by_cases h : a = 0 <;> simp [h]

theorem NZ_append (l : List Nat) {a : Nat} (h : a ≠ 0) : NZ (l ++ [a]) := by
  induction l with
  | nil => exact h
  | cons b l ih =>
    cases l with
    | nil => exact h
    | cons c l => exact ih

theorem NZ_dropZeros (l : List Nat) : NZ (dropZeros l) := by
  induction l using List.reverseRecOn' with
  | nil => trivial
  | append_singleton l a ih =>
    rw [dropZeros_append]
    split
    · exact ih
    · exact NZ_append l ‹_›

theorem part_append_zero (l : List Nat) (i : Nat) : part (l ++ [0]) i = part l i := by
  unfold part
  rw [List.getElem?_append]
  by_cases h : i < l.length
  · simp [h]
  · rw [if_neg h, List.getElem?_eq_none (l := l) (by omega)]
    rcases hi : i - l.length with _ | n <;> simp

theorem part_dropZeros (l : List Nat) (i : Nat) : part (dropZeros l) i = part l i := by
  induction l using List.reverseRecOn' with
  | nil => rfl
  | append_singleton l a ih =>
    rw [dropZeros_append]
    split
    · rename_i h; rw [h, part_append_zero, ih]
    · rfl

@[simp] theorem part_nil (i : Nat) : part [] i = 0 := rfl
@[simp] theorem part_zero (a : Nat) (l : List Nat) : part (a :: l) 0 = a := rfl
@[simp] theorem part_succ (a : Nat) (l : List Nat) (i : Nat) : part (a :: l) (i + 1) = part l i := rfl

theorem NZ.pos {l : List Nat} (h : NZ l) (hne : l ≠ []) : VerLt [] l := by
  induction l with
  | nil => exact absurd rfl hne
  | cons a l ih =>
    by_cases ha : a = 0
    · cases l with
      | nil => exact absurd ha h
      | cons b l =>
        obtain ⟨i, h1, h2⟩ := ih h (by simp)
        refine ⟨i + 1, h1, fun j hj => ?_⟩
        cases j with
        | zero => exact ha.symm
        | succ j => exact h2 j (by omega)
    · exact ⟨0, by simp; omega, fun j hj => by omega⟩

theorem VerLt_cons {a b : Nat} {as bs : List Nat} : VerLt (a :: as) (b :: bs) ↔ a < b ∨ (a = b ∧ VerLt as bs) := by
  constructor
  · rintro ⟨i, h1, h2⟩
    cases i with
    | zero => exact .inl h1
    | succ i => exact .inr ⟨h2 0 (by omega), i, h1, fun j hj => h2 (j + 1) (by omega)⟩
  · rintro (h | ⟨h, i, h1, h2⟩)
    · exact ⟨0, h, fun j hj => by omega⟩
    · refine ⟨i + 1, h1, fun j hj => ?_⟩
      cases j with
      | zero => exact h
      | succ j => exact h2 j (by omega)

theorem not_VerLt_nil {a : List Nat} : ¬ VerLt a [] := by
  rintro ⟨i, h, _⟩
  simp at h

theorem lexLt_ver {a b : List Nat} (hb : NZ b) : lexLt (· < ·) a b = true ↔ VerLt a b := by
  induction a generalizing b with
  | nil =>
    cases b with
    | nil => simp [lexLt, not_VerLt_nil]
    | cons x bs => simp [lexLt, hb.pos]
  | cons x as ih =>
    cases b with
    | nil => simp [lexLt, not_VerLt_nil]
    | cons y bs =>
      rw [VerLt_cons, lexLt]
      by_cases hxy : x = y
      · rw [if_pos hxy, ih hb.tail]; simp [hxy]
      · rw [if_neg hxy]; simp [hxy]

theorem NZ_ext {a b : List Nat} (ha : NZ a) (hb : NZ b) (h : VerEq a b) : a = b := by
  have hlt : ∀ {x y : List Nat}, VerEq x y → ¬ VerLt x y := by
    rintro x y h ⟨i, h1, _⟩
    have := h i
    omega
  induction a generalizing b with
  | nil =>
    cases b with
    | nil => rfl
    | cons y bs => exact absurd (hb.pos (by simp)) (hlt h)
  | cons x as ih =>
    cases b with
    | nil => exact absurd (ha.pos (by simp)) (hlt (fun i => (h i).symm))
    | cons y bs =>
      rw [show x = y from h 0, ih ha.tail hb.tail (fun i => h (i + 1))]

theorem verLt_iff {a b : List Nat} : lexLt (· < ·) (dropZeros a) (dropZeros b) = true ↔ VerLt a b := by
  rw [lexLt_ver (NZ_dropZeros b)]
  simp only [VerLt, part_dropZeros]

theorem verEq_iff {a b : List Nat} : dropZeros a = dropZeros b ↔ VerEq a b := by
  constructor
  · intro h i
    rw [← part_dropZeros a, ← part_dropZeros b, h]
  · intro h
    exact NZ_ext (NZ_dropZeros a) (NZ_dropZeros b) (fun i => by rw [part_dropZeros, part_dropZeros]; exact h i)

theorem TextLt_cons {a b : Char} {x y : Str} : TextLt (a :: x) (b :: y) ↔ a.toNat < b.toNat ∨ (a = b ∧ TextLt x y) := by
  constructor
  · rintro (⟨r, h1, h2⟩ | ⟨p, c, d, xs, ys, h1, h2, h3⟩)
    · simp only [List.cons_append, List.cons.injEq] at h2
      exact .inr ⟨h2.1.symm, .inl ⟨r, h1, h2.2⟩⟩
    · cases p with
      | nil =>
        simp only [List.nil_append, List.cons.injEq] at h1 h2
        left; rw [h1.1, h2.1]; exact h3
      | cons q p =>
        simp only [List.cons_append, List.cons.injEq] at h1 h2
        exact .inr ⟨by rw [h1.1, h2.1], .inr ⟨p, c, d, xs, ys, h1.2, h2.2, h3⟩⟩
  · rintro (h | ⟨rfl, ⟨r, h1, h2⟩ | ⟨p, c, d, xs, ys, h1, h2, h3⟩⟩)
    · exact .inr ⟨[], a, b, x, y, rfl, rfl, h⟩
    · exact .inl ⟨r, h1, by rw [h2]; rfl⟩
    · exact .inr ⟨a :: p, c, d, xs, ys, by rw [h1]; rfl, by rw [h2]; rfl, h3⟩

theorem textLt_iff {x y : Str} : lexLt charLt x y = true ↔ TextLt x y := by
  induction x generalizing y with
  | nil =>
    cases y with
    | nil =>
      simp only [lexLt, Bool.false_eq_true, false_iff]
      rintro (⟨r, h1, h2⟩ | ⟨p, c, d, xs, ys, h1, _⟩)
      · simp at h2; exact h1 h2
      · simp at h1
    | cons b y => simp only [lexLt, true_iff]; exact .inl ⟨b :: y, by simp, rfl⟩
  | cons a x ih =>
    cases y with
    | nil =>
      simp only [lexLt, Bool.false_eq_true, false_iff]
      rintro (⟨r, h1, h2⟩ | ⟨p, c, d, xs, ys, _, h2, _⟩)
      · simp at h2
      · simp at h2
    | cons b y =>
      rw [TextLt_cons, lexLt]
      by_cases h : a = b
      · rw [if_pos h, ih]; simp [h]
      · rw [if_neg h]; simp [h, charLt]

/-! ## Comparisons -/

theorem num_iff {v : Val} {n : Int} : v.num? = some n ↔ Num v n := by
  constructor
  · intro h
    cases v with
    | bool b => cases b <;> simp only [Val.num?, Option.some.injEq] at h <;> subst h <;> constructor
    | int m => simp only [Val.num?, Option.some.injEq] at h; subst h; constructor
    | none => cases h
    | str => cases h
    | ver => cases h
  · intro h; cases h <;> rfl

theorem valEq_iff {a b : Val} : valEq a b = true ↔ Equal a b := by
  rcases ha : a.num? with _ | m
  · have hna : ∀ n, ¬ Num a n := fun n h => by rw [num_iff.2 h] at ha; cases ha
    simp only [valEq, ha]
    constructor
    · intro h
      split at h
      · exact .ver (verEq_iff.1 (by simpa using h))
      · exact .none
      · have := of_decide_eq_true h; rw [this]; exact .str
      · cases h
    · intro h
      cases h with
      | num h _ => exact absurd h (hna _)
      | ver h => simpa using verEq_iff.2 h
      | str => simp
      | none => rfl
  · rcases hb : b.num? with _ | n
    · have hnb : ∀ n, ¬ Num b n := fun n h => by rw [num_iff.2 h] at hb; cases hb
      have := num_iff.1 ha
      cases this <;> simp only [valEq, ha, hb] <;> constructor <;> intro h <;> try cases h
      all_goals exact absurd ‹Num b _› (hnb _)
    · simp only [valEq, ha, hb, decide_eq_true_eq]
      constructor
      · rintro rfl; exact .num (num_iff.1 ha) (num_iff.1 hb)
      · intro h
        cases h with
        | num h1 h2 => rw [num_iff.2 h1] at ha; rw [num_iff.2 h2] at hb; cases ha; cases hb; rfl
        | ver => cases ha
        | str => cases ha
        | none => cases ha

theorem valLt_iff {a b : Val} {r : Bool} : valLt a b = .ok r ↔ Ordered a b ∧ (r = true ↔ Less a b) := by
  have key : ∀ {x : Bool} {P : Prop}, (x = true ↔ P) → ((Except.ok x : Except Err Bool) = .ok r ↔ (r = true ↔ P)) := by
    intro x P h
    simp only [Except.ok.injEq]
    rw [← h]
    cases x <;> cases r <;> simp
  have nn : ∀ {v : Val}, v.num? = none → ∀ n, ¬ Num v n := fun hv n h => by rw [num_iff.2 h] at hv; cases hv
  rcases ha : a.num? with _ | m
  · simp only [valLt, ha]
    cases a with
    | bool => cases ha
    | int => cases ha
    | none =>
      constructor
      · intro h; cases h
      · rintro ⟨h, _⟩; cases h; rename_i h _; cases h
    | ver x =>
      cases b with
      | ver y =>
        simp only
        rw [key (verLt_iff (a := x) (b := y))]
        have : VerLt x y ↔ Less (.ver x) (.ver y) :=
          ⟨.ver, fun h => by cases h with | num h => cases h | ver h => exact h⟩
        rw [this]
        exact ⟨fun h => ⟨.ver, h⟩, fun h => h.2⟩
      | _ =>
        constructor
        · intro h; cases h
        · rintro ⟨h, _⟩; cases h; rename_i h _; cases h
    | str x =>
      cases b with
      | str y =>
        simp only
        rw [key (textLt_iff (x := x) (y := y))]
        have : TextLt x y ↔ Less (.str x) (.str y) :=
          ⟨.str, fun h => by cases h with | num h => cases h | str h => exact h⟩
        rw [this]
        exact ⟨fun h => ⟨.str, h⟩, fun h => h.2⟩
      | _ =>
        constructor
        · intro h; cases h
        · rintro ⟨h, _⟩; cases h; rename_i h _; cases h
  · rcases hb : b.num? with _ | n
    · have hord : ¬ Ordered a b := by
        intro h
        cases h with
        | num _ h => exact nn hb _ h
        | ver => cases ha
        | str => cases ha
      constructor
      · intro h
        have hn := num_iff.1 ha
        cases hn <;> simp only [valLt, ha, hb] at h <;> cases h
      · rintro ⟨h, _⟩; exact absurd h hord
    · simp only [valLt, ha, hb]
      have : m < n ↔ Less a b :=
        ⟨.num (num_iff.1 ha) (num_iff.1 hb), fun h => by
          cases h with
          | num h1 h2 h => rw [num_iff.2 h1] at ha; rw [num_iff.2 h2] at hb; cases ha; cases hb; exact h
          | ver => cases ha
          | str => cases ha⟩
      rw [key (x := decide (m < n)) (P := Less a b) (by rw [decide_eq_true_eq]; exact this)]
      exact ⟨fun h => ⟨.num (num_iff.1 ha) (num_iff.1 hb), h⟩, fun h => h.2⟩

theorem Ordered.symm {a b : Val} (h : Ordered a b) : Ordered b a := by
  cases h with
  | num h1 h2 => exact .num h2 h1
  | ver => exact .ver
  | str => exact .str

theorem apply_iff {op : Op} {a b : Val} {r : Bool} : apply op a b = .ok r ↔ Compares op a b r := by
  have neg : ∀ {a b : Val} {r : Bool}, (match valLt a b with | .error e => Except.error e | .ok r => .ok (! r)) = .ok r ↔
      Ordered a b ∧ (r = true ↔ ¬ Less a b) := by
    intro a b r
    rcases h : valLt a b with e | x
    · constructor
      · intro h; cases h
      · rintro ⟨ho, _⟩
        by_cases hl : Less a b
        · have := (valLt_iff (a := a) (b := b) (r := true)).2 ⟨ho, by simp [hl]⟩
          rw [h] at this; cases this
        · have := (valLt_iff (a := a) (b := b) (r := false)).2 ⟨ho, by simp [hl]⟩
          rw [h] at this; cases this
    · obtain ⟨ho, hx⟩ := valLt_iff.1 h
      simp only [Except.ok.injEq, ho, true_and]
      rw [← hx]
      cases x <;> cases r <;> simp
  cases op with
  | eq =>
    simp only [apply, Except.ok.injEq]
    constructor
    · rintro rfl; exact .eq valEq_iff
    · intro h; cases h with | eq h =>
      have := h.trans valEq_iff.symm
      revert this
      cases r <;> cases valEq a b <;> simp
  | ne =>
    simp only [apply, Except.ok.injEq]
    constructor
    · rintro rfl; refine .ne ?_; rw [← valEq_iff]; simp
    · intro h; cases h with | ne h =>
      rw [← valEq_iff] at h
      revert h
      cases r <;> cases valEq a b <;> simp
  | lt => exact ⟨fun h => .lt (valLt_iff.1 h).1 (valLt_iff.1 h).2, fun h => by cases h with | lt h1 h2 => exact valLt_iff.2 ⟨h1, h2⟩⟩
  | gt =>
    exact ⟨fun h => .gt (valLt_iff.1 h).1.symm (valLt_iff.1 h).2,
      fun h => by cases h with | gt h1 h2 => exact valLt_iff.2 ⟨h1.symm, h2⟩⟩
  | le =>
    exact ⟨fun h => .le (neg.1 h).1.symm (neg.1 h).2, fun h => by cases h with | le h1 h2 => exact neg.2 ⟨h1.symm, h2⟩⟩
  | ge =>
    exact ⟨fun h => .ge (neg.1 h).1 (neg.1 h).2, fun h => by cases h with | ge h1 h2 => exact neg.2 ⟨h1, h2⟩⟩
  | other =>
    constructor
    · intro h; cases h
    · intro h; cases h

end Xoscar.Marker
