import Verif.Spec.Subproc
/-! Lemmas for C79. -/
namespace Xoscar.Subproc

/-! ### decoding -/

/-- Sequences that have been begun end in a character that is not ASCII. -/
structure NeedOk (nd : Need) : Prop where
  lo : 0x80 ≤ nd.lo
  n : 1 ≤ nd.n
  one : nd.n = 1 → 2 ≤ nd.acc
  more : 2 ≤ nd.n → 2 ≤ nd.acc * 64 + (nd.lo - 0x80)

theorem start_ok {b : Nat} {nd : Need} (h : start b = .inr nd) : NeedOk nd := by
  unfold start at h
  repeat' split at h
  all_goals first
    | (have h := Sum.inr.inj h; subst h; constructor <;> simp only <;> omega)
    | exact absurd h (by simp)

theorem start_ascii {b : Nat} (h : b < 0x80) : start b = .inl b := by simp [start, h]

theorem start_inl_ne {b c : Nat} (hb : b ≠ 10) (h : start b = .inl c) : c ≠ 10 := by
  unfold start at h
  repeat' split at h
  all_goals first
    | (have h := Sum.inl.inj h; subst h; omega)
    | exact absurd h (by simp)

theorem next_ok {nd : Need} {b : Nat} (h : NeedOk nd) (hb : nd.lo ≤ b) (hn : nd.n ≠ 1) :
    NeedOk ⟨nd.acc * 64 + (b - 0x80), nd.n - 1, 0x80, 0xBF⟩ := by
  obtain ⟨h1, h2, h3, h4⟩ := h
  have := h4 (by omega)
  constructor <;> simp only <;> omega

/-- The decoder starts afresh at every newline. -/
theorem dec_newline {p : Option Need} (hp : ∀ nd, p = some nd → NeedOk nd) (a b : List Nat) :
    dec p (a ++ 10 :: b) = dec p a ++ 10 :: dec none b := by
  induction a generalizing p with
  | nil =>
    cases p with
    | none => simp [dec, start_ascii]
    | some nd =>
      have := (hp nd rfl).lo
      simp only [List.nil_append, dec, start_ascii (show 10 < 0x80 by omega)]
      rw [if_neg (by omega)]; rfl
  | cons c a ih =>
    cases p with
    | none =>
      simp only [List.cons_append, dec]
      rcases hs : start c with x | nd
      · simp only [List.cons_append]; rw [ih (by simp)]
      · simp only; rw [ih (by intro nd' h'; injection h' with h'; subst h'; exact start_ok hs)]
    | some nd =>
      have ho := hp nd rfl
      simp only [List.cons_append, dec]
      by_cases hc : nd.lo ≤ c ∧ c ≤ nd.hi
      · rw [if_pos hc, if_pos hc]
        by_cases hn : nd.n = 1
        · rw [if_pos hn, if_pos hn, List.cons_append, ih (by simp)]
        · rw [if_neg hn, if_neg hn, ih (by intro nd' h'; injection h' with h'; subst h'; exact next_ok ho hc.1 hn)]
      · rw [if_neg hc, if_neg hc]
        rcases hs : start c with x | nd'
        · simp only [List.cons_append]; rw [ih (by simp)]
        · simp only [List.cons_append]
          rw [ih (by intro nd2 h'; injection h' with h'; subst h'; exact start_ok hs)]

/-- Newlines come from newlines only. -/
theorem dec_no_newline {p : Option Need} (hp : ∀ nd, p = some nd → NeedOk nd) {a : List Nat} (ha : 10 ∉ a) : 10 ∉ dec p a := by
  induction a generalizing p with
  | nil => cases p <;> simp [dec]
  | cons c a ih =>
    have hc10 : c ≠ 10 := by rintro rfl; simp at ha
    have ha' : 10 ∉ a := fun h => ha (List.mem_cons_of_mem _ h)
    cases p with
    | none =>
      simp only [dec]
      rcases hs : start c with x | nd
      · simp only [List.mem_cons, not_or]
        exact ⟨(start_inl_ne hc10 hs).symm, ih (by simp) ha'⟩
      · exact ih (by intro nd' h'; injection h' with h'; subst h'; exact start_ok hs) ha'
    | some nd =>
      have ho := hp nd rfl
      simp only [dec]
      by_cases hc : nd.lo ≤ c ∧ c ≤ nd.hi
      · rw [if_pos hc]
        by_cases hn : nd.n = 1
        · rw [if_pos hn]
          have := ho.one hn
          simp only [List.mem_cons, not_or]
          exact ⟨by omega, ih (by simp) ha'⟩
        · rw [if_neg hn]
          exact ih (by intro nd' h'; injection h' with h'; subst h'; exact next_ok ho hc.1 hn) ha'
      · rw [if_neg hc]
        rcases hs : start c with x | nd'
        · simp only [List.mem_cons, not_or]
          exact ⟨by omega, (start_inl_ne hc10 hs).symm, ih (by simp) ha'⟩
        · simp only [List.mem_cons, not_or]
          exact ⟨by omega, ih (by intro nd2 h'; injection h' with h'; subst h'; exact start_ok hs) ha'⟩

theorem decode_newline (a b : List Nat) : decode (a ++ 10 :: b) = decode a ++ 10 :: decode b := dec_newline (by simp) a b

theorem decode_no_newline {a : List Nat} (h : 10 ∉ a) : 10 ∉ decode a := dec_no_newline (by simp) h

theorem dec_utf8 {c : Nat} (h : Scalar c) (r : List Nat) : dec none (utf8 c ++ r) = c :: dec none r := by
  unfold Scalar at h
  unfold utf8
  split
  · simp only [List.cons_append, List.nil_append, dec, start_ascii ‹_›]
  split
  · have hs : start (0xC0 + c / 64) = .inr ⟨c / 64, 1, 0x80, 0xBF⟩ := by
      unfold start
      rw [if_neg (by omega), if_neg (by omega), if_pos (by omega), show 0xC0 + c / 64 - 0xC0 = c / 64 by omega]
    simp only [List.cons_append, List.nil_append, dec, hs]
    rw [if_pos (by omega)]
    rw [if_pos trivial, show c / 64 * 64 + (128 + c % 64 - 128) = c by omega]
  split
  · have hs : ∃ lo hi, start (0xE0 + c / 4096) = .inr ⟨c / 4096, 2, lo, hi⟩ ∧ lo ≤ 0x80 + c / 64 % 64 ∧ 0x80 + c / 64 % 64 ≤ hi := by
      by_cases h0 : c / 4096 = 0
      · refine ⟨0xA0, 0xBF, ?_, by omega, by omega⟩
        simp [start, h0]
      · by_cases hd : c / 4096 = 13
        · refine ⟨0x80, 0x9F, ?_, by omega, by omega⟩
          simp [start, hd]
        · refine ⟨0x80, 0xBF, ?_, by omega, by omega⟩
          unfold start
          rw [if_neg (by omega), if_neg (by omega), if_neg (by omega), if_neg (by omega), if_neg (by omega), if_pos (by omega),
            show 0xE0 + c / 4096 - 0xE0 = c / 4096 by omega]
    obtain ⟨lo, hi, hs, h1, h2⟩ := hs
    simp only [List.cons_append, List.nil_append, dec, hs]
    rw [if_pos ⟨h1, h2⟩, if_neg (by omega), if_pos (by omega), if_pos trivial,
      show (c / 4096 * 64 + (128 + c / 64 % 64 - 128)) * 64 + (128 + c % 64 - 128) = c by omega]
  · have hs : ∃ lo hi, start (0xF0 + c / 262144) = .inr ⟨c / 262144, 3, lo, hi⟩ ∧ lo ≤ 0x80 + c / 4096 % 64 ∧
        0x80 + c / 4096 % 64 ≤ hi := by
      by_cases h0 : c / 262144 = 0
      · refine ⟨0x90, 0xBF, ?_, by omega, by omega⟩
        simp [start, h0]
      · by_cases hd : c / 262144 = 4
        · refine ⟨0x80, 0x8F, ?_, by omega, by omega⟩
          simp [start, hd]
        · refine ⟨0x80, 0xBF, ?_, by omega, by omega⟩
          unfold start
          rw [if_neg (by omega), if_neg (by omega), if_neg (by omega), if_neg (by omega), if_neg (by omega), if_neg (by omega),
            if_neg (by omega), if_pos (by omega), show 0xF0 + c / 262144 - 0xF0 = c / 262144 by omega]
    obtain ⟨lo, hi, hs, h1, h2⟩ := hs
    simp only [List.cons_append, List.nil_append, dec, hs]
    rw [if_pos ⟨h1, h2⟩, if_neg (by omega), if_pos (by omega), if_neg (by omega), if_pos (by omega), if_pos trivial,
      show ((c / 262144 * 64 + (128 + c / 4096 % 64 - 128)) * 64 + (128 + c / 64 % 64 - 128)) * 64 + (128 + c % 64 - 128) = c by omega]

/-- What a begun sequence can still become. -/
def NeedS (nd : Need) : Prop :=
  0x80 ≤ nd.lo ∧ nd.hi ≤ 0xBF ∧
  ((nd.n = 1 ∧ nd.acc < 0x360) ∨ (nd.n = 1 ∧ 0x380 ≤ nd.acc ∧ nd.acc < 0x4400) ∨
   (nd.n = 2 ∧ nd.acc < 0x110 ∧ (nd.acc ≠ 13 ∨ nd.hi ≤ 0x9F)) ∨
   (nd.n = 3 ∧ nd.acc < 5 ∧ (nd.acc ≠ 0 ∨ 0x90 ≤ nd.lo) ∧ (nd.acc ≠ 4 ∨ nd.hi ≤ 0x8F)))

theorem start_scalar {b c : Nat} (h : start b = .inl c) : Scalar c := by
  unfold start at h
  repeat' split at h
  all_goals first
    | (have h := Sum.inl.inj h; subst h; unfold Scalar; omega)
    | exact absurd h (by simp)

theorem start_needS {b : Nat} {nd : Need} (h : start b = .inr nd) : NeedS nd := by
  unfold start at h
  repeat' split at h
  all_goals first
    | (have h := Sum.inr.inj h; subst h; unfold NeedS; dsimp only; omega)
    | exact absurd h (by simp)

theorem dec_scalar {p : Option Need} (hp : ∀ nd, p = some nd → NeedS nd) (a : List Nat) : ∀ c ∈ dec p a, Scalar c := by
  induction a generalizing p with
  | nil =>
    cases p with
    | none => simp [dec]
    | some nd => intro c hc; rw [dec, List.mem_singleton] at hc; subst hc; exact Or.inr (by omega)
  | cons b a ih =>
    have hsome : ∀ {nd : Need}, NeedS nd → ∀ nd', some nd = some nd' → NeedS nd' := by
      intro nd h nd' e; injection e with e; exact e ▸ h
    have hF : Scalar 0xFFFD := Or.inr (by omega)
    cases p with
    | none =>
      simp only [dec]
      rcases hs : start b with x | nd
      · intro c hc
        rcases List.mem_cons.1 hc with rfl | hc
        · exact start_scalar hs
        · exact ih (by simp) c hc
      · exact ih (hsome (start_needS hs))
    | some nd =>
      have ho := hp nd rfl
      simp only [dec]
      by_cases hc : nd.lo ≤ b ∧ b ≤ nd.hi
      · rw [if_pos hc]
        obtain ⟨h1, h2, h3⟩ := ho
        by_cases hn : nd.n = 1
        · rw [if_pos hn]
          intro c hm
          rcases List.mem_cons.1 hm with hm | hm
          · unfold Scalar; omega
          · exact ih (by simp) c hm
        · rw [if_neg hn]
          refine ih (hsome ?_)
          unfold NeedS; dsimp only; omega
      · rw [if_neg hc]
        rcases hs : start b with x | nd'
        · intro c hm
          simp only [List.mem_cons] at hm
          rcases hm with hm | hm | hm
          · exact hm ▸ hF
          · exact hm ▸ start_scalar hs
          · exact ih (by simp) c hm
        · intro c hm
          simp only [List.mem_cons] at hm
          rcases hm with hm | hm
          · exact hm ▸ hF
          · exact ih (hsome (start_needS hs)) c hm

/-! ### control sequences -/

theorem takeWhile_split {p : Nat → Bool} {a b : List Nat} (ha : ∀ c ∈ a, p c = true) (hb : ∀ c r, b = c :: r → p c = false) :
    (a ++ b).takeWhile p = a ∧ (a ++ b).dropWhile p = b := by
  induction a with
  | nil =>
    cases b with
    | nil => simp
    | cons c r => simp [hb c r rfl]
  | cons c a ih =>
    have := ih (fun c' h' => ha c' (List.mem_cons_of_mem _ h'))
    have hc := ha c List.mem_cons_self
    simp [hc, this]

theorem escLen_of_ansi {a : List Nat} (h : Ansi a) (r : List Nat) : escLen (a ++ r) = some a.length := by
  obtain ⟨ps, is, f, rfl, hp, hi, hf1, hf2⟩ := h
  have e1 : [27, 91] ++ ps ++ is ++ [f] ++ r = 27 :: 91 :: (ps ++ (is ++ (f :: r))) := by simp
  rw [e1]
  have hff : isParam f = false := by
    simp only [isParam, Bool.and_eq_false_iff, decide_eq_false_iff_not]; omega
  have h1 := takeWhile_split (p := isParam) (a := ps) (b := is ++ (f :: r))
    (by intro c hc; have := hp c hc; simp only [isParam, Bool.and_eq_true, decide_eq_true_eq]; omega)
    (by
      intro c r' hcr
      cases is with
      | nil => simp only [List.nil_append, List.cons.injEq] at hcr; rw [← hcr.1]; exact hff
      | cons d is' =>
        simp only [List.cons_append, List.cons.injEq] at hcr
        have := hi d List.mem_cons_self
        rw [← hcr.1]; simp only [isParam, Bool.and_eq_false_iff, decide_eq_false_iff_not]; omega)
  have h2 := takeWhile_split (p := isInter) (a := is) (b := f :: r)
    (by intro c hc; have := hi c hc; simp only [isInter, Bool.and_eq_true, decide_eq_true_eq]; omega)
    (by
      intro c r' hcr
      simp only [List.cons.injEq] at hcr
      rw [← hcr.1]; simp only [isInter, Bool.and_eq_false_iff, decide_eq_false_iff_not]; omega)
  have hf : isFinal f = true := by simp only [isFinal, Bool.and_eq_true, decide_eq_true_eq]; omega
  simp only [escLen, h1.1, h1.2, h2.1, h2.2, hf, if_true]
  simp; omega

theorem mem_takeWhile {p : Nat → Bool} {l : List Nat} {c : Nat} (h : c ∈ l.takeWhile p) : p c = true := by
  induction l with
  | nil => simp at h
  | cons d l ih =>
    rw [List.takeWhile_cons] at h
    split at h
    · rcases List.mem_cons.1 h with rfl | h
      · assumption
      · exact ih h
    · cases h

theorem ansi_of_escLen {s : List Nat} {n : Nat} (h : escLen s = some n) : ∃ a r, s = a ++ r ∧ Ansi a ∧ a.length = n := by
  unfold escLen at h
  split at h
  · rename_i r
    split at h
    · rename_i f t hd
      split at h
      · rename_i hf
        injection h with h
        refine ⟨[27, 91] ++ r.takeWhile isParam ++ (r.dropWhile isParam).takeWhile isInter ++ [f], t, ?_, ⟨_, _, _, rfl, ?_, ?_, ?_⟩, ?_⟩
        · have e2 := List.takeWhile_append_dropWhile (p := isInter) (l := r.dropWhile isParam)
          rw [hd] at e2
          have e1 := List.takeWhile_append_dropWhile (p := isParam) (l := r)
          rw [← e2] at e1
          simp only [List.append_assoc, List.cons_append, List.nil_append] at e1 ⊢
          rw [e1]
        · intro c hc
          have := mem_takeWhile hc
          simp only [isParam, Bool.and_eq_true, decide_eq_true_eq] at this; omega
        · intro c hc
          have := mem_takeWhile hc
          simp only [isInter, Bool.and_eq_true, decide_eq_true_eq] at this; omega
        · simp only [isFinal, Bool.and_eq_true, decide_eq_true_eq] at hf; omega
        · rw [← h]; simp; omega
      · cases h
    · cases h
  · cases h

theorem subGo_drop (k : Nat) (s : List Nat) : subGo k s = subGo 0 (s.drop k) := by
  induction k generalizing s with
  | zero => rfl
  | succ k ih =>
    cases s with
    | nil => simp [subGo]
    | cons c cs => simp only [subGo, List.drop_succ_cons]; exact ih cs

theorem clean_ansi {a : List Nat} (h : Ansi a) (r : List Nat) : cleanAnsi (a ++ r) = cleanAnsi r := by
  have he := escLen_of_ansi h r
  have hne : ∃ c a', a = c :: a' := by
    obtain ⟨ps, is, f, rfl, _⟩ := h; exact ⟨_, _, rfl⟩
  obtain ⟨c, a', rfl⟩ := hne
  unfold cleanAnsi
  simp only [List.cons_append] at he ⊢
  simp only [subGo, he, List.length_cons, Nat.add_sub_cancel]
  rw [subGo_drop]
  simp

theorem clean_char {c : Nat} {s : List Nat} (h : ∀ a r, c :: s = a ++ r → ¬ Ansi a) : cleanAnsi (c :: s) = c :: cleanAnsi s := by
  have he : escLen (c :: s) = none := by
    cases hn : escLen (c :: s) with
    | none => rfl
    | some n => obtain ⟨a, r, h1, h2, _⟩ := ansi_of_escLen hn; exact absurd h2 (h a r h1)
  simp only [cleanAnsi, subGo, he]

theorem clean_of_cleaned {s t : List Nat} (h : Cleaned s t) : cleanAnsi s = t := by
  induction h with
  | nil => rfl
  | seq ha _ ih => rw [clean_ansi ha, ih]
  | char hc _ ih => rw [clean_char hc, ih]

theorem cleaned_clean (s : List Nat) : Cleaned s (cleanAnsi s) := by
  generalize hn : s.length = n
  induction n using Nat.strongRecOn generalizing s with
  | ind n ih =>
    cases s with
    | nil => exact .nil
    | cons c s =>
      rcases Classical.em (∀ a r, c :: s = a ++ r → ¬ Ansi a) with h | h
      · rw [clean_char h]
        exact .char h (ih s.length (by rw [← hn]; simp) s rfl)
      · simp only [Classical.not_forall, Classical.not_not] at h
        obtain ⟨a, r, e, ha⟩ := h
        rw [e, clean_ansi ha]
        refine .seq ha (ih r.length ?_ r rfl)
        have : (c :: s).length = a.length + r.length := by rw [e]; simp
        obtain ⟨ps, is, f, rfl, _⟩ := ha
        rw [← hn, this]; simp

/-! ### lines -/

/-- One line: not empty, at most one newline, at its end. -/
structure Good (l : List Nat) : Prop where
  ne : l ≠ []
  inside : ∀ a b, l = a ++ 10 :: b → b = []

theorem readline_join (s : List Nat) : (readline s).1 ++ (readline s).2 = s := by
  induction s with
  | nil => rfl
  | cons b bs ih => simp only [readline]; split <;> simp [ih]

theorem readline_mem {s : List Nat} (h : 10 ∈ s) : 10 ∈ (readline s).1 := by
  induction s with
  | nil => cases h
  | cons b bs ih =>
    simp only [readline]
    split
    · next hb => simp [hb]
    · next hb =>
      simp only [List.mem_cons]
      rcases List.mem_cons.1 h with h | h
      · exact absurd h.symm hb
      · exact Or.inr (ih h)

theorem readline_rest {s : List Nat} (h : 10 ∉ s) : readline s = (s, []) := by
  induction s with
  | nil => rfl
  | cons b bs ih =>
    have hb : ¬ b = 10 := by rintro rfl; simp at h
    simp only [readline, if_neg hb, ih (fun h' => h (List.mem_cons_of_mem _ h'))]

theorem readline_good {s : List Nat} (h : s ≠ []) : Good (readline s).1 := by
  induction s with
  | nil => exact absurd rfl h
  | cons b bs ih =>
    simp only [readline]
    split
    · next hb =>
      refine ⟨by simp, ?_⟩
      intro a c e
      cases a with
      | nil => simp at e; exact e.2
      | cons x a => simp at e
    · next hb =>
      refine ⟨by simp, ?_⟩
      intro a c e
      cases a with
      | nil => simp at e; exact absurd e.1 hb
      | cons x a =>
        simp only [List.cons_append, List.cons.injEq] at e
        by_cases hbs : bs = []
        · subst hbs; simp [readline] at e
        · exact (ih hbs).inside a c e.2

theorem good_cases {l : List Nat} (h : Good l) : (10 ∉ l) ∨ ∃ a, l = a ++ [10] ∧ 10 ∉ a := by
  by_cases hm : 10 ∈ l
  · right
    obtain ⟨a, b, rfl⟩ := List.append_of_mem hm
    have hb := h.inside a b rfl
    subst hb
    refine ⟨a, rfl, fun ha => ?_⟩
    obtain ⟨c, d, rfl⟩ := List.append_of_mem ha
    have := h.inside c (d ++ [10]) (by simp)
    simp at this
  · exact Or.inl hm

theorem rstrip_none {s : List Nat} (h : 10 ∉ s) : rstripNl s = s := by
  unfold rstripNl
  have : s.reverse.dropWhile (· == 10) = s.reverse := by
    cases hs : s.reverse with
    | nil => rfl
    | cons c r =>
      have : c ∈ s := by rw [← List.mem_reverse, hs]; simp
      have hc : (c == 10) = false := by
        simp only [beq_eq_false_iff_ne]; rintro rfl; exact h this
      simp [hc]
  rw [this, List.reverse_reverse]

theorem rstrip_one {s : List Nat} (h : 10 ∉ s) : rstripNl (s ++ [10]) = s := by
  unfold rstripNl
  simp only [List.reverse_append, List.reverse_cons, List.reverse_nil, List.nil_append, List.cons_append]
  rw [List.dropWhile_cons_of_pos (by simp)]
  exact rstrip_none h

theorem decode_append_newline (a : List Nat) : decode (a ++ [10]) = decode a ++ [10] := by
  have := decode_newline a []
  simpa [decode, dec] using this

theorem message_of_good {l : List Nat} (h : Good l) : Message (decode l) (cleanAnsi (rstripNl (decode l))) := by
  rcases good_cases h with hn | ⟨a, rfl, ha⟩
  · have := decode_no_newline hn
    refine ⟨decode l, Or.inl ⟨rfl, ?_⟩, ?_⟩
    · intro u e; rw [e] at this; simp at this
    · rw [rstrip_none this]; exact cleaned_clean _
  · have := decode_no_newline ha
    refine ⟨decode a, Or.inr (decode_append_newline a), ?_⟩
    rw [decode_append_newline, rstrip_one this]; exact cleaned_clean _

theorem decode_full {ls : List (List Nat)} (hg : ∀ l ∈ ls, Good l) (hf : ∀ l ∈ ls, 10 ∈ l) (r : List Nat) :
    decode (ls.flatten ++ r) = (ls.map decode).flatten ++ decode r := by
  induction ls with
  | nil => simp
  | cons l ls ih =>
    rcases good_cases (hg l List.mem_cons_self) with hn | ⟨a, rfl, ha⟩
    · exact absurd (hf l List.mem_cons_self) hn
    · have := ih (fun l' h' => hg l' (List.mem_cons_of_mem _ h')) (fun l' h' => hf l' (List.mem_cons_of_mem _ h'))
      simp only [List.flatten_cons, List.append_assoc, List.map_cons, List.cons_append, List.nil_append]
      rw [decode_newline, this, decode_append_newline]; simp

/-! ### the invariant -/

/-- What the reader of a stream has made of it. -/
def Took (eof : Bool) (x : Stream) (ls : List (List Nat)) : Prop :=
  x.sent = ls.flatten ++ x.buf ++ x.pipe ∧ (∀ l ∈ ls, Good l) ∧
  ((∀ l ∈ ls, 10 ∈ l) ∨ (eof = true ∧ x.buf = [] ∧ x.pipe = [] ∧ ∃ a l, ls = a ++ [l] ∧ ∀ l' ∈ a, 10 ∈ l')) ∧
  x.term = ls.map decode ∧ x.log = ls.map (fun l => cleanAnsi (rstripNl (decode l))) ∧
  (x.status = .ended → eof = true ∧ x.buf = [] ∧ x.pipe = [])

def pcOk (st : St) : Prop :=
  match st.pc with
  | .body => True
  | .waiting _ => True
  | .joinOut _ => st.exited = true
  | .joinErr _ => st.exited = true ∧ st.out.status ≠ .running
  | .done _ => st.exited = true ∧ st.out.status ≠ .running ∧ st.err.status ≠ .running

structure Inv (st : St) : Prop where
  took : ∀ s, ∃ ls, Took st.eof (st.get s) ls
  exited : st.exited = true → st.script = []
  pc : pcOk st

theorem put_get (st : St) (s t : Bool) (x : Stream) : (st.put s x).get t = if s = t then x else st.get t := by
  cases s <;> cases t <;> rfl
@[simp] theorem put_script (st : St) (s : Bool) (x : Stream) : (st.put s x).script = st.script := by cases s <;> rfl
@[simp] theorem put_exited (st : St) (s : Bool) (x : Stream) : (st.put s x).exited = st.exited := by cases s <;> rfl
@[simp] theorem put_heir (st : St) (s : Bool) (x : Stream) : (st.put s x).heir = st.heir := by cases s <;> rfl
@[simp] theorem put_pc (st : St) (s : Bool) (x : Stream) : (st.put s x).pc = st.pc := by cases s <;> rfl
@[simp] theorem put_eof (st : St) (s : Bool) (x : Stream) : (st.put s x).eof = st.eof := by cases s <;> rfl

theorem pcOk_put {st : St} {s : Bool} {x : Stream} (h : pcOk st) (hx : (st.get s).status ≠ .running → x.status ≠ .running) : pcOk (st.put s x) := by
  unfold pcOk at *
  rw [put_pc]
  cases s <;> (cases hp : st.pc <;> rw [hp] at h <;> simp_all [St.put, St.get])

theorem pcOk_congr {st st' : St} (h : pcOk st) (h1 : st'.pc = st.pc) (h2 : st.exited = true → st'.exited = true)
    (h3 : st'.out = st.out) (h4 : st'.err = st.err) : pcOk st' := by
  unfold pcOk at *
  rw [h1, h3, h4]
  cases hp : st.pc <;> rw [hp] at h <;> simp_all

theorem took_mono {e e' : Bool} {x : Stream} {ls : List (List Nat)} (h : Took e x ls) (he : e = true → e' = true) : Took e' x ls := by
  obtain ⟨h1, h2, h3, h4, h5, h6⟩ := h
  refine ⟨h1, h2, ?_, h4, h5, fun h => ⟨he (h6 h).1, (h6 h).2⟩⟩
  rcases h3 with h3 | ⟨h3, h3'⟩
  · exact Or.inl h3
  · exact Or.inr ⟨he h3, h3'⟩

theorem took_accept {x : Stream} {ls : List (List Nat)} {b : Nat} (h : Took false x ls) : Took false (x.accept b) ls := by
  obtain ⟨h1, h2, h3, h4, h5, h6⟩ := h
  have h3 : ∀ l ∈ ls, 10 ∈ l := by
    rcases h3 with h3 | ⟨h3, _⟩
    · exact h3
    · cases h3
  refine ⟨by simp [Stream.accept, h1], h2, Or.inl h3, h4, h5, ?_⟩
  intro hs; exact absurd (h6 hs).1 (by simp)

theorem took_emit {e : Env} {eof : Bool} {x : Stream} {ls : List (List Nat)} (h : Took eof x ls) (hr : x.status = .running)
    (hb : 10 ∈ x.buf ∨ (x.buf ≠ [] ∧ x.pipe = [] ∧ eof = true)) : ∃ ls', Took eof (x.emit e) ls' := by
  obtain ⟨h1, h2, h3, h4, h5, h6⟩ := h
  have hne : x.buf ≠ [] := by
    rcases hb with hb | hb
    · rintro h0; rw [h0] at hb; cases hb
    · exact hb.1
  have h3 : ∀ l ∈ ls, 10 ∈ l := by
    rcases h3 with h3 | ⟨_, h0, _⟩
    · exact h3
    · exact absurd h0 hne
  unfold Stream.emit
  split
  · exact ⟨ls, h1, h2, Or.inl h3, h4, h5, by simp⟩
  · refine ⟨ls ++ [(readline x.buf).1], ?_, ?_, ?_, ?_, ?_, ?_⟩
    · have := readline_join x.buf
      simp only [List.flatten_append, List.flatten_cons, List.flatten_nil, List.append_nil, List.append_assoc]
      rw [h1, ← List.append_assoc (readline x.buf).1, this, List.append_assoc]
    · intro l hl
      rcases List.mem_append.1 hl with hl | hl
      · exact h2 l hl
      · simp only [List.mem_singleton] at hl; subst hl; exact readline_good hne
    · by_cases hm : 10 ∈ x.buf
      · left
        intro l hl
        rcases List.mem_append.1 hl with hl | hl
        · exact h3 l hl
        · simp only [List.mem_singleton] at hl; subst hl; exact readline_mem hm
      · right
        rcases hb with hb | hb
        · exact absurd hb hm
        · exact ⟨hb.2.2, by simp [readline_rest hm], hb.2.1, ls, _, rfl, h3⟩
    · simp [h4]
    · simp [h5]
    · intro hs; rw [hr] at hs; cases hs

theorem inv_init (script : List (Bool × Nat)) (heir : Option (List (Bool × Nat))) : Inv (init script heir) := by
  refine ⟨?_, by simp [init], by simp [pcOk, init]⟩
  intro s
  refine ⟨[], ?_⟩
  cases s <;> simp [Took, init, St.get]

theorem inv_put {st : St} {s : Bool} {x : Stream} (h : Inv st) (hx : ∃ ls, Took st.eof x ls)
    (hr : (st.get s).status ≠ .running → x.status ≠ .running) : Inv (st.put s x) := by
  refine ⟨?_, by simpa using h.exited, pcOk_put h.pc hr⟩
  intro t
  rw [put_get, put_eof]
  split
  · exact hx
  · exact h.took t

theorem inv_step {e : Env} {st st' : St} {l : Label} (h : Inv st) (hs : step e st l = some st') : Inv st' := by
  cases l with
  | write =>
    simp only [step] at hs
    split at hs
    · cases hs
    · rename_i s b rest hsc
      split at hs
      · injection hs with hs; subst hs
        have hex : st.exited = false := by
          cases hx : st.exited with
          | false => rfl
          | true => have := h.exited hx; rw [hsc] at this; cases this
        have heof : st.eof = false := by simp [St.eof, hex]
        have hI : Inv { st with script := rest } :=
          ⟨h.took, by simp [hex], pcOk_congr h.pc rfl id rfl rfl⟩
        refine inv_put hI ?_ (fun h => h)
        obtain ⟨ls, hls⟩ := h.took s
        rw [heof] at hls
        have : ({ st with script := rest } : St).eof = false := heof
        rw [this]
        exact ⟨ls, took_accept hls⟩
      · cases hs
  | exit =>
    simp only [step] at hs
    split at hs
    · rename_i hc
      injection hs with hs; subst hs
      refine ⟨?_, fun _ => hc.1, pcOk_congr h.pc rfl (fun _ => rfl) rfl rfl⟩
      intro s
      obtain ⟨ls, hls⟩ := h.took s
      have heof : st.eof = false := by simp [St.eof, hc.2]
      refine ⟨ls, took_mono (x := st.get s) hls (by simp [heof])⟩
    · cases hs
  | heirWrite =>
    simp only [step] at hs
    split at hs
    · rename_i s b rest hh
      split at hs
      · injection hs with hs; subst hs
        have heof : st.eof = false := by simp [St.eof, hh]
        have heof' : ({ st with heir := some rest } : St).eof = false := by simp [St.eof]
        have hI : Inv { st with heir := some rest } := by
          refine ⟨?_, h.exited, pcOk_congr h.pc rfl id rfl rfl⟩
          intro t
          obtain ⟨ls, hls⟩ := h.took t
          exact ⟨ls, took_mono (x := st.get t) hls (by simp [heof])⟩
        refine inv_put hI ?_ (fun h => h)
        obtain ⟨ls, hls⟩ := h.took s
        rw [heof] at hls
        rw [heof']
        exact ⟨ls, took_accept hls⟩
      · cases hs
    · cases hs
  | heirExit =>
    simp only [step] at hs
    split at hs
    · rename_i hc
      injection hs with hs; subst hs
      refine ⟨?_, h.exited, pcOk_congr h.pc rfl id rfl rfl⟩
      intro s
      obtain ⟨ls, hls⟩ := h.took s
      have heof : st.eof = false := by simp [St.eof, hc]
      refine ⟨ls, took_mono (x := st.get s) hls (by simp [heof])⟩
    · cases hs
  | fetch s n =>
    simp only [step] at hs
    split at hs
    · rename_i hc
      injection hs with hs; subst hs
      refine inv_put h ?_ (fun h => h)
      obtain ⟨ls, h1, h2, h3, h4, h5, h6⟩ := h.took s
      have hne : (st.get s).pipe ≠ [] := by
        intro h0; rw [h0] at hc; simp at hc; omega
      refine ⟨ls, ?_, h2, ?_, h4, h5, ?_⟩
      · simp [h1]
      · rcases h3 with h3 | ⟨_, _, h0, _⟩
        · exact Or.inl h3
        · exact absurd h0 hne
      · intro hst; exact absurd hst (by simp [hc.1])
    · cases hs
  | line s =>
    simp only [step] at hs
    split at hs
    · rename_i hc
      injection hs with hs; subst hs
      obtain ⟨ls, hls⟩ := h.took s
      refine inv_put h (took_emit hls hc.1 hc.2) (fun hne => absurd hc.1 hne)
    · cases hs
  | stop s =>
    simp only [step] at hs
    split at hs
    · rename_i hc
      injection hs with hs; subst hs
      obtain ⟨ls, h1, h2, h3, h4, h5, h6⟩ := h.took s
      refine inv_put h ⟨ls, h1, h2, h3, h4, h5, fun _ => ⟨hc.2.2.2, hc.2.1, hc.2.2.1⟩⟩ (fun _ => by simp)
    · cases hs
  | leave r =>
    simp only [step] at hs
    split at hs
    · injection hs with hs; subst hs
      exact ⟨h.took, h.exited, trivial⟩
    · cases hs
  | wait =>
    simp only [step] at hs
    split at hs
    · split at hs
      · rename_i hx
        injection hs with hs; subst hs
        exact ⟨h.took, h.exited, hx⟩
      · cases hs
    · cases hs
  | join =>
    simp only [step] at hs
    have hp := h.pc
    split at hs
    · rename_i r hpc
      split at hs
      · rename_i hx
        injection hs with hs; subst hs
        rw [pcOk, hpc] at hp
        exact ⟨h.took, h.exited, hp, hx⟩
      · cases hs
    · rename_i r hpc
      split at hs
      · rename_i hx
        injection hs with hs; subst hs
        rw [pcOk, hpc] at hp
        exact ⟨h.took, h.exited, hp.1, hp.2, hx⟩
      · cases hs
    · cases hs

theorem inv_run {e : Env} {script : List (Bool × Nat)} {heir : Option (List (Bool × Nat))} {ls : List Label} {st : St}
    (h : Run e script heir ls st) : Inv st := by
  induction h with
  | init => exact inv_init _ _
  | snoc _ hs ih => exact inv_step ih hs

end Xoscar.Subproc
