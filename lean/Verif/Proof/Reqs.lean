import Verif.Spec.Reqs
import Verif.Proof.Base
namespace Xoscar.Reqs
open scoped List

theorem startsWith_iff {s p : Str} : startsWith s p = true ↔ p <+: s := List.isPrefixOf_iff_prefix

theorem startsWith_exists {s p : Str} : startsWith s p = true ↔ ∃ r, s = p ++ r := by
  rw [startsWith_iff]
  exact ⟨fun ⟨r, h⟩ => ⟨r, h.symm⟩, fun ⟨r, h⟩ => ⟨r, h.symm⟩⟩

theorem isVcsUrl_iff {s : Str} : isVcsUrl s = true ↔ Url s := by
  unfold isVcsUrl Url vcsPrefixes
  rw [List.any_eq_true]
  constructor
  · rintro ⟨p, hp, h⟩
    obtain ⟨r, hr⟩ := startsWith_exists.1 h
    refine ⟨p, r, hr, ?_⟩
    simp only [List.mem_cons, List.not_mem_nil, or_false] at hp ⊢
    rcases hp with h | h | h | h | h | h <;> simp only [h, true_or, or_true]
  · rintro ⟨p, r, hr, hp⟩
    refine ⟨p, ?_, startsWith_exists.2 ⟨r, hr⟩⟩
    simp only [List.mem_cons, List.not_mem_nil, or_false] at hp ⊢
    rcases hp with h | h | h | h | h | h <;> simp only [h, true_or, or_true]

/-! ## `str.replace` -/

theorem replace_nil (pat rep : Str) : replace pat rep [] = [] := rfl

theorem replaceFrom_skip (pat rep p x : Str) : replaceFrom pat rep p.length (p ++ x) = replaceFrom pat rep 0 x := by
  induction p with
  | nil => rfl
  | cons c p ih => exact ih

theorem replace_hit {pat rep x : Str} (h : pat ≠ []) : replace pat rep (pat ++ x) = rep ++ replace pat rep x := by
  rcases pat with _ | ⟨c, p⟩
  · exact absurd rfl h
  · unfold replace
    rw [List.cons_append, replaceFrom, if_pos (show startsWith (c :: (p ++ x)) (c :: p) = true from startsWith_exists.2 ⟨x, rfl⟩)]
    exact congrArg _ (replaceFrom_skip _ _ p x)

theorem replace_miss {pat rep x : Str} {c : Char} (h : ¬ pat <+: c :: x) : replace pat rep (c :: x) = c :: replace pat rep x := by
  unfold replace
  rw [replaceFrom, if_neg]
  exact fun h' => h (startsWith_iff.1 h')

/-- text without `#` is passed over -/
theorem replace_text {v rep t x : Str} (h : '#' ∉ t) : replace (hole v) rep (t ++ x) = t ++ replace (hole v) rep x := by
  induction t with
  | nil => rfl
  | cons c t ih =>
    rw [List.cons_append, replace_miss, ih (fun h' => h (List.mem_cons_of_mem _ h')), List.cons_append]
    intro hp
    simp only [hole, List.singleton_append, List.cons_append, List.cons_prefix_cons] at hp
    exact h (by rw [hp.1]; exact List.mem_cons_self ..)

/-- two texts without `d`, each followed by `d` -/
theorem prefix_delim {d : Char} {v n x : Str} (hv : d ∉ v) (hn : d ∉ n) (h : v ++ [d] <+: n ++ d :: x) : v = n := by
  induction v generalizing n with
  | nil =>
    cases n with
    | nil => rfl
    | cons c n =>
      simp only [List.nil_append, List.cons_append, List.cons_prefix_cons] at h
      exact absurd (by rw [h.1]; exact List.mem_cons_self ..) hn
  | cons a v ih =>
    cases n with
    | nil =>
      simp only [List.nil_append, List.cons_append, List.cons_prefix_cons] at h
      exact absurd (by rw [h.1]; exact List.mem_cons_self ..) hv
    | cons c n =>
      simp only [List.cons_append, List.cons_prefix_cons] at h
      rw [h.1, ih (fun h' => hv (List.mem_cons_of_mem _ h')) (fun h' => hn (List.mem_cons_of_mem _ h')) h.2]

/-- a name with a `#` after it does not start in a text with a separator -/
theorem no_name_in_gap {v t x : Str} (hv : ∀ c ∈ v, sep c = false) (ht : '#' ∉ t) (hs : ∃ c ∈ t, sep c = true) :
    ¬ v ++ ['#'] <+: t ++ x := by
  induction v generalizing t with
  | nil =>
    intro h
    cases t with
    | nil => obtain ⟨c, hc, _⟩ := hs; cases hc
    | cons c t =>
      simp only [List.nil_append, List.cons_append, List.cons_prefix_cons] at h
      exact ht (by rw [h.1]; exact List.mem_cons_self ..)
  | cons a v ih =>
    intro h
    cases t with
    | nil => obtain ⟨c, hc, _⟩ := hs; cases hc
    | cons c t =>
      simp only [List.cons_append, List.cons_prefix_cons] at h
      refine ih (fun c h' => hv c (List.mem_cons_of_mem _ h')) (fun h' => ht (List.mem_cons_of_mem _ h')) ?_ h.2
      obtain ⟨d, hd, hsd⟩ := hs
      rcases List.mem_cons.1 hd with rfl | hd
      · have := hv a (List.mem_cons_self ..)
        rw [h.1] at this
        rw [this] at hsd; cases hsd
      · exact ⟨d, hd, hsd⟩

theorem hole_ne_nil (v : Str) : hole v ≠ [] := by simp [hole]

/-- the placeholder of another name is passed over -/
theorem replace_other {v n rep t x : Str} (hv : ∀ c ∈ v, sep c = false) (hv' : '#' ∉ v) (hn : '#' ∉ n) (hne : v ≠ n) (ht : '#' ∉ t)
    (hs : x ≠ [] → ∃ c ∈ t, sep c = true) :
    replace (hole v) rep (hole n ++ (t ++ x)) = hole n ++ (t ++ replace (hole v) rep x) := by
  have e : hole n ++ (t ++ x) = '#' :: (n ++ ('#' :: (t ++ x))) := by simp [hole]
  rw [e, replace_miss, replace_text hn, replace_miss, replace_text ht]
  · simp [hole]
  · intro h
    simp only [hole, List.singleton_append, List.cons_append, List.cons_prefix_cons, true_and] at h
    cases x with
    | nil =>
      rw [List.append_nil] at h
      obtain ⟨r, hr⟩ := h
      exact ht (by rw [← hr]; simp)
    | cons c x => exact no_name_in_gap hv ht (hs (by simp)) h
  · intro h
    simp only [hole, List.singleton_append, List.cons_append, List.cons_prefix_cons, true_and] at h
    exact hne (prefix_delim hv' hn h)

theorem template_cons (f : Str → Str) (h n t : Str) (rest : List (Str × Str)) :
    template f h ((n, t) :: rest) = h ++ (f n ++ template f t rest) := by
  simp [template]

/-- filling with what is known; the others stay -/
def known (d : Str → Option Str) (n : Str) : Str := match d n with
  | some f => f
  | none => hole n

def learn (d : Str → Option Str) (v rep : Str) (n : Str) : Option Str := match d n with
  | some f => some f
  | none => if n = v then some rep else none

theorem replace_template {v rep : Str} (hv : ∀ c ∈ v, sep c = false) (hv' : '#' ∉ v) {d : Str → Option Str}
    (hd : ∀ n f, d n = some f → '#' ∉ f) {h : Str} {rest : List (Str × Str)} (hs : Separated h rest) :
    replace (hole v) rep (template (known d) h rest) = template (known (learn d v rep)) h rest := by
  induction rest generalizing h with
  | nil =>
    have : template (known d) h [] = h ++ [] := by simp [template]
    rw [this, replace_text hs, replace_nil]
    simp [template]
  | cons x rest ih =>
    obtain ⟨n, t⟩ := x
    obtain ⟨h1, h2, h3, h4⟩ := hs
    rw [template_cons, template_cons, replace_text h1]
    congr 1
    rcases hn : d n with _ | f
    · by_cases e : n = v
      · subst e
        have e1 : known d n = hole n := by simp only [known, hn]
        have e2 : known (learn d n rep) n = rep := by simp only [known, learn, hn, if_true]
        rw [e1, e2, replace_hit (hole_ne_nil _), ih h4]
      · have e1 : known d n = hole n := by simp only [known, hn]
        have e2 : known (learn d v rep) n = hole n := by simp only [known, learn, hn, if_neg e]
        have ht : '#' ∉ t := by cases rest with
          | nil => exact h4
          | cons => exact h4.1
        rw [e1, e2, ← ih h4]
        have e3 : template (known d) t rest = t ++ template (known d) [] rest := by simp [template]
        have key := replace_other (x := template (known d) [] rest) (rep := rep) hv hv' h2 (Ne.symm e) ht (by
          intro hne
          refine h3 ?_
          rintro rfl
          exact hne (by simp [template]))
        rw [e3, key, replace_text ht]
    · have e1 : known d n = f := by simp only [known, hn]
      have e2 : known (learn d v rep) n = f := by simp only [known, learn, hn]
      rw [e1, e2, replace_text (hd n f hn), ih h4]

/-- everything the variables say, the first ones first -/
def learnAll (d : Str → Option Str) : List (Str × Value) → Str → Option Str
  | [] => d
  | (v, x) :: l => learnAll (learn d v x.format) l

theorem placeholder_eq (n : Str) : placeholder n = hole n := by simp [placeholder, hole]

theorem substitute_template {vars : List (Str × Value)} (hvars : ∀ x ∈ vars, (∀ c ∈ x.1, sep c = false) ∧ '#' ∉ x.1 ∧ '#' ∉ x.2.format)
    {d : Str → Option Str} (hd : ∀ n f, d n = some f → '#' ∉ f) {h : Str} {rest : List (Str × Str)} (hs : Separated h rest) :
    substitute vars (template (known d) h rest) = template (known (learnAll d vars)) h rest := by
  induction vars generalizing d with
  | nil => rfl
  | cons x vars ih =>
    obtain ⟨v, y⟩ := x
    obtain ⟨h1, h2, h3⟩ := hvars _ (List.mem_cons_self ..)
    have step : substitute ((v, y) :: vars) (template (known d) h rest) =
        substitute vars (replace (placeholder v) y.format (template (known d) h rest)) := rfl
    rw [step, placeholder_eq, replace_template h1 h2 hd hs, learnAll]
    refine ih (fun x hx => hvars x (List.mem_cons_of_mem _ hx)) ?_
    intro n f hf
    rw [learn] at hf
    rcases hn : d n with _ | g
    · rw [hn] at hf
      by_cases e : n = v
      · rw [if_pos e] at hf; cases hf; exact h3
      · rw [if_neg e] at hf; cases hf
    · rw [hn] at hf; cases hf; exact hd n _ hn

theorem literal_iff {v : Value} {s : Str} : Literal v s ↔ v.format = s := by
  constructor
  · intro h
    cases h <;> rfl
  · rintro rfl
    rcases v with _ | ⟨_ | _⟩ | r | d
    · exact .none
    · exact .no
    · exact .yes
    · exact .number
    · exact .json

theorem learnAll_some {vars : List (Str × Value)} {d : Str → Option Str} {n f : Str} (h : d n = some f) : learnAll d vars n = some f := by
  induction vars generalizing d with
  | nil => exact h
  | cons x l ih => exact ih (by simp only [learn, h])

theorem learnAll_bound {vars : List (Str × Value)} {d : Str → Option Str} {n : Str} {v : Value} (h : d n = none) (hb : Bound vars n v) :
    learnAll d vars n = some v.format := by
  induction hb generalizing d with
  | @here n v l =>
    show learnAll (learn d n v.format) l n = _
    exact learnAll_some (by simp only [learn, h, if_true])
  | there hne _ ih => exact ih (by simp only [learn, h, if_neg (Ne.symm hne)])

theorem learnAll_unbound {vars : List (Str × Value)} {d : Str → Option Str} {n : Str} (h : d n = none) (hb : ∀ x ∈ vars, x.1 ≠ n) :
    learnAll d vars n = none := by
  induction vars generalizing d with
  | nil => exact h
  | cons x l ih =>
    refine ih ?_ (fun y hy => hb y (List.mem_cons_of_mem _ hy))
    simp only [learn, h, if_neg (Ne.symm (hb x (List.mem_cons_self ..)))]

/-! ## White space, `;` -/

theorem takeWhile_all {p : Char → Bool} {l : Str} : ∀ c ∈ l.takeWhile p, p c = true := by
  induction l with
  | nil => simp
  | cons a l ih =>
    rw [List.takeWhile_cons]
    split
    · intro c hc
      rcases List.mem_cons.1 hc with rfl | hc
      · assumption
      · exact ih c hc
    · simp

theorem dropWhile_head {p : Char → Bool} {l : Str} {c : Char} (h : (l.dropWhile p).head? = some c) : p c = false := by
  induction l with
  | nil => simp at h
  | cons a l ih =>
    rw [List.dropWhile_cons] at h
    split at h
    · exact ih h
    · simp only [List.head?_cons, Option.some.injEq] at h
      subst h
      simp_all

/-- trimming `p` at the front leaves the same when there is nothing to trim -/
theorem dropWhile_append {p : Char → Bool} {a t : Str} (ha : ∀ c ∈ a, p c = true) (ht : ∀ c, t.head? = some c → p c = false) :
    (a ++ t).dropWhile p = t := by
  induction a with
  | nil =>
    cases t with
    | nil => rfl
    | cons c t => rw [List.nil_append, List.dropWhile_cons, ht c rfl]; simp
  | cons x a ih =>
    rw [List.cons_append, List.dropWhile_cons, ha x (List.mem_cons_self ..), if_pos rfl]
    exact ih (fun c hc => ha c (List.mem_cons_of_mem _ hc))

theorem isSpace_eq : isSpace = blank := by
  funext c
  rw [Bool.eq_iff_iff]
  have hv : ∀ d : Char, c = d ↔ c.toNat = d.toNat := fun d => ⟨fun h => by rw [h], fun h => Char.ext (UInt32.toNat_inj.1 h)⟩
  simp only [isSpace, blank, Bool.or_eq_true, Bool.and_eq_true, decide_eq_true_eq, List.mem_cons, List.not_mem_nil, or_false, hv]
  have e1 : ' '.toNat = 32 := rfl
  have e2 : '\t'.toNat = 9 := rfl
  have e3 : '\n'.toNat = 10 := rfl
  have e4 : '\x0b'.toNat = 11 := rfl
  have e5 : '\x0c'.toNat = 12 := rfl
  have e6 : '\r'.toNat = 13 := rfl
  omega

theorem stripped_strip (s : Str) : Stripped s (strip s) := by
  have e1 : s = s.takeWhile blank ++ s.dropWhile blank := List.takeWhile_append_dropWhile.symm
  have e2 : (s.dropWhile blank).reverse =
      ((s.dropWhile blank).reverse).takeWhile blank ++ ((s.dropWhile blank).reverse).dropWhile blank :=
    List.takeWhile_append_dropWhile.symm
  have e3 : s.dropWhile blank = strip s ++ (((s.dropWhile blank).reverse).takeWhile blank).reverse := by
    have := congrArg List.reverse e2
    rw [List.reverse_reverse, List.reverse_append] at this
    simp only [strip, isSpace_eq]
    exact this
  refine ⟨s.takeWhile blank, (((s.dropWhile blank).reverse).takeWhile blank).reverse, ?_, takeWhile_all, ?_, ?_, ?_⟩
  · rw [List.append_assoc, ← e3]; exact e1
  · intro c hc
    exact takeWhile_all c (List.mem_reverse.1 hc)
  · intro c hc
    refine dropWhile_head (l := s) ?_
    rw [e3]
    cases hst : strip s with
    | nil => rw [hst] at hc; cases hc
    | cons a l => rw [hst] at hc; exact hc
  · intro c hc
    simp only [strip, isSpace_eq] at hc
    rw [List.getLast?_reverse] at hc
    exact dropWhile_head hc

theorem strip_of_stripped {s t : Str} (h : Stripped s t) : strip s = t := by
  obtain ⟨a, b, rfl, ha, hb, h1, h2⟩ := h
  cases t with
  | nil =>
    have hall : ∀ c ∈ a ++ [] ++ b, blank c = true := by
      intro c hc
      simp only [List.append_nil, List.mem_append] at hc
      exact hc.elim (ha c) (hb c)
    have : (a ++ [] ++ b).dropWhile blank = [] := by
      have := dropWhile_append (t := []) hall (by simp)
      simpa using this
    simp only [strip, isSpace_eq]
    rw [this]; rfl
  | cons x t =>
    simp only [strip, isSpace_eq]
    rw [List.append_assoc, dropWhile_append ha (by intro c hc; exact h1 c (by simpa using hc)), List.reverse_append]
    rw [dropWhile_append (by intro c hc; exact hb c (List.mem_reverse.1 hc)) (by
      intro c hc; rw [List.head?_reverse] at hc; exact h2 c hc), List.reverse_reverse]

theorem stripped_iff {s t : Str} : Stripped s t ↔ strip s = t :=
  ⟨strip_of_stripped, fun h => h ▸ stripped_strip s⟩

theorem marked_iff {s base marker : Str} : Marked s base marker ↔ ';' ∈ s ∧ splitSemi s = (base, marker) := by
  constructor
  · rintro ⟨h, rfl⟩
    refine ⟨by simp, ?_⟩
    unfold splitSemi
    have h1 : ∀ c ∈ base, decide (c ≠ ';') = true := by
      intro c hc; rw [decide_eq_true_eq]; rintro rfl; exact h hc
    have e1 : (base ++ [';'] ++ marker).dropWhile (fun c => decide (c ≠ ';')) = ';' :: marker := by
      rw [List.append_assoc]
      exact dropWhile_append h1 (by simp)
    have e2 := List.takeWhile_append_dropWhile (p := fun c => decide (c ≠ ';')) (l := base ++ [';'] ++ marker)
    rw [e1] at e2
    have e3 : (base ++ [';'] ++ marker).takeWhile (fun c => decide (c ≠ ';')) ++ ';' :: marker = base ++ ';' :: marker := by
      rw [e2]; simp
    rw [e1, List.append_cancel_right e3]
    simp
  · rintro ⟨hm, he⟩
    unfold splitSemi at he
    obtain ⟨rfl, rfl⟩ := Prod.mk.inj he
    refine ⟨?_, ?_⟩
    · intro h
      have := takeWhile_all _ h
      simp at this
    · have e := List.takeWhile_append_dropWhile (p := fun c => decide (c ≠ ';')) (l := s)
      rcases hd : s.dropWhile (fun c => decide (c ≠ ';')) with _ | ⟨c, l⟩
      · rw [hd, List.append_nil] at e
        rw [← e] at hm
        have := takeWhile_all _ hm
        simp at this
      · have hc := dropWhile_head (p := fun c => decide (c ≠ ';')) (l := s) (c := c) (by rw [hd]; rfl)
        have hc : c = ';' := by simpa using hc
        rw [hd, hc] at e
        simp only [List.drop_succ_cons, List.drop_zero, List.append_assoc, List.singleton_append]
        exact e.symm

end Xoscar.Reqs
