import Verif.Spec.Sizes
import Verif.Proof.Base
import Mathlib.Tactic.IntervalCases
import Mathlib.Tactic.Ring
import Mathlib.Tactic.FieldSimp
import Mathlib.Data.Rat.Cast.Order
/-! Lemmas for Props/Sizes -/
namespace Xoscar.Sizes

def upper : List Char := ['A', 'B', 'C', 'D', 'E', 'F', 'G', 'H', 'I', 'J', 'K', 'L', 'M', 'N', 'O', 'P', 'Q', 'R', 'S', 'T', 'U', 'V', 'W', 'X', 'Y', 'Z']

theorem lower_or (c : Char) : c.toLower = c ∨ c ∈ upper := by
  by_cases h : c.val ≥ 'A'.val ∧ c.val ≤ 'Z'.val
  · right
    have h1 : 65 ≤ c.val.toNat := by have := UInt32.le_iff_toNat_le.mp h.1; simpa using this
    have h2 : c.val.toNat ≤ 90 := by have := UInt32.le_iff_toNat_le.mp h.2; simpa using this
    have : c = Char.ofNat c.val.toNat := by simp
    rw [this]
    generalize c.val.toNat = n at h1 h2
    interval_cases n <;> decide
  · left; simp only [Char.toLower]; rw [dif_neg h]

theorem lower_inNumber (c : Char) : inNumber c.toLower = inNumber c := by
  rcases lower_or c with h | h
  · rw [h]
  · revert c; decide

theorem lower_of_inNumber {c : Char} (hc : inNumber c = true) : c.toLower = c := by
  rcases lower_or c with h | h
  · exact h
  · have : ∀ c ∈ upper, inNumber c = true → c.toLower = c := by decide
    exact this c h hc

theorem lower_blank (c : Char) : blank c.toLower = blank c := by
  rcases lower_or c with h | h
  · rw [h]
  · revert c; decide

theorem lower_percent (c : Char) : c.toLower = '%' ↔ c = '%' := by
  rcases lower_or c with h | h
  · rw [h]
  · revert c; decide

theorem power_lower (c : Char) : power (some c.toLower) = unitOf c := by
  rcases lower_or c with h | h
  · rw [h]
    have hu : c ∉ ['K', 'M', 'G', 'T'] := by
      intro hm
      have : ∀ c ∈ ['K', 'M', 'G', 'T'], c.toLower ≠ c := by decide
      exact this c hm h
    simp only [List.mem_cons, List.not_mem_nil, or_false, not_or] at hu
    simp [power, unitOf, hu]
  · revert c; decide

theorem blank_iff (c : Char) : blank c = true ↔ c ∈ [' ', '\t', '\n', '\r', '\x0b', '\x0c'] := by
  simp [blank, or_assoc]

theorem blank_inNumber {c : Char} (h : blank c = true) : inNumber c = false := by
  rw [blank_iff] at h
  revert c; decide

theorem all_blank {s : Text} : Blank s ↔ ∀ c ∈ s, blank c = true := by simp only [Blank, blank_iff]

/-- first and last character are not blank -/
def Tight (s : Text) : Prop := (∀ c, s.head? = some c → blank c = false) ∧ (∀ c, s.getLast? = some c → blank c = false)

theorem dropWhile_all {p : Char → Bool} {s : Text} (h : ∀ c ∈ s, p c = true) : s.dropWhile p = [] := by
  induction s with
  | nil => rfl
  | cons c s ih => simp only [List.dropWhile, h c (by simp)]; exact ih fun c hc => h c (List.mem_cons_of_mem _ hc)

theorem dropWhile_app {p : Char → Bool} {b s : Text} (h : ∀ c ∈ b, p c = true) (hs : ∀ c, s.head? = some c → p c = false) :
    (b ++ s).dropWhile p = s := by
  induction b with
  | nil =>
    cases s with
    | nil => rfl
    | cons c s => simp [List.dropWhile, hs c rfl]
  | cons c b ih => simp only [List.cons_append, List.dropWhile, h c (by simp)]; exact ih fun c hc => h c (List.mem_cons_of_mem _ hc)

theorem takeWhile_app {p : Char → Bool} {b s : Text} (h : ∀ c ∈ b, p c = true) (hs : ∀ c, s.head? = some c → p c = false) :
    (b ++ s).takeWhile p = b := by
  induction b with
  | nil =>
    cases s with
    | nil => rfl
    | cons c s => simp [List.takeWhile, hs c rfl]
  | cons c b ih => simp only [List.cons_append, List.takeWhile, h c (by simp)]; rw [ih fun c hc => h c (List.mem_cons_of_mem _ hc)]

theorem strip_of {b s b' : Text} (h : Blank b) (h' : Blank b') (hs : Tight s) : strip (b ++ s ++ b') = s := by
  rw [all_blank] at h h'
  simp only [strip]
  cases s with
  | nil =>
    rw [List.append_nil, dropWhile_all (s := b ++ b')]
    · rfl
    · intro c hc; rcases List.mem_append.mp hc with hc | hc
      · exact h c hc
      · exact h' c hc
  | cons x s =>
    rw [List.append_assoc, dropWhile_app h (by intro c hc; exact hs.1 c (by simpa using hc)), List.reverse_append,
      dropWhile_app (by simpa using h') (by intro c hc; exact hs.2 c (by rw [List.head?_reverse] at hc; exact hc)), List.reverse_reverse]

theorem split_while (p : Char → Bool) (s : Text) : ∃ b r, s = b ++ r ∧ (∀ c ∈ b, p c = true) ∧ (∀ c, r.head? = some c → p c = false) ∧
    s.takeWhile p = b ∧ s.dropWhile p = r := by
  refine ⟨s.takeWhile p, s.dropWhile p, (List.takeWhile_append_dropWhile).symm, ?_, ?_, rfl, rfl⟩
  · intro c hc
    induction s with
    | nil => simp at hc
    | cons x s ih =>
      simp only [List.takeWhile] at hc
      split at hc
      · next hx =>
        rcases List.mem_cons.mp hc with rfl | hc
        · exact hx
        · exact ih hc
      · simp at hc
  · intro c hc
    induction s with
    | nil => simp at hc
    | cons x s ih =>
      simp only [List.dropWhile] at hc
      split at hc
      · exact ih hc
      · next hx => simp at hc; subst hc; simpa using hx

theorem strip_split (v : Text) : ∃ b b', Blank b ∧ Blank b' ∧ v = b ++ strip v ++ b' ∧ Tight (strip v) := by
  obtain ⟨b, r, h1, h2, h3, h4, h5⟩ := split_while blank v
  obtain ⟨b', r', k1, k2, k3, k4, k5⟩ := split_while blank r.reverse
  have e : strip v = r'.reverse := by simp only [strip, h5, k5]
  have er : r = r'.reverse ++ b'.reverse := by rw [← List.reverse_append, ← k1, List.reverse_reverse]
  refine ⟨b, b'.reverse, all_blank.mpr h2, all_blank.mpr (by simpa using k2), ?_, ?_, ?_⟩
  · rw [e, List.append_assoc, ← er, h1]
  · intro c hc
    rw [e] at hc
    refine h3 c ?_
    rw [er, List.head?_append, hc]; rfl
  · intro c hc
    rw [e, List.getLast?_reverse] at hc
    exact k3 c hc

theorem ofDigits_fold (s : Text) (n : Nat) : Nat.ofDigitChars 10 s n = s.foldl (fun n c => 10 * n + digit c) n := by
  induction s generalizing n with
  | nil => rfl
  | cons c s ih => rw [List.foldl_cons, ← ih]; rfl

theorem number_eq (s : Text) : number s = Nat.ofDigitChars 10 s 0 := (ofDigits_fold s 0).symm

theorem number_append (s t : Text) : number (s ++ t) = number s * 10 ^ t.length + number t := by
  have key : ∀ (t : Text) (n : Nat), t.foldl (fun n c => 10 * n + digit c) n = n * 10 ^ t.length + number t := by
    intro t
    induction t with
    | nil => intro n; simp [number]
    | cons c t ih =>
      intro n
      have e : number (c :: t) = t.foldl (fun n c => 10 * n + digit c) (10 * 0 + digit c) := rfl
      rw [List.foldl_cons, ih, e, ih, List.length_cons, Nat.pow_succ]
      ring
  rw [number, List.foldl_append, key]; rfl

/-- the value of a number with digits after the point -/
theorem point_value (s t : Text) : ((number s : Nat) : Rat) + ((number t : Nat) : Rat) / ((10 ^ t.length : Nat) : Rat) =
    ((number (s ++ t) : Nat) : Rat) / ((10 ^ t.length : Nat) : Rat) := by
  rw [number_append]
  have : ((10 ^ t.length : Nat) : Rat) ≠ 0 := by
    have : (10 ^ t.length : Nat) ≠ 0 := pow_ne_zero _ (by decide)
    exact_mod_cast this
  push_cast
  field_simp

theorem unsigned_iff (s : Text) (x : Rat) : unsignedFloat s = some x ↔ ∃ d : Decimal, d.Ok ∧ d.neg = false ∧ d.text = s ∧ d.value = x := by
  constructor
  · intro h
    obtain ⟨b, r, h1, h2, h3, h4, h5⟩ := split_while (·.isDigit) s
    simp only [unsignedFloat, h4, h5] at h
    cases r with
    | nil =>
      simp only at h
      split at h
      · cases h
      · next hb =>
        injection h with h
        refine ⟨⟨false, b, none⟩, ⟨h2, by simp, .inl hb⟩, rfl, by simp [Decimal.text, h1], ?_⟩
        simp [Decimal.value, ← number_eq, h]
    | cons c fs =>
      by_cases hp : c = '.'
      · subst hp
        simp only at h
        split at h
        · next hc =>
          injection h with h
          simp only [Bool.and_eq_true, List.all_eq_true, Bool.not_eq_true', Bool.and_eq_false_iff, decide_eq_false_iff_not] at hc
          refine ⟨⟨false, b, some fs⟩, ⟨h2, ?_, ?_⟩, rfl, by simp [Decimal.text, h1], ?_⟩
          · intro f hf; cases hf; exact hc.1
          · rcases hc.2 with hc | hc
            · exact .inl hc
            · cases fs with
              | nil => exact absurd rfl hc
              | cons c f => exact .inr ⟨c, f, rfl⟩
          · rw [point_value] at h
            simp [Decimal.value, ← number_eq, ← h]
        · cases h
      · split at h
        · next heq => cases heq
        · next heq => injection heq with e _; exact absurd e hp
        · cases h
  · rintro ⟨⟨neg, int, frac⟩, ⟨h1, h2, h3⟩, rfl, rfl, rfl⟩
    simp only at h1 h2 h3
    cases frac with
    | none =>
      have e : (Decimal.mk false int none).text = int ++ [] := by simp [Decimal.text]
      simp only [unsignedFloat, e]
      rw [takeWhile_app h1 (by simp), dropWhile_app h1 (by simp)]
      have : int ≠ [] := by
        rcases h3 with h | ⟨c, f, h⟩
        · exact h
        · cases h
      simp [this, Decimal.value, number_eq]
    | some f =>
      have e : (Decimal.mk false int (some f)).text = int ++ '.' :: f := by simp [Decimal.text]
      simp only [unsignedFloat, e]
      have hd : ∀ c, ('.' :: f).head? = some c → c.isDigit = false := by
        intro c hc; simp at hc; subst hc; decide
      rw [takeWhile_app h1 hd, dropWhile_app h1 hd]
      have hc : (f.all (·.isDigit) && !(decide (int = []) && decide (f = []))) = true := by
        simp only [Bool.and_eq_true, List.all_eq_true, Bool.not_eq_true', Bool.and_eq_false_iff, decide_eq_false_iff_not]
        refine ⟨h2 f rfl, ?_⟩
        rcases h3 with h | ⟨c, g, h⟩
        · exact .inl h
        · cases h; exact .inr (by simp)
      simp only [hc, if_true, point_value]
      simp [Decimal.value, number_eq]

theorem toFloat_iff (s : Text) (x : Rat) : toFloat s = some x ↔ ∃ d : Decimal, d.Ok ∧ d.text = s ∧ d.value = x := by
  have pos : ∀ d : Decimal, d.Ok → d.neg = false → ∀ t, d.text ≠ '-' :: t := by
    rintro ⟨neg, int, frac⟩ ⟨h1, h2, h3⟩ hn t ht
    simp only at hn; subst hn
    cases int with
    | nil =>
      cases frac with
      | none => simp [Decimal.text] at ht
      | some f => simp [Decimal.text] at ht
    | cons c int =>
      simp [Decimal.text] at ht
      have := h1 c (by simp)
      rw [ht.1] at this; exact absurd this (by decide)
  by_cases hm : ∃ r, s = '-' :: r
  · obtain ⟨r, rfl⟩ := hm
    simp only [toFloat]
    constructor
    · intro h
      rcases hr : unsignedFloat r with _ | y
      · rw [hr] at h; cases h
      · rw [hr] at h; simp only [Option.map_some, Option.some.injEq] at h
        obtain ⟨⟨neg, int, frac⟩, ho, rfl, ht, hv⟩ := (unsigned_iff r y).mp hr
        refine ⟨⟨true, int, frac⟩, ho, ?_, ?_⟩
        · simp only [Decimal.text] at ht ⊢; simpa using ht
        · subst h; subst hv; simp [Decimal.value, neg_div]
    · rintro ⟨⟨neg, int, frac⟩, ho, ht, hv⟩
      cases neg with
      | false => exact absurd ht (pos ⟨false, int, frac⟩ ho rfl r)
      | true =>
        have : unsignedFloat r = some (Decimal.mk false int frac).value :=
          (unsigned_iff _ _).mpr ⟨⟨false, int, frac⟩, ho, rfl, by simp only [Decimal.text] at ht ⊢; simpa using ht, rfl⟩
        rw [this, ← hv]; simp [Decimal.value, neg_div]
  · have e : toFloat s = unsignedFloat s := by
      unfold toFloat
      split
      · next r => exact absurd ⟨r, rfl⟩ hm
      · rfl
    rw [e, unsigned_iff]
    constructor
    · rintro ⟨d, ho, _, ht, hv⟩; exact ⟨d, ho, ht, hv⟩
    · rintro ⟨⟨neg, int, frac⟩, ho, ht, hv⟩
      cases neg with
      | false => exact ⟨_, ho, rfl, ht, hv⟩
      | true =>
        exfalso
        cases frac with
        | none => exact hm ⟨int, by rw [← ht]; simp [Decimal.text]⟩
        | some f => exact hm ⟨int ++ '.' :: f, by rw [← ht]; simp [Decimal.text]⟩

end Xoscar.Sizes
