import Verif.Proof.Sizes
/-!
# C101: sizes written for people are read by their number and unit
-/
namespace Xoscar.Sizes

theorem strip_map (s : Text) : strip (s.map Char.toLower) = (strip s).map Char.toLower := by
  have h : ∀ s : Text, (s.map Char.toLower).dropWhile blank = (s.dropWhile blank).map Char.toLower := by
    intro s
    induction s with
    | nil => rfl
    | cons c s ih =>
      simp only [List.map_cons, List.dropWhile, lower_blank]
      split
      · exact ih
      · rfl
  simp only [strip, h, ← List.map_reverse]

theorem apart_iff (s : Text) : Apart s ↔ ∀ c, s.head? = some c → inNumber c = false := by
  simp only [Apart, inNumber, Bool.or_eq_false_iff, decide_eq_false_iff_not, not_or, Bool.not_eq_true, and_assoc]

/-- the two halves, once cut -/
def halves (n suf : Text) : Option (Rat × Bool) :=
  if suf.getLast? = some '%' then (toFloat n).map fun x => (x / 100, true)
  else match toFloat n, (match suf.head? with | none => some 0 | some c => unitOf c) with
    | some x, some k => some (x * ((1024 ^ k : Nat) : Rat), false)
    | _, _ => none

theorem parse_cut {b n r b' : Text} (hb : Blank b) (hb' : Blank b') (hn : ∀ c ∈ n, inNumber c = true)
    (hr : ∀ c, r.head? = some c → inNumber c = false) (ht : Tight (n ++ r)) : parse (b ++ (n ++ r) ++ b') = halves n (strip r) := by
  have en : n.map Char.toLower = n := by
    conv => rhs; rw [← List.map_id n]
    exact List.map_congr_left fun c hc => lower_of_inNumber (hn c hc)
  have hr' : ∀ c, (r.map Char.toLower).head? = some c → inNumber c = false := by
    intro c hc
    rw [List.head?_map] at hc
    rcases hh : r.head? with _ | e
    · rw [hh] at hc; cases hc
    · rw [hh] at hc; simp only [Option.map_some, Option.some.injEq] at hc
      subst hc; rw [lower_inNumber]; exact hr e hh
  simp only [parse, strip_of hb hb' ht, List.map_append, en, takeWhile_app hn hr', dropWhile_app hn hr', strip_map, halves]
  generalize strip r = s
  have e1 : (s.map Char.toLower).getLast? = some '%' ↔ s.getLast? = some '%' := by
    rw [List.getLast?_map]
    cases s.getLast? with
    | none => simp
    | some c => simp [lower_percent]
  have e2 : power (s.map Char.toLower).head? = (match s.head? with | none => some 0 | some c => unitOf c) := by
    rw [List.head?_map]
    cases s.head? with
    | none => rfl
    | some c => exact power_lower c
  simp only [e1, e2]
  rfl

theorem text_number {d : Decimal} (h : d.Ok) : ∀ c ∈ d.text, inNumber c = true := by
  obtain ⟨neg, int, frac⟩ := d
  obtain ⟨h1, h2, _⟩ := h
  simp only at h1 h2
  intro c hc
  simp only [Decimal.text, List.mem_append] at hc
  rcases hc with (hc | hc) | hc
  · cases neg <;> simp at hc
    subst hc; decide
  · simp [inNumber, h1 c hc]
  · cases frac with
    | none => simp at hc
    | some f =>
      rcases List.mem_cons.mp hc with rfl | hc
      · decide
      · simp [inNumber, h2 f rfl c hc]

theorem text_ne {d : Decimal} (h : d.Ok) : d.text ≠ [] := by
  obtain ⟨neg, int, frac⟩ := d
  obtain ⟨_, _, h3⟩ := h
  simp only at h3
  intro e
  simp only [Decimal.text, List.append_eq_nil_iff] at e
  rcases h3 with h | ⟨c, f, h⟩
  · exact h e.1.2
  · subst h; simp at e

theorem inNumber_blank {c : Char} (h : inNumber c = true) : blank c = false := by
  rcases hb : blank c with _ | _
  · rfl
  · rw [blank_inNumber hb] at h; cases h

theorem tight_of {n r : Text} (hn : n ≠ []) (hi : ∀ c ∈ n, inNumber c = true) (hr : ∀ c, r.getLast? = some c → blank c = false) :
    Tight (n ++ r) := by
  constructor
  · intro c hc
    rw [List.head?_append_of_ne_nil _ hn] at hc
    exact inNumber_blank (hi c (List.mem_of_head? hc))
  · intro c hc
    rw [List.getLast?_append] at hc
    rcases hl : r.getLast? with _ | e
    · rw [hl] at hc
      exact inNumber_blank (hi c (List.mem_of_getLast? (by simpa using hc)))
    · rw [hl] at hc; simp at hc; subst hc; exact hr e hl

/-- **a text is accepted as a size exactly when it reads as one, and means what it reads as.** -/
theorem parse_iff (v : Text) (x : Rat) (p : Bool) : parse v = some (x, p) ↔ Reads v x p := by
  constructor
  · intro h
    obtain ⟨b, b', hb, hb', hv, ht⟩ := strip_split v
    obtain ⟨n, r, e, hn, hr, _, _⟩ := split_while inNumber (strip v)
    rw [e] at hv ht
    rw [hv, parse_cut hb hb' hn hr ht] at h
    rw [hv]
    -- the part after the number: white space, then its word
    obtain ⟨b2, b2', hb2, hb2', er, ht2⟩ := strip_split r
    have hl2 : b2' = [] ∨ r = [] := by
      by_cases hz : b2' = []
      · exact .inl hz
      · obtain ⟨z, hz'⟩ : ∃ z, b2'.getLast? = some z := by
          rcases hq : b2'.getLast? with _ | z
          · exact absurd (List.getLast?_eq_none_iff.mp hq) hz
          · exact ⟨z, rfl⟩
        have : (n ++ r).getLast? = some z := by rw [er]; simp [List.getLast?_append, hz']
        have hzb := ht.2 z this
        rw [all_blank.mp hb2' z (List.mem_of_getLast? hz')] at hzb; cases hzb
    simp only [halves] at h
    split at h
    · next hp =>
      rcases hf : toFloat n with _ | y
      · rw [hf] at h; cases h
      · rw [hf] at h; simp only [Option.map_some, Option.some.injEq, Prod.mk.injEq] at h
        obtain ⟨d, hd, htx, hval⟩ := (toFloat_iff n y).mp hf
        obtain ⟨w, hw⟩ : ∃ w, strip r = w ++ ['%'] := by
          rw [List.getLast?_eq_some_iff] at hp; exact hp
        have hr2 : r = (b2 ++ w) ++ ['%'] := by
          rcases hl2 with hz | hz
          · rw [er, hz, hw]; simp
          · subst hz; simp [strip] at hw
        rw [← h.1, ← h.2, ← hval, ← htx, hr2, ← List.append_assoc]
        refine .share hb hb' hd ?_
        rw [apart_iff]
        intro c hc
        refine hr c ?_
        rw [hr2, List.head?_append, hc]; rfl
    · next hp =>
      rcases hf : toFloat n with _ | y
      · rw [hf] at h; simp at h
      · rw [hf] at h
        obtain ⟨d, hd, htx, hval⟩ := (toFloat_iff n y).mp hf
        rcases hs : strip r with _ | ⟨c, u⟩
        · rw [hs] at h; simp only [List.head?_nil, Nat.pow_zero, Nat.cast_one, mul_one, Option.some.injEq, Prod.mk.injEq] at h
          have hr0 : r = [] := by
            rcases hl2 with hz | hz
            · rw [hs, hz] at er
              simp only [List.append_nil] at er
              rcases hq : r.getLast? with _ | z
              · exact List.getLast?_eq_none_iff.mp hq
              · have hzb := ht.2 z (by simp [List.getLast?_append, hq])
                rw [all_blank.mp hb2 z (er ▸ List.mem_of_getLast? hq)] at hzb; cases hzb
            · exact hz
          rw [← h.1, ← h.2, ← hval, ← htx, hr0, List.append_nil]
          exact .plain hb hb' hd
        · rw [hs] at h
          simp only [List.head?_cons] at h
          rcases hk : unitOf c with _ | k
          · rw [hk] at h; simp at h
          · rw [hk] at h; simp only [Option.some.injEq, Prod.mk.injEq] at h
            have hr2 : r = b2 ++ c :: u := by
              rcases hl2 with hz | hz
              · rw [er, hz, hs]; simp
              · subst hz; simp [strip] at hs
            rw [← h.1, ← h.2, ← hval, ← htx, hr2, ← List.append_assoc]
            refine .unit hb hb2 hb' hd hk ?_
            intro e he
            refine ⟨?_, ?_⟩
            · rw [hs] at ht2
              intro hbe
              have := all_blank.mp hbe e (by simp)
              rw [ht2.2 e he] at this; cases this
            · rintro rfl; rw [hs] at hp; exact hp he
  · intro h
    cases h with
    | @plain b₁ b₃ d h1 h3 hd =>
      have e : b₁ ++ d.text ++ b₃ = b₁ ++ (d.text ++ []) ++ b₃ := by simp
      rw [e, parse_cut h1 h3 (text_number hd) (by simp) (tight_of (text_ne hd) (text_number hd) (by simp))]
      have : toFloat d.text = some d.value := (toFloat_iff _ _).mpr ⟨d, hd, rfl, rfl⟩
      simp [halves, strip, this]
    | @unit b₁ b₂ u b₃ c k d h1 h2 h3 hd hk hl =>
      have hc : inNumber c = false ∧ blank c = false := by
        have hm : c ∈ ['k', 'K', 'm', 'M', 'g', 'G', 't', 'T'] := by
          simp only [unitOf] at hk
          simp only [List.mem_cons, List.not_mem_nil, or_false]
          grind
        have : ∀ c ∈ ['k', 'K', 'm', 'M', 'g', 'G', 't', 'T'], inNumber c = false ∧ blank c = false := by decide
        exact this c hm
      have hlast : ∀ e, (c :: u).getLast? = some e → blank e = false := by
        intro e he
        rcases hb : blank e with _ | _
        · rfl
        · exact absurd (all_blank.mpr (by simpa using hb)) (hl e he).1
      have hhead : ∀ e, (b₂ ++ c :: u).head? = some e → inNumber e = false := by
        intro e he
        cases b₂ with
        | nil => simp at he; subst he; exact hc.1
        | cons z b₂ => simp at he; subst he; exact blank_inNumber (all_blank.mp h2 z (by simp))
      have htl : ∀ e, (b₂ ++ c :: u).getLast? = some e → blank e = false := by
        intro e he
        refine hlast e ?_
        rw [List.getLast?_append_of_ne_nil _ (by simp)] at he; exact he
      have e : b₁ ++ d.text ++ (b₂ ++ c :: u) ++ b₃ = b₁ ++ (d.text ++ (b₂ ++ c :: u)) ++ b₃ := by simp
      rw [e, parse_cut h1 h3 (text_number hd) hhead (tight_of (text_ne hd) (text_number hd) htl)]
      have es : strip (b₂ ++ c :: u) = c :: u := by
        have := strip_of (s := c :: u) (b' := []) h2 (by simp [Blank]) ⟨by intro e he; simp at he; subst he; exact hc.2, hlast⟩
        simpa using this
      have : toFloat d.text = some d.value := (toFloat_iff _ _).mpr ⟨d, hd, rfl, rfl⟩
      have hp : (c :: u).getLast? ≠ some '%' := fun hp => (hl _ hp).2 rfl
      simp only [halves, es, hp, if_false, this, List.head?_cons, hk]
    | @share b₁ w b₃ d h1 h3 hd hw =>
      rw [apart_iff] at hw
      have hhead : ∀ e, (w ++ ['%']).head? = some e → inNumber e = false := by
        intro e he
        cases w with
        | nil => simp at he; subst he; decide
        | cons z w => exact hw e (by simpa using he)
      have htl : ∀ e, (w ++ ['%']).getLast? = some e → blank e = false := by
        intro e he; simp at he; subst he; decide
      have e : b₁ ++ d.text ++ (w ++ ['%']) ++ b₃ = b₁ ++ (d.text ++ (w ++ ['%'])) ++ b₃ := by simp
      rw [e, parse_cut h1 h3 (text_number hd) hhead (tight_of (text_ne hd) (text_number hd) htl)]
      have hp : (strip (w ++ ['%'])).getLast? = some '%' := by
        obtain ⟨z, z', hz, hz', ez, ht⟩ := strip_split (w ++ ['%'])
        have h0 : z' = [] := by
          rcases hq : z'.getLast? with _ | y
          · exact List.getLast?_eq_none_iff.mp hq
          · have hy : (w ++ ['%']).getLast? = some y := by rw [ez]; simp [List.getLast?_append, hq]
            simp at hy; subst hy
            exact absurd (all_blank.mp hz' _ (List.mem_of_getLast? hq)) (by decide)
        rcases hq : (strip (w ++ ['%'])).getLast? with _ | y
        · have h1 := List.getLast?_eq_none_iff.mp hq
          rw [h1, h0] at ez
          simp only [List.append_nil] at ez
          exact absurd (all_blank.mp hz '%' (by rw [← ez]; simp)) (by decide)
        · have hy : (w ++ ['%']).getLast? = some y := by rw [ez, h0]; simp [List.getLast?_append, hq]
          simp at hy; rw [← hy]
      have : toFloat d.text = some d.value := (toFloat_iff _ _).mpr ⟨d, hd, rfl, rfl⟩
      simp [halves, hp, this]

/-- one text reads as at most one size -/
theorem reads_once {v : Text} {x y : Rat} {p q : Bool} (h : Reads v x p) (k : Reads v y q) : x = y ∧ p = q := by
  have h := (parse_iff v x p).mpr h
  rw [(parse_iff v y q).mpr k] at h
  simp only [Option.some.injEq, Prod.mk.injEq] at h
  exact ⟨h.1.symm, h.2.symm⟩

/-- `"1.5 GiB"` -/
def exGib : Text := ['1', '.', '5', ' ', 'G', 'i', 'B', '\n']

example : Reads exGib (3 / 2 * 1024 ^ 3) false := by
  have h := Reads.unit (b₁ := []) (b₂ := [' ']) (u := ['i', 'B']) (b₃ := ['\n']) (c := 'G') (k := 3) (d := ⟨false, ['1'], some ['5']⟩)
    (by simp [Blank]) (by simp [Blank]) (by simp [Blank]) ⟨by decide, by intro f hf; cases hf; decide, .inl (by decide)⟩ rfl
    (by intro e he; simp at he; subst he; simp [Blank])
  have e : (Decimal.mk false ['1'] (some ['5'])).value = 3 / 2 := by
    have : Nat.ofDigitChars 10 ['1', '5'] 0 = 15 := by decide
    simp only [Decimal.value, Option.getD_some, List.cons_append, List.nil_append, this]
    norm_num
  rw [e] at h
  have e3 : ((3 : Rat) / 2 * ((1024 ^ 3 : Nat) : Rat)) = 3 / 2 * 1024 ^ 3 := by norm_num
  rw [e3] at h
  exact h

/-- `int(…)` -/
theorem size_of_reads {t : Text} {n : Nat} {p : Bool} (h : Reads t (n : Rat) p) : sizeOf t = .ok (n : Int) := by
  simp only [sizeOf, (parse_iff _ _ _).mpr h]
  have : (0 : Rat) ≤ (n : Rat) := by exact_mod_cast Nat.zero_le n
  simp only [this, if_true]
  have : ((n : Nat) : Rat).floor = (n : Int) := by
    have h := Rat.floor_intCast (n : Int)
    simpa using h
  rw [this]

/-- **sizes that are no sizes are taken: any word that begins with the letter of a unit is that unit.**  `"5 gremlins"` is 5 GiB. -/
theorem word_refuted (d : Decimal) (hd : d.Ok) (u : Text) (hu : ∀ c ∈ u, c.isAlpha = true) :
    parse (d.text ++ [' '] ++ 'g' :: u) = some (d.value * ((1024 ^ 3 : Nat) : Rat), false) := by
  rw [parse_iff]
  have h := Reads.unit (b₁ := []) (b₂ := [' ']) (u := u) (b₃ := []) (c := 'g') (k := 3) (d := d)
    (by simp [Blank]) (by simp [Blank]) (by simp [Blank]) hd rfl ?_
  · simpa using h
  · intro e he
    have : e.isAlpha = true := by
      rcases List.mem_cons.mp (List.mem_of_getLast? he) with rfl | h
      · decide
      · exact hu e h
    constructor
    · intro hb
      have hm := hb e (by simp)
      have : ∀ c ∈ [' ', '\t', '\n', '\r', '\x0b', '\x0c'], c.isAlpha = false := by decide
      rw [this e hm] at *; contradiction
    · rintro rfl; exact absurd this (by decide)

/-- **numbers Python reads are refused: those with an exponent.** -/
theorem exponent_refuted (d : Decimal) (hd : d.Ok) (e : Text) (he : ∀ c ∈ e, c.isDigit = true) : parse (d.text ++ 'e' :: e) = none := by
  have hl : ∀ c, ('e' :: e).getLast? = some c → blank c = false ∧ c ≠ '%' := by
    intro c hc
    rcases List.mem_cons.mp (List.mem_of_getLast? hc) with rfl | h
    · decide
    · have h := he c h
      exact ⟨inNumber_blank (by simp [inNumber, h]), by rintro rfl; exact absurd h (by decide)⟩
  have ht : Tight (d.text ++ 'e' :: e) := tight_of (text_ne hd) (text_number hd) fun c hc => (hl c hc).1
  have h := parse_cut (b := []) (b' := []) (by simp [Blank]) (by simp [Blank]) (text_number hd) (by simp; decide) ht
  have es : strip ('e' :: e) = 'e' :: e := by
    have := strip_of (b := []) (s := 'e' :: e) (b' := []) (by simp [Blank]) (by simp [Blank])
      ⟨by intro c hc; simp at hc; subst hc; decide, fun c hc => (hl c hc).1⟩
    simpa using this
  have hp : ('e' :: e).getLast? ≠ some '%' := fun hp => (hl _ hp).2 rfl
  have hu : unitOf 'e' = none := by decide
  simp only [List.nil_append, List.append_nil] at h
  rw [h]
  simp only [halves, es, hp, if_false, List.head?_cons, hu]
  cases toFloat d.text <;> rfl

/-- what NVML says is what is reported -/
theorem nvml_exact (n : Nvml) (s : Status) : statusNvml n = s ↔
    s.gpuUtil = n.gpuUtil ∧ s.memUtil = n.memUtil ∧ s.temperature = n.temperature ∧ s.total = n.total ∧ s.free = n.free ∧ s.used = n.used := by
  cases s; simp only [statusNvml, Status.mk.injEq]; constructor <;> (rintro ⟨h1, h2, h3, h4, h5, h6⟩; simp_all)

/-- under the Windows subsystem, with utilizations `N/A`: the sizes and the temperature nvidia-smi wrote -/
theorem wsl_partial {s : Smi} {total free used temp : Nat} {p q r : Bool} (ht : Reads s.total (total : Rat) p) (hf : Reads s.free (free : Rat) q)
    (hu : Reads s.used (used : Rat) r) (hg : s.gpuUtil = ['N', '/', 'A']) (hm : s.memUtil = ['N', '/', 'A'])
    (hc : s.temperature = Nat.toDigits 10 temp ++ [' ', 'C']) :
    statusWsl s = .ok ⟨0, 0, temp, total, free, used⟩ := by
  have hdig : ∀ c ∈ Nat.toDigits 10 temp, c.isDigit = true := fun _ hc => Nat.isDigit_of_mem_toDigits (by omega) (by omega) hc
  have hne : Nat.toDigits 10 temp ≠ [] := Nat.toDigits_ne_nil
  have hv : Nat.ofDigitChars 10 (Nat.toDigits 10 temp) 0 = temp := Nat.ofDigitChars_ten_toDigits
  have hi : intOf s.temperature.dropLast = .ok (temp : Int) := by
    have e : s.temperature.dropLast = [] ++ (Nat.toDigits 10 temp ++ []) ++ [' '] := by
      rw [hc]; simp
    have hnum : ∀ c ∈ Nat.toDigits 10 temp, inNumber c = true := fun c hc => by simp [inNumber, hdig c hc]
    simp only [intOf]
    rw [e, strip_of (by simp [Blank]) (by simp [Blank]) (tight_of hne hnum (by simp))]
    revert hdig hne hv
    cases hd : Nat.toDigits 10 temp with
    | nil => simp
    | cons c ds =>
      intro hdig hne hv
      have h1 : c ≠ '-' := by rintro rfl; exact absurd (hdig '-' (by simp)) (by decide)
      have h2 : c ≠ '+' := by rintro rfl; exact absurd (hdig '+' (by simp)) (by decide)
      have h3 : unsign (c :: ds) = c :: ds := by
        unfold unsign
        split
        · next heq => injection heq with h _; exact absurd h h1
        · next heq => injection heq with h _; exact absurd h h2
        · rfl
      have h4 : (c :: ds).all (·.isDigit) = true := by simpa using hdig
      have h5 : number (c :: ds) = temp := by rw [number_eq]; exact hv
      simp only [List.append_nil, h3, h4, h5]
      simp [h1]
  simp only [statusWsl, size_of_reads ht, size_of_reads hf, size_of_reads hu, hi, hg, hm]
  rfl

example : Reads ['2', ' ', 'M', 'i', 'B'] ((2097152 : Nat) : Rat) false := by
  have h := Reads.unit (b₁ := []) (b₂ := [' ']) (u := ['i', 'B']) (b₃ := []) (c := 'M') (k := 2) (d := ⟨false, ['2'], none⟩)
    (by simp [Blank]) (by simp [Blank]) (by simp [Blank]) ⟨by decide, (by intro f hf; cases hf), .inl (by decide)⟩ rfl
    (by intro e he; simp at he; subst he; simp [Blank])
  have e : (Decimal.mk false ['2'] none).value * ((1024 ^ 2 : Nat) : Rat) = ((2097152 : Nat) : Rat) := by
    have : Nat.ofDigitChars 10 ['2'] 0 = 2 := by decide
    simp only [Decimal.value, Option.getD_none, List.append_nil, this]
    norm_num
  rw [e] at h
  exact h

/-- **under the Windows subsystem no device whose utilization nvidia-smi tells has a status: TypeError, or ValueError for a size.** -/
theorem wsl_refuted (s : Smi) (h : s.gpuUtil ≠ ['N', '/', 'A'] ∨ s.memUtil ≠ ['N', '/', 'A']) : ∀ st, statusWsl s ≠ .ok st := by
  intro st hs
  have hu : ∀ t v, utilOf t = .ok v → t = ['N', '/', 'A'] := by
    intro t v ht
    by_cases he : t = ['N', '/', 'A']
    · exact he
    · simp [utilOf, na, he] at ht
  simp only [statusWsl, bind, Except.bind] at hs
  cases h1 : sizeOf s.total with
  | error => simp [h1] at hs
  | ok => ?_
  cases h2 : sizeOf s.free with
  | error => simp [h1, h2] at hs
  | ok => ?_
  cases h3 : sizeOf s.used with
  | error => simp [h1, h2, h3] at hs
  | ok => ?_
  cases h4 : utilOf s.gpuUtil with
  | error => simp [h1, h2, h3, h4] at hs
  | ok => ?_
  cases h5 : utilOf s.memUtil with
  | error => simp [h1, h2, h3, h4, h5] at hs
  | ok => ?_
  rcases h with h | h
  · exact h (hu _ _ h4)
  · exact h (hu _ _ h5)

end Xoscar.Sizes
