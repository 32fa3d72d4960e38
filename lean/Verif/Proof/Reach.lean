import Verif.Spec.Reach
import Verif.Proof.Base
import Verif.Proof.Front
import Verif.Proof.Reqs
namespace Xoscar.Reach
attribute [local grind =] Dict.get?_set Dict.get?_erase

/-! ### numbers -/

theorem blank_iff (c : Char) : blank c = true ↔ Blank c := by
  simp [blank, Blank, or_assoc]

theorem digitsFrom_sound (cs : Text) : ∀ (t : Text) (acc n : Nat), Decimal t acc →
    (digitsFrom true acc cs = some n → Decimal (t ++ cs) n) ∧ (digitsFrom false acc cs = some n → Decimal (t ++ '_' :: cs) n) := by
  induction cs with
  | nil => intro t acc n h; simp only [digitsFrom, if_true, List.append_nil, Option.some.injEq, Bool.false_eq_true, if_false]
           exact ⟨fun e => e ▸ h, fun e => nomatch e⟩
  | cons c cs ih =>
    intro t acc n h
    simp only [digitsFrom]
    by_cases hc : c.isDigit = true
    · rw [if_pos hc, if_pos hc]
      have e : 10 * acc + (c.toNat - '0'.toNat) = acc * 10 + (c.toNat - 48) := by rw [Nat.mul_comm]; rfl
      rw [e]
      refine ⟨fun h1 => ?_, fun h1 => ?_⟩
      · have := (ih _ _ n (Decimal.next h hc)).1 h1
        simpa using this
      · have := (ih _ _ n (Decimal.under h hc)).1 h1
        simpa using this
    · rw [if_neg hc, if_neg hc]
      refine ⟨fun h1 => ?_, fun h1 => ?_⟩
      · by_cases hu : c = '_'
        · subst hu; simp only [decide_true, Bool.and_self, if_true] at h1
          exact (ih _ _ n h).2 h1
        · simp [hu] at h1
      · simp at h1

theorem digitsFrom_complete {d : Text} {n : Nat} (h : Decimal d n) : ∀ rest, digitsFrom false 0 (d ++ rest) = digitsFrom true n rest := by
  have e0 : '0'.toNat = 48 := rfl
  induction h with
  | one hc => intro rest; simp [digitsFrom, hc, e0]
  | @next t n c ht hc ih => intro rest; rw [List.append_assoc, ih]; simp [digitsFrom, hc, e0, Nat.mul_comm]
  | @under t n c ht hc ih =>
    intro rest; rw [List.append_assoc, ih]
    have : ('_' : Char).isDigit = false := by decide
    simp [digitsFrom, hc, this, e0, Nat.mul_comm]

theorem digits_iff (d : Text) (n : Nat) : digitsFrom false 0 d = some n ↔ Decimal d n := by
  constructor
  · intro h
    cases d with
    | nil => simp [digitsFrom] at h
    | cons c cs =>
      simp only [digitsFrom] at h
      by_cases hc : c.isDigit = true
      · rw [if_pos hc] at h
        have e : 10 * 0 + (c.toNat - '0'.toNat) = c.toNat - 48 := by rw [Nat.mul_zero, Nat.zero_add]; rfl
        rw [e] at h
        exact (digitsFrom_sound cs [c] _ n (.one hc)).1 h
      · rw [if_neg hc] at h; simp at h
  · intro h
    have := digitsFrom_complete h []
    simpa [digitsFrom] using this

theorem Decimal.ends {d : Text} {n : Nat} (h : Decimal d n) :
    (∃ c t, d = c :: t ∧ c.isDigit = true) ∧ ∃ c t, d = t ++ [c] ∧ c.isDigit = true := by
  induction h with
  | @one c hc => exact ⟨⟨c, [], rfl, hc⟩, c, [], rfl, hc⟩
  | @next t n c _ hc ih =>
    obtain ⟨⟨c0, t0, rfl, h0⟩, -⟩ := ih
    exact ⟨⟨c0, _, rfl, h0⟩, c, _, rfl, hc⟩
  | @under t n c _ hc ih =>
    obtain ⟨⟨c0, t0, rfl, h0⟩, -⟩ := ih
    exact ⟨⟨c0, _, rfl, h0⟩, c, c0 :: t0 ++ ['_'], by simp, hc⟩

theorem digit_not_blank {c : Char} (h : c.isDigit = true) : blank c = false := by
  rcases hb : blank c
  · rfl
  · rw [blank_iff] at hb
    simp only [Blank, List.mem_cons, List.not_mem_nil, or_false] at hb
    rcases hb with rfl | rfl | rfl | rfl | rfl | rfl <;> exact absurd h (by decide)

theorem strip_of {l m r : Text} (hl : ∀ c ∈ l, blank c = true) (hr : ∀ c ∈ r, blank c = true)
    (h1 : ∃ c t, m = c :: t ∧ blank c = false) (h2 : ∃ c t, m = t ++ [c] ∧ blank c = false) : strip (l ++ m ++ r) = m := by
  obtain ⟨c, t, rfl, hc⟩ := h1
  obtain ⟨c', t', e, hc'⟩ := h2
  have e1 : (l ++ (c :: t) ++ r).dropWhile blank = (c :: t) ++ r := by
    rw [List.append_assoc]
    exact Reqs.dropWhile_append hl (by simp [hc])
  unfold strip
  rw [e1, List.reverse_append]
  rw [Reqs.dropWhile_append (p := blank) (by simpa using hr) (by rw [e]; simp [hc']), List.reverse_reverse]

theorem strip_split (t : Text) : ∃ l r : Text, (∀ c ∈ l, blank c = true) ∧ (∀ c ∈ r, blank c = true) ∧ t = l ++ strip t ++ r := by
  refine ⟨t.takeWhile blank, ((t.dropWhile blank).reverse.takeWhile blank).reverse, fun c hc => Reqs.takeWhile_all c hc, ?_, ?_⟩
  · intro c hc; exact Reqs.takeWhile_all c (by simpa using hc)
  · unfold strip
    rw [List.append_assoc, ← List.reverse_append, List.takeWhile_append_dropWhile, List.reverse_reverse, List.takeWhile_append_dropWhile]

theorem pyInt_iff (t : Text) (i : Int) : pyInt t = some i ↔ Number t i := by
  constructor
  · intro h
    obtain ⟨l, r, hl, hr, e⟩ := strip_split t
    unfold pyInt at h
    have go : ∀ d : Text, ∀ n : Nat, digitsFrom false 0 d = some n → Decimal d n := fun d n => (digits_iff d n).1
    have hl' : ∀ c ∈ l, Blank c := fun c hc => (blank_iff c).1 (hl c hc)
    have hr' : ∀ c ∈ r, Blank c := fun c hc => (blank_iff c).1 (hr c hc)
    split at h
    · next d he =>
      obtain ⟨n, hn, rfl⟩ := Option.map_eq_some_iff.1 h
      exact ⟨l, d, r, n, hl', hr', go _ _ hn, .inr (.inr ⟨by rw [e, he], rfl⟩)⟩
    · next d he =>
      obtain ⟨n, hn, rfl⟩ := Option.map_eq_some_iff.1 h
      exact ⟨l, d, r, n, hl', hr', go _ _ hn, .inr (.inl ⟨by rw [e, he], rfl⟩)⟩
    · obtain ⟨n, hn, rfl⟩ := Option.map_eq_some_iff.1 h
      exact ⟨l, strip t, r, n, hl', hr', go _ _ hn, .inl ⟨e, rfl⟩⟩
  · rintro ⟨l, d, r, n, hl, hr, hd, h⟩
    have hl' : ∀ c ∈ l, blank c = true := fun c hc => (blank_iff c).2 (hl c hc)
    have hr' : ∀ c ∈ r, blank c = true := fun c hc => (blank_iff c).2 (hr c hc)
    obtain ⟨⟨c, u, e1, h1⟩, c', u', e2, h2⟩ := hd.ends
    have hn := (digits_iff d n).2 hd
    rcases h with ⟨rfl, rfl⟩ | ⟨rfl, rfl⟩ | ⟨rfl, rfl⟩
    · unfold pyInt
      rw [strip_of hl' hr' ⟨c, u, e1, digit_not_blank h1⟩ ⟨c', u', e2, digit_not_blank h2⟩]
      split
      · cases e1; exact absurd h1 (by decide)
      · cases e1; exact absurd h1 (by decide)
      · rw [hn]; rfl
    · unfold pyInt
      rw [strip_of (m := '+' :: d) hl' hr' ⟨'+', d, rfl, by decide⟩ ⟨c', '+' :: u', by rw [e2]; rfl, digit_not_blank h2⟩]
      simp [hn]
    · unfold pyInt
      rw [strip_of (m := '-' :: d) hl' hr' ⟨'-', d, rfl, by decide⟩ ⟨c', '-' :: u', by rw [e2]; rfl, digit_not_blank h2⟩]
      simp [hn]

theorem digitsFrom_fold (cs : Text) (h : ∀ c ∈ cs, c.isDigit = true) : ∀ acc, digitsFrom true acc cs = some (Nat.ofDigitChars 10 cs acc) := by
  induction cs with
  | nil => intro acc; simp [digitsFrom, Nat.ofDigitChars]
  | cons c cs ih =>
    intro acc
    simp only [digitsFrom, h c (by simp), if_true]
    rw [ih (fun c hc => h c (by simp [hc]))]
    rfl

theorem str_digits (n : Nat) : ∀ c ∈ str n, c.isDigit = true := fun _ hc => Nat.isDigit_of_mem_toDigits (by omega) (by omega) hc

theorem str_ne (n : Nat) : str n ≠ [] := Nat.toDigits_ne_nil

theorem decimal_str (n : Nat) : Decimal (str n) n := by
  rw [← digits_iff]
  have hd := str_digits n
  have hv : Nat.ofDigitChars 10 (str n) 0 = n := Nat.ofDigitChars_ten_toDigits
  have hne := str_ne n
  generalize str n = l at *
  cases l with
  | nil => exact absurd rfl hne
  | cons c cs =>
    simp only [digitsFrom, hd c (by simp), if_true]
    rw [digitsFrom_fold cs (fun c hc => hd c (by simp [hc]))]
    rw [← hv]; rfl

theorem number_str (n : Nat) : Number (str n) n :=
  ⟨[], str n, [], n, by simp, by simp, decimal_str n, .inl ⟨by simp, rfl⟩⟩

theorem pyInt_str (n : Nat) : pyInt (str n) = some (n : Int) := (pyInt_iff _ _).2 (number_str n)

theorem str_inj {n m : Nat} (h : str n = str m) : n = m := by
  have := pyInt_str n; rw [h, pyInt_str m] at this
  exact (Int.ofNat_inj.1 (Option.some.inj this)).symm

/-! ### host and port -/

theorem rsplit_iff (a h t : Text) : rsplit a = some (h, t) ↔ a = h ++ ':' :: t ∧ ':' ∉ t := by
  have key : ∀ (h t : Text), ':' ∉ t → rsplit (h ++ ':' :: t) = some (h, t) := by
    intro h t ht
    have e : ((h ++ ':' :: t).reverse.takeWhile (· ≠ ':')).reverse = t := by
      have : (h ++ ':' :: t).reverse = t.reverse ++ ':' :: h.reverse := by simp
      rw [this, Front.takeWhile_colon _ _ (by simpa using ht), List.reverse_reverse]
    unfold rsplit
    rw [if_pos (by simp)]
    simp only [e]
    congr 1
    congr 1
    have hn : (h ++ ':' :: t).length - t.length - 1 = h.length := by simp only [List.length_append, List.length_cons]; omega
    rw [hn, List.take_left]
  constructor
  · intro hr
    have hc : ':' ∈ a := by
      apply Decidable.byContradiction; intro hc; unfold rsplit at hr; rw [if_neg hc] at hr; cases hr
    obtain ⟨p, r, e, hp⟩ := Front.split_colon a.reverse (by simpa using hc)
    have ea : a = r.reverse ++ ':' :: p.reverse := by
      have := congrArg List.reverse e; simpa using this
    rw [ea, key _ _ (by simpa using hp)] at hr
    cases hr
    exact ⟨ea, by simpa using hp⟩
  · rintro ⟨rfl, ht⟩; exact key h t ht

theorem endpoint_iff' (a h : Text) (p : Int) : endpoint a = some (h, p) ↔ Says a h p := by
  unfold endpoint
  constructor
  · intro he
    split at he
    · cases he
    · next h' t hr =>
      split at he
      · cases he
      · next n hn => cases he; obtain ⟨e, ht⟩ := (rsplit_iff a _ _).1 hr; exact ⟨t, e, ht, (pyInt_iff _ _).1 hn⟩
  · rintro ⟨t, e, ht, hn⟩
    rw [(rsplit_iff a h t).2 ⟨e, ht⟩, ]
    simp only [(pyInt_iff _ _).2 hn]

theorem str_no_colon (n : Nat) : ':' ∉ str n := fun h => absurd (str_digits n ':' h) (by decide)

theorem says_address (h : Text) (p : Nat) : Says (socketAddress h p) h p := ⟨str p, rfl, str_no_colon p, number_str p⟩

/-! ### TCP -/

open Xoscar.Front (sep) in
theorem afterSep_some {h r : Text} (e : afterSep h = some r) : ∃ p, h = p ++ sep ++ r ∧ ¬ sep <:+: p ++ [':', '/'] := by
  induction h with
  | nil => cases e
  | cons c h ih =>
    rw [afterSep.eq_def] at e
    split at e
    · next x heq =>
      cases e
      refine ⟨[], by simpa [sep] using heq, ?_⟩
      intro hi
      have := hi.length_le
      simp [sep] at this
    · next c' x hn heq =>
      injection heq with h1 h2
      subst h1 h2
      obtain ⟨p, rfl, hp⟩ := ih e
      refine ⟨c :: p, by simp, ?_⟩
      rw [List.cons_append, List.infix_cons_iff]
      rintro (⟨t, ht⟩ | hi)
      · -- the separator at the front of a longer text is at the front of the whole
        simp only [sep, List.cons_append, List.nil_append, List.cons.injEq] at ht
        obtain ⟨rfl, ht⟩ := ht
        rcases p with _ | ⟨x, _ | ⟨y, p⟩⟩
        · simp at ht
        · simp only [List.cons_append, List.nil_append, List.cons.injEq] at ht
          exact absurd ht.2.1 (by decide)
        · simp only [List.cons_append, List.cons.injEq] at ht
          obtain ⟨rfl, rfl, _⟩ := ht
          exact hn (p ++ sep ++ r) rfl rfl
      · exact hp hi
    · next heq => cases heq

open Xoscar.Front (sep) in
theorem afterSep_none {h : Text} : afterSep h = none ↔ ¬ sep <:+: h := by
  induction h with
  | nil => simp [afterSep, sep]
  | cons c h ih =>
    rw [afterSep.eq_def]
    split
    · next r heq =>
      rw [heq]
      simp only [reduceCtorEq, false_iff, Classical.not_not]
      exact ⟨[], r, by simp [sep]⟩
    · next c' x hn heq =>
      injection heq with h1 h2
      subst h1 h2
      rw [ih, List.infix_cons_iff]
      constructor
      · rintro hi (⟨t, ht⟩ | h')
        · have h' : c = ':' ∧ h = '/' :: '/' :: t := by simpa [sep] using ht.symm
          exact hn t h'.1 h'.2
        · exact hi h'
      · exact fun hi h' => hi (.inr h')
    · next heq => cases heq

open Xoscar.Front (sep) in
theorem afterSep_of {p r : Text} (hp : ¬ sep <:+: p ++ [':', '/']) : afterSep (p ++ sep ++ r) = some r := by
  induction p with
  | nil => rfl
  | cons c p ih =>
    have hp' : ¬ sep <:+: p ++ [':', '/'] := fun h => hp (by rw [List.cons_append, List.infix_cons_iff]; exact .inr h)
    rw [List.cons_append, List.cons_append, afterSep.eq_def]
    split
    · next x heq =>
      exfalso
      injection heq with h1 h2
      subst h1
      apply hp
      rw [List.cons_append, List.infix_cons_iff]
      left
      rcases p with _ | ⟨y, _ | ⟨z, p⟩⟩
      · simp [sep] at h2
      · simp [sep] at h2
      · simp only [List.cons_append, List.cons.injEq] at h2
        obtain ⟨rfl, rfl, _⟩ := h2
        exact ⟨p ++ [':', '/'], by simp [sep]⟩
    · next c' x hn heq =>
      injection heq with h1 h2
      subst h1 h2
      exact ih hp'
    · next heq => cases heq

theorem isV6_iff (h : Text) : isV6 h = true ↔ V6 h := by
  unfold isV6 V6
  rw [decide_eq_true_eq]
  rcases hs : afterSep h with _ | r
  · have hn := afterSep_none.1 hs
    simp only [Option.getD_none]
    constructor
    · exact fun hc => .inl ⟨hn, hc⟩
    · rintro (⟨_, hc⟩ | ⟨p, r, rfl, _⟩)
      · exact hc
      · exact absurd ⟨p, r, rfl⟩ hn
  · obtain ⟨p, rfl, hp⟩ := afterSep_some hs
    simp only [Option.getD_some]
    constructor
    · exact fun hc => .inr ⟨p, r, rfl, hp, hc⟩
    · rintro (⟨hn, _⟩ | ⟨p', r', e, hp', hc⟩)
      · exact absurd ⟨p, r, rfl⟩ hn
      · have := afterSep_of (r := r') hp'
        rw [← e, hs] at this
        cases this
        exact hc

theorem wild_iff (h w : Text) : Wild h w ↔ w = (if isV6 h then any6 else any4) := by
  have e4 : any4 = ['0', '.', '0', '.', '0', '.', '0'] := rfl
  have e6 : any6 = [':', ':'] := rfl
  unfold Wild
  rw [← isV6_iff, ← e4, ← e6]
  cases isV6 h <;> simp

theorem covers_iff (b h : Text) : covers b h = true ↔ Takes b h := by
  unfold covers Takes
  rw [wild_iff]
  simp

theorem listens_iff (e : Bool) (h b : Text) : Listens e h b ↔ b = bindHost e h := by
  unfold Listens bindHost
  rw [wild_iff]
  cases e <;> simp

theorem overlap_comm (b b' : Text) : overlap b b' = overlap b' b := by
  unfold overlap; rw [Bool.or_comm]

theorem overlap_of_covers {b b' h : Text} (h1 : covers b h = true) (h2 : covers b' h = true) : overlap b b' = true := by
  unfold overlap
  unfold covers at *
  simp only [Bool.or_eq_true, decide_eq_true_eq] at *
  rcases h1 with rfl | h1 <;> rcases h2 with rfl | h2
  · exact .inl (.inl rfl)
  · exact .inr (.inr h2)
  · exact .inl (.inr h1)
  · exact .inl (.inl (h1.trans h2.symm))

structure TInv (st : Dict Sid Tcp) : Prop where
  wf : st.WF
  range : ∀ s t, st.get? s = some t → 0 < t.port ∧ t.port ≤ 65535
  alone : ∀ s t s' t', st.get? s = some t → st.get? s' = some t' → t.phase = .up → t'.phase = .up → t.port = t'.port →
    overlap t.bound t'.bound = true → s = s'
  bound : ∀ s t, st.get? s = some t → Takes t.bound t.host

theorem TInv.nil : TInv [] := ⟨Dict.WF.nil, by simp, by simp, by simp⟩

theorem not_listened {st : Dict Sid Tcp} {b : Text} {p : Nat} (h : listened st b p = false) {s : Sid} {t : Tcp} (ht : st.get? s = some t)
    (hu : t.phase = .up) (hp : t.port = p) : overlap t.bound b = false := by
  unfold listened at h
  rw [List.any_eq_false] at h
  have := h (s, t) (Dict.mem_of_get? ht)
  simpa [hu, hp] using this

theorem listened_iff {st : Dict Sid Tcp} (hw : st.WF) {b : Text} {p : Nat} : listened st b p = true ↔
    ∃ s t, st.get? s = some t ∧ t.phase = .up ∧ t.port = p ∧ overlap t.bound b = true := by
  unfold listened
  rw [List.any_eq_true]
  constructor
  · rintro ⟨⟨s, t⟩, hm, h⟩
    simp only [Bool.and_eq_true, decide_eq_true_eq] at h
    exact ⟨s, t, Dict.get?_of_mem hw hm, h.1.1, h.1.2, h.2⟩
  · rintro ⟨s, t, ht, h1, h2, h3⟩
    exact ⟨(s, t), Dict.mem_of_get? ht, by simp [h1, h2, h3]⟩

theorem takes_bind (e : Bool) (h : Text) : Takes (bindHost e h) h := by
  unfold Takes
  rw [wild_iff]
  cases e <;> simp [bindHost]

/-- what a successful creation makes -/
theorem tcpCreate_ok {st : Dict Sid Tcp} {c : Config} {e : Bool} {g : Nat} {t : Tcp} (h : tcpCreate st c e g = .ok t) :
    ∃ hh p, c.parse = some (hh, p) ∧ t.host = hh ∧ t.bound = bindHost e hh ∧ t.phase = .made ∧
      ((p = 0 ∧ t.port = g ∧ 0 < g ∧ g ≤ 65535 ∧ portTaken st g = false) ∨
       (0 < p ∧ p ≤ 65535 ∧ (t.port : Int) = p ∧ listened st (bindHost e hh) t.port = false)) := by
  unfold tcpCreate at h
  split at h
  · cases h
  · next hh p hp =>
    refine ⟨hh, p, hp, ?_⟩
    by_cases h0 : p = 0
    · rw [if_pos h0] at h
      split at h
      · cases h
      · next hn =>
        cases h
        refine ⟨rfl, rfl, rfl, .inl ⟨h0, rfl, by omega, by omega, ?_⟩⟩
        rcases hpt : portTaken st g
        · rfl
        · exact absurd (.inr (.inr hpt)) hn
    · rw [if_neg h0] at h
      by_cases hr : p < 0 ∨ 65535 < p
      · rw [if_pos hr] at h; cases h
      · rw [if_neg hr] at h
        split at h
        · cases h
        · next hl =>
          cases h
          have : ((p.toNat : Nat) : Int) = p := by omega
          exact ⟨rfl, rfl, rfl, .inr ⟨by omega, by omega, this, by simpa using hl⟩⟩

theorem TInv.step {st : Dict Sid Tcp} (hi : TInv st) (l : TcpLabel) : TInv (tcpStep st l) := by
  cases l with
  | create s c e g =>
    simp only [tcpStep]
    by_cases hs : st.has s = true
    · simp only [hs, if_true]; exact hi
    · simp only [hs, Bool.false_eq_true, if_false]
      rcases hc : tcpCreate st c e g with x | t
      · exact hi
      · obtain ⟨hh, p, -, h1, h2, h3, h4⟩ := tcpCreate_ok hc
        have ht := takes_bind e hh
        rw [← h1] at h2 ht
        rw [← h2] at ht
        refine ⟨Dict.WF.set hi.wf _ _, ?_, ?_, ?_⟩
        · intro s' t'; rw [Dict.get?_set]; split
          · rintro ⟨⟩; rcases h4 with h4 | h4 <;> omega
          · exact hi.range s' t'
        · intro a ta b tb; rw [Dict.get?_set, Dict.get?_set]
          have := hi.alone a ta b tb
          grind
        · intro s' t'; rw [Dict.get?_set]; split
          · rintro ⟨⟩; exact ht
          · exact hi.bound s' t'
  | start s =>
    simp only [tcpStep]
    rcases hs : st.get? s with _ | t
    · exact hi
    · dsimp only
      by_cases hm : t.phase = .made
      · simp only [hm, if_true]
        unfold tcpStart
        rcases hl : listened st t.bound t.port with _ | _
        · simp only [Bool.false_eq_true, if_false]
          refine ⟨Dict.WF.set hi.wf _ _, ?_, ?_, ?_⟩
          · intro s' t'; rw [Dict.get?_set]; split
            · rintro ⟨⟩; exact hi.range s t hs
            · exact hi.range s' t'
          · intro a ta b tb; rw [Dict.get?_set, Dict.get?_set]
            have h1 := hi.alone a ta b tb
            have h2 := @not_listened st t.bound t.port hl
            by_cases ea : s = a <;> by_cases eb : s = b
            · intros; exact ea.symm.trans eb
            · rw [if_pos ea, if_neg eb]; rintro ⟨⟩ hb - hbu hp ho
              rw [overlap_comm] at ho
              exact absurd (h2 hb hbu hp.symm) (by simpa using ho)
            · rw [if_neg ea, if_pos eb]; rintro ha ⟨⟩ hau - hp ho
              exact absurd (h2 ha hau hp) (by simpa using ho)
            · rw [if_neg ea, if_neg eb]; exact h1
          · intro s' t'; rw [Dict.get?_set]; split
            · rintro ⟨⟩; exact hi.bound s t hs
            · exact hi.bound s' t'
        · exact hi
      · simp only [hm, if_false]; exact hi
  | gone s =>
    simp only [tcpStep]
    rcases hs : st.get? s with _ | t
    · exact hi
    · dsimp only
      refine ⟨Dict.WF.set hi.wf _ _, ?_, ?_, ?_⟩
      · intro s' t'; rw [Dict.get?_set]; split
        · rintro ⟨⟩; exact hi.range s t hs
        · exact hi.range s' t'
      · intro a ta b tb; rw [Dict.get?_set, Dict.get?_set]
        have := hi.alone a ta b tb
        grind
      · intro s' t'; rw [Dict.get?_set]; split
        · rintro ⟨⟩; exact hi.bound s t hs
        · exact hi.bound s' t'

theorem tcpRun_snoc (ls : List TcpLabel) (l : TcpLabel) : tcpRun (ls ++ [l]) = tcpStep (tcpRun ls) l := by
  unfold tcpRun; rw [List.foldl_append]; rfl

theorem tcp_inv (ls : List TcpLabel) : TInv (tcpRun ls) := by
  induction ls using List.reverseRecOn' with
  | nil => exact TInv.nil
  | append_singleton ls l ih => rw [tcpRun_snoc]; exact ih.step l

theorem tcp_connect_iff (ls : List TcpLabel) (a : Text) (s : Sid) : tcpConnect (tcpRun ls) a = .ok s ↔
    ∃ h p t, Says a h p ∧ (tcpRun ls).get? s = some t ∧ t.phase = .up ∧ (t.port : Int) = p ∧ Takes t.bound h := by
  have hi := tcp_inv ls
  generalize tcpRun ls = st at hi
  unfold tcpConnect
  constructor
  · intro h
    split at h
    · cases h
    · next hh p he =>
      split at h
      · cases h
      · next hr =>
        split at h
        · next x hx =>
          cases h
          have hm := List.mem_of_find?_eq_some hx
          have hp := List.find?_some hx
          simp only [Bool.and_eq_true, decide_eq_true_eq] at hp
          refine ⟨hh, p, x.2, (endpoint_iff' _ _ _).1 he, Dict.get?_of_mem hi.wf hm, hp.1.1, ?_, (covers_iff _ _).1 hp.2⟩
          rw [hp.1.2]; omega
        · cases h
  · rintro ⟨h, p, t, hs, ht, hu, hp, hc⟩
    rw [(endpoint_iff' a h p).2 hs]
    have hr := hi.range s t ht
    simp only
    rw [if_neg (by omega)]
    have hc' := (covers_iff _ _).2 hc
    have hpn : t.port = p.toNat := by omega
    split
    · next x hx =>
      have hm := Dict.get?_of_mem hi.wf (List.mem_of_find?_eq_some hx)
      have hq := List.find?_some hx
      simp only [Bool.and_eq_true, decide_eq_true_eq] at hq
      rw [hi.alone s t x.1 x.2 ht hm hu hq.1.1 (by omega) (overlap_of_covers hc' hq.2)]
    · next hx =>
      rw [List.find?_eq_none] at hx
      exact absurd (by simp [hu, hpn, hc']) (hx (s, t) (Dict.mem_of_get? ht))

/-! ### Unix sockets -/

theorem urun_snoc (ls : List ULabel) (l : ULabel) : urun (ls ++ [l]) = ustep (urun ls) l := by
  unfold urun; rw [List.foldl_append]; rfl

/-- states on the way through a list of labels -/
def ufold (st : UState) (ls : List ULabel) : UState := ls.foldl ustep st

theorem urun_append (a b : List ULabel) : urun (a ++ b) = ufold (urun a) b := by
  unfold urun ufold; rw [List.foldl_append]

theorem ufold_cons (st : UState) (l : ULabel) (ls : List ULabel) : ufold st (l :: ls) = ufold (ustep st l) ls := rfl

theorem ufold_append (st : UState) (a b : List ULabel) : ufold st (a ++ b) = ufold (ufold st a) b := by
  unfold ufold; rw [List.foldl_append]

theorem get_clearPath (f : Dict Text Entry) (p q : Text) :
    (clearPath f p).get? q = if p = q then (if f.get? p = some .other then some .other else none) else f.get? q := by
  unfold clearPath
  split
  · next h => rw [Dict.get?_erase]; by_cases e : p = q <;> simp [e, h]; subst e; simp [h]
  · next h =>
    by_cases e : p = q
    · subst e; rw [if_pos rfl]
      rcases hf : f.get? p with _ | (_ | _)
      · simp
      · exact absurd hf (h _)
      · simp
    · rw [if_neg e]

attribute [local grind =] get_clearPath
attribute [local grind] setPhase

/-- what every history leaves -/
structure UInv (ls : List ULabel) (st : UState) : Prop where
  made : ∀ s u, st.servers.get? s = some u → ULabel.clear s u.index u.path ∈ ls
  known : ∀ s i p, ULabel.clear s i p ∈ ls → st.servers.get? s ≠ none
  named : ∀ p s, st.files.get? p = some (.sock s) → ∃ u, st.servers.get? s = some u ∧ u.path = p ∧ u.phase ≠ .clearing
  bound : ∀ s u, st.servers.get? s = some u → u.phase = .made ∨ u.phase = .up → ULabel.bind s ∈ ls
  up : ∀ s u, st.servers.get? s = some u → u.phase = .up → ULabel.start s ∈ ls
  other : ∀ p, st.files.get? p = some .other → ULabel.write p ∈ ls

theorem uinv_step {ls : List ULabel} {st : UState} (hi : UInv ls st) (l : ULabel) : UInv (ls ++ [l]) (ustep st l) := by
  obtain ⟨h1, h2, h3, h4, h5, h6⟩ := hi
  have hhas : ∀ s, st.servers.has s = true ↔ st.servers.get? s ≠ none := fun s => by
    rw [Dict.has_iff, ← Dict.get?_isSome_iff]; simp [Option.isSome_iff_ne_none]
  have hfas : ∀ s, st.files.has s = true ↔ st.files.get? s ≠ none := fun s => by
    rw [Dict.has_iff, ← Dict.get?_isSome_iff]; simp [Option.isSome_iff_ne_none]
  cases l with
  | clear s i p =>
    simp only [ustep]
    by_cases hs : st.servers.has s = true
    · rw [if_pos hs]; rw [hhas] at hs
      exact ⟨by grind, by grind, by grind, by grind, by grind, by grind⟩
    · rw [if_neg hs]; rw [hhas] at hs
      refine ⟨?_, ?_, ?_, ?_, ?_, ?_⟩ <;> grind
  | bind s =>
    simp only [ustep]
    rcases hs : st.servers.get? s with _ | u
    · exact ⟨by grind, by grind, by grind, by grind, by grind, by grind⟩
    · dsimp only
      by_cases hc : u.phase = .clearing
      · rw [if_pos hc]
        by_cases hf : st.files.has u.path = true
        · rw [if_pos hf]; refine ⟨?_, ?_, ?_, ?_, ?_, ?_⟩ <;> grind
        · rw [if_neg hf]; rw [hfas] at hf; refine ⟨?_, ?_, ?_, ?_, ?_, ?_⟩ <;> grind
      · rw [if_neg hc]; exact ⟨by grind, by grind, by grind, by grind, by grind, by grind⟩
  | start s =>
    simp only [ustep]
    rcases hs : st.servers.get? s with _ | u
    · exact ⟨by grind, by grind, by grind, by grind, by grind, by grind⟩
    · dsimp only
      by_cases hc : u.phase = .made
      · rw [if_pos hc]; refine ⟨?_, ?_, ?_, ?_, ?_, ?_⟩ <;> grind
      · rw [if_neg hc]; exact ⟨by grind, by grind, by grind, by grind, by grind, by grind⟩
  | close s =>
    simp only [ustep]
    rcases hs : st.servers.get? s with _ | u
    · exact ⟨by grind, by grind, by grind, by grind, by grind, by grind⟩
    · dsimp only
      by_cases hc : u.phase = .made ∨ u.phase = .up ∨ u.phase = .stopped
      · rw [if_pos hc]; refine ⟨?_, ?_, ?_, ?_, ?_, ?_⟩ <;> grind
      · rw [if_neg hc]; exact ⟨by grind, by grind, by grind, by grind, by grind, by grind⟩
  | remove s =>
    simp only [ustep]
    rcases hs : st.servers.get? s with _ | u
    · exact ⟨by grind, by grind, by grind, by grind, by grind, by grind⟩
    · dsimp only
      by_cases hc : u.phase = .closed
      · rw [if_pos hc]; refine ⟨?_, ?_, ?_, ?_, ?_, ?_⟩ <;> grind
      · rw [if_neg hc]; exact ⟨by grind, by grind, by grind, by grind, by grind, by grind⟩
  | crash s =>
    simp only [ustep]
    rcases hs : st.servers.get? s with _ | u
    · exact ⟨by grind, by grind, by grind, by grind, by grind, by grind⟩
    · refine ⟨?_, ?_, ?_, ?_, ?_, ?_⟩ <;> grind
  | write p =>
    simp only [ustep]
    by_cases hf : st.files.has p = true
    · rw [if_pos hf]; exact ⟨by grind, by grind, by grind, by grind, by grind, by grind⟩
    · rw [if_neg hf]; refine ⟨?_, ?_, ?_, ?_, ?_, ?_⟩ <;> grind

theorem u_inv (ls : List ULabel) : UInv ls (urun ls) := by
  induction ls using List.reverseRecOn' with
  | nil => exact ⟨by simp [urun], by simp, by simp [urun], by simp [urun], by simp [urun], by simp [urun]⟩
  | append_singleton ls l ih => rw [urun_snoc]; exact uinv_step ih l

theorem dial_iff (st : UState) (p : Text) (s : Sid) : dial st p = .ok s ↔
    st.files.get? p = some (.sock s) ∧ ∃ u, st.servers.get? s = some u ∧ u.phase = .up := by
  unfold dial
  constructor
  · intro h
    split at h
    · next s' hs =>
      split at h
      · next u hu => split at h
                     · next hp => cases h; exact ⟨hs, u, hu, hp⟩
                     · cases h
      · cases h
    · cases h
    · cases h
  · rintro ⟨h, u, hu, hp⟩
    simp [h, hu, hp]

theorem dial_refused (st : UState) (p : Text) : (∃ s, dial st p = .ok s) ∨ dial st p = .error .refused := by
  unfold dial
  split
  · split
    · split
      · exact .inl ⟨_, rfl⟩
      · exact .inr rfl
    · exact .inr rfl
  · exact .inr rfl
  · exact .inr rfl

/-- a server that nobody disturbs: its name is free before `bind` and its own afterwards -/
structure Calm (old : List ULabel) (s : Sid) (p : Text) (st : UState) : Prop where
  here : ∃ u, st.servers.get? s = some u ∧ u.path = p ∧
    ((u.phase = .clearing ∧ st.files.get? p = none) ∨ ((u.phase = .made ∨ u.phase = .up) ∧ st.files.get? p = some (.sock s)))
  others : ∀ s' u', s' ≠ s → st.servers.get? s' = some u' → u'.path = p → ∃ i, ULabel.clear s' i p ∈ old

theorem calm_step {old : List ULabel} {s : Sid} {p : Text} {st : UState} (hc : Calm old s p st) (l : ULabel)
    (h1 : ∀ s i, l ≠ ULabel.clear s i p) (h2 : ∀ s i, ULabel.clear s i p ∈ old → l ≠ ULabel.bind s ∧ l ≠ ULabel.remove s)
    (h3 : l ≠ ULabel.write p) (h4 : l ≠ ULabel.close s) (h5 : l ≠ ULabel.crash s) : Calm old s p (ustep st l) := by
  obtain ⟨⟨u, hu, hp, hph⟩, ho⟩ := hc
  have hhas : ∀ s, st.servers.has s = true ↔ st.servers.get? s ≠ none := fun s => by
    rw [Dict.has_iff, ← Dict.get?_isSome_iff]; simp [Option.isSome_iff_ne_none]
  have hfas : ∀ s, st.files.has s = true ↔ st.files.get? s ≠ none := fun s => by
    rw [Dict.has_iff, ← Dict.get?_isSome_iff]; simp [Option.isSome_iff_ne_none]
  cases l with
  | clear s' i' p' =>
    have hpp : p' ≠ p := fun e => h1 s' i' (by rw [e])
    simp only [ustep]
    by_cases hs : st.servers.has s' = true
    · rw [if_pos hs]; exact ⟨⟨u, hu, hp, hph⟩, ho⟩
    · rw [if_neg hs]; rw [hhas] at hs
      have hne : s' ≠ s := by grind
      exact ⟨⟨u, by grind, hp, by grind⟩, by grind⟩
  | bind s' =>
    simp only [ustep]
    rcases hs : st.servers.get? s' with _ | u'
    · exact ⟨⟨u, hu, hp, hph⟩, ho⟩
    · dsimp only
      by_cases hcl : u'.phase = .clearing
      · rw [if_pos hcl]
        by_cases he : s' = s
        · subst he
          rw [hu] at hs; cases hs
          have hn : st.files.get? p = none := by grind
          have : ¬ st.files.has u.path = true := by rw [hfas, hp]; simp [hn]
          rw [if_neg this]
          exact ⟨⟨{ u with phase := .made }, by grind, hp, by grind⟩, by grind⟩
        · have hpp : u'.path ≠ p := fun e => by
            obtain ⟨i, hi⟩ := ho s' u' he hs e
            exact (h2 s' i hi).1 rfl
          by_cases hf : st.files.has u'.path = true
          · rw [if_pos hf]; exact ⟨⟨u, by grind, hp, by grind⟩, by grind⟩
          · rw [if_neg hf]; exact ⟨⟨u, by grind, hp, by grind⟩, by grind⟩
      · rw [if_neg hcl]; exact ⟨⟨u, hu, hp, hph⟩, ho⟩
  | start s' =>
    simp only [ustep]
    rcases hs : st.servers.get? s' with _ | u'
    · exact ⟨⟨u, hu, hp, hph⟩, ho⟩
    · dsimp only
      by_cases hcl : u'.phase = .made
      · rw [if_pos hcl]
        by_cases he : s' = s
        · subst he
          rw [hu] at hs; cases hs
          exact ⟨⟨{ u with phase := .up }, by grind, hp, by grind⟩, by grind⟩
        · exact ⟨⟨u, by grind, hp, by grind⟩, by grind⟩
      · rw [if_neg hcl]; exact ⟨⟨u, hu, hp, hph⟩, ho⟩
  | close s' =>
    simp only [ustep]
    have he : s' ≠ s := fun e => h4 (by rw [e])
    rcases hs : st.servers.get? s' with _ | u'
    · exact ⟨⟨u, hu, hp, hph⟩, ho⟩
    · dsimp only
      split
      · exact ⟨⟨u, by grind, hp, by grind⟩, by grind⟩
      · exact ⟨⟨u, hu, hp, hph⟩, ho⟩
  | remove s' =>
    simp only [ustep]
    rcases hs : st.servers.get? s' with _ | u'
    · exact ⟨⟨u, hu, hp, hph⟩, ho⟩
    · dsimp only
      by_cases hcl : u'.phase = .closed
      · rw [if_pos hcl]
        have he : s' ≠ s := by grind
        have hpp : u'.path ≠ p := fun e => by
          obtain ⟨i, hi⟩ := ho s' u' he hs e
          exact (h2 s' i hi).2 rfl
        exact ⟨⟨u, by grind, hp, by grind⟩, by grind⟩
      · rw [if_neg hcl]; exact ⟨⟨u, hu, hp, hph⟩, ho⟩
  | crash s' =>
    simp only [ustep]
    have he : s' ≠ s := fun e => h5 (by rw [e])
    rcases hs : st.servers.get? s' with _ | u'
    · exact ⟨⟨u, hu, hp, hph⟩, ho⟩
    · exact ⟨⟨u, by grind, hp, by grind⟩, by grind⟩
  | write p' =>
    simp only [ustep]
    have he : p' ≠ p := fun e => h3 (by rw [e])
    split
    · exact ⟨⟨u, hu, hp, hph⟩, ho⟩
    · exact ⟨⟨u, hu, hp, by grind⟩, ho⟩

theorem calm_fold {old : List ULabel} {s : Sid} {p : Text} (l : List ULabel) (ha : Alone p old l) (h4 : ULabel.close s ∉ l)
    (h5 : ULabel.crash s ∉ l) : ∀ {st : UState}, Calm old s p st → Calm old s p (ufold st l) := by
  induction l with
  | nil => intro st h; exact h
  | cons e l ih =>
    intro st hc
    rw [ufold_cons]
    obtain ⟨a1, a2, a3⟩ := ha
    refine ih ⟨fun s i h => a1 s i (by simp [h]), fun s i h => ?_, fun h => a3 (by simp [h])⟩ (fun h => h4 (by simp [h]))
      (fun h => h5 (by simp [h])) (calm_step hc e ?_ ?_ ?_ ?_ ?_)
    · exact ⟨fun h' => (a2 s i h).1 (by simp [h']), fun h' => (a2 s i h).2 (by simp [h'])⟩
    · exact fun s i h => a1 s i (by simp [h])
    · exact fun s i h => ⟨fun h' => (a2 s i h).1 (by simp [h']), fun h' => (a2 s i h).2 (by simp [h'])⟩
    · exact fun h => a3 (by simp [h])
    · exact fun h => h4 (by simp [h])
    · exact fun h => h5 (by simp [h])

end Xoscar.Reach
