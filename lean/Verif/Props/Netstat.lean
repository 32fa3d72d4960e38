import Verif.Spec.Netstat
import Verif.Proof.Reach
import Verif.Props.Ports
/-! # C96: ports in use are not handed out -/
namespace Xoscar.Netstat
open Xoscar.Reach (Text Blank blank blank_iff str pyInt pyInt_iff pyInt_str str_digits)
open Xoscar.Ports (InRange Possible getNextPort)

/-! ## columns -/

theorem wordsFrom_word (w : Text) (hw : ∀ c ∈ w, blank c = false) (acc rest : Text) :
    wordsFrom acc (w ++ rest) = wordsFrom (w.reverse ++ acc) rest := by
  induction w generalizing acc with
  | nil => rfl
  | cons c cs ih =>
    simp only [List.cons_append, wordsFrom, hw c (by simp)]
    rw [if_neg (by simp), ih (fun x hx => hw x (by simp [hx]))]
    simp

theorem wordsFrom_gap (g : Text) (hg : ∀ c ∈ g, blank c = true) (rest : Text) :
    wordsFrom [] (g ++ rest) = wordsFrom [] rest := by
  induction g with
  | nil => rfl
  | cons c cs ih =>
    simp only [List.cons_append, wordsFrom, hg c (by simp), if_true]
    exact ih (fun x hx => hg x (by simp [hx]))

theorem words_of {t : Text} {ws : List Text} (h : Cols t ws) : words t = ws := by
  unfold words
  induction h with
  | @nil t h =>
    have := wordsFrom_gap t (fun c hc => (blank_iff c).2 (h c hc)) []
    simpa [wordsFrom] using this
  | @cons gap w rest ws hg hne hw hr _ ih =>
    have hw' : ∀ c ∈ w, blank c = false := fun c hc => by
      rw [← Bool.not_eq_true, blank_iff]; exact hw c hc
    rw [List.append_assoc, wordsFrom_gap gap (fun c hc => (blank_iff c).2 (hg c hc)),
      wordsFrom_word w hw']
    rcases hr with rfl | ⟨b, r, rfl, hb⟩
    · simp only [List.append_nil] at ih ⊢
      simp [wordsFrom] at ih
      subst ih
      simp [wordsFrom, hne]
    · have hb' := (blank_iff b).2 hb
      simp only [wordsFrom, hb', if_true, List.append_nil] at ih ⊢
      simp [hne, ih]

theorem cols_exist (t : Text) : ∃ ws, Cols t ws := by
  generalize hn : t.length = n
  induction n using Nat.strongRecOn generalizing t with
  | _ n ih =>
    subst hn
    let g := t.takeWhile blank
    let t' := t.dropWhile blank
    have ht : t = g ++ t' := (List.takeWhile_append_dropWhile).symm
    have hg : ∀ c ∈ g, Blank c := fun c hc => (blank_iff c).1 (by
      have := List.all_takeWhile (p := blank) (l := t)
      exact List.all_eq_true.1 this c hc)
    by_cases h0 : t' = []
    · exact ⟨[], .nil (by rw [ht, h0]; simpa using hg)⟩
    · let w := t'.takeWhile (fun c => !blank c)
      let r := t'.dropWhile (fun c => !blank c)
      have ht' : t' = w ++ r := (List.takeWhile_append_dropWhile).symm
      have hhead : ∀ c l, t' = c :: l → blank c = false := by
        intro c l hc
        have := List.head?_dropWhile_not blank t
        have h2 : (t.dropWhile blank).head? = some c := by show t'.head? = _; rw [hc]; rfl
        simp [h2] at this
        exact this
      have hwne : w ≠ [] := by
        rcases hc : t' with _ | ⟨c, l⟩
        · exact absurd hc h0
        · show t'.takeWhile _ ≠ []
          rw [hc, List.takeWhile_cons, if_pos (by simp [hhead c l hc])]; simp
      have hw : ∀ c ∈ w, ¬ Blank c := fun c hc => by
        have := List.all_takeWhile (p := fun c => !blank c) (l := t')
        have := List.all_eq_true.1 this c hc
        rw [← blank_iff]; simpa using this
      have hr : r = [] ∨ ∃ b r', r = b :: r' ∧ Blank b := by
        rcases hc : r with _ | ⟨b, r'⟩
        · exact .inl rfl
        · refine .inr ⟨b, r', rfl, (blank_iff b).1 ?_⟩
          have := List.head?_dropWhile_not (fun c => !blank c) t'
          have h2 : (t'.dropWhile (fun c => !blank c)).head? = some b := by show r.head? = _; rw [hc]; rfl
          simp [h2] at this
          exact this
      have hlen : r.length < t.length := by
        have h1 := congrArg List.length ht
        have h2 := congrArg List.length ht'
        have h3 : 0 < w.length := List.length_pos_iff.2 hwne
        simp only [List.length_append] at h1 h2
        omega
      obtain ⟨ws, hws⟩ := ih r.length hlen r rfl
      refine ⟨w :: ws, ?_⟩
      have := Cols.cons hg hwne hw hr hws
      rwa [List.append_assoc, ← ht', ← ht] at this

theorem cols_iff (t : Text) (ws : List Text) : Cols t ws ↔ words t = ws := by
  refine ⟨words_of, fun h => ?_⟩
  obtain ⟨ws', h'⟩ := cols_exist t
  rw [words_of h'] at h; exact h ▸ h'

/-! ## endpoints -/

theorem afterDot_plain {w : Text} (h : Plain w) : afterDot (dots w) = none := by
  unfold afterDot
  rw [if_neg]
  simp only [dots, List.mem_map, not_exists, not_and]
  intro c hc
  have := h c hc
  simp only [Sep, not_or] at this
  rw [if_neg this.2]; exact this.1

theorem dots_plain {s : Text} (h : Plain s) : dots s = s := by
  unfold dots
  induction s with
  | nil => rfl
  | cons c cs ih =>
    have := h c (by simp)
    simp only [Sep, not_or] at this
    rw [List.map_cons, if_neg this.2, ih (fun x hx => h x (by simp [hx]))]

theorem afterDot_sep {h s : Text} {c : Char} (hc : Sep c) (hs : Plain s) :
    afterDot (dots (h ++ c :: s)) = some s := by
  have e : dots (h ++ c :: s) = dots h ++ '.' :: s := by
    have := dots_plain hs
    unfold dots at *
    rw [List.map_append, List.map_cons, this]
    rcases hc with rfl | rfl <;> simp
  rw [e]
  unfold afterDot
  rw [if_pos (by simp)]
  congr 1
  rw [List.reverse_append, List.reverse_cons, List.append_assoc]
  rw [List.takeWhile_append_of_pos (by
    intro x hx
    have := hs x (by simpa using hx)
    simp only [Sep, not_or] at this
    simpa using this.1)]
  simp

theorem plain_str (p : Nat) : Plain (str p) := by
  intro c hc hs
  have := str_digits p c hc
  rcases hs with rfl | rfl <;> simp at this

theorem str_ne_star (p : Nat) : str p ≠ ['*'] := by
  intro h
  have := str_digits p '*' (by simp [h])
  simp at this

theorem portOf_skip {pre ws : List Text} (h : ∀ x ∈ pre, Plain x ∨ Any x) :
    portOf (pre ++ ws) = portOf ws := by
  induction pre with
  | nil => rfl
  | cons w pre ih =>
    have ih := ih (fun x hx => h x (by simp [hx]))
    rcases h w (by simp) with hp | ⟨h', c, hc, rfl⟩
    · simp only [List.cons_append, portOf, afterDot_plain hp, ih]
    · have : Plain ['*'] := by intro c hc hs; simp at hc; subst hc; rcases hs with h | h <;> simp at h
      simp only [List.cons_append, portOf]
      rw [afterDot_sep hc this]
      simp [ih]

theorem portOf_port {w : Text} {ws : List Text} {p : Nat} (h : Port w p) :
    portOf (w :: ws) = .ok (some (p : Int)) := by
  obtain ⟨h', c, hc, rfl⟩ := h
  simp only [portOf]
  rw [afterDot_sep hc (plain_str p)]
  simp only [str_ne_star, if_false, pyInt_str]

theorem portOf_odd {w : Text} {ws : List Text} (h : Odd w) : portOf (w :: ws) = .error () := by
  obtain ⟨h', c, s, hc, rfl, hs, hne, hno⟩ := h
  simp only [portOf]
  rw [afterDot_sep hc hs]
  have : pyInt s = none := by
    rcases hp : pyInt s with _ | i
    · rfl
    · exact absurd ((pyInt_iff _ _).1 hp) (hno i)
  simp only [hne, if_false, this]

theorem lineOf_reports {t : Text} {p : Nat} (h : Reports t p) (hd : '.' ∈ t) :
    lineOf t = .ok (some (p : Int)) := by
  obtain ⟨pre, w, post, hc, hp, hw⟩ := h
  rw [lineOf, if_pos hd, words_of hc, portOf_skip hp, portOf_port hw]

theorem lineOf_silent {t : Text} (h : Silent t) : lineOf t = .ok none := by
  obtain ⟨ws, hc, hp⟩ := h
  unfold lineOf
  split
  · rw [words_of hc]
    have := portOf_skip (ws := []) hp
    rw [List.append_nil] at this
    exact this
  · rfl

theorem lineOf_nodot {t : Text} (h : '.' ∉ t) : lineOf t = .ok none := by
  rw [lineOf, if_neg h]

theorem lineOf_odd {t : Text} (h : OddLine t) (hd : '.' ∈ t) : lineOf t = .error () := by
  obtain ⟨pre, w, post, hc, hp, hw⟩ := h
  rw [lineOf, if_pos hd, words_of hc, portOf_skip hp, portOf_odd hw]

/-! ## reports -/

/-- **C96**: when each line has endpoints with ports or none, the ports counted as used are the
local ports of the lines with a dot, within the range. -/
theorem netstat_iff (lines : List Text) (h : ∀ t ∈ lines, Silent t ∨ (∃ p, Reports t p) ∨ '.' ∉ t) :
    ∃ sys, netstat lines = .ok sys ∧
      ∀ p, p ∈ sys ↔ InRange p ∧ ∃ t ∈ lines, '.' ∈ t ∧ Reports t p := by
  induction lines with
  | nil => exact ⟨[], rfl, by simp⟩
  | cons t ts ih =>
    obtain ⟨sys, hs, hi⟩ := ih (fun x hx => h x (by simp [hx]))
    have none_case : lineOf t = .ok none → (∀ p, '.' ∈ t → ¬ Reports t p) → ∃ sys, netstat (t :: ts) = .ok sys ∧
        ∀ p, p ∈ sys ↔ InRange p ∧ ∃ x ∈ t :: ts, '.' ∈ x ∧ Reports x p := by
      intro hl hn
      refine ⟨sys, by simp only [netstat, hl, hs], fun p => ?_⟩
      rw [hi p]
      constructor
      · rintro ⟨h1, x, hx, h2⟩; exact ⟨h1, x, by simp [hx], h2⟩
      · rintro ⟨h1, x, hx, h2, h3⟩
        rcases List.mem_cons.1 hx with rfl | hx
        · exact absurd h3 (hn p h2)
        · exact ⟨h1, x, hx, h2, h3⟩
    by_cases hd : '.' ∈ t
    · rcases h t (by simp) with hq | ⟨q, hq⟩ | hq
      · refine none_case (lineOf_silent hq) (fun p _ hr => ?_)
        have := lineOf_silent hq
        rw [lineOf_reports hr hd] at this; cases this
      · have hl := lineOf_reports hq hd
        have huniq : ∀ p, Reports t p → p = q := by
          intro p hp
          have := lineOf_reports hp hd
          rw [hl] at this
          injection this with this; injection this with this
          exact (Int.ofNat_inj.1 this).symm
        refine ⟨_, by simp only [netstat, hl, hs]; rfl, fun p => ?_⟩
        have hr : ((Ports.LOW : Int) ≤ (q : Int) ∧ (q : Int) ≤ (Ports.HIGH : Int)) ↔ InRange q := by
          simp only [Ports.LOW, Ports.HIGH, InRange]; omega
        by_cases hq' : InRange q
        · rw [if_pos (hr.2 hq')]
          simp only [Int.toNat_natCast, List.mem_cons, hi p]
          constructor
          · rintro (rfl | ⟨h1, x, hx, h2⟩)
            · exact ⟨hq', t, by simp, hd, hq⟩
            · exact ⟨h1, x, by simp [hx], h2⟩
          · rintro ⟨h1, x, rfl | hx, h2, h3⟩
            · exact .inl (huniq p h3)
            · exact .inr ⟨h1, x, hx, h2, h3⟩
        · rw [if_neg (fun hh => hq' (hr.1 hh)), hi p]
          constructor
          · rintro ⟨h1, x, hx, h2⟩; exact ⟨h1, x, by simp [hx], h2⟩
          · rintro ⟨h1, x, hx, h2, h3⟩
            rcases List.mem_cons.1 hx with rfl | hx
            · rw [huniq p h3] at h1; exact absurd h1 hq'
            · exact ⟨h1, x, hx, h2, h3⟩
      · exact absurd hd hq
    · exact none_case (lineOf_nodot hd) (fun p h _ => hd h)

/-- **C96**: a port returned by get_next_port is not one that psutil reports for the socket type
asked for, stream sockets by default. -/
theorem psutil_free (conns : List Conn) (lines : List Text) (typ : Option Nat) (randn : Nat) (occupy : Bool)
    (loc : List Nat) (p : Nat)
    (h : (nextPort (.psutil conns) lines typ randn occupy loc).1 = .res (.port p)) :
    InRange p ∧ p ∉ loc ∧ (∀ t, typ = some t → t ≠ 0 → Conn.mk t p ∉ conns) ∧
    (typ = none → Conn.mk STREAM p ∉ conns) := by
  simp only [nextPort, Out.res.injEq] at h
  obtain ⟨h1, h2, h3⟩ := Ports.getNextPort_free _ _ _ _ _ h
  simp only [List.mem_map, List.mem_filter, decide_eq_true_eq, not_exists, not_and] at h2
  refine ⟨h1, h3, fun t ht h0 hc => ?_, fun ht hc => ?_⟩
  · subst ht
    refine h2 ⟨t, p⟩ ⟨hc, ?_⟩ rfl
    rcases t with _ | t
    · exact absurd rfl h0
    · rfl
  · subst ht; exact h2 ⟨STREAM, p⟩ ⟨hc, rfl⟩ rfl

/-- **C96**: nor one that a line of netstat with a dot reports. -/
theorem netstat_free (h : Host) (hh : h = .windows ∨ h = .denied) (lines : List Text)
    (hl : ∀ t ∈ lines, Silent t ∨ (∃ p, Reports t p) ∨ '.' ∉ t)
    (typ : Option Nat) (randn : Nat) (occupy : Bool) (loc : List Nat) (p : Nat)
    (hp : (nextPort h lines typ randn occupy loc).1 = .res (.port p)) :
    InRange p ∧ p ∉ loc ∧ ∀ t ∈ lines, '.' ∈ t → ¬ Reports t p := by
  obtain ⟨sys, hs, hi⟩ := netstat_iff lines hl
  have hp' : (getNextPort sys randn occupy loc).1 = .port p := by
    rcases hh with rfl | rfl <;> simpa only [nextPort, hs, Out.res.injEq] using hp
  obtain ⟨h1, h2, h3⟩ := Ports.getNextPort_free _ _ _ _ _ hp'
  exact ⟨h1, h3, fun t ht hd hr => h2 ((hi p).2 ⟨h1, t, ht, hd, hr⟩)⟩

/-- **C96**: it finds a port whenever one is free. -/
theorem netstat_found (h : Host) (hh : h = .windows ∨ h = .denied) (lines : List Text)
    (hl : ∀ t ∈ lines, Silent t ∨ (∃ p, Reports t p) ∨ '.' ∉ t)
    (typ : Option Nat) (randn : Nat) (occupy : Bool) (loc : List Nat) (hloc : Possible loc)
    (q : Nat) (hq : InRange q) (h1 : q ∉ loc) (h2 : ∀ t ∈ lines, '.' ∈ t → ¬ Reports t q) :
    ∃ p, (nextPort h lines typ randn occupy loc).1 = .res (.port p) := by
  obtain ⟨sys, hs, hi⟩ := netstat_iff lines hl
  obtain ⟨p, hp⟩ := Ports.getNextPort_complete sys loc randn occupy hloc q hq
    (fun hm => by obtain ⟨_, t, ht, hd, hr⟩ := (hi q).1 hm; exact h2 t ht hd hr) h1
  refine ⟨p, ?_⟩
  rcases hh with rfl | rfl <;> simp only [nextPort, hs, hp]

/-- Refuted: on Windows a port that is used over IPv6 only (`[::]:50000`, a line without a dot) can
be handed out. -/
theorem v6_refuted (lines : List Text) (hl : ∀ t ∈ lines, '.' ∉ t) (typ : Option Nat) (occupy : Bool)
    (loc : List Nat) (hloc : Possible loc) (p : Nat) (hp : InRange p) (hn : p ∉ loc) :
    ∃ randn, (nextPort .windows lines typ randn occupy loc).1 = .res (.port p) := by
  obtain ⟨sys, hs, hi⟩ := netstat_iff lines (fun t ht => .inr (.inr (hl t ht)))
  obtain ⟨randn, hr⟩ := Ports.getNextPort_any sys loc occupy hloc p hp
    (fun hm => by obtain ⟨_, t, ht, hd, _⟩ := (hi p).1 hm; exact hl t ht hd) hn
  exact ⟨randn, by simp only [nextPort, hs, hr]⟩

/-- Refuted: one line where a name with a dot comes before any port (a Unix socket `/tmp/.X11-unix/X0`
where netstat lists those) and no port is found at all. -/
theorem path_refuted (h : Host) (hh : h = .windows ∨ h = .denied) (lines : List Text) (t : Text)
    (ht : t ∈ lines) (hd : '.' ∈ t) (ho : OddLine t) (typ : Option Nat) (randn : Nat) (occupy : Bool)
    (loc : List Nat) : nextPort h lines typ randn occupy loc = (.valueError, loc) := by
  have hs : netstat lines = .error () := by
    induction lines with
    | nil => cases ht
    | cons x xs ih =>
      simp only [netstat]
      rcases List.mem_cons.1 ht with rfl | ht
      · rw [lineOf_odd ho hd]
      · rw [ih ht]
        rcases lineOf x with ⟨⟩ | _ | _ <;> rfl
  rcases hh with rfl | rfl <;> simp only [nextPort, hs]

/-- Refuted: with netstat the socket type asked for makes no difference, so that a UDP port in use
can be handed out for UDP. -/
theorem type_refuted (h : Host) (hh : h = .windows ∨ h = .denied) (lines : List Text)
    (typ typ' : Option Nat) (randn : Nat) (occupy : Bool) (loc : List Nat) :
    nextPort h lines typ randn occupy loc = nextPort h lines typ' randn occupy loc := by
  rcases hh with rfl | rfl <;> rfl

/-- **C96**: sockets of other types do not take ports away: each port that none of the type asked for uses can be
handed out (type 0 counts as stream). -/
theorem psutil_any (conns : List Conn) (lines : List Text) (typ : Option Nat) (occupy : Bool)
    (loc : List Nat) (hloc : Possible loc) (p : Nat) (hp : InRange p) (hn : p ∉ loc)
    (ho : ∀ c ∈ conns, c.port = p → some c.typ ≠ typ ∧ (typ = none ∨ typ = some 0 → c.typ ≠ STREAM)) :
    ∃ randn, (nextPort (.psutil conns) lines typ randn occupy loc).1 = .res (.port p) := by
  obtain ⟨randn, hr⟩ := Ports.getNextPort_any
    ((conns.filter (fun c => c.typ = typeOr typ)).map (·.port)) loc occupy hloc p hp (by
      simp only [List.mem_map, List.mem_filter, decide_eq_true_eq, not_exists, not_and]
      rintro c ⟨hc, ht⟩ hcp
      obtain ⟨h1, h2⟩ := ho c hc hcp
      rcases typ with _ | _ | t
      · exact h2 (.inl rfl) ht
      · exact h2 (.inr rfl) ht
      · exact h1 (by rw [ht]; rfl)) hn
  exact ⟨randn, by simp only [nextPort, hr]⟩

/-- Refuted: a line whose local endpoint has no port takes away its foreign port. -/
theorem foreign_refuted (pre post : List Text) (t w : Text) (p : Nat) (hp : InRange p) (hd : '.' ∈ t)
    (hc : Cols t (pre ++ ['*', '.', '*'] :: w :: post)) (hpre : ∀ x ∈ pre, Plain x) (hw : Port w p) :
    netstat [t] = .ok [p] := by
  have hr : Reports t p := by
    refine ⟨pre ++ [['*', '.', '*']], w, post, by simpa using hc, ?_, hw⟩
    intro x hx
    rcases List.mem_append.1 hx with hx | hx
    · exact .inl (hpre x hx)
    · simp at hx; subst hx; exact .inr ⟨['*'], '.', .inl rfl, rfl⟩
  simp only [netstat, lineOf_reports hr hd]
  rw [if_pos (by simp only [Ports.LOW, Ports.HIGH]; unfold InRange at hp; omega)]
  simp

/-! ## Cases -/

/-- A line as macOS prints it. -/
def mac : Text := ['t', 'c', 'p', '4', ' ', '0', ' ', ' ', '1', '0', '.', '0', '.', '0', '.', '1', '.', '5', '0', '0', '0', '0', ' ', '*', '.', '*']
/-- A line as Windows prints it for IPv6. -/
def win6 : Text := ['T', 'C', 'P', ' ', '[', ':', ':', ']', ':', '5', '0', '0', '0', '0', ' ', '[', ':', ':', ']', ':', '0']
/-- A Unix socket. -/
def unix : Text := ['u', 'n', 'i', 'x', ' ', '/', 't', '/', '.', 'X', '1', '/', 'X', '0']
/-- A header. -/
def header : Text := ['A', 'c', 't', 'i', 'v', 'e', ' ', 'I', 'n', 't']

instance (w : Text) : Decidable (Plain w) := by unfold Plain Sep; infer_instance

theorem mac_reports : Reports mac 50000 :=
  ⟨[['t', 'c', 'p', '4'], ['0']], ['1', '0', '.', '0', '.', '0', '.', '1', '.', '5', '0', '0', '0', '0'], [['*', '.', '*']],
    (cols_iff _ _).2 (by decide), fun x hx => .inl (by revert x; decide),
    ['1', '0', '.', '0', '.', '0', '.', '1'], '.', .inl rfl, by decide⟩

theorem win6_reports : Reports win6 50000 :=
  ⟨[['T', 'C', 'P']], ['[', ':', ':', ']', ':', '5', '0', '0', '0', '0'], [['[', ':', ':', ']', ':', '0']],
    (cols_iff _ _).2 (by decide), fun x hx => .inl (by revert x; decide), ['[', ':', ':', ']'], ':', .inr rfl, by decide⟩

theorem unix_odd : OddLine unix :=
  ⟨[['u', 'n', 'i', 'x']], ['/', 't', '/', '.', 'X', '1', '/', 'X', '0'], [], (cols_iff _ _).2 (by decide),
    fun x hx => .inl (by revert x; decide), ['/', 't', '/'], '.', ['X', '1', '/', 'X', '0'], .inl rfl, rfl, by decide, by decide,
    fun i hi => by have := (pyInt_iff _ _).2 hi; simp [show pyInt ['X', '1', '/', 'X', '0'] = none by decide] at this⟩

example : netstat [header, mac, win6] = .ok [50000] := by rfl
example : netstat [header, win6] = .ok [] := by rfl
example : ∀ t ∈ [header, mac], Silent t ∨ (∃ p, Reports t p) ∨ '.' ∉ t := by
  intro t ht
  rcases List.mem_cons.1 ht with rfl | ht
  · exact .inr (.inr (by decide))
  · simp at ht; subst ht; exact .inr (.inl ⟨_, mac_reports⟩)
example : '.' ∉ win6 := by decide
example : netstat [['t', ' ', '*', '.', '*', ' ', 'h', '.', '2', '0', '0', '0', '0']] = .ok [20000] :=
  foreign_refuted [['t']] [] _ ['h', '.', '2', '0', '0', '0', '0'] 20000 (by unfold InRange; omega) (by decide)
    ((cols_iff _ _).2 (by decide)) (by decide) ⟨['h'], '.', .inl rfl, by decide⟩
example (typ : Option Nat) (randn : Nat) : (nextPort .denied [mac, unix] typ randn true []).1 = .valueError := by
  rw [path_refuted .denied (.inr rfl) [mac, unix] unix (by simp) (by decide) unix_odd]
example : (nextPort (.psutil [⟨1, 10000⟩, ⟨2, 10001⟩]) [] none 0 true []).1 = .res (.port 10001) := by rfl
example : (nextPort (.psutil [⟨1, 10000⟩, ⟨2, 10001⟩]) [] (some 2) 0 true []).1 = .res (.port 10000) := by rfl

end Xoscar.Netstat
