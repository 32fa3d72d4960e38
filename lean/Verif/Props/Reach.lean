import Verif.Proof.Reach
/-! # An address leads to the server that has it (C88) -/
namespace Xoscar.Reach
open Xoscar.Front (sep IsScheme schemeOf hasSep urlScheme)
open scoped List

/-! ## classes -/

theorem norm_scheme (a : Text) : (if getScheme a = some [] then none else getScheme a) = schemeOf a := by
  unfold getScheme schemeOf
  cases hasSep a
  · simp
  · simp only [if_true]
    rcases urlScheme a with _ | ⟨c, t⟩ <;> simp

theorem typeOf_eq (a : Text) : typeOf registry a = match registry.get? (schemeOf a) with | some c => .ok c | none => .error .typeError := by
  unfold typeOf checkScheme
  simp only [norm_scheme]
  have hn : registry.has none = true := by decide
  rw [hn, if_pos rfl]
  rcases hg : registry.get? (schemeOf a) with _ | c
  · have : registry.has (schemeOf a) = false := by
      rcases hh : registry.has (schemeOf a)
      · rfl
      · rw [Dict.has_iff, ← Dict.get?_isSome_iff, hg] at hh; cases hh
    rw [this]; rfl
  · have : registry.has (schemeOf a) = true := by
      rw [Dict.has_iff, ← Dict.get?_isSome_iff, hg]; rfl
    rw [this]; simp [hg]

theorem hasScheme_iff (a s : Text) : schemeOf a = some s ↔ HasScheme a s := Front.schemeOf_some a s

theorem get_registry (s : Option Text) : registry.get? s = if s = some dummyName then some .dummy else if s = none then some .socket
    else if s = some unixName then some .unix else if s = some ucxName then some .ucx else none := by
  unfold registry
  simp only [Dict.get?_cons, @eq_comm _ _ s]
  rfl

/-- **C88** which class serves an address, exactly: addresses without a scheme go to TCP sockets -/
theorem class_exact (a : Text) (c : Cls) : typeOf registry a = .ok c ↔ match c with
    | .socket => ∀ s, ¬ HasScheme a s
    | .unix => HasScheme a unixName
    | .dummy => HasScheme a dummyName
    | .ucx => HasScheme a ucxName := by
  rw [typeOf_eq, get_registry]
  have hu : unixName ≠ dummyName := by decide
  have hx : ucxName ≠ dummyName := by decide
  have hxu : ucxName ≠ unixName := by decide
  rcases hs : schemeOf a with _ | s
  · have hno : ∀ s, ¬ HasScheme a s := fun s h => by rw [(hasScheme_iff a s).2 h] at hs; cases hs
    cases c <;> simp [hno]
  · have hyes : HasScheme a s := (hasScheme_iff a s).1 hs
    have huniq : ∀ s', HasScheme a s' ↔ s' = s := fun s' => by rw [← hasScheme_iff, hs, Option.some.injEq, @eq_comm _ s]
    simp only [huniq, Option.some.injEq, reduceCtorEq, if_false]
    have hud : unixName ≠ dummyName := by decide
    generalize unixName = un, dummyName = dn, ucxName = xn at *
    by_cases h1 : s = dn
    · subst h1; cases c <;> simp [hu, hx]
    · by_cases h2 : s = un
      · subst h2; cases c <;> simp [hu, hxu, Ne.symm h1]
      · by_cases h3 : s = xn
        · subst h3; cases c <;> simp [h1, h2, Ne.symm h1, Ne.symm h2]
        · cases c <;> simp [h1, h2, h3, Ne.symm h1, Ne.symm h2, Ne.symm h3]

/-- **C88** refuted of the code: an address with an unknown scheme is not answered by the `ValueError` that lists the schemes; building its
message fails -/
theorem unknown_scheme_refuted (a s : Text) (h : HasScheme a s) (hs : s ∉ [dummyName, unixName, ucxName]) :
    typeOf registry a = .error .typeError := by
  rw [typeOf_eq, get_registry, (hasScheme_iff a s).2 h]
  generalize unixName = un, dummyName = dn, ucxName = xn at *
  simp only [List.mem_cons, List.not_mem_nil, or_false, not_or] at hs
  simp [hs.1, hs.2.1, hs.2.2]

example : HasScheme ['h', 't', 't', 'p', ':', '/', '/', 'x', ':', '1'] ['h', 't', 't', 'p'] ∧ typeOf registry ['h', 't', 't', 'p', ':', '/', '/', 'x', ':', '1'] = .error .typeError :=
  ⟨⟨⟨['h', 't', 't', 'p'], ['x', ':', '1'], by decide⟩, ['h', 't', 't', 'p'], ['/', '/', 'x', ':', '1'], by decide, ⟨'h', ['t', 't', 'p'], by decide, by decide, by decide⟩, by decide⟩,
   by rfl⟩

theorem isScheme_unix : IsScheme unixName := ⟨'u', ['n', 'i', 'x', 's', 'o', 'c', 'k', 'e', 't'], by decide, by decide, by decide⟩
theorem isScheme_ucx : IsScheme ucxName := ⟨'u', ['c', 'x'], by decide, by decide, by decide⟩

theorem urlScheme_unix (r : Text) : urlScheme (unixName ++ ':' :: r) = unixName :=
  ((Front.urlScheme_split _ r (by decide) _).2 ⟨isScheme_unix, by decide⟩).1

/-- **C88** a server's address names the class of that server -/
theorem own_class (h : Text) (p n : Nat) (hh : ¬ sep <:+: h) : typeOf registry (socketAddress h p) = .ok .socket ∧
    typeOf registry (unixAddress n) = .ok .unix ∧ typeOf registry (ucxAddress h p) = .ok .ucx := by
  refine ⟨(class_exact _ _).2 ?_, (class_exact _ _).2 ?_, (class_exact _ _).2 ?_⟩
  · rintro s ⟨⟨x, y, e⟩, -⟩
    unfold socketAddress at e
    have hcol : ∀ c ∈ str p, c ≠ ':' ∧ c ≠ '/' := fun c hc =>
      ⟨fun e => absurd (str_digits p c hc) (by rw [e]; decide), fun e => absurd (str_digits p c hc) (by rw [e]; decide)⟩
    have e' : x ++ (sep ++ y) = h ++ ':' :: str p := by rw [← e]; simp
    rw [List.append_eq_append_iff] at e'
    rcases e' with ⟨m, h1, h2⟩ | ⟨m, h1, h2⟩
    · -- the separator begins in the host
      rcases m with _ | ⟨a, _ | ⟨b, _ | ⟨c, m⟩⟩⟩
      · simp only [List.nil_append, sep, List.cons_append, List.cons.injEq, true_and] at h2
        exact (hcol '/' (by rw [← h2]; simp)).2 rfl
      · simp only [sep, List.cons_append, List.nil_append, List.cons.injEq] at h2
        exact absurd h2.2.1 (by decide)
      · simp only [sep, List.cons_append, List.nil_append, List.cons.injEq] at h2
        exact absurd h2.2.2.1 (by decide)
      · simp only [sep, List.cons_append, List.nil_append, List.cons.injEq] at h2
        obtain ⟨rfl, rfl, rfl, -⟩ := h2
        exact hh ⟨x, m, by rw [h1]; simp [sep]⟩
    · rcases m with _ | ⟨a, m⟩
      · simp only [List.nil_append, sep, List.cons_append, List.cons.injEq, true_and] at h2
        exact (hcol '/' (by rw [h2]; simp)).2 rfl
      · simp only [List.cons_append, List.cons.injEq] at h2
        exact (hcol ':' (by rw [h2.2]; simp [sep])).1 rfl
  · exact ⟨⟨unixName, '/' :: str n, by simp [unixAddress, sep, colonSlashes]⟩, unixName, ['/', '/', '/'] ++ str n, by simp [unixAddress, colonSlashes],
      isScheme_unix, by decide⟩
  · exact ⟨⟨ucxName, socketAddress h p, by simp [ucxAddress, sep, colonSlashes]⟩, ucxName, ['/', '/'] ++ socketAddress h p, by simp [ucxAddress, colonSlashes],
      isScheme_ucx, by decide⟩

example : typeOf registry [':', ':', '1', ':', '8', '0'] = .ok .socket := by rfl

/-! ## host and port -/

/-- **C88** what an address says, exactly: the last colon ends the host, the rest is a number as Python reads it -/
theorem endpoint_exact (a h : Text) (p : Int) : endpoint a = some (h, p) ↔ Says a h p := endpoint_iff' a h p

/-- **C88** the address of a server is read back, whatever its host (also with colons) -/
theorem roundtrip (h : Text) (p : Nat) : endpoint (socketAddress h p) = some (h, (p : Int)) := (endpoint_iff' _ _ _).2 (says_address h p)

theorem socketAddress_inj {h h' : Text} {p p' : Nat} (e : socketAddress h p = socketAddress h' p') : h = h' ∧ p = p' := by
  have := roundtrip h p
  rw [e, roundtrip] at this
  simp only [Option.some.injEq, Prod.mk.injEq] at this
  exact ⟨this.1.symm, by omega⟩

theorem ucx_roundtrip (h : Text) (p : Nat) : ucxEndpoint (ucxAddress h p) = some (h, (p : Int)) := by
  unfold ucxEndpoint ucxAddress
  rw [if_pos (by rw [List.isPrefixOf_iff_prefix]; exact List.prefix_append _ _), List.drop_left, roundtrip]

/-- **C88** refuted of the code: schemes are compared in lower case, but the prefix of a UCX address is cut only in lower case -/
theorem ucx_case_refuted (h : Text) (p : Nat) : typeOf registry (['U', 'C', 'X', ':', '/', '/'] ++ socketAddress h p) = .ok .ucx ∧
    ucxEndpoint (['U', 'C', 'X', ':', '/', '/'] ++ socketAddress h p) = some (['U', 'C', 'X', ':', '/', '/'] ++ h, (p : Int)) := by
  refine ⟨(class_exact _ _).2 ?_, ?_⟩
  · exact ⟨⟨['U', 'C', 'X'], socketAddress h p, by simp [sep]⟩, ['U', 'C', 'X'], ['/', '/'] ++ socketAddress h p, by simp,
      ⟨'U', ['C', 'X'], by decide, by decide, by decide⟩, by decide⟩
  · unfold ucxEndpoint
    have : (ucxName ++ colonSlashes).isPrefixOf (['U', 'C', 'X', ':', '/', '/'] ++ socketAddress h p) = false := by rfl
    rw [this]
    have e : ['U', 'C', 'X', ':', '/', '/'] ++ socketAddress h p = socketAddress (['U', 'C', 'X', ':', '/', '/'] ++ h) p := by simp [socketAddress]
    simp only [Bool.false_eq_true, if_false]
    rw [e, roundtrip]

/-! ## TCP servers -/

theorem config_iff (c : Config) (h : Text) (p : Int) : c.parse = some (h, p) ↔ Asks c h p := by
  cases c with
  | address a => exact endpoint_iff' a h p
  | hostPort h' p' => simp [Config.parse, Asks]

/-- **C88** a listening server is reached at its address, and nobody else is there -/
theorem reaches_own (ls : List TcpLabel) (s : Sid) (t : Tcp) (h : (tcpRun ls).get? s = some t) (hu : t.phase = .up) :
    tcpConnect (tcpRun ls) t.address = .ok s :=
  (tcp_connect_iff ls _ s).2 ⟨t.host, t.port, t, says_address _ _, h, hu, rfl, (tcp_inv ls).bound s t h⟩

/-- **C88** exactly: a connection reaches the listening server with that port that is bound to the host or to the wildcard of its family -/
theorem reaches_exact (ls : List TcpLabel) (a : Text) (s : Sid) : tcpConnect (tcpRun ls) a = .ok s ↔
    ∃ h p t, Says a h p ∧ (tcpRun ls).get? s = some t ∧ t.phase = .up ∧ (t.port : Int) = p ∧ Takes t.bound h := tcp_connect_iff ls a s

/-- what the history says of a server -/
theorem tcp_history (ls : List TcpLabel) (s : Sid) (t : Tcp) (h : (tcpRun ls).get? s = some t) :
    (∃ c e g hh p, TcpLabel.create s c e g ∈ ls ∧ Asks c hh p ∧ t.host = hh ∧ (t.port : Int) = (if p = 0 then (g : Int) else p) ∧ 0 < t.port ∧
      Listens e hh t.bound) ∧
    (t.phase = .up → TcpLabel.start s ∈ ls) ∧ (t.phase = .gone → TcpLabel.gone s ∈ ls) := by
  induction ls using List.reverseRecOn' generalizing t with
  | nil => cases h
  | append_singleton ls l ih =>
    have keep : ∀ t, (tcpRun ls).get? s = some t → _ := ih
    rw [tcpRun_snoc] at h
    have mono : ∀ t : Tcp, ((∃ c e g hh p, TcpLabel.create s c e g ∈ ls ∧ Asks c hh p ∧ t.host = hh ∧
        (t.port : Int) = (if p = 0 then (g : Int) else p) ∧ 0 < t.port ∧ Listens e hh t.bound)) →
        (∃ c e g hh p, TcpLabel.create s c e g ∈ ls ++ [l] ∧ Asks c hh p ∧ t.host = hh ∧ (t.port : Int) = (if p = 0 then (g : Int) else p) ∧
          0 < t.port ∧ Listens e hh t.bound) := by
      rintro t ⟨c, e, g, hh, p, hm, hr⟩; exact ⟨c, e, g, hh, p, by simp [hm], hr⟩
    have same : ∀ t, (tcpRun ls).get? s = some t → (∃ c e g hh p, TcpLabel.create s c e g ∈ ls ++ [l] ∧ Asks c hh p ∧ t.host = hh ∧
        (t.port : Int) = (if p = 0 then (g : Int) else p) ∧ 0 < t.port ∧ Listens e hh t.bound) ∧
        (t.phase = .up → TcpLabel.start s ∈ ls ++ [l]) ∧ (t.phase = .gone → TcpLabel.gone s ∈ ls ++ [l]) := by
      intro t ht
      obtain ⟨h1, h2, h3⟩ := keep t ht
      exact ⟨mono t h1, fun e => by simp [h2 e], fun e => by simp [h3 e]⟩
    cases l with
    | create s' c e g =>
      simp only [tcpStep] at h
      split at h
      · exact same t h
      · next hnew =>
        split at h
        · next t' hc =>
          rw [Dict.get?_set] at h
          by_cases es : s' = s
          · rw [if_pos es] at h; cases h; subst es
            obtain ⟨hh, p, hp, h1, h2, h3, h4⟩ := tcpCreate_ok hc
            refine ⟨⟨c, e, g, hh, p, by simp, (config_iff _ _ _).1 hp, h1, ?_, ?_, ?_⟩, by simp [h3], by simp [h3]⟩
            · rcases h4 with h4 | h4
              · rw [if_pos h4.1, h4.2.1]
              · rw [if_neg (by omega), h4.2.2.1]
            · rcases h4 with h4 | h4 <;> omega
            · exact (listens_iff _ _ _).2 h2
          · rw [if_neg es] at h; exact same t h
        · exact same t h
    | start s' =>
      simp only [tcpStep] at h
      split at h
      · next t' ht' =>
        split at h
        · split at h
          · next hm t'' hst =>
            rw [Dict.get?_set] at h
            by_cases es : s' = s
            · rw [if_pos es] at h; cases h; subst es
              unfold tcpStart at hst
              split at hst
              · cases hst
              · cases hst
                exact ⟨(same t' ht').1, by simp, by simp⟩
            · rw [if_neg es] at h; exact same t h
          · exact same t h
        · exact same t h
      · exact same t h
    | gone s' =>
      simp only [tcpStep] at h
      split at h
      · next t' ht' =>
        rw [Dict.get?_set] at h
        by_cases es : s' = s
        · rw [if_pos es] at h; cases h; subst es
          exact ⟨(same t' ht').1, by simp, by simp⟩
        · rw [if_neg es] at h; exact same t h
      · exact same t h

/-- **C88** the address announced is the one asked for: its host, also when the server listens on the wildcard, and its port, or the one the
kernel gave for port 0 -/
theorem announces (ls : List TcpLabel) (s : Sid) (t : Tcp) (h : (tcpRun ls).get? s = some t) : ∃ c e g hh p, TcpLabel.create s c e g ∈ ls ∧
    Asks c hh p ∧ endpoint t.address = some (hh, if p = 0 then (g : Int) else p) ∧ 0 < t.port := by
  obtain ⟨c, e, g, hh, p, h1, h2, h3, h4, h5, -⟩ := (tcp_history ls s t h).1
  refine ⟨c, e, g, hh, p, h1, h2, ?_, h5⟩
  rw [← h4, ← h3]; exact roundtrip _ _

/-- **C88** a server is reached only after `start` and not after its end -/
theorem reached_is_live (ls : List TcpLabel) (a : Text) (s : Sid) (h : tcpConnect (tcpRun ls) a = .ok s) :
    TcpLabel.start s ∈ ls ∧ (tcpRun ls).get? s ≠ none := by
  obtain ⟨_, _, t, -, ht, hu, -, -⟩ := (tcp_connect_iff ls a s).1 h
  exact ⟨(tcp_history ls s t ht).2.1 hu, by simp [ht]⟩

theorem gone_stays (ls : List TcpLabel) (s : Sid) : ∀ st : Dict Sid Tcp, (∃ t, st.get? s = some t ∧ t.phase = .gone) →
    ∃ t, (ls.foldl tcpStep st).get? s = some t ∧ t.phase = .gone := by
  induction ls with
  | nil => intro st h; exact h
  | cons l ls ih =>
    intro st ⟨t, ht, hg⟩
    apply ih
    cases l with
    | create s' c e g =>
      simp only [tcpStep]
      split
      · exact ⟨t, ht, hg⟩
      · next hnew =>
        split
        · have : s' ≠ s := by
            rintro rfl; apply hnew; rw [Dict.has_iff, ← Dict.get?_isSome_iff, ht]; rfl
          exact ⟨t, by rw [Dict.get?_set, if_neg this]; exact ht, hg⟩
        · exact ⟨t, ht, hg⟩
    | start s' =>
      simp only [tcpStep]
      split
      · next t' ht' =>
        split
        · next hm =>
          have : s' ≠ s := by rintro rfl; rw [ht] at ht'; cases ht'; rw [hg] at hm; cases hm
          split
          · exact ⟨t, by rw [Dict.get?_set, if_neg this]; exact ht, hg⟩
          · exact ⟨t, ht, hg⟩
        · exact ⟨t, ht, hg⟩
      · exact ⟨t, ht, hg⟩
    | gone s' =>
      simp only [tcpStep]
      split
      · next t' ht' =>
        rw [Dict.get?_set]
        by_cases es : s' = s
        · rw [if_pos es]; exact ⟨_, rfl, rfl⟩
        · rw [if_neg es]; exact ⟨t, ht, hg⟩
      · exact ⟨t, ht, hg⟩

/-- **C88** after its end a server that had been made is never reached again -/
theorem not_after_end (l1 l2 : List TcpLabel) (s : Sid) (hm : (tcpRun l1).get? s ≠ none) (a : Text) :
    tcpConnect (tcpRun (l1 ++ .gone s :: l2)) a ≠ .ok s := by
  intro h
  obtain ⟨_, _, t, -, ht, hu, -, -⟩ := (tcp_connect_iff _ a s).1 h
  obtain ⟨t0, ht0⟩ : ∃ t0, (tcpRun l1).get? s = some t0 := by
    rcases hh : (tcpRun l1).get? s with _ | t0
    · exact absurd hh hm
    · exact ⟨t0, rfl⟩
  have : ∃ t, (l2.foldl tcpStep (tcpStep (tcpRun l1) (.gone s))).get? s = some t ∧ t.phase = .gone := by
    apply gone_stays
    simp only [tcpStep, ht0, Dict.get?_set, if_true]
    exact ⟨_, rfl, rfl⟩
  obtain ⟨t', ht', hg⟩ := this
  have e : tcpRun (l1 ++ .gone s :: l2) = l2.foldl tcpStep (tcpStep (tcpRun l1) (.gone s)) := by
    unfold tcpRun; rw [List.foldl_append]; rfl
  rw [e, ht'] at ht; cases ht; rw [hg] at hu; cases hu

/-- **C88** overlapping means that some connection would arrive at both: the same address, or one is the wildcard of the other's family -/
theorem overlap_exact (b b' : Text) : overlap b b' = true ↔ Takes b b' ∨ Takes b' b := by
  unfold overlap; rw [Bool.or_eq_true, covers_iff, covers_iff]

/-- **C88** when a server can be made: the configuration says a host and a port, and the port is free of listeners (or the kernel's choice) -/
theorem create_exact (ls : List TcpLabel) (c : Config) (e : Bool) (g : Nat) (t : Tcp) : tcpCreate (tcpRun ls) c e g = .ok t ↔
    ∃ h p, Asks c h p ∧ t.host = h ∧ Listens e h t.bound ∧ t.phase = .made ∧
      ((p = 0 ∧ t.port = g ∧ 0 < g ∧ g ≤ 65535 ∧ ∀ s t', (tcpRun ls).get? s = some t' → t'.phase ≠ .gone → t'.port ≠ g) ∨
       (0 < p ∧ p ≤ 65535 ∧ (t.port : Int) = p ∧ ∀ s t', (tcpRun ls).get? s = some t' → t'.phase = .up → t'.port = t.port →
         ¬ (Takes t'.bound t.bound ∨ Takes t.bound t'.bound))) := by
  simp only [← overlap_exact, Bool.not_eq_true, listens_iff]
  have hw := (tcp_inv ls).wf
  generalize tcpRun ls = st at hw
  have taken : ∀ g, portTaken st g = false ↔ ∀ s t', st.get? s = some t' → t'.phase ≠ .gone → t'.port ≠ g := by
    intro g; unfold portTaken; rw [List.any_eq_false]
    constructor
    · intro h s t' ht hp hg; exact h (s, t') (Dict.mem_of_get? ht) (by simp [hp, hg])
    · rintro h ⟨s, t'⟩ hm hx
      simp only [Bool.and_eq_true, decide_eq_true_eq] at hx
      exact h s t' (Dict.get?_of_mem hw hm) hx.1 hx.2
  have listen : ∀ b q, listened st b q = false ↔ ∀ s t', st.get? s = some t' → t'.phase = .up → t'.port = q → overlap t'.bound b = false := by
    intro b q
    constructor
    · intro h s t' ht hu hp; exact not_listened h ht hu hp
    · intro h
      rcases hl : listened st b q
      · rfl
      · obtain ⟨s, t', h1, h2, h3, h4⟩ := (listened_iff hw).1 hl
        rw [h s t' h1 h2 h3] at h4; cases h4
  constructor
  · intro h
    obtain ⟨hh, p, hp, h1, h2, h3, h4⟩ := tcpCreate_ok h
    refine ⟨hh, p, (config_iff _ _ _).1 hp, h1, h2, h3, ?_⟩
    rcases h4 with ⟨a, b, c', d, f⟩ | ⟨a, b, c', d⟩
    · exact .inl ⟨a, b, c', d, (taken g).1 f⟩
    · exact .inr ⟨a, b, c', (listen _ _).1 (h2 ▸ d)⟩
  · rintro ⟨hh, p, hp, h1, h2, h3, h4⟩
    unfold tcpCreate
    rw [(config_iff _ _ _).2 hp]
    obtain ⟨th, tb, tp, tph⟩ := t
    simp only at h1 h2 h3 h4
    subst h1 h2 h3
    rcases h4 with ⟨rfl, rfl, h5, h6, h7⟩ | ⟨h5, h6, h7, h8⟩
    · simp only [if_true]
      rw [if_neg]
      rintro (h | h | h)
      · omega
      · omega
      · rw [(taken tp).2 h7] at h; cases h
    · simp only
      have e1 : p.toNat = tp := by omega
      rw [if_neg (by omega), if_neg (by omega), e1, (listen _ _).2 h8]
      simp

/-- **C88** a server that is made can be started exactly when nobody listens on an overlapping address -/
theorem start_exact (ls : List TcpLabel) (t : Tcp) : (∃ t', tcpStart (tcpRun ls) t = .ok t' ∧ t' = { t with phase := .up }) ↔
    ∀ s t', (tcpRun ls).get? s = some t' → t'.phase = .up → t'.port = t.port → ¬ (Takes t'.bound t.bound ∨ Takes t.bound t'.bound) := by
  simp only [← overlap_exact, Bool.not_eq_true]
  unfold tcpStart
  rcases hl : listened (tcpRun ls) t.bound t.port
  · simp only [Bool.false_eq_true, if_false]
    exact ⟨fun _ s t' ht hu hp => not_listened hl ht hu hp, fun _ => ⟨_, rfl, rfl⟩⟩
  · simp only [if_true]
    obtain ⟨s, t', h1, h2, h3, h4⟩ := (listened_iff (tcp_inv ls).wf).1 hl
    constructor
    · rintro ⟨t', h, -⟩; cases h
    · intro h; rw [h s t' h1 h2 h3] at h4; cases h4

def ex1 : List TcpLabel :=
  [.create 1 (.address ['1', '0', '.', '0', '.', '0', '.', '1', ':', '8', '0']) false 0, .start 1, .create 2 (.hostPort ['1', '0', '.', '0', '.', '0', '.', '2'] 0) true 5000, .start 2,
   .create 3 (.address [':', ':', '1', ':', '8', '0']) false 0, .start 3]

example : tcpConnect (tcpRun ex1) ['1', '0', '.', '0', '.', '0', '.', '1', ':', '8', '0'] = .ok 1 ∧ tcpConnect (tcpRun ex1) ['1', '0', '.', '0', '.', '0', '.', '2', ':', '5', '0', '0', '0'] = .ok 2 ∧
    tcpConnect (tcpRun ex1) ['1', '0', '.', '0', '.', '0', '.', '9', ':', '5', '0', '0', '0'] = .ok 2 ∧ tcpConnect (tcpRun ex1) [':', ':', '1', ':', ' ', '8', '_', '0'] = .ok 3 ∧
    tcpConnect (tcpRun ex1) ['1', '0', '.', '0', '.', '0', '.', '2', ':', '8', '0'] = .error .refused := ⟨by rfl, by rfl, by rfl, by rfl, by rfl⟩

/-- **C88** refuted of the code: a server that is created does not have its port yet — another one with the same address can be created, and
whichever starts first makes the other's `start` fail -/
theorem create_reserves_refuted : ∃ (ls : List TcpLabel) (t : Tcp), (tcpRun ls).get? 1 = some t ∧ t.phase = .made ∧
    (∃ t', (tcpRun ls).get? 2 = some t' ∧ t'.address = t.address ∧ t'.phase = .up) ∧ tcpStart (tcpRun ls) t = .error .inUse ∧
    tcpConnect (tcpRun ls) t.address = .ok 2 :=
  ⟨[.create 1 (.address ['h', ':', '8', '0']) false 0, .create 2 (.address ['h', ':', '8', '0']) false 0, .start 2], ⟨['h'], ['h'], 80, .made⟩,
   by rfl, by rfl, ⟨⟨['h'], ['h'], 80, .up⟩, by rfl, by rfl, by rfl⟩, by rfl, by rfl⟩

/-! ## Unix sockets -/

/-- **C88** the index in a Unix address, whatever host, slashes, query and fragment are around it -/
theorem index_read (net t tail : Text) (k : Nat) (i : Int) (hn : ∀ c ∈ net, c ≠ '/' ∧ c ≠ '?' ∧ c ≠ '#') (ht : Number t i)
    (hq : tail = [] ∨ ∃ c r, tail = c :: r ∧ (c = '?' ∨ c = '#')) :
    unixIndex (unixName ++ colonSlashes ++ net ++ List.replicate (k + 1) '/' ++ t ++ tail) = some i := by
  have htc : ∀ c ∈ t, c ≠ '/' ∧ c ≠ '?' ∧ c ≠ '#' := by
    have dec : ∀ d n, Decimal d n → ∀ c ∈ d, c.isDigit = true ∨ c = '_' := by
      intro d n hd
      induction hd with
      | one hc => simp [hc]
      | next _ hc ih => intro c h; rcases List.mem_append.1 h with h | h; exact ih c h; simp at h; subst h; exact .inl hc
      | under _ hc ih =>
        intro c h; rcases List.mem_append.1 h with h | h
        · exact ih c h
        · simp only [List.mem_cons, List.not_mem_nil, or_false] at h
          rcases h with rfl | rfl
          · exact .inr rfl
          · exact .inl hc
    have no : ∀ c, (c.isDigit = true ∨ c = '_' ∨ Blank c ∨ c = '+' ∨ c = '-') → c ≠ '/' ∧ c ≠ '?' ∧ c ≠ '#' := by
      intro c hc
      refine ⟨?_, ?_, ?_⟩ <;> rintro rfl <;> simp [Blank] at hc <;> revert hc <;> decide
    obtain ⟨l, d, r, n, hl, hr, hd, h⟩ := ht
    intro c hc
    apply no
    have hdd := dec d n hd
    rcases h with ⟨rfl, -⟩ | ⟨rfl, -⟩ | ⟨rfl, -⟩ <;> simp only [List.mem_append, List.mem_cons] at hc <;> grind
  have hne : t ≠ [] := by
    rintro rfl
    obtain ⟨l, d, r, n, -, -, hd, h⟩ := ht
    obtain ⟨⟨c, u, rfl, -⟩, -⟩ := hd.ends
    simp at h
  have ea : unixName ++ colonSlashes ++ net ++ List.replicate (k + 1) '/' ++ t ++ tail =
      unixName ++ ':' :: ('/' :: '/' :: (net ++ (List.replicate (k + 1) '/' ++ (t ++ tail)))) := by
    simp [colonSlashes]
  unfold unixIndex urlPath
  rw [ea, urlScheme_unix]
  have e1 : (unixName = []) = False := by simp [unixName]
  simp only [e1, if_false]
  have e2 : (unixName ++ ':' :: ('/' :: '/' :: (net ++ (List.replicate (k + 1) '/' ++ (t ++ tail))))).drop
      (unixName.length + 1) = '/' :: '/' :: (net ++ (List.replicate (k + 1) '/' ++ (t ++ tail))) := by
    rfl
  rw [e2]
  have e3 : ['/', '/'].isPrefixOf ('/' :: '/' :: (net ++ (List.replicate (k + 1) '/' ++ (t ++ tail)))) = true := by rfl
  simp only [e3, if_true, List.drop_succ_cons, List.drop_zero]
  rw [Reqs.dropWhile_append (p := fun c => c ≠ '/' && c ≠ '?' && c ≠ '#') (by intro c hc; simpa [and_assoc] using hn c hc)
    (by intro c hc; rw [List.replicate_succ] at hc; simp at hc; subst hc; decide)]
  have e4 : (List.replicate (k + 1) '/' ++ (t ++ tail)).takeWhile (fun c => c ≠ '?' && c ≠ '#') = List.replicate (k + 1) '/' ++ t := by
    rw [← List.append_assoc, List.takeWhile_append_of_pos]
    · rcases hq with rfl | ⟨c, r, rfl, hc⟩
      · simp
      · rw [List.takeWhile_cons_of_neg (by rcases hc with rfl | rfl <;> decide)]; simp
    · intro c hc
      rcases List.mem_append.1 hc with h | h
      · rw [List.eq_of_mem_replicate h]; decide
      · have := htc c h; simp [this.2.1, this.2.2]
  rw [e4, Reqs.dropWhile_append (p := fun c => decide (c = '/')) (by intro c hc; rw [List.eq_of_mem_replicate hc]; decide)
    (by
      intro c hc
      have : c ∈ t := List.mem_of_head? hc
      simpa using (htc c this).1)]
  exact (pyInt_iff t i).2 ht

/-- **C88** the address of a Unix server is read back -/
theorem index_roundtrip (n : Nat) : unixIndex (unixAddress n) = some (n : Int) := by
  have := index_read [] (str n) [] 0 n (by simp) (number_str n) (.inl rfl)
  have e : unixName ++ colonSlashes ++ [] ++ List.replicate (0 + 1) '/' ++ str n ++ [] = unixAddress n := by
    simp only [List.append_nil, unixAddress]; rfl
  rw [e] at this; exact this

example : unixIndex ['U', 'N', 'I', 'X', 'S', 'O', 'C', 'K', 'E', 'T', ':', '/', '/', 'h', 'o', 's', 't', '/', '/', '1', '2', '?', 'x'] = some 12 := by rfl

theorem strInt_nat (n : Nat) : strInt (n : Int) = str n := by
  unfold strInt; rw [if_neg (by omega)]; simp

/-- different digests are different names -/
theorem path_inj {dir : Text} {digest : Text → Text} {i j : Int} (h : defaultPath dir digest i = defaultPath dir digest j) :
    digest (strInt i) = digest (strInt j) := by
  unfold defaultPath at h
  simpa using h

/-- **C88** a client of a Unix address dials the name its server has bound -/
theorem dials (dir : Text) (digest : Text → Text) (st : UState) (n : Nat) :
    unixConnect dir digest st (unixAddress n) = dial st (dir ++ '/' :: digest (str n)) := by
  unfold unixConnect
  rw [index_roundtrip]
  simp only [defaultPath, strInt_nat]

theorem bind_phase {st : UState} {s : Sid} {u w : Unix} (hu : st.servers.get? s = some u) (hw : (ustep st (.bind s)).servers.get? s = some w) :
    w.phase ≠ .clearing := by
  simp only [ustep, hu] at hw
  split at hw
  · split at hw <;> (simp only [setPhase] at hw; rw [Dict.get?_set, if_pos rfl] at hw; cases hw; simp)
  · next hnc => rw [hu] at hw; cases hw; exact hnc

theorem start_phase {st : UState} {s : Sid} {u : Unix} (hu : st.servers.get? s = some u) (hp : u.phase = .made ∨ u.phase = .up) :
    ∃ w, (ustep st (.start s)).servers.get? s = some w ∧ w.phase = .up := by
  simp only [ustep, hu]
  rcases hp with h | h
  · rw [if_pos h]; simp only [setPhase]; rw [Dict.get?_set, if_pos rfl]; exact ⟨_, rfl, rfl⟩
  · rw [if_neg (by rw [h]; exact fun h => nomatch h)]; exact ⟨u, hu, h⟩

/-- **C88** a server that nobody disturbs is reached under its name once it is started, whatever happened to the name before (a crashed server
may have left it) and whatever else happens on the machine -/
theorem undisturbed (l1 a b c : List ULabel) (s : Sid) (i : Int) (p : Text) (hs : ∀ i' p', ULabel.clear s i' p' ∉ l1)
    (hw : ULabel.write p ∉ l1) (ha : Alone p l1 (a ++ .bind s :: b ++ .start s :: c))
    (hx : ULabel.close s ∉ a ++ .bind s :: b ++ .start s :: c ∧ ULabel.crash s ∉ a ++ .bind s :: b ++ .start s :: c) :
    dial (urun (l1 ++ .clear s i p :: (a ++ .bind s :: b ++ .start s :: c))) p = .ok s := by
  have hi := u_inv l1
  have hnew : (urun l1).servers.get? s = none := by
    rcases h : (urun l1).servers.get? s with _ | u
    · rfl
    · exact absurd (hi.made s u h) (hs _ _)
  have hhas : ¬ (urun l1).servers.has s = true := by
    rw [Dict.has_iff, ← Dict.get?_isSome_iff, hnew]; simp
  have h0 : Calm l1 s p (ustep (urun l1) (.clear s i p)) := by
    simp only [ustep]
    rw [if_neg hhas]
    refine ⟨⟨⟨i, p, .clearing⟩, by rw [Dict.get?_set, if_pos rfl], rfl, .inl ⟨rfl, ?_⟩⟩, ?_⟩
    · rw [get_clearPath, if_pos rfl, if_neg]
      exact fun h => hw (hi.other p h)
    · intro s' u' hne hu hp
      rw [Dict.get?_set, if_neg (Ne.symm hne)] at hu
      exact ⟨u'.index, by rw [← hp]; exact hi.made s' u' hu⟩
  have part : ∀ l : List ULabel, (∀ x ∈ l, x ∈ a ++ .bind s :: b ++ .start s :: c) → ∀ {st : UState}, Calm l1 s p st → Calm l1 s p (ufold st l) := by
    intro l hl st
    exact calm_fold l ⟨fun s' i' h => ha.1 s' i' (hl _ h), fun s' i' h => ⟨fun h' => (ha.2.1 s' i' h).1 (hl _ h'), fun h' => (ha.2.1 s' i' h).2 (hl _ h')⟩,
      fun h => ha.2.2 (hl _ h)⟩ (fun h => hx.1 (hl _ h)) (fun h => hx.2 (hl _ h))
  -- phases only move forward
  have later : ∀ l : List ULabel, (∀ x ∈ l, x ∈ a ++ .bind s :: b ++ .start s :: c) → ∀ {st : UState}, Calm l1 s p st → ∀ (q : UPhase),
      (q = .made ∨ q = .up) → (∃ u, st.servers.get? s = some u ∧ (u.phase = q ∨ u.phase = .up)) →
      ∃ u, (ufold st l).servers.get? s = some u ∧ (u.phase = q ∨ u.phase = .up) := by
    intro l
    induction l with
    | nil => intro _ st _ q _ h; exact h
    | cons e l ih =>
      intro hl st hc q hq ⟨u, hu, hp⟩
      rw [ufold_cons]
      have hc' := part [e] (fun x hx => hl x (by simp at hx; simp [hx])) hc
      refine ih (fun x hx => hl x (by simp [hx])) hc' q hq ?_
      have e1 : e ≠ .close s := fun h => hx.1 (hl _ (by simp [h]))
      have e2 : e ≠ .crash s := fun h => hx.2 (hl _ (by simp [h]))
      obtain ⟨w, hw, -, hph⟩ := hc'.here
      refine ⟨w, hw, ?_⟩
      change (ustep st e).servers.get? s = some w at hw
      cases e with
      | clear s' i' p' =>
        simp only [ustep] at hw
        split at hw
        · rw [hu] at hw; cases hw; exact hp
        · next hn =>
          have : s' ≠ s := by rintro rfl; apply hn; rw [Dict.has_iff, ← Dict.get?_isSome_iff, hu]; rfl
          rw [Dict.get?_set, if_neg this, hu] at hw; cases hw; exact hp
      | bind s' =>
        simp only [ustep] at hw
        split at hw
        · next u' hu' =>
          split at hw
          · next hcl =>
            have : s' ≠ s := by
              rintro rfl; rw [hu] at hu'; cases hu'; rw [hcl] at hp
              rcases hq with rfl | rfl <;> simp at hp
            split at hw <;> (simp only [setPhase] at hw; rw [Dict.get?_set, if_neg this, hu] at hw; cases hw; exact hp)
          · rw [hu] at hw; cases hw; exact hp
        · rw [hu] at hw; cases hw; exact hp
      | start s' =>
        simp only [ustep] at hw
        split at hw
        · next u' hu' =>
          split at hw
          · simp only [setPhase] at hw
            rw [Dict.get?_set] at hw
            by_cases es : s' = s
            · rw [if_pos es] at hw; cases hw; exact .inr rfl
            · rw [if_neg es, hu] at hw; cases hw; exact hp
          · rw [hu] at hw; cases hw; exact hp
        · rw [hu] at hw; cases hw; exact hp
      | close s' =>
        have : s' ≠ s := fun h => e1 (by rw [h])
        simp only [ustep] at hw
        split at hw
        · split at hw
          · simp only [setPhase] at hw; rw [Dict.get?_set, if_neg this, hu] at hw; cases hw; exact hp
          · rw [hu] at hw; cases hw; exact hp
        · rw [hu] at hw; cases hw; exact hp
      | remove s' =>
        simp only [ustep] at hw
        split at hw
        · next u' hu' =>
          split at hw
          · next hcl =>
            have : s' ≠ s := by
              rintro rfl; rw [hu] at hu'; cases hu'; rw [hcl] at hp
              rcases hq with rfl | rfl <;> simp at hp
            simp only [setPhase] at hw; rw [Dict.get?_set, if_neg this, hu] at hw; cases hw; exact hp
          · rw [hu] at hw; cases hw; exact hp
        · rw [hu] at hw; cases hw; exact hp
      | crash s' =>
        have : s' ≠ s := fun h => e2 (by rw [h])
        simp only [ustep] at hw
        split at hw
        · simp only [setPhase] at hw; rw [Dict.get?_set, if_neg this, hu] at hw; cases hw; exact hp
        · rw [hu] at hw; cases hw; exact hp
      | write p' =>
        simp only [ustep] at hw
        split at hw <;> (rw [hu] at hw; cases hw; exact hp)
  have er : urun (l1 ++ .clear s i p :: (a ++ .bind s :: b ++ .start s :: c)) =
      ufold (ustep (ufold (ustep (ufold (ustep (urun l1) (.clear s i p)) a) (.bind s)) b) (.start s)) c := by
    rw [urun_append, ufold_cons, List.append_assoc, ufold_append, List.cons_append, ufold_cons, ufold_append, ufold_cons]
  rw [er]
  have c1 := part a (by intro x hx; simp [hx]) h0
  have c2 := part [.bind s] (by intro x hx; simp at hx; simp [hx]) c1
  have c3 := part b (by intro x hx; simp [hx]) c2
  have c4 := part [.start s] (by intro x hx; simp at hx; simp [hx]) c3
  have c5 := part c (by intro x hx; simp [hx]) c4
  -- after `bind` the phase is made or up
  have m2 : ∃ u, (ufold (ufold (ustep (urun l1) (.clear s i p)) a) [.bind s]).servers.get? s = some u ∧ (u.phase = .made ∨ u.phase = .up) := by
    obtain ⟨u, hu, hup, hph⟩ := c1.here
    obtain ⟨w, hw, -, hwp⟩ := c2.here
    refine ⟨w, hw, ?_⟩
    rcases hwp with ⟨hcl, -⟩ | ⟨h, -⟩
    · exact absurd hcl (bind_phase hu hw)
    · exact h
  have m3 := later b (by intro x hx; simp [hx]) c2 .made (.inl rfl) m2
  have m4 : ∃ u, (ufold (ufold (ufold (ufold (ustep (urun l1) (.clear s i p)) a) [.bind s]) b) [.start s]).servers.get? s = some u ∧
      (u.phase = .up ∨ u.phase = .up) := by
    obtain ⟨u, hu, hph⟩ := m3
    obtain ⟨w, h1, h2⟩ := start_phase hu hph
    exact ⟨w, h1, .inl h2⟩
  obtain ⟨u, hu, hph⟩ := later c (by intro x hx; simp [hx]) c4 .up (.inr rfl) m4
  rw [dial_iff]
  obtain ⟨w, hw, -, hwp⟩ := c5.here
  have hup : u.phase = .up := hph.elim id id
  have : w = u := by
    have := hw.symm.trans hu
    exact Option.some.inj this
  subst this
  rcases hwp with ⟨h, -⟩ | ⟨-, h⟩
  · rw [hup] at h; cases h
  · exact ⟨h, w, hu, hup⟩

/-- **C88** a new server takes over the name of any that crashed -/
theorem restart (l : List ULabel) (s : Sid) (i : Int) (p : Text) (hs : ∀ i' p', ULabel.clear s i' p' ∉ l) (hw : ULabel.write p ∉ l) :
    dial (urun (l ++ [.clear s i p, .bind s, .start s])) p = .ok s := by
  have := undisturbed l [] [] [] s i p hs hw ⟨by simp, fun s' i' h => ?_, by simp⟩ ⟨by simp, by simp⟩
  · exact this
  · refine ⟨?_, by simp⟩
    have hne : s' ≠ s := fun e => hs i' p (e ▸ h)
    simp [hne]

/-- **C88** servers with the names of their indices do not meet: a started server is reached at its address as long as nobody else uses an
index with the same digest and nobody writes other files -/
theorem own_address (dir : Text) (digest : Text → Text) (l1 a b c : List ULabel) (s : Sid) (n : Nat)
    (hs : ∀ i' p', ULabel.clear s i' p' ∉ l1 ++ (a ++ .bind s :: b ++ .start s :: c))
    (hd : ∀ s' i' p', ULabel.clear s' i' p' ∈ l1 ++ (a ++ .bind s :: b ++ .start s :: c) → p' = defaultPath dir digest i' ∧
      digest (strInt i') ≠ digest (strInt n))
    (hw : ∀ p, ULabel.write p ∉ l1 ++ (a ++ .bind s :: b ++ .start s :: c))
    (hx : ULabel.close s ∉ a ++ .bind s :: b ++ .start s :: c ∧ ULabel.crash s ∉ a ++ .bind s :: b ++ .start s :: c) :
    unixConnect dir digest (urun (l1 ++ .clear s n (defaultPath dir digest n) :: (a ++ .bind s :: b ++ .start s :: c))) (unixAddress n) = .ok s := by
  have key : ∀ s' i', ULabel.clear s' i' (defaultPath dir digest n) ∉ l1 ++ (a ++ .bind s :: b ++ .start s :: c) := by
    intro s' i' h
    obtain ⟨e, hne⟩ := hd s' i' _ h
    exact hne (path_inj e).symm
  have := undisturbed l1 a b c s n (defaultPath dir digest n) (fun i' p' h => hs i' p' (List.mem_append_left _ h))
    (fun h => hw _ (List.mem_append_left _ h))
    ⟨fun s' i' h => key s' i' (List.mem_append_right _ h), fun s' i' h => absurd (List.mem_append_left _ h) (key s' i'),
      fun h => hw _ (List.mem_append_right _ h)⟩ hx
  unfold unixConnect
  rw [index_roundtrip]
  exact this

/-- **C88** who is reached was made with that name, bound it and started -/
theorem reached_means (ls : List ULabel) (p : Text) (s : Sid) (h : dial (urun ls) p = .ok s) :
    (∃ i, ULabel.clear s i p ∈ ls) ∧ ULabel.bind s ∈ ls ∧ ULabel.start s ∈ ls := by
  obtain ⟨h1, u, h2, h3⟩ := (dial_iff _ _ _).1 h
  have hi := u_inv ls
  obtain ⟨u', hu', hp, -⟩ := hi.named p s h1
  rw [h2] at hu'; cases hu'
  exact ⟨⟨u.index, hp ▸ hi.made s u h2⟩, hi.bound s u h2 (.inr h3), hi.up s u h2 h3⟩

/-- **C88** and every other dial is refused: there is no third outcome -/
theorem reached_or_refused (st : UState) (p : Text) : (∃ s, dial st p = .ok s) ∨ dial st p = .error .refused := dial_refused st p

/-- a phase that is past `bind` and not listening stays so -/
theorem over_stays (s : Sid) (ls : List ULabel) : ∀ st : UState, (∃ u, st.servers.get? s = some u ∧ u.phase ≠ .clearing ∧ u.phase ≠ .made ∧ u.phase ≠ .up) →
    ∃ u, (ufold st ls).servers.get? s = some u ∧ u.phase ≠ .clearing ∧ u.phase ≠ .made ∧ u.phase ≠ .up := by
  induction ls with
  | nil => intro st h; exact h
  | cons l ls ih =>
    intro st ⟨u, hu, h1, h2, h3⟩
    rw [ufold_cons]
    apply ih
    have hhas : st.servers.has s = true := by rw [Dict.has_iff, ← Dict.get?_isSome_iff, hu]; rfl
    cases l with
    | write p => simp only [ustep]; split <;> exact ⟨u, hu, h1, h2, h3⟩
    | clear s' i p =>
      simp only [ustep]
      split
      · exact ⟨u, hu, h1, h2, h3⟩
      · next hn =>
        have : s' ≠ s := by rintro rfl; exact hn hhas
        exact ⟨u, by rw [Dict.get?_set, if_neg this]; exact hu, h1, h2, h3⟩
    | bind s' =>
      simp only [ustep]
      split
      · next u' hu' =>
        split
        · next hc =>
          have : s' ≠ s := by rintro rfl; rw [hu] at hu'; cases hu'; exact h1 hc
          split <;> (simp only [setPhase]; exact ⟨u, by rw [Dict.get?_set, if_neg this]; exact hu, h1, h2, h3⟩)
        · exact ⟨u, hu, h1, h2, h3⟩
      · exact ⟨u, hu, h1, h2, h3⟩
    | start s' =>
      simp only [ustep]
      split
      · next u' hu' =>
        split
        · next hc =>
          have : s' ≠ s := by rintro rfl; rw [hu] at hu'; cases hu'; exact h2 hc
          simp only [setPhase]; exact ⟨u, by rw [Dict.get?_set, if_neg this]; exact hu, h1, h2, h3⟩
        · exact ⟨u, hu, h1, h2, h3⟩
      · exact ⟨u, hu, h1, h2, h3⟩
    | close s' =>
      simp only [ustep]
      split
      · split
        · simp only [setPhase]; rw [Dict.get?_set]
          split
          · exact ⟨_, rfl, by simp, by simp, by simp⟩
          · exact ⟨u, hu, h1, h2, h3⟩
        · exact ⟨u, hu, h1, h2, h3⟩
      · exact ⟨u, hu, h1, h2, h3⟩
    | remove s' =>
      simp only [ustep]
      split
      · split
        · simp only [setPhase]; rw [Dict.get?_set]
          split
          · exact ⟨_, rfl, by simp, by simp, by simp⟩
          · exact ⟨u, hu, h1, h2, h3⟩
        · exact ⟨u, hu, h1, h2, h3⟩
      · exact ⟨u, hu, h1, h2, h3⟩
    | crash s' =>
      simp only [ustep]
      split
      · simp only [setPhase]; rw [Dict.get?_set]
        split
        · exact ⟨_, rfl, by simp, by simp, by simp⟩
        · exact ⟨u, hu, h1, h2, h3⟩
      · exact ⟨u, hu, h1, h2, h3⟩

/-- **C88** a server that has begun to stop, or whose process died, is never reached again, under any name -/
theorem never_again (l1 l2 : List ULabel) (s : Sid) (u : Unix) (h : (urun l1).servers.get? s = some u) (e : ULabel)
    (he : e = .crash s ∨ (e = .close s ∧ u.phase ≠ .clearing)) (p : Text) : dial (urun (l1 ++ e :: l2)) p ≠ .ok s := by
  intro hd
  rw [dial_iff] at hd
  obtain ⟨-, w, hw, hup⟩ := hd
  rw [urun_append, ufold_cons] at hw
  have : ∃ u, (ufold (ustep (urun l1) e) l2).servers.get? s = some u ∧ u.phase ≠ .clearing ∧ u.phase ≠ .made ∧ u.phase ≠ .up := by
    apply over_stays
    rcases he with rfl | ⟨rfl, hc⟩
    · simp only [ustep, h, setPhase]; rw [Dict.get?_set, if_pos rfl]; exact ⟨_, rfl, by simp, by simp, by simp⟩
    · simp only [ustep, h]
      by_cases hp : u.phase = .made ∨ u.phase = .up ∨ u.phase = .stopped
      · rw [if_pos hp]; simp only [setPhase]; rw [Dict.get?_set, if_pos rfl]; exact ⟨_, rfl, by simp, by simp, by simp⟩
      · rw [if_neg hp]
        exact ⟨u, h, hc, fun hm => hp (.inl hm), fun hm => hp (.inr (.inl hm))⟩
  obtain ⟨u', hu', -, -, h3⟩ := this
  rw [hw] at hu'; cases hu'; exact h3 hup

/-- **C88** `stop` leaves no name behind: after it the name leads nowhere -/
theorem stop_removes (l : List ULabel) (s : Sid) (u : Unix) (h : (urun l).servers.get? s = some u) (hp : u.phase = .made ∨ u.phase = .up ∨ u.phase = .stopped) :
    (urun (l ++ [.close s, .remove s])).files.get? u.path = none ∧
    (∀ q, q ≠ u.path → (urun (l ++ [.close s, .remove s])).files.get? q = (urun l).files.get? q) := by
  have e : urun (l ++ [.close s, .remove s]) = ustep (ustep (urun l) (.close s)) (.remove s) := by rw [urun_append]; rfl
  rw [e]
  have e1 : ustep (urun l) (.close s) = setPhase (urun l) s u .closed := by simp only [ustep, h]; rw [if_pos hp]
  rw [e1]
  have e2 : (setPhase (urun l) s u .closed).servers.get? s = some { u with phase := .closed } := by
    simp only [setPhase]; rw [Dict.get?_set, if_pos rfl]
  simp only [ustep, e2, if_true]
  refine ⟨by rw [Dict.get?_erase, if_pos rfl], fun q hq => by rw [Dict.get?_erase, if_neg (Ne.symm hq)]; rfl⟩

/-- **C88** `bind`, exactly: it takes a free name, and a server that finds its name taken is finished (its creation fails) and changes nothing -/
theorem bind_exact (l : List ULabel) (s : Sid) (u : Unix) (h : (urun l).servers.get? s = some u) (hc : u.phase = .clearing) :
    ((urun l).files.get? u.path = none → (urun (l ++ [.bind s])).files.get? u.path = some (.sock s) ∧
      (urun (l ++ [.bind s])).servers.get? s = some { u with phase := .made }) ∧
    ((urun l).files.get? u.path ≠ none → (urun (l ++ [.bind s])).files = (urun l).files ∧
      ∀ l' p, dial (urun (l ++ .bind s :: l')) p ≠ .ok s) := by
  have hfas : (urun l).files.has u.path = true ↔ (urun l).files.get? u.path ≠ none := by
    rw [Dict.has_iff, ← Dict.get?_isSome_iff]; simp [Option.isSome_iff_ne_none]
  constructor
  · intro hn
    have : ¬ (urun l).files.has u.path = true := by rw [hfas]; simp [hn]
    rw [urun_snoc]
    simp only [ustep, h, hc, if_true]
    rw [if_neg this]
    simp only [setPhase]
    exact ⟨by rw [Dict.get?_set, if_pos rfl], by rw [Dict.get?_set, if_pos rfl]⟩
  · intro hn
    have e : ustep (urun l) (.bind s) = setPhase (urun l) s u .gone := by
      simp only [ustep, h, hc, if_true]; rw [if_pos (hfas.2 hn)]
    refine ⟨by rw [urun_snoc, e]; rfl, ?_⟩
    intro l' p hd
    rw [dial_iff, urun_append, ufold_cons, e] at hd
    obtain ⟨-, w, hw, hup⟩ := hd
    obtain ⟨u', hu', -, -, h3⟩ := over_stays s l' (setPhase (urun l) s u .gone)
      ⟨{ u with phase := .gone }, by simp only [setPhase]; rw [Dict.get?_set, if_pos rfl], by simp, by simp, by simp⟩
    rw [hw] at hu'; cases hu'; exact h3 hup

def d7 : Text := ['d', '/', '7']
def d8 : Text := ['d', '/', '8']

/-- two servers with one index: what a second pool gets when it computes an index that is in use (C32) -/
def twins : List ULabel := [.clear 1 7 d7, .bind 1, .start 1, .clear 2 7 d7, .bind 2, .start 2]

/-- **C88** refuted of the code: creating a second server with the same index does not fail; it takes the name of the first, whose address now
leads to the second although the first is still listening -/
theorem takeover_refuted : dial (urun (twins.take 3)) d7 = .ok 1 ∧ dial (urun twins) d7 = .ok 2 ∧
    ((urun twins).servers.get? 1).map (·.phase) = some .up := ⟨by rfl, by rfl, by rfl⟩

/-- **C88** refuted of the code: when the first stops it removes the name of the second, which is listening and can no longer be reached -/
theorem stop_cuts_off_refuted : dial (urun (twins ++ [.close 1, .remove 1])) d7 = .error .refused ∧
    ((urun (twins ++ [.close 1, .remove 1])).servers.get? 2).map (·.phase) = some .up := ⟨by rfl, by rfl⟩

/-- **C88** in general: once another server is made with the name, the one that had it is never reached under it again -/
theorem takeover (l1 l2 : List ULabel) (s s' : Sid) (u : Unix) (i : Int) (p : Text) (h : (urun l1).servers.get? s = some u) (hc : u.phase ≠ .clearing)
    (hs : (urun l1).servers.get? s' = none) : dial (urun (l1 ++ .clear s' i p :: l2)) p ≠ .ok s := by
  intro hd
  have hne : s' ≠ s := by rintro rfl; rw [h] at hs; cases hs
  have key : ∀ (ls : List ULabel) (st : UState), (∃ u, st.servers.get? s = some u ∧ u.phase ≠ .clearing) → st.files.get? p ≠ some (.sock s) →
      (∃ u, (ufold st ls).servers.get? s = some u ∧ u.phase ≠ .clearing) ∧ (ufold st ls).files.get? p ≠ some (.sock s) := by
    intro ls
    induction ls with
    | nil => intro st h1 h2; exact ⟨h1, h2⟩
    | cons l ls ih =>
      intro st ⟨u, hu, hc⟩ hf
      rw [ufold_cons]
      apply ih
      · cases l with
        | write p => simp only [ustep]; split <;> exact ⟨u, hu, hc⟩
        | clear s' i p =>
          simp only [ustep]
          split
          · exact ⟨u, hu, hc⟩
          · next hn =>
            have : s' ≠ s := by rintro rfl; apply hn; rw [Dict.has_iff, ← Dict.get?_isSome_iff, hu]; rfl
            exact ⟨u, by rw [Dict.get?_set, if_neg this]; exact hu, hc⟩
        | bind s' =>
          simp only [ustep]; repeat' split
          all_goals first
            | exact ⟨u, hu, hc⟩
            | (simp only [setPhase]; rw [Dict.get?_set]; split
               · exact ⟨_, rfl, by simp⟩
               · exact ⟨u, hu, hc⟩)
        | start s' =>
          simp only [ustep]; repeat' split
          all_goals first
            | exact ⟨u, hu, hc⟩
            | (simp only [setPhase]; rw [Dict.get?_set]; split
               · exact ⟨_, rfl, by simp⟩
               · exact ⟨u, hu, hc⟩)
        | close s' =>
          simp only [ustep]; repeat' split
          all_goals first
            | exact ⟨u, hu, hc⟩
            | (simp only [setPhase]; rw [Dict.get?_set]; split
               · exact ⟨_, rfl, by simp⟩
               · exact ⟨u, hu, hc⟩)
        | remove s' =>
          simp only [ustep]; repeat' split
          all_goals first
            | exact ⟨u, hu, hc⟩
            | (simp only [setPhase]; rw [Dict.get?_set]; split
               · exact ⟨_, rfl, by simp⟩
               · exact ⟨u, hu, hc⟩)
        | crash s' =>
          simp only [ustep]; repeat' split
          all_goals first
            | exact ⟨u, hu, hc⟩
            | (simp only [setPhase]; rw [Dict.get?_set]; split
               · exact ⟨_, rfl, by simp⟩
               · exact ⟨u, hu, hc⟩)
      · cases l with
        | write q => simp only [ustep]; split; exact hf; rw [Dict.get?_set]; split; simp; exact hf
        | clear s' i q =>
          simp only [ustep]; split
          · exact hf
          · rw [get_clearPath]; split
            · split <;> simp
            · exact hf
        | bind s' =>
          simp only [ustep]
          split
          · next u' hu' =>
            split
            · next hcl =>
              have : s' ≠ s := by rintro rfl; rw [hu] at hu'; cases hu'; exact hc hcl
              split
              · exact hf
              · dsimp only; rw [Dict.get?_set]; split
                · intro e; injection e with e; injection e with e; exact this e
                · exact hf
            · exact hf
          · exact hf
        | start s' => simp only [ustep]; repeat' split
                      all_goals exact hf
        | close s' => simp only [ustep]; repeat' split
                      all_goals exact hf
        | remove s' =>
          simp only [ustep]
          split
          · split
            · dsimp only; rw [Dict.get?_erase]; split
              · simp
              · exact hf
            · exact hf
          · exact hf
        | crash s' => simp only [ustep]; split <;> exact hf
  have hnh : ¬ (urun l1).servers.has s' = true := by rw [Dict.has_iff, ← Dict.get?_isSome_iff, hs]; simp
  have := key l2 (ustep (urun l1) (.clear s' i p))
    ⟨u, by simp only [ustep]; rw [if_neg hnh, Dict.get?_set, if_neg hne]; exact h, hc⟩
    (by simp only [ustep]; rw [if_neg hnh]; simp only; rw [get_clearPath, if_pos rfl]; split <;> simp)
  rw [dial_iff, urun_append, ufold_cons] at hd
  exact this.2 hd.1

example : dial (urun [.clear 1 7 d7, .bind 1, .start 1, .crash 1]) d7 = .error .refused ∧
    dial (urun ([.clear 1 7 d7, .bind 1, .start 1, .crash 1] ++ [.clear 2 7 d7, .bind 2, .start 2])) d7 = .ok 2 :=
  ⟨by rfl, by rfl⟩

example : unixConnect ['d'] id (urun [.clear 1 7 d7, .bind 1, .clear 2 8 d8, .start 1, .bind 2]) (unixAddress 7) = .ok 1 := by rfl

end Xoscar.Reach
