import Verif.Proof.Addr
/-!
# C35 (wildcard address repair) and C33 (external addresses)
-/
namespace Xoscar.Addr

/-! ## Specification vocabulary -/

/-- The address text `host:port`. -/
def hostPort (host port : List Char) : List Char := host ++ ':' :: port

/-! ## C35 -/

/-- The repair: the host (and scheme) the caller connected to, with the port of the remote
address. -/
theorem fix_replaces (hex : List Char → Option Int) (hr pr hc pc : List Char)
    (h1 : ':' ∉ pr) (h2 : ':' ∉ pc)
    (hz : isZero hex (hostPort hr pr) = some true)
    (hn : isZero hex (hostPort hc pc) = some false) :
    fixAllZeroIp hex (hostPort hr pr) (hostPort hc pc) = some (hostPort hc pr) := by
  unfold fixAllZeroIp
  have hne : hostPort hr pr ≠ hostPort hc pc := by
    intro e; rw [e, hn] at hz; simp at hz
  rw [if_neg hne, hz]
  simp only
  rw [hn]
  simp only [hostPort, lastPart_host_port h1, host_host_port h2]

/-- A remote address that is not a wildcard is left alone. -/
theorem fix_keeps_concrete (hex) (r c : List Char) (hn : isZero hex r = some false) :
    fixAllZeroIp hex r c = some r := by
  unfold fixAllZeroIp; split
  · rfl
  · rw [hn]

/-- When the caller itself connected to a wildcard (local) address nothing is changed. -/
theorem fix_keeps_local (hex) (r c : List Char) (hr : isZero hex r ≠ none)
    (hc : isZero hex c = some true) : fixAllZeroIp hex r c = some r := by
  unfold fixAllZeroIp; split
  · rfl
  · split
    · contradiction
    · rfl
    · rw [hc]

/-- After the repair the address no longer is a wildcard, so repairing again changes nothing. -/
theorem fix_idempotent (hex) (r c x : List Char) (h : fixAllZeroIp hex r c = some x)
    (hx : isZero hex x = some false ∨ x = r) : fixAllZeroIp hex x c = some x := by
  rcases hx with hx | rfl
  · exact fix_keeps_concrete hex x c hx
  · exact h

/-! What counts as a wildcard. -/

/-- IPv4 wildcard, with or without a scheme. -/
theorem isZero_v4 (hex) (p : List Char) (hp : '/' ∉ p) :
    isZero hex (hostPort "0.0.0.0".toList p) = some true := by
  unfold isZero isV4Zero
  have : '/' ∉ hostPort "0.0.0.0".toList p := by simp [hostPort, hp]
  rw [body_of_no_slash this]
  simp [hostPort]

/-- An address with a plain host (no colon in it, e.g. dotted IPv4 or a host name) other than
0.0.0.0 is never taken for a wildcard. -/
theorem isZero_plain_host (hex) (h p : List Char) (hh : ':' ∉ h) (hs : '/' ∉ h) (hp : ':' ∉ p)
    (hps : '/' ∉ p) (hne : h ≠ "0.0.0.0".toList) :
    isZero hex (hostPort h p) = some false := by
  have hb : body (hostPort h p) = hostPort h p := by
    apply body_of_no_slash; simp [hostPort, hs, hps]
  have hv4 : isV4Zero (hostPort h p) = false := by
    unfold isV4Zero; rw [hb]
    rw [Bool.eq_false_iff]; intro hpre
    rw [List.isPrefixOf_iff_prefix] at hpre
    obtain ⟨t, ht⟩ := hpre
    have e1 : hostPort "0.0.0.0".toList t = hostPort h p := by simpa [hostPort] using ht
    have e2 : splitC ':' (hostPort "0.0.0.0".toList t) = splitC ':' (hostPort h p) := by rw [e1]
    unfold hostPort at e2
    rw [splitC_append, splitC_append, splitC_of_not_mem hh,
      splitC_of_not_mem (show ':' ∉ "0.0.0.0".toList by decide)] at e2
    simp only [List.cons_append, List.nil_append, List.cons.injEq] at e2
    exact hne e2.1.symm
  unfold isZero
  rw [hv4]
  simp only [Bool.false_eq_true, if_false, isV6Zero]
  rw [hb, hostPort, split_host_port hp, splitC_of_not_mem hh]
  simp

/-- IPv6 wildcard "::" (and every other all-zero spelling such as 0:0:0:0). -/
theorem isZero_v6 (hex) (parts : List (List Char)) (p : List Char) (hlen : 2 ≤ parts.length)
    (hparts : ∀ q ∈ parts, ':' ∉ q ∧ '/' ∉ q ∧ (q = [] ∨ hex q = some 0)) (hps : '/' ∉ p)
    (hp : ':' ∉ p) : isZero hex (hostPort (joinC ':' parts) p) = some true := by
  have hjs : ∀ l : List (List Char), (∀ q ∈ l, ':' ∉ q ∧ '/' ∉ q ∧ (q = [] ∨ hex q = some 0)) →
      '/' ∉ joinC ':' l := by
    intro l hl
    fun_induction joinC ':' l with
    | case1 => simp
    | case2 q => exact (hl q (by simp)).2.1
    | case3 q r rest ih =>
      simp only [List.mem_append, List.mem_cons, not_or]
      exact ⟨(hl q (by simp)).2.1, by decide, ih (fun q hq => hl q (List.mem_cons_of_mem _ hq))⟩
  have hsj : ∀ l : List (List Char), l ≠ [] →
      (∀ q ∈ l, ':' ∉ q ∧ '/' ∉ q ∧ (q = [] ∨ hex q = some 0)) →
      splitC ':' (joinC ':' l) = l := by
    intro l hne hl
    fun_induction joinC ':' l with
    | case1 => simp at hne
    | case2 q => exact splitC_of_not_mem (hl q (by simp)).1
    | case3 q r rest ih =>
      rw [splitC_append, splitC_of_not_mem (hl q (by simp)).1,
        ih (by simp) (fun q hq => hl q (List.mem_cons_of_mem _ hq))]
      rfl
  have hb : body (hostPort (joinC ':' parts) p) = hostPort (joinC ':' parts) p := by
    apply body_of_no_slash
    simp only [hostPort, List.mem_append, List.mem_cons, not_or]
    exact ⟨hjs _ hparts, by decide, hps⟩
  have hne : parts ≠ [] := by intro e; simp [e] at hlen
  unfold isZero
  split
  · rfl
  · unfold isV6Zero
    rw [hb, hostPort, split_host_port hp, hsj _ hne hparts]
    simp only [List.length_append, List.length_cons, List.length_nil, Nat.zero_add]
    rw [if_neg (by omega)]
    simp only [List.dropLast_concat]
    exact v6Loop_all_empty _ _ (fun q hq => (hparts q hq).2.2)

theorem v6Loop_not_zero (hex) (l : List (List Char)) (hv : ∀ p ∈ l, p = [] ∨ (hex p).isSome)
    {q : List Char} {v : Int} (hq : q ∈ l) (hne : q ≠ []) (hx : hex q = some v) (h0 : v ≠ 0) : v6Loop hex l = some false := by
  induction l with
  | nil => cases hq
  | cons p ps ih =>
    have ih := ih (fun q hq => hv q (List.mem_cons_of_mem _ hq))
    simp only [v6Loop]
    split
    · next hp =>
      rcases hv p List.mem_cons_self with h | h
      · exact absurd h hp
      · obtain ⟨w, hw⟩ := Option.isSome_iff_exists.mp h
        rw [hw]; simp only
        split
        · rfl
        · next hz =>
          rcases List.mem_cons.mp hq with h | h
          · subst h; rw [hx] at hw; cases hw; exact absurd h0 hz
          · exact ih h
    · next hp =>
      rcases List.mem_cons.mp hq with h | h
      · exact absurd (h ▸ hne) hp
      · exact ih h

theorem split_parts : ∀ l : List (List Char), l ≠ [] → (∀ q ∈ l, ':' ∉ q) → splitC ':' (joinC ':' l) = l := by
  intro l hne hl
  fun_induction joinC ':' l with
  | case1 => simp at hne
  | case2 q => exact splitC_of_not_mem (hl q (by simp))
  | case3 q r rest ih =>
    rw [splitC_append, splitC_of_not_mem (hl q (by simp)),
      ih (by simp) (fun q hq => hl q (List.mem_cons_of_mem _ hq))]
    rfl

theorem slash_parts : ∀ l : List (List Char), (∀ q ∈ l, '/' ∉ q) → '/' ∉ joinC ':' l := by
  intro l hl
  fun_induction joinC ':' l with
  | case1 => simp
  | case2 q => exact hl q (by simp)
  | case3 q r rest ih =>
    simp only [List.mem_append, List.mem_cons, not_or]
    exact ⟨hl q (by simp), by decide, ih (fun q hq => hl q (List.mem_cons_of_mem _ hq))⟩

/-- An IPv6 address with a group that is not zero is never taken for a wildcard. -/
theorem isZero_v6_other (hex) (parts : List (List Char)) (p : List Char) (hlen : 2 ≤ parts.length)
    (hparts : ∀ q ∈ parts, ':' ∉ q ∧ '/' ∉ q ∧ (q = [] ∨ (hex q).isSome)) (hps : '/' ∉ p) (hp : ':' ∉ p)
    (hhead : parts.head? ≠ some "0.0.0.0".toList)
    (hnz : ∃ q ∈ parts, q ≠ [] ∧ ∃ v, hex q = some v ∧ v ≠ 0) :
    isZero hex (hostPort (joinC ':' parts) p) = some false := by
  have hne : parts ≠ [] := by intro e; simp [e] at hlen
  have hsj := split_parts parts hne (fun q hq => (hparts q hq).1)
  have hb : body (hostPort (joinC ':' parts) p) = hostPort (joinC ':' parts) p := by
    apply body_of_no_slash
    simp only [hostPort, List.mem_append, List.mem_cons, not_or]
    exact ⟨slash_parts _ (fun q hq => (hparts q hq).2.1), by decide, hps⟩
  have hv4 : isV4Zero (hostPort (joinC ':' parts) p) = false := by
    unfold isV4Zero; rw [hb]
    rw [Bool.eq_false_iff]; intro hpre
    rw [List.isPrefixOf_iff_prefix] at hpre
    obtain ⟨t, ht⟩ := hpre
    have e1 : hostPort "0.0.0.0".toList t = hostPort (joinC ':' parts) p := by simpa [hostPort] using ht
    have e2 : splitC ':' (hostPort "0.0.0.0".toList t) = splitC ':' (hostPort (joinC ':' parts) p) := by rw [e1]
    unfold hostPort at e2
    rw [splitC_append, splitC_append, hsj,
      splitC_of_not_mem (show ':' ∉ "0.0.0.0".toList by decide)] at e2
    rcases parts with _ | ⟨x, xs⟩
    · exact hne rfl
    · simp only [List.cons_append, List.nil_append, List.cons.injEq] at e2
      apply hhead
      rw [List.head?_cons, ← e2.1]
  unfold isZero
  rw [hv4]
  simp only [Bool.false_eq_true, if_false, isV6Zero]
  rw [hb, hostPort, split_host_port hp, hsj]
  simp only [List.length_append, List.length_cons, List.length_nil, Nat.zero_add]
  rw [if_neg (by omega)]
  simp only [List.dropLast_concat]
  obtain ⟨q, hq, hqne, v, hv, h0⟩ := hnz
  exact v6Loop_not_zero hex parts (fun q hq => (hparts q hq).2.2) hq hqne hv h0

/-- `fe80::1` at port 80 -/
example : isZero (fun s => if s = ['1'] then some 1 else some 65152) (hostPort (joinC ':' [['f', 'e', '8', '0'], [], ['1']]) ['8', '0']) = some false := by decide

/-- A scheme prefix is irrelevant to being a wildcard. -/
theorem isZero_scheme (hex) (sch s : List Char) (h : ':' ∉ sch) :
    isZero hex (sch ++ "://".toList ++ s) = isZero hex s := by
  unfold isZero isV4Zero isV6Zero
  rw [body_scheme _ _ h]

/-- The end-to-end statement for IPv4: a pool listening on 0.0.0.0 reached at host `h`. -/
theorem fix_v4 (hex) (h pr pc : List Char) (hh : ':' ∉ h) (hs : '/' ∉ h)
    (hne : h ≠ "0.0.0.0".toList) (h1 : ':' ∉ pr) (h1s : '/' ∉ pr) (h2 : ':' ∉ pc)
    (h2s : '/' ∉ pc) :
    fixAllZeroIp hex (hostPort "0.0.0.0".toList pr) (hostPort h pc) = some (hostPort h pr) :=
  fix_replaces hex _ _ _ _ h1 h2 (isZero_v4 hex pr h1s)
    (isZero_plain_host hex h pc hh hs h2 h2s hne)

/-- C35 also says "the scheme is preserved".  That is false when the remote address carries a
scheme and the caller's does not: the remote's scheme is lost. -/
theorem fix_scheme_refuted :
    ∃ hex, fixAllZeroIp hex "ucx://0.0.0.0:1".toList "10.0.0.1:2".toList
      = some "10.0.0.1:1".toList := ⟨fun _ => none, by decide⟩

example : fixAllZeroIp (fun _ => none) "0.0.0.0:7000".toList "10.1.2.3:5000".toList
    = some "10.1.2.3:7000".toList ∧
    fixAllZeroIp (fun _ => some 0) ":::7000".toList "10.1.2.3:5000".toList
    = some "10.1.2.3:7000".toList := by decide

/-- C35 is false for IPv6 addresses in brackets, the usual notation: `int("[", 16)` fails, and the repair raises an error, whichever
of the two addresses it is (`0.0.0.0:1` and the repaired address differ). -/
theorem fix_brackets_refuted (hex : List Char → Option Int) (h : hex ['['] = none) :
    fixAllZeroIp hex "[::1]:80".toList "10.0.0.1:2".toList = none ∧
    fixAllZeroIp hex "0.0.0.0:1".toList "[::1]:80".toList = none := by
  have e : splitC ':' (body "[::1]:80".toList) = [['['], [], ['1', ']'], ['8', '0']] := by decide
  have z : isZero hex "[::1]:80".toList = none := by
    have : isV4Zero "[::1]:80".toList = false := by decide
    unfold isZero isV6Zero
    rw [this, e]
    simp [v6Loop, h]
  have z0 : isZero hex "0.0.0.0:1".toList = some true := by
    have : isV4Zero "0.0.0.0:1".toList = true := by decide
    unfold isZero
    rw [this]; rfl
  constructor
  · unfold fixAllZeroIp
    rw [if_neg (by decide), z]
  · unfold fixAllZeroIp
    rw [if_neg (by decide), z0]
    simp only [z]

/-- `int` in base 16 fails for it -/
example : ∃ hex : List Char → Option Int, hex ['['] = none ∧ hex ['0'] = some 0 := ⟨fun s => if s = ['0'] then some 0 else none, by decide⟩

/-! ## C33 -/

/-- The ports of the pool's addresses, as documented: `host:port` plus one port per sub
process, or all ports from `ports`, 0 (= chosen by the operating system) where unspecified. -/
def specPorts (mainPort : Option Nat) (nProcess : Nat) (ports : List Nat) : List Nat :=
  match mainPort with
  | some p => p :: (if ports = [] then List.replicate nProcess 0 else ports)
  | none => if ports = [] then List.replicate (nProcess + 1) 0 else ports

theorem render_plain (host : List Char) (ports : List Nat) :
    (render host ports []).length = ports.length ∧
    (∀ e ∈ render host ports [], e.host = host ∧ e.pre = []) ∧
    (render host ports []).map Ext.port = ports := by
  refine ⟨by simp [render], ?_, ?_⟩
  · intro e he; simp [render] at he; obtain ⟨_, _, rfl⟩ := he; simp
  · simp [render, Function.comp_def]

/-- Success without schemes, address `host:port`. -/
theorem ext_with_port (int) (host port : List Char) (p n : Nat) (ports : List Nat)
    (hp : ':' ∉ port) (hint : int port = some p) (hlen : ports = [] ∨ ports.length = n) :
    ∃ l, getExternalAddresses int (hostPort host port) n ports [] = .ok l ∧
      l.length = n + 1 ∧ (∀ e ∈ l, e.host = host ∧ e.pre = []) ∧
      l.map Ext.port = specPorts (some p) n ports := by
  have hmem : ':' ∈ hostPort host port := by simp [hostPort]
  have hs : splitAddr int (hostPort host port) n ports = .ok (host, specPorts (some p) n ports) := by
    unfold splitAddr
    rw [if_pos hmem, hostPort, lastPart_host_port hp, hint, host_host_port hp]
    simp only
    by_cases hne : ports = []
    · simp [hne, specPorts]
    · have : ports.length = n := by rcases hlen with h | h <;> simp_all
      simp [hne, specPorts, this]
  have hl : (specPorts (some p) n ports).length = n + 1 := by
    unfold specPorts; simp only; split
    · simp
    · rcases hlen with h | h
      · contradiction
      · simp [h]
  obtain ⟨h1, h2, h3⟩ := render_plain host (specPorts (some p) n ports)
  exact ⟨_, by unfold getExternalAddresses; rw [hs], by rw [h1, hl], h2, h3⟩

/-- Success without schemes, address is a bare host. -/
theorem ext_bare_host (int) (host : List Char) (n : Nat) (ports : List Nat)
    (hh : ':' ∉ host) (hlen : ports = [] ∨ ports.length = n + 1) :
    ∃ l, getExternalAddresses int host n ports [] = .ok l ∧
      l.length = n + 1 ∧ (∀ e ∈ l, e.host = host ∧ e.pre = []) ∧
      l.map Ext.port = specPorts none n ports := by
  have hs : splitAddr int host n ports = .ok (host, specPorts none n ports) := by
    unfold splitAddr
    rw [if_neg hh]
    by_cases hne : ports = []
    · simp [hne, specPorts]
    · have : ports.length = n + 1 := by rcases hlen with h | h <;> simp_all
      simp [hne, specPorts, this]
  have hl : (specPorts none n ports).length = n + 1 := by
    unfold specPorts; simp only; split
    · simp
    · rcases hlen with h | h
      · contradiction
      · simp [h]
  obtain ⟨h1, h2, h3⟩ := render_plain host (specPorts none n ports)
  exact ⟨_, by unfold getExternalAddresses; rw [hs], by rw [h1, hl], h2, h3⟩

/-- A wrong number of ports is rejected. -/
theorem ext_wrong_ports (int) (address : List Char) (n : Nat) (ports : List Nat) (schemes)
    (hne : ports ≠ []) (h : ports.length ≠ if ':' ∈ address then n else n + 1) :
    getExternalAddresses int address n ports schemes = .error .valueError := by
  have : splitAddr int address n ports = .error .valueError := by
    unfold splitAddr
    split at h
    · next hc =>
      rw [if_pos hc]
      cases int (lastPart ':' address)
      · rfl
      · simp only [if_pos hne, if_pos h]
    · next hc => rw [if_neg hc, if_pos ⟨hne, h⟩]
  unfold getExternalAddresses; rw [this]

/-- With schemes (one per process, as `create_actor_pool` checks) the i-th address carries the
i-th scheme and the same host and port as without schemes. -/
theorem ext_schemes (int) (address : List Char) (n : Nat) (ports : List Nat)
    (ss : List (Option (List Char))) (hss : ss.length = n + 1) (l : List Ext)
    (h : getExternalAddresses int address n ports [] = .ok l) (hl : l.length = n + 1) :
    ∃ l', getExternalAddresses int address n ports ss = .ok l' ∧
      l'.map Ext.port = l.map Ext.port ∧ l'.map Ext.host = l.map Ext.host ∧
      l'.map Ext.pre = ss.map (fun o => match o with | none => [] | some [] => [] | some (ch :: t) => ch :: t ++ [':', '/', '/']) := by
  unfold getExternalAddresses at *
  split at h
  · cases h
  · next host all hsp =>
    injection h with h
    subst h
    have hne : ss ≠ [] := by intro e; simp [e] at hss
    have hall : all.length = ss.length := by simp [render] at hl; omega
    refine ⟨_, rfl, ?_, ?_, ?_⟩
    · simp only [render, if_neg hne, if_true, List.map_map, Function.comp_def]
      rw [List.map_fst_zip (by simp [hall])]; simp
    · simp [render, hne, Function.comp_def, List.map_const', hall]
    · simp only [render, if_neg hne, List.map_map, Function.comp_def]
      rw [List.map_snd_zip (by simp [hall])]
      apply List.map_congr_left
      intro o _
      rcases o with _ | _ | ⟨ch, t⟩ <;> rfl

example : getExternalAddresses (fun _ => some 8000) "h:8000".toList 2 [1, 2] []
    = .ok [⟨[], ['h'], 8000⟩, ⟨[], ['h'], 1⟩, ⟨[], ['h'], 2⟩] ∧
    getExternalAddresses (fun _ => none) "h".toList 1 [] [none, some "ucx".toList]
    = .ok [⟨[], ['h'], 0⟩, ⟨"ucx://".toList, ['h'], 0⟩] := ⟨rfl, rfl⟩

end Xoscar.Addr
