import Verif.Proof.Front
/-!
# C68: every call is served by the backend of its address
# C69: actor_ref and create_actor take the address and uid they are given
-/
namespace Xoscar.Front
open scoped List

/-! ## C68 -/

/-- `scheme://rest` belongs to `scheme` (lower case), whatever the rest. -/
theorem scheme_url (s rest : List Char) (h : IsScheme s) : schemeOf (s ++ sep ++ rest) = some (s.map Char.toLower) := by
  rw [schemeOf_some]
  refine ⟨⟨s, rest, rfl⟩, s, '/' :: '/' :: rest, by simp [sep], h, rfl⟩

/-- An address without `://` belongs to the default backend, and so does one whose text before the first colon is no scheme. -/
theorem scheme_default (a : Addr) (h : ¬ sep <:+: a ∨ ∀ p r, a = p ++ ':' :: r → ¬ IsScheme p) : schemeOf a = none := by
  rcases hs : schemeOf a with _ | s
  · rfl
  · obtain ⟨h1, p, r, h2, h3, -⟩ := (schemeOf_some a s).1 hs
    rcases h with h | h
    · exact absurd h1 h
    · exact absurd h3 (h p r h2)

/-- exactly: -/
theorem scheme_exact (a : Addr) (s : List Char) :
    schemeOf a = some s ↔ sep <:+: a ∧ ∃ p r, a = p ++ ':' :: r ∧ IsScheme p ∧ s = p.map Char.toLower := schemeOf_some a s

/-- In every history: a call on an address whose scheme was registered (once or with one class only) is served by that class. -/
theorem served_partial (es : List Event) (a : Addr) (k : Cls) (hk : Event.register (schemeOf a) k ∈ es)
    (hu : ∀ k', Event.register (schemeOf a) k' ∈ es → k' = k) :
    ∃ c, (step (run {} es) (.use (some a))).2 = .by c ∧ c.cls = k ∧ schemeOf c.addr = schemeOf a := by
  simp only [step]
  rcases hc : (run {} es).contexts.get? (schemeOf a) with _ | c
  · obtain ⟨k', hl⟩ := lastReg_of_mem hk
    have := hu k' (lastReg_mem hl)
    subst this
    rw [(classes_run es _ k').2 hl]
    exact ⟨⟨k', a⟩, rfl, rfl, rfl⟩
  · obtain ⟨h1, -, h3⟩ := contexts_run es _ c hc
    exact ⟨c, rfl, hu _ h1, h3⟩

/-- One context per scheme: later calls on addresses of the same scheme are served by the same context (and its connections), whatever
happens in between. -/
theorem one_context (es es' : List Event) (a a' : Addr) (c : Ctx) (h : (step (run {} es) (.use (some a))).2 = .by c)
    (hs : schemeOf a' = schemeOf a) :
    (step (run {} (es ++ .use (some a) :: es')) (.use (some a'))).2 = .by c := by
  have hk : (step (run {} es) (.use (some a))).1.contexts.get? (schemeOf a) = some c := by
    simp only [step] at h ⊢
    split
    · rename_i c' hc
      rw [hc] at h
      injection h with h; subst h; exact hc
    · rename_i hc
      rw [hc] at h
      simp only at h
      split
      · rename_i hk; rw [hk] at h; cases h
      · rename_i k hk
        rw [hk] at h
        injection h with h; subst h
        simp
  have : (run {} (es ++ .use (some a) :: es')).contexts.get? (schemeOf a) = some c := by
    rw [run_append]
    exact run_keeps _ es' _ _ hk
  simp only [step, hs, this]

/-- Contexts of different schemes are different contexts. -/
theorem contexts_differ (es es' : List Event) (a a' : Addr) (c c' : Ctx) (h : (step (run {} es) (.use (some a))).2 = .by c)
    (h' : (step (run {} es') (.use (some a'))).2 = .by c') (hs : schemeOf a ≠ schemeOf a') : c ≠ c' := by
  have key : ∀ (es : List Event) (a : Addr) (c : Ctx), (step (run {} es) (.use (some a))).2 = .by c → schemeOf c.addr = schemeOf a := by
    intro es a c h
    simp only [step] at h
    split at h
    · rename_i c' hc
      injection h with h; subst h
      exact (contexts_run es _ _ hc).2.2
    · split at h
      · cases h
      · injection h with h; subst h; rfl
  intro e
  subst e
  exact hs ((key es a c h).symm.trans (key es' a' c h'))

/-- An unknown scheme is a KeyError and leaves nothing behind: registered later, it works. -/
theorem unknown_scheme (es : List Event) (a : Addr) (h : ∀ k, Event.register (schemeOf a) k ∉ es) :
    step (run {} es) (.use (some a)) = (run {} es, .keyError) := by
  simp only [step]
  rcases hc : (run {} es).contexts.get? (schemeOf a) with _ | c
  · rcases hk : (run {} es).classes.get? (schemeOf a) with _ | k
    · rfl
    · exact absurd (lastReg_mem ((classes_run es _ k).1 hk)) (h k)
  · exact absurd (contexts_run es _ c hc).1 (h c.cls)

/-- no address: a ValueError, nothing else -/
theorem no_address (st : State) : step st (.use none) = (st, .valueError) := rfl

/-- REFUTED: registering another backend for a scheme has no effect once an address of that scheme was used (although
`create_actor_pool` then uses the new one). -/
theorem reregister_refuted (es : List Event) (a : Addr) (c : Ctx) (k : Cls) (h : (step (run {} es) (.use (some a))).2 = .by c)
    (hk : k ≠ c.cls) :
    LastReg (schemeOf a) (es ++ [.use (some a), .register (schemeOf a) k]) k ∧
    (step (run {} (es ++ [.use (some a), .register (schemeOf a) k])) (.use (some a))).2 = .by c ∧ c.cls ≠ k := by
  refine ⟨?_, one_context es [.register (schemeOf a) k] a a c h rfl, Ne.symm hk⟩
  rw [show es ++ [Event.use (some a), .register (schemeOf a) k] = (es ++ [.use (some a)]) ++ [.register (schemeOf a) k] by simp]
  exact .here

/-- `setup_cluster` hands every address with its resources to exactly one driver call, that of the backend of its scheme, one call per
scheme. -/
theorem setup_cluster_partition {ρ : Type} (b : Dict (Option (List Char)) Cls) (m : List (Option Addr × ρ)) (hm : ∀ p ∈ m, p.1 ≠ none)
    (hd : ((pairs m).map (·.1)).Nodup) (hb : ∀ p ∈ pairs m, b.has (schemeOf p.1) = true) :
    ∃ calls, setupCluster b m = some (calls, true) ∧ calls.flatMap (·.2) ~ pairs m ∧
      (∀ c d, (c, d) ∈ calls → ∃ s, b.get? s = some c ∧ d ≠ [] ∧ ∀ a r, (a, r) ∈ d → schemeOf a = s) ∧
      (calls.map fun x => x.2.head?.map fun y => schemeOf y.1).Nodup := by
  obtain ⟨g, h1, h2, h3, h4⟩ := group_spec m [] Dict.WF.nil (by intro s d h; cases h) (by simpa using hd) hm
  have h4' : g.flatMap (·.2) ~ pairs m := by simpa using h4
  have hhas : ∀ s d, (s, d) ∈ g → b.has s = true := by
    intro s d hmem
    obtain ⟨hne, hsch⟩ := h3 s d hmem
    rcases d with _ | ⟨⟨a, r⟩, d⟩
    · exact absurd rfl hne
    · have hin : (a, r) ∈ pairs m := h4'.subset (List.mem_flatMap.2 ⟨_, hmem, by simp⟩)
      have := hb _ hin
      rw [hsch a r (by simp)] at this
      exact this
  obtain ⟨calls, h5, h6, h7⟩ := callDrivers_ok b g hhas
  refine ⟨calls, by simp only [setupCluster, h1, Option.map_some, h5], ?_, ?_, ?_⟩
  · have : calls.flatMap (·.2) = g.flatMap (·.2) := by
      have e1 : calls.flatMap (·.2) = (calls.map (·.2)).flatten := by rw [List.flatMap_def]
      have e2 : g.flatMap (·.2) = (g.map (·.2)).flatten := by rw [List.flatMap_def]
      rw [e1, e2, h6]; rfl
    rw [this]; exact h4'
  · intro c d hcd
    obtain ⟨s, hs, hc⟩ := h7 c d hcd
    exact ⟨s, hc, (h3 s d hs).1, (h3 s d hs).2⟩
  · have : (calls.map fun x => x.2.head?.map fun y => schemeOf y.1) = g.map fun p => some p.1 := by
      have e1 : (calls.map fun x => x.2.head?.map fun y => schemeOf y.1) = (calls.map (·.2)).map fun d => d.head?.map fun y => schemeOf y.1 := by
        rw [List.map_map]; rfl
      rw [e1, h6]
      simp only [Dict.vals, List.map_map]
      apply List.map_congr_left
      rintro ⟨s, d⟩ hmem
      obtain ⟨hne, hsch⟩ := h3 s d hmem
      rcases d with _ | ⟨⟨a, r⟩, d⟩
      · exact absurd rfl hne
      · simp [hsch a r (by simp)]
    rw [this, show g.map (fun p => some p.1) = g.keys.map some by simp [Dict.keys]]
    exact List.Pairwise.map some (fun _ _ hne h => hne (by injection h)) h2

/-- An address that is None is refused before any driver is called. -/
theorem setup_cluster_none {ρ : Type} (b : Dict (Option (List Char)) Cls) (m : List (Option Addr × ρ)) (h : ∃ r, (none, r) ∈ m) :
    setupCluster b m = none := by
  have : ∀ acc, group m acc = none := by
    induction m with
    | nil => obtain ⟨r, h⟩ := h; cases h
    | cons p m ih =>
      intro acc
      obtain ⟨a, r⟩ := p
      cases a with
      | none => rfl
      | some a =>
        obtain ⟨r', h⟩ := h
        exact ih ⟨r', by simpa using h⟩ _
  simp [setupCluster, this]

/-- An unknown scheme anywhere makes `setup_cluster` raise. -/
theorem setup_cluster_unknown {ρ : Type} (b : Dict (Option (List Char)) Cls) (m : List (Option Addr × ρ)) (hm : ∀ p ∈ m, p.1 ≠ none)
    (hd : ((pairs m).map (·.1)).Nodup) (hb : ∃ p ∈ pairs m, b.has (schemeOf p.1) = false) :
    ∃ calls, setupCluster b m = some (calls, false) := by
  obtain ⟨g, h1, h2, h3, h4⟩ := group_spec m [] Dict.WF.nil (by intro s d h; cases h) (by simpa using hd) hm
  have h4' : g.flatMap (·.2) ~ pairs m := by simpa using h4
  obtain ⟨p, hp, hn⟩ := hb
  obtain ⟨⟨s, d⟩, hg, hpd⟩ := List.mem_flatMap.1 (h4'.mem_iff.2 hp)
  have hs : schemeOf p.1 = s := (h3 s d hg).2 p.1 p.2 hpd
  rw [hs] at hn
  have := callDrivers_fail b g ⟨s, d, hg, hn⟩
  refine ⟨(callDrivers b g).1, ?_⟩
  simp only [setupCluster, h1, Option.map_some]
  congr 1
  exact Prod.ext rfl this

/-- REFUTED (atomicity): the drivers of the schemes before the unknown one have already set up their nodes. -/
theorem setup_cluster_half_refuted {ρ : Type} (b : Dict (Option (List Char)) Cls) (a a' : Addr) (r r' : ρ) (c : Cls)
    (hc : b.get? (schemeOf a) = some c) (hn : b.get? (schemeOf a') = none) :
    setupCluster b [(some a, r), (some a', r')] = some ([(c, [(a, r)])], false) := by
  have hne : schemeOf a ≠ schemeOf a' := fun e => by rw [e, hn] at hc; cases hc
  simp [setupCluster, group, Dict.set, Dict.get?, hne, callDrivers, hc, hn]

/-! ### examples -/

def ray : List Char := ['r', 'a', 'y']
example : IsScheme ray := ⟨'r', ['a', 'y'], rfl, by decide, by decide⟩
example : schemeOf "ray://127.0.0.1:80".toList = some ray := by decide
example : schemeOf "UCX://h:1".toList = some ['u', 'c', 'x'] := by decide
example : schemeOf "127.0.0.1:80".toList = none := by decide
example : (step (run {} [.register (some ray) 7, .register none 1]) (.use (some "ray://a".toList))).2 = .by ⟨7, "ray://a".toList⟩ := by decide
example : (step (run {} [.register (some ray) 7, .use (some "ray://a".toList), .register (some ray) 8]) (.use (some "ray://b".toList))).2
    = .by ⟨7, "ray://a".toList⟩ := by decide
example : setupCluster [(none, 1), (some ray, 7)] [(some "ray://a".toList, 10), (some "h:1".toList, 11), (some "ray://b".toList, 12)]
    = some ([(7, [("ray://a".toList, 10), ("ray://b".toList, 12)]), (1, [("h:1".toList, 11)])], true) := rfl
example : ((pairs [(some "ray://a".toList, 10), (some "h:1".toList, 11), (some "ray://b".toList, 12)]).map (·.1)).Nodup := by decide

/-! ## C69 -/

/-- A non-empty uid (text or bytes) is the uid of the new actor. -/
theorem actor_uid_partial (utf8 : List Char → List UInt8) (random : List UInt8) :
    (∀ s, s ≠ [] → actorUid utf8 random (.str s) = some (utf8 s)) ∧ (∀ b, b ≠ [] → actorUid utf8 random (.bytes b) = some b) := by
  refine ⟨fun s h => ?_, fun b h => ?_⟩
  · rcases s with _ | ⟨c, s⟩
    · exact absurd rfl h
    · rfl
  · rcases b with _ | ⟨c, s⟩
    · exact absurd rfl h
    · rfl

/-- without a uid the actor gets the new one -/
theorem actor_uid_default (utf8 : List Char → List UInt8) (random : List UInt8) : actorUid utf8 random .none = some random := rfl

/-- an object that is neither text nor bytes is refused, unless it counts as false -/
theorem actor_uid_other (utf8 : List Char → List UInt8) (random : List UInt8) (t : Bool) :
    actorUid utf8 random (.other t) = if t then none else some random := by cases t <;> rfl

/-- REFUTED: the empty uid, which `actor_ref` accepts, is replaced by a random one, so the actor is not found under it. -/
theorem empty_uid_refuted (utf8 : List Char → List UInt8) (random : List UInt8) (h : random ≠ []) (hu : utf8 [] = []) :
    actorUid utf8 random (.str []) = some random ∧ actorUid utf8 random (.bytes []) = some random ∧ some random ≠ some (utf8 []) ∧
    ∀ dec a, createRef dec [.str a, .str []] {} = .ok ⟨some a, .str [], none⟩ := by
  refine ⟨rfl, rfl, by rw [hu]; simpa using h, fun dec a => rfl⟩

/-- `actor_ref(address, uid)` and `actor_ref(address, uid, proxies)` -/
theorem ref_positional (dec : List UInt8 → Option (List Char)) (a : Addr) (u : Arg) (hu : u ≠ .none) (p : List Addr) :
    createRef dec [.str a, u] {} = .ok ⟨some a, u, none⟩ ∧ createRef dec [.str a, u, .list p] {} = .ok ⟨some a, u, some p⟩ := by
  constructor <;> · cases u <;> first | rfl | exact absurd rfl hu

/-- bytes addresses are decoded, undecodable ones refused -/
theorem ref_bytes_address (dec : List UInt8 → Option (List Char)) (b : List UInt8) (u : Arg) (hu : u ≠ .none) :
    createRef dec [.bytes b, u] {} = match dec b with
      | some a => .ok ⟨some a, u, none⟩
      | none => .error .decodeError := by
  rcases hd : dec b with _ | a
  · simp [createRef, toStr, given, hd]
  · cases u <;> first | exact absurd rfl hu | simp [createRef, toStr, given, hd, finish]

/-- keywords only -/
theorem ref_keywords (dec : List UInt8 → Option (List Char)) (a : Addr) (u : Arg) (hu : u ≠ .none) (p : Option (List Addr)) :
    createRef dec [] { address := some (.str a), uid := some u, proxies := p } = .ok ⟨some a, u, p⟩ := by
  cases u <;> first | rfl | exact absurd rfl hu

/-- the uid alone as an argument, the rest by keyword -/
theorem ref_uid_only (dec : List UInt8 → Option (List Char)) (a : Addr) (u : Arg) (hu : u ≠ .none) (hr : ∀ x y z, u ≠ .ref x y z)
    (p : Option (List Addr)) :
    createRef dec [u] { address := some (.str a), proxies := p } = .ok ⟨some a, u, p⟩ := by
  cases u with
  | none => exact absurd rfl hu
  | ref x y z => exact absurd rfl (hr x y z)
  | _ => rfl

/-- from a reference: the same actor; with a (non-empty) address, the same uid at that address -/
theorem ref_of_ref (dec : List UInt8 → Option (List Char)) (a : Option Addr) (u : List UInt8) (p : Option (List Addr)) (b : Addr)
    (hb : b ≠ []) :
    createRef dec [.ref a u p] {} = .ok ⟨a, .bytes u, p⟩ ∧
    createRef dec [.ref a u p] { address := some (.str b) } = .ok ⟨some b, .bytes u, p⟩ := by
  refine ⟨rfl, ?_⟩
  rcases b with _ | ⟨c, b⟩
  · exact absurd rfl hb
  · rfl

/-- no uid: refused -/
theorem ref_no_uid (dec : List UInt8 → Option (List Char)) (a : Addr) :
    createRef dec [] { address := some (.str a) } = .error .valueError ∧ createRef dec [.none] { address := some (.str a) } = .error .valueError ∧
    createRef dec [.str a, .none] {} = .error .valueError := ⟨rfl, rfl, rfl⟩

/-- an address that is neither text nor bytes is refused, as is a third argument that is no list of proxies; None stands for none -/
theorem ref_types (dec : List UInt8 → Option (List Char)) (a : Addr) (u x : Arg) (hu : u ≠ .none) (args : List Arg) (kw : Kw) :
    (kw.address = some x → (∀ s, x ≠ .str s) → (∀ b, x ≠ .bytes b) → x ≠ .none → createRef dec args kw = .error .typeError) ∧
    createRef dec [.str a, u, .none] {} = .ok ⟨some a, u, none⟩ ∧
    ((∀ l, x ≠ .list l) → x ≠ .none → createRef dec [.str a, u, x] {} = .error .typeError) ∧
    (∀ b p, createRef dec [.bytes b, u, .list p] {} = match dec b with
      | some a => .ok ⟨some a, u, some p⟩
      | none => .error .decodeError) := by
  refine ⟨?_, ?_, ?_, ?_⟩
  · intro hk h1 h2 h3
    have : toStr dec (kw.address.getD .none) = .error .typeError := by
      rw [hk]
      cases x with
      | str s => exact absurd rfl (h1 s)
      | bytes b => exact absurd rfl (h2 b)
      | none => exact absurd rfl h3
      | _ => rfl
    unfold createRef
    rw [this]
  · cases u <;> first | rfl | exact absurd rfl hu
  · intro h1 h2
    cases x with
    | list l => exact absurd rfl (h1 l)
    | none => exact absurd rfl h2
    | _ => rfl
  · intro b p
    rcases hd : dec b with _ | a
    · simp [createRef, toStr, given, hd]
    · cases u <;> first | exact absurd rfl hu | simp [createRef, toStr, given, hd, finish, proxyArg]

/-- other keywords are refused, whatever the rest -/
theorem ref_other_keywords (dec : List UInt8 → Option (List Char)) (args : List Arg) (kw : Kw) (h : kw.others = true) :
    ∃ e, createRef dec args kw = .error e := by
  unfold createRef
  rcases toStr dec (kw.address.getD .none) with e | a
  · exact ⟨e, rfl⟩
  · exact ⟨.valueError, by simp [h]⟩

/-- two addresses are refused -/
theorem ref_two_addresses (dec : List UInt8 → Option (List Char)) (a b : Addr) (u : Arg) (hb : b ≠ []) :
    createRef dec [.str a, u] { address := some (.str b) } = .error .valueError := by
  rcases b with _ | ⟨c, b⟩
  · exact absurd rfl hb
  · rfl

/-- Every accepted call has a uid, and takes it from the arguments. -/
theorem ref_has_uid (dec : List UInt8 → Option (List Char)) (args : List Arg) (kw : Kw) (r : Ref) (h : createRef dec args kw = .ok r) :
    r.uid ≠ .none ∧ (r.uid ∈ args ∨ kw.uid = some r.uid ∨ ∃ a u p, .ref a u p ∈ args ∧ r.uid = .bytes u) := by
  have fin : ∀ a u p, finish a u p = .ok r → u = some r.uid ∧ r.uid ≠ .none := by
    intro a u p hf
    unfold finish at hf
    split at hf
    · cases hf
    · cases hf
    · rename_i u' hu'
      injection hf with hf; subst hf
      exact ⟨rfl, fun e => hu' (by simp at e; exact e)⟩
  unfold createRef at h
  split at h
  · cases h
  · split at h
    · cases h
    · simp only at h
      split at h
      · rename_i a u p ht
        have hu : u ∈ args := by
          split at ht <;> first | (injection ht with ht; injection ht with h1 h2; injection h2 with h2 h3; subst h2; simp) | cases ht
        split at h
        · cases h
        · split at h
          · cases h
          · split at h
            · obtain ⟨h1, h2⟩ := fin _ _ _ h
              injection h1 with h1
              exact ⟨h2, Or.inl (h1 ▸ hu)⟩
            · split at h
              · cases h
              · obtain ⟨h1, h2⟩ := fin _ _ _ h
                injection h1 with h1
                exact ⟨h2, Or.inl (h1 ▸ hu)⟩
      · split at h
        · rename_i a u p _
          obtain ⟨h1, h2⟩ := fin _ _ _ h
          injection h1 with h1
          exact ⟨h2, Or.inr (Or.inr ⟨a, u, p, by simp, h1.symm⟩)⟩
        · obtain ⟨h1, h2⟩ := fin _ _ _ h
          injection h1 with h1
          exact ⟨h2, Or.inl (by simp [h1])⟩
        · obtain ⟨h1, h2⟩ := fin _ _ _ h
          exact ⟨h2, Or.inr (Or.inl h1)⟩

/-- REFUTED: a uid keyword next to a positional uid is silently ignored, however different. -/
theorem uid_keyword_ignored_refuted (dec : List UInt8 → Option (List Char)) (a : Addr) (u u' : Arg) (hu : u ≠ .none) :
    createRef dec [.str a, u] { uid := some u' } = .ok ⟨some a, u, none⟩ := by
  cases u <;> first | rfl | exact absurd rfl hu

/-- REFUTED: the proxy_addresses keyword next to a reference is silently ignored. -/
theorem proxy_keyword_ignored_refuted (dec : List UInt8 → Option (List Char)) (a : Option Addr) (u : List UInt8) (p : Option (List Addr))
    (q : List Addr) : createRef dec [.ref a u p] { proxies := some q } = .ok ⟨a, .bytes u, p⟩ := rfl

/-- REFUTED: four or more positional arguments are all silently ignored (the reference is made of the keywords). -/
theorem surplus_ignored_refuted (dec : List UInt8 → Option (List Char)) (x y z w : Arg) (rest : List Arg) (a : Addr) (u : Arg) (hu : u ≠ .none) :
    createRef dec (x :: y :: z :: w :: rest) { address := some (.str a), uid := some u } = .ok ⟨some a, u, none⟩ := by
  have : ∀ (xs : List Arg), xs = x :: y :: z :: w :: rest →
      createRef dec xs { address := some (.str a), uid := some u } = finish (some a) (some u) none := by
    intro xs hxs
    subst hxs
    cases x <;> rfl
  rw [this _ rfl]
  cases u <;> first | rfl | exact absurd rfl hu

example : createRef (fun _ => none) [.str "h:1".toList, .str "a".toList] {} = .ok ⟨some "h:1".toList, .str "a".toList, none⟩ := rfl
example : createRef (fun _ => none) [.str "h:1".toList, .str "a".toList] { uid := some (.str "b".toList) }
    = .ok ⟨some "h:1".toList, .str "a".toList, none⟩ := rfl
example : actorUid (fun s => s.map fun c => c.toNat.toUInt8) [1, 2, 3] (.str ['a']) = some [97] := by decide

end Xoscar.Front
