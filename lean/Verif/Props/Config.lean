import Verif.Model.Config
import Verif.Proof.Base
/-!
# C27, C28: pool configuration and allocation strategies
-/
namespace Xoscar.Config

/-! ## C28 -/

/-- the mapping describes exactly the pools: an external address is mapped to the internal address of the
pool that has it, and no other address is mapped -/
def Agrees (c : Config) : Prop :=
  ∀ a i, c.mapping.get? a = some i ↔ ∃ idx p, c.pools.get? idx = some p ∧ a ∈ p.external ∧ p.internal = i

/-- pools have addresses, and different pools have different ones -/
structure Sane (c : Config) : Prop where
  wf : c.pools.WF
  nonempty : ∀ idx p, c.pools.get? idx = some p → p.external ≠ []
  disjoint : ∀ idx idx' p p' a, c.pools.get? idx = some p → c.pools.get? idx' = some p' → a ∈ p.external → a ∈ p'.external → idx = idx'

inductive Op where
  | add (idx : Nat) (p : PoolConf)
  | remove (idx : Nat)
  | reset (idx : Nat) (new : List Addr)

def apply (c : Config) : Op → Option Config
  | .add idx p => some (addPool c idx p)
  | .remove idx => removePool c idx
  | .reset idx new => resetExternal c idx new

/-- how the operations are used: a new process index with unused addresses; removing a pool that has one
address; giving a pool addresses no other pool has, its internal address not being one of the old
external ones -/
def Proper (c : Config) : Op → Prop
  | .add idx p => c.pools.get? idx = none ∧ p.external ≠ [] ∧ ∀ a ∈ p.external, ∀ j q, c.pools.get? j = some q → a ∉ q.external
  | .remove idx => ∀ p, c.pools.get? idx = some p → ∃ a, p.external = [a]
  | .reset idx new => new ≠ [] ∧ (∀ a ∈ new, ∀ j q, j ≠ idx → c.pools.get? j = some q → a ∉ q.external) ∧
      ∀ p, c.pools.get? idx = some p → ∀ a ∈ p.external, p.internal ≠ some a

inductive Hist : Config → Prop
  | empty : Hist empty
  | step {c c' op} : Hist c → Proper c op → apply c op = some c' → Hist c'

theorem setAll_get? (m : Dict Addr (Option Addr)) (l : List Addr) (i : Option Addr) (a : Addr) :
    (setAll m l i).get? a = if a ∈ l then some i else m.get? a := by
  induction l generalizing m with
  | nil => simp [setAll]
  | cons x l ih =>
    have : setAll m (x :: l) i = setAll (m.set x i) l i := rfl
    rw [this, ih]
    by_cases h : a ∈ l
    · simp [h]
    · by_cases hx : x = a
      · simp [h, hx]
      · have : ¬ a = x := fun e => hx e.symm
        simp [h, hx, this]

theorem dropOld_fst (new0 : Option Addr) (l : List Addr) (m : Dict Addr (Option Addr)) (i : Option Addr) (a : Addr) :
    (dropOld new0 l (m, i)).1.get? a = if a ∈ l then none else m.get? a := by
  induction l generalizing m i with
  | nil => simp [dropOld]
  | cons x l ih =>
    rw [dropOld, ih]
    by_cases h : a ∈ l
    · simp [h]
    · by_cases hx : x = a
      · simp [hx]
      · have : ¬ a = x := fun e => hx e.symm
        simp [h, hx, this]

theorem dropOld_snd (new0 : Option Addr) (l : List Addr) (m : Dict Addr (Option Addr)) (i : Option Addr)
    (h : ∀ a ∈ l, i ≠ some a) : (dropOld new0 l (m, i)).2 = i := by
  induction l generalizing m with
  | nil => rfl
  | cons x l ih =>
    rw [dropOld, if_neg (h x (by simp))]
    exact ih _ (fun a ha => h a (by simp [ha]))

theorem hist_ok {c : Config} (h : Hist c) : Sane c ∧ Agrees c := by
  induction h with
  | empty => exact ⟨⟨.nil, by simp [empty], by simp [empty]⟩, by simp [Agrees, empty]⟩
  | @step c c' op _ hp ha ih =>
    obtain ⟨⟨hwf, hne, hdj⟩, hag⟩ := ih
    cases op with
    | add idx p =>
      simp only [apply, Option.some.injEq] at ha; subst ha
      obtain ⟨h1, h2, h3⟩ := hp
      refine ⟨⟨hwf.set _ _, fun j q hj => ?_, fun j k q r a hj hk hq hr => ?_⟩, fun a i => ?_⟩
      · simp only [addPool, Dict.get?_set] at hj; grind
      · simp only [addPool, Dict.get?_set] at hj hk; grind
      · simp only [addPool, setAll_get?, Dict.get?_set]
        constructor
        · intro h
          split at h
          · next hm => cases h; exact ⟨idx, p, by simp, hm, rfl⟩
          · obtain ⟨j, q, hj, hq⟩ := (hag a i).mp h
            refine ⟨j, q, ?_, hq⟩
            rw [if_neg]; exact hj
            rintro rfl; rw [h1] at hj; simp at hj
        · rintro ⟨j, q, hj, hq, rfl⟩
          split at hj
          · cases hj; rw [if_pos hq]
          · rw [if_neg (fun hm => h3 a hm j q hj hq)]
            exact (hag a _).mpr ⟨j, q, hj, hq, rfl⟩
    | remove idx =>
      simp only [apply, removePool, externalAddress] at ha
      rcases hg : c.pools.get? idx with _ | p
      · rw [hg] at ha; simp at ha
      · rw [hg] at ha
        obtain ⟨x, hx⟩ := hp p hg
        simp only [hx, List.head?_cons] at ha
        split at ha
        · cases ha
          refine ⟨⟨hwf.erase _, fun j q hj => ?_, fun j k q r a hj hk hq hr => ?_⟩, fun a i => ?_⟩
          · simp only [Dict.get?_erase] at hj; grind
          · simp only [Dict.get?_erase] at hj hk; grind
          · simp only [Dict.get?_erase]
            constructor
            · intro h
              split at h
              · simp at h
              · next hne' =>
                obtain ⟨j, q, hj, hq, hi⟩ := (hag a i).mp h
                refine ⟨j, q, ?_, hq, hi⟩
                rw [if_neg]; exact hj
                rintro rfl
                rw [hg] at hj; cases hj
                rw [hx] at hq; simp at hq; exact hne' hq.symm
            · rintro ⟨j, q, hj, hq, hi⟩
              split at hj
              · simp at hj
              · next hji =>
                rw [if_neg]; exact (hag a i).mpr ⟨j, q, hj, hq, hi⟩
                rintro rfl
                exact hji (hdj idx j p q x hg hj (by rw [hx]; simp) hq)
        · simp at ha
    | reset idx new =>
      simp only [apply, resetExternal] at ha
      rcases hg : c.pools.get? idx with _ | p
      · rw [hg] at ha; simp at ha
      · rw [hg] at ha
        simp only [Option.some.injEq] at ha
        subst ha
        obtain ⟨h1, h2, h3⟩ := hp
        have h3 := h3 p hg
        refine ⟨⟨hwf.set _ _, fun j q hj => ?_, fun j k q r a hj hk hq hr => ?_⟩, fun a i => ?_⟩
        · simp only [Dict.get?_set] at hj; grind
        · simp only [Dict.get?_set] at hj hk; grind
        · simp only [setAll_get?, dropOld_fst, dropOld_snd _ _ _ _ h3, Dict.get?_set]
          constructor
          · intro h
            split at h
            · next hm => cases h; exact ⟨idx, { p with external := new }, by simp, hm, rfl⟩
            · split at h
              · simp at h
              · next hm' =>
                obtain ⟨j, q, hj, hq, hi⟩ := (hag a i).mp h
                refine ⟨j, q, ?_, hq, hi⟩
                rw [if_neg]; exact hj
                rintro rfl; rw [hg] at hj; cases hj; exact hm' hq
          · rintro ⟨j, q, hj, hq, rfl⟩
            split at hj
            · cases hj
              rw [if_pos hq]
            · next hji =>
              rw [if_neg (fun hm => h2 a hm j q (fun e => hji e.symm) hj hq), if_neg]
              · exact (hag a _).mpr ⟨j, q, hj, hq, rfl⟩
              · intro hm; exact hji (hdj idx j p q a hg hj hm hq)

/-- **C28** (mapping): after any proper history the mapping describes exactly the current pools -/
theorem mapping_exact {c : Config} (h : Hist c) : Agrees c := (hist_ok h).2

/-- **C28** (process index): the index found for an address is that of the pool having it; ValueError exactly
when no pool has it -/
theorem processIndex_exact {c : Config} (h : Hist c) (a : Addr) :
    (∀ idx, processIndex c a = some idx ↔ ∃ p, c.pools.get? idx = some p ∧ a ∈ p.external) ∧
    (processIndex c a = none ↔ c.mapping.get? a = none) := by
  obtain ⟨⟨hwf, hne, hdj⟩, hag⟩ := hist_ok h
  have key : ∀ idx, processIndex c a = some idx ↔ ∃ p, c.pools.get? idx = some p ∧ a ∈ p.external := by
    intro idx
    simp only [processIndex, Option.map_eq_some_iff]
    constructor
    · rintro ⟨⟨j, q⟩, hf, rfl⟩
      have := List.find?_some hf
      have hm := List.mem_of_find?_eq_some hf
      exact ⟨q, Dict.get?_of_mem hwf hm, by simpa using this⟩
    · rintro ⟨p, hp, hm⟩
      rcases hf : c.pools.find? (fun e => a ∈ e.2.external) with _ | ⟨j, q⟩
      · have := List.find?_eq_none.mp hf _ (Dict.mem_of_get? hp)
        simp [hm] at this
      · have h1 := List.find?_some hf
        have h2 := Dict.get?_of_mem hwf (List.mem_of_find?_eq_some hf)
        exact ⟨(j, q), hf, hdj j idx q p a h2 hp (by simpa using h1) hm⟩
  refine ⟨key, ?_⟩
  constructor
  · intro hn
    rcases hm : c.mapping.get? a with _ | i
    · rfl
    · obtain ⟨idx, p, hp, ha, _⟩ := (hag a i).mp hm
      have := (key idx).mpr ⟨p, hp, ha⟩
      rw [hn] at this; simp at this
  · intro hn
    rcases hm : processIndex c a with _ | idx
    · rfl
    · obtain ⟨p, hp, ha⟩ := (key idx).mp hm
      have := (hag a p.internal).mpr ⟨idx, p, hp, ha, rfl⟩
      rw [hn] at this; simp at this

/-- **C28** (addresses): the address list has one address per pool, in the order the pools were added -/
theorem externalAddresses_all {c : Config} (h : Hist c) :
    (externalAddresses c none).map some = c.pools.map (fun e => e.2.external.head?) := by
  obtain ⟨⟨hwf, hne, _⟩, _⟩ := hist_ok h
  have : ∀ l : List (Nat × PoolConf), (∀ e ∈ l, e.2.external ≠ []) →
      (l.filterMap (fun e => e.2.external.head?)).map some = l.map (fun e => e.2.external.head?) := by
    intro l
    induction l with
    | nil => simp
    | cons e l ih =>
      intro hl
      rcases he : e.2.external with _ | ⟨x, xs⟩
      · exact absurd he (hl e (by simp))
      · simp only [List.filterMap_cons, he, List.head?_cons, List.map_cons]
        rw [ih (fun e' he' => hl e' (by simp [he']))]
  exact this _ (fun e he => hne e.1 e.2 (Dict.get?_of_mem hwf he))

/-- **C28** (labels): the address list of a label is the first addresses of exactly the pools with that label -/
theorem externalAddresses_label {c : Config} (h : Hist c) (l : String) (a : Addr) :
    a ∈ externalAddresses c (some l) ↔
      ∃ idx p, c.pools.get? idx = some p ∧ p.label = some l ∧ p.external.head? = some a := by
  obtain ⟨⟨hwf, hne, _⟩, _⟩ := hist_ok h
  simp only [externalAddresses, List.mem_filterMap]
  constructor
  · rintro ⟨⟨idx, p⟩, hm, he⟩
    simp only at he
    split at he
    · next hl => exact ⟨idx, p, Dict.get?_of_mem hwf hm, hl, he⟩
    · simp at he
  · rintro ⟨idx, p, hp, hl, he⟩
    exact ⟨(idx, p), Dict.mem_of_get? hp, by simp [hl, he]⟩

/-- **C28** (indices): process indices are all different and each has its first address -/
theorem processIndexes_nodup {c : Config} (h : Hist c) : (processIndexes c).Nodup ∧
    ∀ idx, idx ∈ processIndexes c → ∃ a, externalAddress c idx = some a ∧ processIndex c a = some idx := by
  obtain ⟨⟨hwf, hne, hdj⟩, hag⟩ := hist_ok h
  refine ⟨hwf, fun idx hi => ?_⟩
  have : (c.pools.get? idx).isSome := (Dict.get?_isSome_iff _ _).mpr hi
  rcases hg : c.pools.get? idx with _ | p
  · rw [hg] at this; simp at this
  · rcases he : p.external with _ | ⟨x, xs⟩
    · exact absurd he (hne idx p hg)
    · exact ⟨x, by simp [externalAddress, hg, he], ((processIndex_exact h x).1 idx).mpr ⟨p, hg, by simp [he]⟩⟩

/-- a pool with three processes, the last removed again and a new one added and re-addressed -/
def sampleConfig : Config :=
  ⟨[(0, ⟨some "main", some "unixsocket:///0", ["h:1"]⟩), (1, ⟨some "gpu", some "unixsocket:///1", ["h:2"]⟩),
    (3, ⟨some "gpu", some "unixsocket:///3", ["h:4"]⟩)],
   [("h:1", some "unixsocket:///0"), ("h:2", some "unixsocket:///1"), ("h:4", some "unixsocket:///3")]⟩

theorem sample_hist : Hist sampleConfig := by
  refine .step (op := .reset 3 ["h:4"]) (.step (op := .add 3 ⟨some "gpu", some "unixsocket:///3", ["h:0"]⟩)
    (.step (op := .remove 2) (.step (op := .add 2 ⟨none, some "unixsocket:///2", ["h:3"]⟩)
    (.step (op := .add 1 ⟨some "gpu", some "unixsocket:///1", ["h:2"]⟩)
    (.step (op := .add 0 ⟨some "main", some "unixsocket:///0", ["h:1"]⟩) .empty ?_ rfl) ?_ rfl) ?_ rfl) ?_ rfl) ?_ rfl) ?_ rfl
  · simp [Proper, empty]
  · simp [Proper, empty, addPool, Dict.set, Dict.get?, setAll]
  · simp [Proper, empty, addPool, Dict.set, Dict.get?, setAll]; grind
  · simp [Proper, empty, addPool, Dict.set, Dict.get?, setAll]
  · simp [Proper, empty, addPool, Dict.set, Dict.erase, Dict.get?, setAll]; grind
  · simp [Proper, empty, addPool, Dict.set, Dict.erase, Dict.get?, setAll]; grind

/-- **C28 refuted** for pools with several addresses: removing the pool leaves its other addresses mapped -/
theorem remove_leaves_addresses_refuted :
    ∃ c c', Agrees c ∧ Sane c ∧ removePool c 0 = some c' ∧ c'.pools = [] ∧ c'.mapping.get? "h:2" = some (some "i") := by
  refine ⟨⟨[(0, ⟨none, some "i", ["h:1", "h:2"]⟩)], [("h:1", some "i"), ("h:2", some "i")]⟩, _, ?_, ?_, rfl, by decide, by decide⟩
  · intro a i
    simp only [Dict.get?_cons, Dict.get?_nil]
    constructor
    · intro h
      refine ⟨0, _, rfl, ?_, ?_⟩
      · by_cases h1 : "h:1" = a
        · subst h1; simp
        · by_cases h2 : "h:2" = a
          · subst h2; simp
          · simp [h1, h2] at h
      · by_cases h1 : "h:1" = a
        · subst h1; simpa using h
        · by_cases h2 : "h:2" = a
          · subst h2; simpa using h
          · simp [h1, h2] at h
    · rintro ⟨idx, p, hp, ha, hi⟩
      split at hp
      · cases hp
        simp at ha
        rcases ha with rfl | rfl <;> simpa using hi
      · simp at hp
  · refine ⟨by simp [Dict.WF, Dict.keys], ?_, ?_⟩
    · intro idx p hp
      simp only [Dict.get?_cons, Dict.get?_nil] at hp
      split at hp
      · cases hp; simp
      · simp at hp
    · intro i j p q a hi hj _ _
      simp only [Dict.get?_cons, Dict.get?_nil] at hi hj
      split at hi <;> split at hj <;> simp_all

/-- **C28 refuted** where the internal address is the external one (Windows): re-addressing updates the mapping
but the pool's entry keeps the old internal address -/
theorem reset_internal_stale_refuted :
    resetExternal ⟨[(0, ⟨none, some "h:0", ["h:0"]⟩)], [("h:0", some "h:0")]⟩ 0 ["h:7"] =
      some ⟨[(0, ⟨none, some "h:0", ["h:7"]⟩)], [("h:7", some "h:7")]⟩ := by decide

/-- **C28 refuted** for a re-used process index: the old addresses stay mapped -/
theorem readd_index_stale_refuted :
    (addPool (addPool empty 0 ⟨none, some "i", ["h:1"]⟩) 0 ⟨none, some "j", ["h:2"]⟩).mapping.get? "h:1" = some (some "i") := by
  decide

/-! ## C27 -/

theorem mem_addresses {c : Config} (h : Hist c) {a : Addr} :
    a ∈ externalAddresses c none ↔ ∃ idx p, c.pools.get? idx = some p ∧ p.external.head? = some a := by
  obtain ⟨⟨hwf, hne, _⟩, _⟩ := hist_ok h
  simp only [externalAddresses, List.mem_filterMap]
  constructor
  · rintro ⟨⟨idx, p⟩, hm, he⟩; exact ⟨idx, p, Dict.get?_of_mem hwf hm, he⟩
  · rintro ⟨idx, p, hp, he⟩; exact ⟨(idx, p), Dict.mem_of_get? hp, he⟩

theorem choice_ok {l : List Addr} {r : Nat} {a : Addr} (h : choice l r = .ok a) : a ∈ l := by
  simp only [choice] at h
  split at h
  · next x hx => cases h; exact List.mem_of_getElem? hx
  · simp at h

theorem choice_error (l : List Addr) (r : Nat) (e : Err) : choice l r = .error e ↔ l = [] ∧ e = .indexError := by
  simp only [choice]
  rcases l with _ | ⟨x, xs⟩
  · simp [eq_comm]
  · have hlt : r % (x :: xs).length < (x :: xs).length := Nat.mod_lt _ (by simp)
    rw [List.getElem?_eq_getElem hlt]
    simp

/-- every address of the list can be the choice -/
theorem choice_all {l : List Addr} {a : Addr} (h : a ∈ l) : ∃ r, choice l r = .ok a := by
  obtain ⟨r, hr⟩ := List.mem_iff_getElem?.mp h
  have hlt := (List.getElem?_eq_some_iff.mp hr).1
  exact ⟨r, by simp [choice, Nat.mod_eq_of_lt hlt, hr]⟩

/-- **C27** AddressSpecified: the given address, always (also one that is no address of the pool) -/
theorem alloc_address (c : Config) (al : Addr → List Strategy) (r : Nat) (a : Addr) :
    allocate (.addressSpecified a) c al r = .ok a := rfl

/-- **C27** MainPool: the address of the pool added first; an error iff there is none -/
theorem alloc_main {c : Config} (h : Hist c) (al : Addr → List Strategy) (r : Nat) :
    (∀ a, allocate .mainPool c al r = .ok a ↔ (externalAddresses c none).head? = some a) ∧
    ((∃ e, allocate .mainPool c al r = .error e) ↔ c.pools = []) := by
  have hall := externalAddresses_all h
  obtain ⟨⟨hwf, hne, _⟩, _⟩ := hist_ok h
  simp only [allocate, processIndexes]
  rcases hp : c.pools with _ | ⟨⟨i, p⟩, rest⟩
  · rw [hp] at hall
    simp [Dict.keys, orIndexError, externalAddresses, hp]
  · have hg : c.pools.get? i = some p := by simp [hp, Dict.get?]
    rcases he : p.external with _ | ⟨x, xs⟩
    · exact absurd he (hne i p hg)
    · simp [Dict.keys, externalAddress, Dict.get?, he, orIndexError, externalAddresses, hp]

/-- **C27** Random: some process of the pool, any of them; an error iff the pool has none -/
theorem alloc_random (c : Config) (al : Addr → List Strategy) :
    (∀ r a, allocate .random c al r = .ok a → a ∈ externalAddresses c none) ∧
    (∀ a ∈ externalAddresses c none, ∃ r, allocate .random c al r = .ok a) ∧
    (∀ r, allocate .random c al r = .error .indexError ↔ externalAddresses c none = []) :=
  ⟨fun _ _ h => choice_ok h, fun _ h => choice_all h, fun r => by simp [allocate, choice_error]⟩

/-- **C27** RandomSubPool: some process but the first one (the main pool), any of them; an error iff there is
none -/
theorem alloc_random_sub {c : Config} (h : Hist c) (al : Addr → List Strategy) :
    (∀ r a, allocate .randomSubPool c al r = .ok a →
      ∃ idx p, c.pools.get? idx = some p ∧ p.external.head? = some a ∧ (processIndexes c)[0]? ≠ some idx) ∧
    (∀ a ∈ (externalAddresses c none).drop 1, ∃ r, allocate .randomSubPool c al r = .ok a) ∧
    (∀ r, allocate .randomSubPool c al r = .error .indexError ↔ c.pools.length ≤ 1) := by
  have hall := externalAddresses_all h
  have hlen : (externalAddresses c none).length = c.pools.length := by
    have := congrArg List.length hall; simpa using this
  obtain ⟨⟨hwf, hne, hdj⟩, _⟩ := hist_ok h
  refine ⟨fun r a ha => ?_, fun _ h => choice_all h, fun r => ?_⟩
  · have hm := choice_ok ha
    rcases hp : c.pools with _ | ⟨⟨i, p⟩, rest⟩
    · rw [hp] at hlen; simp at hlen; rw [hlen] at hm; simp at hm
    · have hg : c.pools.get? i = some p := by simp [hp, Dict.get?]
      rcases he : p.external with _ | ⟨x, xs⟩
      · exact absurd he (hne i p hg)
      · simp only [externalAddresses, hp, List.filterMap_cons, he, List.head?_cons, List.drop_succ_cons, List.drop_zero] at hm
        obtain ⟨⟨j, q⟩, hj, hq⟩ := List.mem_filterMap.mp hm
        have hjc : (j, q) ∈ c.pools := by rw [hp]; simp [hj]
        refine ⟨j, q, by rw [← hp]; exact Dict.get?_of_mem hwf hjc, hq, ?_⟩
        simp only [processIndexes, Dict.keys, hp, List.map_cons, List.getElem?_cons_zero, ne_eq, Option.some.injEq]
        rintro rfl
        rw [hp] at hwf
        simp only [Dict.WF, Dict.keys, List.map_cons, List.nodup_cons] at hwf
        exact hwf.1 (List.mem_map.mpr ⟨_, hj, rfl⟩)
  · simp only [allocate, choice_error, and_true]
    rw [List.drop_eq_nil_iff, hlen]

theorem alloc_process_index_aux {c : Config} (h : Hist c) (al : Addr → List Strategy) (r : Nat) (i : Int) :
    allocate (.processIndex i) c al r = orIndexError (pyIndex (externalAddresses c none) i) := by
  have hall := externalAddresses_all h
  have hlen : (externalAddresses c none).length = c.pools.length := by
    have := congrArg List.length hall; simpa using this
  obtain ⟨⟨hwf, hne, _⟩, _⟩ := hist_ok h
  have key : ∀ n : Nat, ((processIndexes c)[n]?).bind (externalAddress c) = (externalAddresses c none)[n]? := by
    intro n
    have h1 := congrArg (·[n]?) hall
    simp only [List.getElem?_map] at h1
    simp only [processIndexes, Dict.keys, List.getElem?_map]
    rcases hn : c.pools[n]? with _ | ⟨j, p⟩
    · rw [hn] at h1; simp at h1 ⊢; exact h1
    · rw [hn] at h1
      have hg := Dict.get?_of_mem hwf (List.mem_of_getElem? hn)
      simp only [Option.map_some, Option.bind_some, externalAddress, hg]
      simp only [Option.map_some] at h1
      rcases hx : (externalAddresses c none)[n]? with _ | x
      · rw [hx] at h1; simp at h1
      · rw [hx] at h1; simp at h1; exact h1.symm
  have hl2 : (processIndexes c).length = (externalAddresses c none).length := by simp [processIndexes, Dict.keys, hlen]
  simp only [allocate]
  congr 1
  simp only [pyIndex, hl2]
  split
  · exact key _
  · split
    · exact key _
    · rfl

/-- **C27** ProcessIndex: the process at that position, negative positions counting from the end; IndexError for any
other number -/
theorem alloc_process_index {c : Config} (h : Hist c) (al : Addr → List Strategy) (r : Nat) (i : Int) :
    (∀ (n : Nat) a, (externalAddresses c none)[n]? = some a → i = n → allocate (.processIndex i) c al r = .ok a) ∧
    (∀ (n : Nat) a, (externalAddresses c none)[n]? = some a → i = (n : Int) - (externalAddresses c none).length →
      allocate (.processIndex i) c al r = .ok a) ∧
    ((i < -((externalAddresses c none).length : Int) ∨ ((externalAddresses c none).length : Int) ≤ i) →
      allocate (.processIndex i) c al r = .error .indexError) := by
  have hx := alloc_process_index_aux h al r i
  rw [hx]
  refine ⟨?_, ?_, ?_⟩
  · rintro n a hn rfl
    simp [pyIndex, hn, orIndexError]
  · rintro n a hn rfl
    have hlt : n < (externalAddresses c none).length := (List.getElem?_eq_some_iff.mp hn).1
    have e1 : ¬ (0 : Int) ≤ (n : Int) - (externalAddresses c none).length := by omega
    have e2 : ((externalAddresses c none).length : Int) + ((n : Int) - (externalAddresses c none).length) = n := by omega
    simp only [pyIndex, if_neg e1, e2]
    simp [hn, orIndexError]
  · intro hi
    unfold pyIndex
    split
    · next h0 =>
      have : (externalAddresses c none)[i.toNat]? = none := by rw [List.getElem?_eq_none_iff]; omega
      rw [this]; rfl
    · next h0 =>
      rw [if_neg (by omega)]; rfl

/-- the main pool is position 0, and `-1` is the last process -/
example : allocate (.processIndex (-1)) sampleConfig (fun _ => []) 0 = .ok "h:4" := by rfl

/-- **C27** RandomLabel: some process with the label, any of them; IndexError iff no process has it.  (The label
None stands for all processes.) -/
theorem alloc_label {c : Config} (h : Hist c) (al : Addr → List Strategy) (l : String) :
    (∀ r a, allocate (.randomLabel (some l)) c al r = .ok a →
      ∃ idx p, c.pools.get? idx = some p ∧ p.label = some l ∧ p.external.head? = some a) ∧
    (∀ idx p a, c.pools.get? idx = some p → p.label = some l → p.external.head? = some a →
      ∃ r, allocate (.randomLabel (some l)) c al r = .ok a) ∧
    (∀ r, allocate (.randomLabel (some l)) c al r = .error .indexError ↔
      ∀ idx p, c.pools.get? idx = some p → p.label ≠ some l) := by
  refine ⟨fun r a ha => (externalAddresses_label h l a).mp (choice_ok ha),
    fun idx p a hp hl ha => choice_all ((externalAddresses_label h l a).mpr ⟨idx, p, hp, hl, ha⟩), fun r => ?_⟩
  simp only [allocate, choice_error, and_true]
  obtain ⟨⟨hwf, hne, _⟩, _⟩ := hist_ok h
  constructor
  · intro he idx p hp hl
    rcases hx : p.external with _ | ⟨x, xs⟩
    · exact absurd hx (hne idx p hp)
    · have := (externalAddresses_label h l x).mpr ⟨idx, p, hp, hl, by simp [hx]⟩
      rw [he] at this; simp at this
  · intro hno
    refine List.eq_nil_iff_forall_not_mem.mpr fun a ha => ?_
    obtain ⟨idx, p, hp, hl, _⟩ := (externalAddresses_label h l a).mp ha
    exact hno idx p hp hl

/-- an address where no actor was allocated with the same label and mark -/
def Idle (al : Addr → List Strategy) (l : Option String) (m : String) (a : Addr) : Prop := Strategy.idleLabel l m ∉ al a

theorem sameIdle_iff (s : Strategy) (l : Option String) (m : String) : sameIdle s (.idleLabel l m) = true ↔ s = .idleLabel l m := by
  cases s <;> simp [sameIdle]

theorem firstIdle_spec (al : Addr → List Strategy) (l : Option String) (m : String) (as : List Addr) :
    (∀ a, firstIdle (.idleLabel l m) al as = .ok a → a ∈ as ∧ Idle al l m a) ∧
    (∀ e, firstIdle (.idleLabel l m) al as = .error e ↔ (e = .noIdleSlot ∧ ∀ a ∈ as, ¬ Idle al l m a)) := by
  induction as with
  | nil => simp [firstIdle, eq_comm]
  | cons x xs ih =>
    have hiff : (al x).any (fun s => sameIdle s (.idleLabel l m)) = true ↔ ¬ Idle al l m x := by
      simp only [List.any_eq_true, sameIdle_iff, Idle]
      constructor
      · rintro ⟨s, hs, rfl⟩; simpa using hs
      · intro h; exact ⟨_, by simpa using h, rfl⟩
    simp only [firstIdle]
    split
    · next hocc =>
      refine ⟨fun a ha => ?_, fun e => ?_⟩
      · obtain ⟨h1, h2⟩ := ih.1 a ha; exact ⟨by simp [h1], h2⟩
      · rw [ih.2 e]; simp [hiff.mp hocc]
    · next hfree =>
      have hid : Idle al l m x := by
        by_cases h : Idle al l m x
        · exact h
        · exact absurd (hiff.mpr h) hfree
      refine ⟨fun a ha => ?_, fun e => ?_⟩
      · cases ha; exact ⟨by simp, hid⟩
      · simp; intro _ hn; exact absurd hid hn

/-- **C27 / C26** IdleLabel: a process with the label where no actor with the same label and mark is recorded;
NoIdleSlot iff every process with the label has one -/
theorem alloc_idle {c : Config} (h : Hist c) (al : Addr → List Strategy) (r : Nat) (l m : String) :
    (∀ a, allocate (.idleLabel (some l) m) c al r = .ok a →
      (∃ idx p, c.pools.get? idx = some p ∧ p.label = some l ∧ p.external.head? = some a) ∧ Idle al (some l) m a) ∧
    (∀ e, allocate (.idleLabel (some l) m) c al r = .error e ↔
      (e = .noIdleSlot ∧ ∀ idx p a, c.pools.get? idx = some p → p.label = some l → p.external.head? = some a →
        ¬ Idle al (some l) m a)) := by
  have hs := firstIdle_spec al (some l) m (externalAddresses c (some l))
  refine ⟨fun a ha => ?_, fun e => ?_⟩
  · obtain ⟨h1, h2⟩ := hs.1 a ha
    exact ⟨(externalAddresses_label h l a).mp h1, h2⟩
  · simp only [allocate]
    rw [hs.2 e]
    constructor
    · rintro ⟨rfl, hall⟩
      exact ⟨rfl, fun idx p a hp hl ha => hall a ((externalAddresses_label h l a).mpr ⟨idx, p, hp, hl, ha⟩)⟩
    · rintro ⟨rfl, hall⟩
      refine ⟨rfl, fun a ha => ?_⟩
      obtain ⟨idx, p, hp, hl, hh⟩ := (externalAddresses_label h l a).mp ha
      exact hall idx p a hp hl hh

/-- one of two labelled processes is taken: the other is found -/
example : allocate (.idleLabel (some "gpu") "x") sampleConfig
    (fun a => if a = "h:2" then [.random, .idleLabel (some "gpu") "x"] else []) 0 = .ok "h:4" := by rfl

end Xoscar.Config
