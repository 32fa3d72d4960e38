import Verif.Model.Lru
import Verif.Proof.Base
/-!
# C39: the LRU cache of coroutine results
-/
namespace Xoscar.Lru
open scoped List

/-! ## Specification -/

/-- the keys of the accepted calls, in order -/
def used (s : St) : List Key := s.calls.filterMap fun c => match c.2 with
  | .of _ => some c.1
  | .closed => none

/-- in the history `h`, `y` was used after the last use of `x` -/
def UsedAfter (h : List Key) (x y : Key) : Prop := ∃ pre suf, h = pre ++ y :: suf ∧ x ∉ y :: suf

/-- accepted calls since the cache was last cleared, and whether it is closed -/
def count : Nat × Bool → Label → Nat × Bool
  | (n, closed), .call _ => if closed then (n, closed) else (n + 1, closed)
  | (_, closed), .clear => (0, closed)
  | (_, closed), .closeWaited _ => (0, closed)
  | (n, _), .close _ => (n, true)
  | (n, _), .openCache => (n, false)
  | x, _ => x

def accepted (ls : List Label) : Nat × Bool := ls.foldl count (0, false)

/-! ## Invariant -/

structure Inv (p : Params) (s : St) : Prop where
  wf : s.cache.WF
  keyed : ∀ k e, s.cache.get? k = some e → ∃ r, s.evals[e]? = some ⟨k, r⟩
  answered : ∀ k e, (k, Ans.of e) ∈ s.calls → ∃ r, s.evals[e]? = some ⟨k, r⟩
  size : ∀ n, p.maxsize = some n → s.cache.length ≤ n
  order : s.cache.keys.Pairwise (UsedAfter (used s))

theorem inv_init (p : Params) : Inv p init :=
  ⟨Dict.WF.nil, by simp [init], by simp [init], by simp [init], by simp [init, Dict.keys]⟩

theorem usedAfter_snoc {h : List Key} {x y z : Key} (hu : UsedAfter h x y) (hne : x ≠ z) : UsedAfter (h ++ [z]) x y := by
  obtain ⟨pre, suf, rfl, hn⟩ := hu
  refine ⟨pre, suf ++ [z], by simp, ?_⟩
  simp only [List.mem_cons, List.mem_append, not_or, List.not_mem_nil, or_false, List.mem_singleton] at hn ⊢
  exact ⟨hn.1, hn.2, hne⟩

theorem usedAfter_last {h : List Key} {x z : Key} (hne : x ≠ z) : UsedAfter (h ++ [z]) x z :=
  ⟨h, [], by simp, by simpa using hne⟩

theorem keys_touch (c : Dict Key Eval) (k : Key) (e : Eval) (h : c.get? k = some e) :
    touch c k = c.erase k ++ [(k, e)] := by simp [touch, h]

theorem get?_append_single (c : Dict Key Eval) (k k' : Key) (e : Eval) (h : k ∉ c.keys) :
    Dict.get? (c ++ [(k, e)]) k' = if k = k' then some e else c.get? k' := by
  rw [← Dict.set_of_not_mem h, Dict.get?_set]

theorem erase_append_single (c : Dict Key Eval) (k : Key) (e : Eval) (h : k ∉ c.keys) : Dict.erase (c ++ [(k, e)]) k = c := by
  induction c with
  | nil => simp [Dict.erase]
  | cons x xs ih =>
    have h1 : ¬ x.1 = k := fun hh => h (by simp [Dict.keys, hh])
    have h2 : k ∉ Dict.keys xs := fun hh => h (by simp only [Dict.keys, List.map_cons]; exact List.mem_cons_of_mem _ hh)
    have := ih h2
    simp only [List.cons_append, Dict.erase]
    simp_all

theorem not_mem_keys_erase (c : Dict Key Eval) (k : Key) : k ∉ (c.erase k).keys := by simp [Dict.mem_keys_erase]

/-- a new use of `k`: `c` without `k`, then `k` -/
theorem order_append {c : Dict Key Eval} {h : List Key} {k : Key} {e : Eval} (hk : k ∉ c.keys)
    (ho : c.keys.Pairwise (UsedAfter h)) : (Dict.keys (c ++ [(k, e)])).Pairwise (UsedAfter (h ++ [k])) := by
  simp only [Dict.keys, List.map_append, List.map_cons, List.map_nil]
  rw [List.pairwise_append]
  refine ⟨?_, by simp, ?_⟩
  · refine List.Pairwise.imp_of_mem ?_ ho
    intro x y hx hy hu
    exact usedAfter_snoc hu (fun hh => hk (hh ▸ hx))
  · intro x hx y hy
    simp at hy; subst hy
    exact usedAfter_last (fun hh => hk (hh ▸ hx))

theorem keys_erase_sublist (c : Dict Key Eval) (k : Key) : (c.erase k).keys <+ c.keys := by
  rw [Dict.keys_erase]; exact List.filter_sublist

theorem WF_append {c : Dict Key Eval} {k : Key} {e : Eval} (hw : c.WF) (hk : k ∉ c.keys) : Dict.WF (c ++ [(k, e)]) := by
  rw [← Dict.set_of_not_mem hk]; exact hw.set _ _

theorem length_erase {c : Dict Key Eval} (hw : c.WF) {k : Key} (hk : k ∈ c.keys) : (c.erase k).length + 1 = c.length := by
  have h1 : (c.erase k).length = (c.erase k).keys.length := by simp [Dict.keys]
  have h2 : c.length = c.keys.length := by simp [Dict.keys]
  rw [h1, h2, Dict.keys_erase]
  have h3 : (c.keys.filter (· ≠ k)) = c.keys.erase k := by
    rw [List.Nodup.erase_eq_filter hw]; congr 1; funext x; by_cases hx : x = k <;> simp [hx]
  rw [h3, List.length_erase_of_mem hk]
  have := List.length_pos_of_mem hk
  omega

/-- the cache after a miss: what was left of it after making room, then the key -/
theorem miss_cache (p : Params) (s : St) (k : Key) (hw : s.cache.WF) (hk : k ∉ s.cache.keys) :
    (∃ c, (miss p s k).cache = c ++ [(k, s.evals.length)] ∧ (c = s.cache ∨ (c = s.cache.drop 1 ∧ s.cache ≠ [] ∧ ∃ n, p.maxsize = some n ∧ s.cache.length ≥ n)) ∧
      (∀ n, p.maxsize = some n → s.cache.length < n → c = s.cache)) ∨
    ((miss p s k).cache = [] ∧ s.cache = [] ∧ p.maxsize = some 0) := by
  have hset := Dict.set_of_not_mem (v := s.evals.length) hk
  have touchEnd : ∀ (c : Dict Key Eval), k ∉ c.keys → touch (c ++ [(k, s.evals.length)]) k = c ++ [(k, s.evals.length)] := by
    intro c hc
    rw [touch, get?_append_single _ _ _ _ hc, if_pos rfl]
    have : Dict.erase (c ++ [(k, s.evals.length)]) k = c := by
      exact erase_append_single c k _ hc
    simp [this]
  rcases hm : p.maxsize with _ | n
  · left
    exact ⟨s.cache, by simp only [miss, hm, hset]; exact touchEnd _ hk, .inl rfl, by simp⟩
  · simp only [miss, hm, hset]
    split
    · next hlt =>
      rcases hc : s.cache with _ | ⟨x, xs⟩
      · right
        simp only [hc, List.nil_append, List.length_singleton] at hlt ⊢
        have : n = 0 := by omega
        subst this
        exact ⟨by simp [touch], trivial, rfl⟩
      · left
        have hk' : k ∉ Dict.keys xs := by rw [hc] at hk; simp [Dict.keys] at hk ⊢; exact hk.2
        refine ⟨xs, ?_, .inr ⟨by simp, by simp, n, rfl, by rw [hc] at hlt; simp at hlt ⊢; omega⟩, ?_⟩
        · simpa using touchEnd xs hk'
        · intro n' hn' hlt'
          cases hn'
          rw [hc] at hlt
          simp at hlt hlt'; omega
    · exact .inl ⟨s.cache, touchEnd _ hk, .inl rfl, fun _ _ _ => rfl⟩

theorem used_snoc_of (s : St) (k : Key) (e : Eval) (s' : St) (h : s'.calls = s.calls ++ [(k, .of e)]) :
    used s' = used s ++ [k] := by simp [used, h]

theorem get?_drop {c : Dict Key Eval} (hw : c.WF) {k : Key} {e : Eval} (h : Dict.get? (c.drop 1) k = some e) : c.get? k = some e := by
  exact Dict.get?_of_mem hw (List.mem_of_mem_drop (Dict.mem_of_get? h))

theorem keys_drop_sublist (c : Dict Key Eval) (n : Nat) : Dict.keys (c.drop n) <+ c.keys := by
  simp only [Dict.keys]; exact (List.drop_sublist n c).map _

theorem getElem?_app {evals : List Ev} {k k' : Key} {e : Eval} {r : Option Result} (h : evals[e]? = some ⟨k, r⟩) :
    (evals ++ [⟨k', none⟩])[e]? = some ⟨k, r⟩ := by
  rw [List.getElem?_append_left (List.getElem?_eq_some_iff.mp h).1]; exact h

theorem inv_miss {p : Params} {s : St} (h : Inv p s) {k : Key} (hk : k ∉ s.cache.keys) : Inv p (miss p s k) := by
  obtain ⟨h1, h2, h3, h4, h5⟩ := h
  have hans : ∀ k' e, (k', Ans.of e) ∈ (miss p s k).calls → ∃ r, (miss p s k).evals[e]? = some ⟨k', r⟩ := by
    intro k' e hm
    simp only [miss, List.mem_append, List.mem_singleton] at hm ⊢
    rcases hm with hm | hm
    · obtain ⟨r, hr⟩ := h3 _ _ hm; exact ⟨r, getElem?_app hr⟩
    · cases hm; exact ⟨none, by simp⟩
  have hus : used (miss p s k) = used s ++ [k] := used_snoc_of s k _ _ rfl
  rcases miss_cache p s k h1 hk with ⟨c, hc, hc', hsmall⟩ | ⟨hc, he, hmx⟩
  · have hsub : c.keys <+ s.cache.keys := by
      rcases hc' with rfl | ⟨rfl, _⟩
      · exact List.Sublist.refl _
      · exact keys_drop_sublist _ _
    have hkc : k ∉ c.keys := fun hh => hk (hsub.subset hh)
    have hwc : c.WF := List.Sublist.nodup hsub h1
    have hgc : ∀ k e, c.get? k = some e → s.cache.get? k = some e := by
      rcases hc' with rfl | ⟨rfl, _⟩
      · exact fun _ _ h => h
      · exact fun _ _ h => get?_drop h1 h
    refine ⟨?_, ?_, hans, ?_, ?_⟩
    · rw [hc]; exact WF_append hwc hkc
    · intro k' e he
      rw [hc, get?_append_single _ _ _ _ hkc] at he
      split at he
      · next hh => subst hh; cases he; exact ⟨none, by simp [miss]⟩
      · obtain ⟨r, hr⟩ := h2 _ _ (hgc _ _ he)
        exact ⟨r, getElem?_app hr⟩
    · intro n hn
      rw [hc]
      have := h4 n hn
      by_cases hlt : s.cache.length < n
      · rw [hsmall n hn hlt]; simp; omega
      · rcases hc' with rfl | ⟨rfl, hne, n', hn', hge⟩
        · -- then nothing was evicted although it is full: impossible
          exfalso
          have hset := Dict.set_of_not_mem (v := s.evals.length) hk
          have hlen : (miss p s k).cache.length ≤ n := by
            have htl : ∀ c : Dict Key Eval, Dict.WF c → (touch c k).length = c.length := by
              intro c hw
              simp only [touch]
              split
              · next e he =>
                have := length_erase hw ((Dict.get?_isSome_iff c k).mp (by simp [he]))
                simp; omega
              · rfl
            simp only [miss, hn, hset]
            have hw' := WF_append (e := s.evals.length) h1 hk
            split
            · rw [htl _ (List.Sublist.nodup (keys_drop_sublist _ _) hw')]; simp; omega
            · next hh => rw [htl _ hw']; omega
          rw [hc] at hlen
          simp at hlen; omega
        · rw [hn] at hn'; cases hn'
          have : s.cache.length > 0 := List.length_pos_iff.mpr hne
          simp; omega
    · rw [hc, hus]; exact order_append hkc (List.Pairwise.sublist hsub h5)
  · refine ⟨?_, ?_, hans, ?_, ?_⟩
    · rw [hc]; exact Dict.WF.nil
    · rw [hc]; simp
    · intro n _; rw [hc]; simp
    · rw [hc]; simp [Dict.keys]

theorem inv_hit {p : Params} {s : St} (h : Inv p s) {k : Key} {e : Eval} (hk : s.cache.get? k = some e) : Inv p (hit s k e) := by
  obtain ⟨h1, h2, h3, h4, h5⟩ := h
  have ht : (hit s k e).cache = s.cache.erase k ++ [(k, e)] := keys_touch _ _ _ hk
  have hne := not_mem_keys_erase s.cache k
  have hus : used (hit s k e) = used s ++ [k] := used_snoc_of s k _ _ rfl
  refine ⟨?_, ?_, ?_, ?_, ?_⟩
  · rw [ht]; exact WF_append (h1.erase k) hne
  · intro k' e' he
    rw [ht, get?_append_single _ _ _ _ hne] at he
    split at he
    · next hh => subst hh; cases he; exact h2 _ _ hk
    · rw [Dict.get?_erase] at he
      split at he
      · simp at he
      · exact h2 _ _ he
  · intro k' e' hm
    simp only [hit, List.mem_append, List.mem_singleton] at hm ⊢
    rcases hm with hm | hm
    · exact h3 _ _ hm
    · cases hm; exact h2 _ _ hk
  · intro n hn
    rw [ht]
    have := length_erase h1 ((Dict.get?_isSome_iff s.cache k).mp (by simp [hk]))
    have := h4 n hn
    simp; omega
  · rw [ht, hus]; exact order_append hne (List.Pairwise.sublist (keys_erase_sublist _ _) h5)

theorem inv_sub {p : Params} {s : St} (h : Inv p s) (k : Key) : Inv p { s with cache := s.cache.erase k } := by
  obtain ⟨h1, h2, h3, h4, h5⟩ := h
  refine ⟨h1.erase k, fun k' e he => ?_, h3, fun n hn => ?_, List.Pairwise.sublist (keys_erase_sublist _ _) h5⟩
  · simp only [Dict.get?_erase] at he
    split at he
    · simp at he
    · exact h2 _ _ he
  · have : (s.cache.erase k).length ≤ s.cache.length := by
      have h := (keys_erase_sublist s.cache k).length_le
      simpa [Dict.keys] using h
    have := h4 n hn
    exact Nat.le_trans ‹_› this

theorem inv_call {p : Params} {s : St} (h : Inv p s) (k : Key) : Inv p (call p s k) := by
  simp only [call]
  split
  · refine ⟨h.wf, h.keyed, fun k' e hm => ?_, h.size, ?_⟩
    · simp at hm; exact h.answered _ _ hm
    · simpa [used] using h.order
  · split
    · next hn => exact inv_miss h ((Dict.get?_eq_none_iff _ _).mp hn)
    · next e he =>
      split
      · exact inv_hit h he
      · split
        · exact inv_hit h he
        · exact inv_miss (inv_sub h k) (not_mem_keys_erase _ _)

theorem inv_step {p : Params} {s s' : St} {l : Label} (h : Inv p s) (hs : step p s l = some s') : Inv p s' := by
  obtain ⟨h1, h2, h3, h4, h5⟩ := h
  cases l with
  | call k => cases hs; exact inv_call ⟨h1, h2, h3, h4, h5⟩ k
  | finish e r =>
    simp only [step] at hs
    split at hs <;> cases hs
    next k hk =>
      have key : ∀ (k' : Key) (e' : Nat), (∃ r, s.evals[e']? = some ⟨k', r⟩) → ∃ r', (s.evals.set e (Ev.mk k (some r)))[e']? = some ⟨k', r'⟩ := by
        rintro k' e' ⟨r', hr'⟩
        rw [List.getElem?_set]
        split
        · next hh =>
          subst hh
          rw [hk] at hr'; cases hr'
          exact ⟨some r, by simp [(List.getElem?_eq_some_iff.mp hk).1]⟩
        · exact ⟨r', hr'⟩
      exact ⟨h1, fun k' e' he => key _ _ (h2 _ _ he), fun k' e' he => key _ _ (h3 _ _ he), h4, h5⟩
  | invalidate k => cases hs; exact inv_sub ⟨h1, h2, h3, h4, h5⟩ k
  | clear => cases hs; exact ⟨Dict.WF.nil, by simp [clear], h3, by simp [clear], by simp [clear, Dict.keys]⟩
  | close cancel =>
    simp only [step] at hs
    split at hs <;> cases hs
    cases cancel with
    | false => exact ⟨h1, h2, h3, h4, h5⟩
    | true =>
      have key : ∀ (k' : Key) (e' : Nat), (∃ r, s.evals[e']? = some ⟨k', r⟩) →
          ∃ r', (s.evals.mapIdx (fun i ev => if i ∈ s.tasks then Ev.mk ev.key (some .cancelled) else ev))[e']? = some ⟨k', r'⟩ := by
        rintro k' e' ⟨r', hr'⟩
        rw [List.getElem?_mapIdx, hr']
        simp only [Option.map_some]
        split
        · exact ⟨_, rfl⟩
        · exact ⟨_, rfl⟩
      exact ⟨h1, fun k' e' he => key _ _ (h2 _ _ he), fun k' e' he => key _ _ (h3 _ _ he), h4, h5⟩
  | closeWaited i =>
    simp only [step] at hs
    split at hs
    · split at hs <;> cases hs
      exact ⟨Dict.WF.nil, by simp [clear], h3, by simp [clear], by simp [clear, Dict.keys]⟩
    · cases hs
  | openCache =>
    simp only [step] at hs
    split at hs <;> cases hs
    exact ⟨h1, h2, h3, h4, h5⟩

theorem inv_run {p : Params} {ls : List Label} {s : St} (h : Run p ls s) : Inv p s := by
  induction h with
  | init => exact inv_init p
  | snoc _ hs ih => exact inv_step ih hs

/-! ## C39 -/

/-- **C39** (transparent): whatever happened, a call for a key gets the result of an evaluation of the function for the
same key -/
theorem answer_own_key {p : Params} {ls : List Label} {s : St} (h : Run p ls s) {k : Key} {e : Eval}
    (hc : (k, Ans.of e) ∈ s.calls) : ∃ r, s.evals[e]? = some ⟨k, r⟩ := (inv_run h).answered k e hc

/-- **C39** (bounded): never more than `maxsize` entries -/
theorem size_le {p : Params} {ls : List Label} {s : St} (h : Run p ls s) {n : Nat} (hn : p.maxsize = some n) :
    s.cache.length ≤ n := (inv_run h).size n hn

theorem mem_keys_hit {s : St} {k : Key} {e : Eval} (hk : s.cache.get? k = some e) (x : Key) :
    x ∈ s.cache.keys → x ∈ (hit s k e).cache.keys := by
  intro hx
  have : (hit s k e).cache = s.cache.erase k ++ [(k, e)] := keys_touch _ _ _ hk
  rw [this]
  simp only [Dict.keys, List.map_append, List.mem_append]
  by_cases hxk : x = k
  · subst hxk; right; simp
  · left; exact (Dict.mem_keys_erase _ _ _).mpr ⟨hx, hxk⟩

theorem evict_miss {p : Params} {s : St} (h : Inv p s) {k x : Key} (hk : k ∉ s.cache.keys) (hx : x ∈ s.cache.keys)
    (hx' : x ∉ (miss p s k).cache.keys) :
    (∀ y ∈ (miss p s k).cache.keys, UsedAfter (used (miss p s k)) x y) ∧ (∃ n, p.maxsize = some n ∧ s.cache.length = n) ∧
      ∀ z ∈ s.cache.keys, z ≠ x → z ∈ (miss p s k).cache.keys := by
  have hus : used (miss p s k) = used s ++ [k] := used_snoc_of s k _ _ rfl
  have hxk : x ≠ k := fun hh => hk (hh ▸ hx)
  rcases miss_cache p s k h.wf hk with ⟨c, hc, hc', hsmall⟩ | ⟨hc, he, hmx⟩
  · rw [hc] at hx' ⊢
    rcases hc' with rfl | ⟨rfl, hne, n, hn, hge⟩
    · exact absurd (by simp only [Dict.keys, List.map_append, List.mem_append]; exact .inl hx) hx'
    · rcases hcc : s.cache with _ | ⟨a, as⟩
      · exact absurd hcc hne
      · rw [hcc] at hx hx'
        have hord := h.order
        rw [hcc] at hord
        simp only [Dict.keys, List.map_cons, List.pairwise_cons] at hord
        simp only [Dict.keys, List.map_cons, List.mem_cons, List.drop_succ_cons, List.drop_zero, List.map_append, List.mem_append,
          List.map_nil, List.not_mem_nil, or_false, not_or] at hx hx' ⊢
        have hxa : x = a.1 := by
          rcases hx with hx | hx
          · exact hx
          · exact absurd hx hx'.1
        refine ⟨?_, ⟨n, hn, Nat.le_antisymm (h.size n hn) hge |> fun e => by rw [← hcc]; exact e⟩, ?_⟩
        · rintro y (hy | hy)
          · rw [hus, hxa]; exact usedAfter_snoc (hord.1 y hy) (hxa ▸ hxk)
          · subst hy; rw [hus]; exact usedAfter_last hxk
        · rintro z (hz | hz) hne'
          · exact absurd (hz.trans hxa.symm) hne'
          · exact .inl hz
  · rw [he] at hx; simp [Dict.keys] at hx

/-- **C39** (eviction): if a call pushes another key out of the cache, then the cache was full, only this key is pushed out, and
every key that stays was used after its last use: it was the least recently used one -/
theorem evicts_lru {p : Params} {ls : List Label} {s : St} (h : Run p ls s) {k x : Key} (hx : x ∈ s.cache.keys)
    (hx' : x ∉ (call p s k).cache.keys) (hxk : x ≠ k) :
    (∀ y ∈ (call p s k).cache.keys, UsedAfter (used (call p s k)) x y) ∧
      (∃ n, p.maxsize = some n ∧ s.cache.length = n) ∧
      ∀ z ∈ s.cache.keys, z ≠ x → z ∈ (call p s k).cache.keys := by
  have hi := inv_run h
  by_cases hcl : s.closed = true
  · simp only [call, hcl, if_true] at hx'; exact absurd hx hx'
  simp only [call, hcl, if_false, Bool.false_eq_true] at hx' ⊢
  rcases hg : s.cache.get? k with _ | e
  · simp only [hg] at hx' ⊢
    exact evict_miss hi ((Dict.get?_eq_none_iff _ _).mp hg) hx hx'
  · simp only [hg] at hx' ⊢
    split at hx'
    · exact absurd (mem_keys_hit hg x hx) hx'
    · next r hr =>
      split at hx'
      · exact absurd (mem_keys_hit hg x hx) hx'
      · next hno =>
        -- the key itself was in the cache: there is room for it again, nothing is pushed out
        exfalso
        have hi' := inv_sub hi k
        have hxe : x ∈ (s.cache.erase k).keys := (Dict.mem_keys_erase _ _ _).mpr ⟨hx, hxk⟩
        have hne := not_mem_keys_erase s.cache k
        have hlen := length_erase hi.wf ((Dict.get?_isSome_iff s.cache k).mp (by simp [hg]))
        obtain ⟨_, ⟨n, hn, hfull⟩, _⟩ := evict_miss hi' hne hxe hx'
        have h1 := hi.size n hn
        have h2 : (s.cache.erase k).length = n := hfull
        omega

/-- **C39** (keeps the recent ones): a call leaves its key in the cache, unless `maxsize` is 0 -/
theorem called_cached {p : Params} {ls : List Label} {s : St} (h : Run p ls s) (hc : s.closed = false) (k : Key)
    (h0 : p.maxsize ≠ some 0) : k ∈ (call p s k).cache.keys := by
  have hi := inv_run h
  have hmiss : ∀ s : St, Inv p s → k ∉ s.cache.keys → k ∈ (miss p s k).cache.keys := by
    intro s hi hk
    rcases miss_cache p s k hi.wf hk with ⟨c, hc, _⟩ | ⟨_, _, hm⟩
    · rw [hc]; simp [Dict.keys]
    · exact absurd hm h0
  simp only [call, hc, Bool.false_eq_true, if_false]
  rcases hg : s.cache.get? k with _ | e
  · exact hmiss s hi ((Dict.get?_eq_none_iff _ _).mp hg)
  · have hk := (Dict.get?_isSome_iff s.cache k).mp (by simp [hg])
    simp only
    split
    · exact mem_keys_hit hg k hk
    · split
      · exact mem_keys_hit hg k hk
      · exact hmiss _ (by have := inv_sub hi k; rw [hc] at this; exact this) (not_mem_keys_erase _ _)

/-- **C39** (sharing): a call for a key that is in the cache and has not failed starts no new evaluation and gets that one -/
theorem shares {p : Params} {s : St} {k : Key} {e : Eval} (hc : s.closed = false) (hk : s.cache.get? k = some e)
    (hr : ∀ x, (s.evals[e]?).bind (·.res) ≠ some (.exc x)) :
    (call p s k).evals = s.evals ∧ (call p s k).calls = s.calls ++ [(k, .of e)] := by
  simp only [call, hc, Bool.false_eq_true, if_false, hk]
  split
  · exact ⟨rfl, rfl⟩
  · next r hr' =>
    have : noException r = true := by
      cases r with
      | exc x => exact absurd hr' (hr x)
      | _ => rfl
    simp [this, hit]

/-- **C39** (failures): with `cache_exceptions` off, a call is never answered with an evaluation that has already failed -/
theorem failure_not_served {p : Params} (hp : p.cacheExceptions = false) {s : St} {k : Key} {e : Eval}
    (hc : (call p s k).calls = s.calls ++ [(k, .of e)]) : ∀ x, (s.evals[e]?).bind (·.res) ≠ some (.exc x) := by
  intro x hx
  have hlt : e < s.evals.length := by
    rcases hy : s.evals[e]? with _ | y
    · rw [hy] at hx; simp at hx
    · exact (List.getElem?_eq_some_iff.mp hy).1
  simp only [call] at hc
  split at hc
  · simp at hc
  · split at hc
    · simp [miss] at hc; exact absurd hc (Nat.ne_of_gt hlt)
    · next e' he' =>
      split at hc
      · next hn => simp [hit] at hc; subst hc; rw [hn] at hx; simp at hx
      · next r hr =>
        split at hc
        · next hor =>
          simp [hit] at hc; subst hc
          rw [hr] at hx; cases hx
          simp [noException, hp] at hor
        · simp [miss] at hc; exact absurd hc (Nat.ne_of_gt hlt)

/-- **C39** (counting): hits + misses is the number of calls accepted since the cache was last cleared -/
theorem counts {p : Params} {ls : List Label} {s : St} (h : Run p ls s) :
    s.hits + s.misses = (accepted ls).1 ∧ s.closed = (accepted ls).2 := by
  induction h with
  | init => exact ⟨rfl, rfl⟩
  | @snoc ls l s s' hr hs ih =>
    have hacc : accepted (ls ++ [l]) = count (accepted ls) l := by simp [accepted]
    rcases hx : accepted ls with ⟨n, cl⟩
    rw [hx] at ih hacc
    obtain ⟨h1, h2⟩ := ih
    rw [hacc]
    cases l with
    | call k =>
      cases hs
      subst h1 h2
      simp only [count]
      rcases hcl : s.closed with _ | _
      · simp only [Bool.false_eq_true, if_false]
        have hm : ∀ s k, (miss p s k).hits + (miss p s k).misses = s.hits + s.misses + 1 ∧ (miss p s k).closed = s.closed := by
          intro s k; simp only [miss]; exact ⟨by omega, trivial⟩
        have hh : ∀ s k e, (hit s k e).hits + (hit s k e).misses = s.hits + s.misses + 1 ∧ (hit s k e).closed = s.closed := by
          intro s k e; simp only [hit]; exact ⟨by omega, trivial⟩
        simp only [call, hcl, Bool.false_eq_true, if_false]
        split
        · rw [← hcl]; exact hm s k
        · split
          · rw [← hcl]; exact hh s k _
          · split
            · rw [← hcl]; exact hh s k _
            · rw [← hcl]; exact hm _ k
      · simp [call, hcl]
    | finish e r => simp only [step] at hs; split at hs <;> cases hs; exact ⟨h1, h2⟩
    | invalidate k => cases hs; exact ⟨h1, h2⟩
    | clear => cases hs; exact ⟨rfl, h2⟩
    | close c => simp only [step] at hs; split at hs <;> cases hs; exact ⟨h1, rfl⟩
    | closeWaited i =>
      simp only [step] at hs
      split at hs
      · split at hs <;> cases hs; exact ⟨rfl, h2⟩
      · cases hs
    | openCache => simp only [step] at hs; split at hs <;> cases hs; exact ⟨h1, rfl⟩

/-- **C39** (closing): a closed cache refuses calls and starts no evaluation -/
theorem closed_refuses {p : Params} {s : St} (hc : s.closed = true) (k : Key) :
    (call p s k).evals = s.evals ∧ (call p s k).calls = s.calls ++ [(k, .closed)] ∧ (call p s k).cache = s.cache := by
  simp [call, hc]

theorem run_of (p : Params) (ls : List Label) (s : St) (h : ls.foldlM (step p) init = some s) : Run p ls s := by
  induction ls using List.reverseRecOn' generalizing s with
  | nil => cases h; exact .init
  | append_singleton l a ih =>
    simp only [List.foldlM_append] at h
    rcases hx : l.foldlM (step p) init with _ | s0
    · rw [hx] at h; simp at h
    · rw [hx] at h
      simp only [List.foldlM, Option.bind_eq_bind, Option.bind_some] at h
      exact .snoc (ih s0 hx) (by rcases hy : step p s0 a with _ | y <;> simp_all)

/-- two entries at most: the use of 1 saves it, 2 is evicted by 3; a failed evaluation is repeated -/
example : ∃ s, Run ⟨some 2, false⟩ [.call 1, .call 2, .finish 0 (.ok 5), .call 1, .call 3, .call 2, .finish 3 (.exc 0), .call 2] s ∧
    s.cache = [(3, 2), (2, 4)] ∧ s.hits = 1 ∧ s.misses = 5 ∧
    s.calls = [(1, .of 0), (2, .of 1), (1, .of 0), (3, .of 2), (2, .of 3), (2, .of 4)] :=
  ⟨_, run_of _ _ _ rfl, rfl, rfl, rfl, rfl⟩

/-- the hypotheses of `evicts_lru` are met -/
example : ∃ s, Run ⟨some 2, true⟩ [.call 1, .call 2, .call 1] s ∧ 2 ∈ s.cache.keys ∧
    2 ∉ (call ⟨some 2, true⟩ s 3).cache.keys := ⟨_, run_of _ _ _ rfl, by decide, by decide⟩

/-- **C39 refuted** for cancelled evaluations: with `cache_exceptions` off, an evaluation that ended by cancellation is served
again and again to later calls -/
theorem cancelled_served_refuted : ∃ s, Run ⟨some 2, false⟩ [.call 1, .finish 0 .cancelled, .call 1, .call 1] s ∧
    s.evals = [⟨1, some .cancelled⟩] ∧ s.calls = [(1, .of 0), (1, .of 0), (1, .of 0)] ∧ s.hits = 2 :=
  ⟨_, run_of _ _ _ rfl, rfl, rfl, rfl⟩

/-- **C39**: after `cache_invalidate(key)` the next call with this key evaluates anew -/
theorem after_invalidate {p : Params} {s s1 : St} {k : Key} (hw : s.cache.WF) (hc : s.closed = false) (h1 : step p s (.invalidate k) = some s1) :
    ∃ s2, step p s1 (.call k) = some s2 ∧ s2.calls = s.calls ++ [(k, .of s.evals.length)] ∧ s2.misses = s.misses + 1 := by
  simp only [step, Option.some.injEq] at h1
  subst h1
  exact ⟨_, rfl, by simp [call, hc, miss], by simp [call, hc, miss]⟩

/-- **C39**: after `cache_clear()` every next call evaluates anew, and the counters start again -/
theorem after_clear {p : Params} {s s1 : St} {k : Key} (hc : s.closed = false) (h1 : step p s .clear = some s1) :
    s1.hits = 0 ∧ s1.misses = 0 ∧
    ∃ s2, step p s1 (.call k) = some s2 ∧ s2.calls = s.calls ++ [(k, .of s.evals.length)] ∧ s2.misses = 1 := by
  simp only [step, Option.some.injEq] at h1
  subst h1
  exact ⟨rfl, rfl, _, rfl, by simp [call, clear, hc, miss], by simp [call, clear, hc, miss]⟩

theorem tasks_call {p : Params} {s : St} (k : Key) (h : ∀ (e : Nat), e ∈ s.tasks ↔ ∃ ev, s.evals[e]? = some ev ∧ ev.res = none) :
    ∀ (e : Nat), e ∈ (call p s k).tasks ↔ ∃ ev, (call p s k).evals[e]? = some ev ∧ ev.res = none := by
  have hmiss : ∀ (s : St), (∀ (e : Nat), e ∈ s.tasks ↔ ∃ ev, s.evals[e]? = some ev ∧ ev.res = none) →
      ∀ (e : Nat), e ∈ (miss p s k).tasks ↔ ∃ ev, (miss p s k).evals[e]? = some ev ∧ ev.res = none := by
    intro s h e
    simp only [miss, List.mem_append, List.mem_singleton, h e]
    constructor
    · rintro (⟨ev, h1, h2⟩ | rfl)
      · exact ⟨ev, by rw [List.getElem?_append_left (List.getElem?_eq_some_iff.mp h1).1]; exact h1, h2⟩
      · exact ⟨_, by simp; rfl, rfl⟩
    · rintro ⟨ev, h1, h2⟩
      rw [List.getElem?_append] at h1
      split at h1
      · exact .inl ⟨ev, h1, h2⟩
      · have := (List.getElem?_eq_some_iff.mp h1).1
        simp at this; right; omega
  simp only [call]
  split
  · exact h
  · split
    · exact hmiss s h
    · split
      · exact h
      · split
        · exact h
        · exact hmiss _ h

/-- **C39** (close): as long as the cache is not cleared nor opened again, the evaluations `close()` waits for are exactly those under way;
so when it is done waiting, none is, and the cache is empty -/
theorem close_waits {p : Params} {ls : List Label} {s : St} (h : Run p ls s) (hc : .clear ∉ ls) (ho : .openCache ∉ ls) :
    (∀ (e : Nat), e ∈ s.tasks ↔ ∃ ev, s.evals[e]? = some ev ∧ ev.res = none) ∧
    (∀ i s', step p s (.closeWaited i) = some s' → (∀ (e : Nat) ev, s'.evals[e]? = some ev → ev.res ≠ none) ∧ s'.cache = []) := by
  have key : (∀ (e : Nat), e ∈ s.tasks ↔ ∃ ev, s.evals[e]? = some ev ∧ ev.res = none) ∧
      (∀ es ∈ s.closing, s.closed = true ∧ ∀ e ∈ s.tasks, e ∈ es) := by
    induction h with
    | init => simp [init]
    | @snoc ls l s s' _ hs ih =>
      obtain ⟨ih, ihc⟩ := ih (fun e => hc (by simp [e])) (fun e => ho (by simp [e]))
      cases l with
      | call k =>
        simp only [step, Option.some.injEq] at hs; subst hs
        refine ⟨tasks_call k ih, ?_⟩
        intro es hes
        have hcl : s.closed = true := by
          false_or_by_contra; rename_i hcl
          have : (call p s k).closing = s.closing := by
            simp only [call]
            split
            · rfl
            · split
              · rfl
              · split
                · rfl
                · split <;> rfl
          rw [this] at hes
          exact hcl (ihc es hes).1
        have : call p s k = { s with calls := s.calls ++ [(k, .closed)] } := by simp [call, hcl]
        rw [this] at hes ⊢
        exact ihc es hes
      | finish e0 r =>
        simp only [step] at hs
        split at hs
        · next k he0 =>
          cases hs
          constructor
          · intro e
            simp only [List.mem_filter, decide_eq_true_eq, ih e, List.getElem?_set]
            by_cases heq : e0 = e
            · subst heq
              simp only [ne_eq, not_true_eq_false, and_false, if_true, false_iff]
              rintro ⟨ev, h1, h2⟩
              split at h1
              · cases h1; simp at h2
              · simp at h1
            · have : e ≠ e0 := fun x => heq x.symm
              simp [heq, this]
          · intro es hes
            exact ⟨(ihc es hes).1, fun e he => (ihc es hes).2 e (List.mem_filter.mp he).1⟩
        · simp at hs
      | invalidate k => simp only [step, Option.some.injEq] at hs; subst hs; exact ⟨ih, ihc⟩
      | clear => exact absurd (by simp) hc
      | closeWaited i =>
        simp only [step] at hs
        split at hs
        · next es hes =>
          split at hs
          · next hall =>
            cases hs
            have hno : ∀ (e : Nat) ev, s.evals[e]? = some ev → ev.res ≠ none := by
              intro e ev he hr
              have := (ihc es (List.mem_of_getElem? hes)).2 e ((ih e).mpr ⟨ev, he, hr⟩)
              have := List.all_eq_true.mp hall e this
              obtain ⟨k, r⟩ := ev
              simp only [] at hr; subst hr
              simp [ended, he] at this
            constructor
            · intro e
              simp only [clear, List.not_mem_nil, false_iff]
              rintro ⟨ev, h1, h2⟩
              exact hno e ev h1 h2
            · intro es' hes'
              exact ⟨(ihc es' (List.mem_of_mem_eraseIdx hes')).1, by simp [clear]⟩
          · cases hs
        · cases hs
      | openCache => exact absurd (by simp) ho
      | close cancel =>
        simp only [step] at hs
        split at hs <;> cases hs
        cases cancel
        · refine ⟨ih, ?_⟩
          intro es hes
          rcases List.mem_append.mp hes with hes | hes
          · exact ⟨rfl, (ihc es hes).2⟩
          · simp at hes; subst hes; exact ⟨rfl, fun e he => he⟩
        · constructor
          · intro e
            simp only [if_true, List.not_mem_nil, false_iff, List.getElem?_mapIdx]
            rintro ⟨ev, h1, h2⟩
            rcases he : s.evals[e]? with _ | ev0
            · rw [he] at h1; simp at h1
            · rw [he] at h1
              simp only [Option.map_some, Option.some.injEq] at h1
              split at h1
              · subst h1; simp at h2
              · next hn => subst h1; exact hn ((ih e).mpr ⟨_, he, h2⟩)
          · intro es _; exact ⟨rfl, by simp⟩
  refine ⟨key.1, fun i s' hs => ?_⟩
  simp only [step] at hs
  split at hs
  · next es hes =>
    split at hs
    · next hall =>
      cases hs
      refine ⟨fun e ev he hr => ?_, rfl⟩
      have := (key.2 es (List.mem_of_getElem? hes)).2 e ((key.1 e).mpr ⟨ev, he, hr⟩)
      have := List.all_eq_true.mp hall e this
      obtain ⟨k, r⟩ := ev
      have hr' : r = none := hr
      have he' : s.evals[e]? = some ⟨k, r⟩ := he
      subst hr'
      simp [ended, he'] at this
    · simp at hs
  · cases hs

/-- … and it does end: once the evaluations it waits for have ended (all, if none is under way), the wait of every `close()` ends -/
theorem close_ends {p : Params} {ls : List Label} {s : St} (h : Run p ls s) (hall : ∀ (e : Nat) ev, s.evals[e]? = some ev → ev.res ≠ none)
    {i : Nat} (hi : i < s.closing.length) : ∃ s', step p s (.closeWaited i) = some s' ∧ s'.closing.length + 1 = s.closing.length := by
  have known : (∀ e ∈ s.tasks, e < s.evals.length) ∧ ∀ es ∈ s.closing, ∀ e ∈ es, e < s.evals.length := by
    clear hall hi
    induction h with
    | init => simp [init]
    | @snoc ls l s s' _ hs ih =>
      obtain ⟨h1, h2⟩ := ih
      cases l with
      | call k =>
        simp only [step, Option.some.injEq] at hs; subst hs
        have hm : ∀ s : St, (∀ e ∈ s.tasks, e < s.evals.length) → (∀ es ∈ s.closing, ∀ e ∈ es, e < s.evals.length) →
            (∀ e ∈ (miss p s k).tasks, e < (miss p s k).evals.length) ∧ ∀ es ∈ (miss p s k).closing, ∀ e ∈ es, e < (miss p s k).evals.length := by
          intro s h1 h2
          constructor
          · intro e he
            simp only [miss, List.mem_append, List.mem_singleton, List.length_append, List.length_cons, List.length_nil] at he ⊢
            rcases he with he | he
            · exact Nat.lt_succ_of_lt (h1 e he)
            · have he' : e = s.evals.length := he
              rw [he']; exact Nat.lt_succ_self _
          · intro es hes e he
            have := h2 es hes e he
            simp only [miss, List.length_append, List.length_cons, List.length_nil]; exact Nat.lt_succ_of_lt this
        simp only [call]
        split
        · exact ⟨h1, h2⟩
        · split
          · exact hm s h1 h2
          · split
            · exact ⟨h1, h2⟩
            · split
              · exact ⟨h1, h2⟩
              · exact hm _ h1 h2
      | finish e0 r =>
        simp only [step] at hs
        split at hs
        · cases hs
          refine ⟨fun e he => ?_, fun es hes e he => ?_⟩
          · rw [List.length_set]; exact h1 e (List.mem_filter.mp he).1
          · rw [List.length_set]; exact h2 es hes e he
        · cases hs
      | invalidate k => simp only [step, Option.some.injEq] at hs; subst hs; exact ⟨h1, h2⟩
      | clear => simp only [step, Option.some.injEq] at hs; subst hs; exact ⟨by simp [clear], h2⟩
      | closeWaited j =>
        simp only [step] at hs
        split at hs
        · split at hs
          · cases hs; exact ⟨by simp [clear], fun es hes => h2 es (List.mem_of_mem_eraseIdx hes)⟩
          · cases hs
        · cases hs
      | openCache => simp only [step] at hs; split at hs <;> cases hs; exact ⟨h1, h2⟩
      | close cancel =>
        simp only [step] at hs
        split at hs <;> cases hs
        cases cancel
        · refine ⟨h1, fun es hes e he => ?_⟩
          rcases List.mem_append.mp hes with hes | hes
          · exact h2 es hes e he
          · simp at hes; subst hes; exact h1 e he
        · refine ⟨by simp, fun es hes e he => ?_⟩
          simp only [if_true, List.length_mapIdx]
          rcases List.mem_append.mp hes with hes | hes
          · exact h2 es hes e he
          · simp at hes; subst hes; cases he
  have hes : s.closing[i]? = some s.closing[i] := List.getElem?_eq_getElem hi
  refine ⟨{ clear s with closing := s.closing.eraseIdx i }, ?_, ?_⟩
  · simp only [step, hes]
    rw [if_pos]
    rw [List.all_eq_true]
    intro e he
    have hlt := known.2 _ (List.getElem_mem hi) e he
    have h1 := List.getElem?_eq_getElem hlt
    have h2 := hall e _ h1
    rcases hx : s.evals[e] with ⟨k, r⟩
    rw [hx] at h1 h2
    cases r with
    | none => exact absurd rfl h2
    | some r => simp only [ended, h1]
  · simp only [List.length_eraseIdx, if_pos hi]; omega

/-- **C39** (closing): the cache is closed from a `close()` to the next `open()` that succeeds -/
theorem closed_iff {p : Params} {ls : List Label} {s : St} (h : Run p ls s) :
    s.closed = true ↔ ∃ x c y, ls = x ++ .close c :: y ∧ .openCache ∉ y := by
  induction h with
  | init => simp [init]
  | @snoc ls l s s' hr hs ih =>
    have same : s'.closed = s.closed → (∀ c, l ≠ .close c) → l ≠ .openCache → (s'.closed = true ↔ ∃ x c y, ls ++ [l] = x ++ .close c :: y ∧ .openCache ∉ y) := by
      intro e h1 h2
      rw [e, ih]
      constructor
      · rintro ⟨x, c, y, rfl, hy⟩
        exact ⟨x, c, y ++ [l], by simp, by simp [hy]; exact fun e => h2 e.symm⟩
      · rintro ⟨x, c, y, e, hy⟩
        rcases List.eq_nil_or_concat y with rfl | ⟨y', w, rfl⟩
        · have := (List.append_inj' e rfl).2; simp at this; exact absurd this (h1 c)
        · rw [List.concat_eq_append, ← List.cons_append, ← List.append_assoc] at e
          exact ⟨x, c, y', (List.append_inj' e rfl).1, fun hm => hy (by simp [hm])⟩
    cases l with
    | call k =>
      simp only [step, Option.some.injEq] at hs; subst hs
      refine same ?_ (by simp) (by simp)
      simp only [call]
      split
      · rfl
      · split
        · rfl
        · split
          · rfl
          · split <;> rfl
    | finish e r => simp only [step] at hs; split at hs <;> cases hs; exact same rfl (by simp) (by simp)
    | invalidate k => cases hs; exact same rfl (by simp) (by simp)
    | clear => cases hs; exact same rfl (by simp) (by simp)
    | close c =>
      simp only [step] at hs; split at hs <;> cases hs
      simp only [true_iff]
      exact ⟨ls, c, [], rfl, by simp⟩
    | closeWaited i =>
      simp only [step] at hs
      split at hs
      · split at hs <;> cases hs; exact same rfl (by simp) (by simp)
      · cases hs
    | openCache =>
      simp only [step] at hs; split at hs <;> cases hs
      simp only [Bool.false_eq_true, false_iff]
      rintro ⟨x, c, y, e, hy⟩
      rcases List.eq_nil_or_concat y with rfl | ⟨y', w, rfl⟩
      · have := (List.append_inj' e rfl).2; simp at this
      · rw [List.concat_eq_append, ← List.cons_append, ← List.append_assoc] at e
        have := (List.append_inj' e rfl).2
        simp at this; subst this
        exact hy (by simp)

/-- a second `close()` is refused, and so is an `open()` of a cache that is not closed; `open()` right after a `close()` has waited gives
an open, empty cache with counts 0; one before, while evaluations are under way or results are there, is refused -/
theorem open_close {p : Params} {s : St} :
    (s.closed = true → ∀ c, step p s (.close c) = none) ∧ (s.closed = false → step p s .openCache = none) ∧
    (s.closed = false → ∀ c, step p s (.close c) ≠ none) ∧
    (∀ i s1, step p s (.closeWaited i) = some s1 → s1.closed = true →
      ∃ s2, step p s1 .openCache = some s2 ∧ s2.closed = false ∧ s2.cache = [] ∧ s2.hits = 0 ∧ s2.misses = 0 ∧ s2.tasks = []) ∧
    ((s.tasks ≠ [] ∨ s.cache ≠ [] ∨ s.hits ≠ 0 ∨ s.misses ≠ 0) → step p s .openCache = none) := by
  refine ⟨?_, ?_, ?_, ?_, ?_⟩
  · intro h c; simp [step, h]
  · intro h; simp [step, h]
  · intro h c; simp [step, h]
  · intro i s1 hs hc
    simp only [step] at hs
    split at hs
    · split at hs
      · cases hs
        have hc' : s.closed = true := hc
        refine ⟨{ clear s with closing := s.closing.eraseIdx i, closed := false }, ?_, rfl, rfl, rfl, rfl, rfl⟩
        simp [step, clear, hc']
      · cases hs
    · cases hs
  · intro h
    simp only [step]
    rw [if_neg]
    rintro ⟨_, h1, h2, h3, h4⟩
    rcases h with h | h | h | h
    · exact h h3
    · exact h h4
    · exact h h1
    · exact h h2

/-- **C39 (close) needs that the cache was not cleared**: `cache_clear` forgets the evaluations under way, and a `close()` after it does not
wait for them. -/
theorem close_after_clear_refuted (p : Params) : ∃ ls s s', Run p ls s ∧ ls = [.call 1, .clear, .close false] ∧
    step p s (.closeWaited 0) = some s' ∧ ∃ ev, s'.evals[0]? = some ev ∧ ev.res = none := by
  obtain ⟨mx, ce⟩ := p
  have h1 : ∃ c : Dict Key Eval, step ⟨mx, ce⟩ init (.call 1) = some ⟨c, [⟨1, none⟩], 0, 1, false, [0], [], [(1, .of 0)]⟩ := ⟨_, rfl⟩
  obtain ⟨c, h1⟩ := h1
  exact ⟨_, _, _, .snoc (ls := [.call 1, .clear]) (.snoc (ls := [.call 1]) (.snoc (ls := []) .init h1) rfl) rfl, rfl, rfl, _, rfl, rfl⟩

/-- the hypotheses are met: two evaluations under way, `close()` waits for both -/
example : (([.call 1, .call 2, .close false, .finish 0 (.ok 5), .finish 1 (.ok 6), .closeWaited 0, .openCache, .call 1] : List Label).foldlM (step ⟨some 2, false⟩) init).map
      (fun s => (s.cache, s.tasks, s.misses)) = some ([(1, 2)], [2], 1) ∧
    (([.call 1, .call 2, .close false, .finish 0 (.ok 5), .closeWaited 0] : List Label).foldlM (step ⟨some 2, false⟩) init).map (·.tasks) = none := by decide

end Xoscar.Lru
