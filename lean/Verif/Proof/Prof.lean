import Verif.Spec.Prof
import Verif.Proof.Base
namespace Xoscar.Prof
open scoped List

theorem at_fun {st : St} {v w w' : Val} {q : List Nat} (h : At st v q w) (h' : At st v q w') : w = w' := by
  induction h with
  | here => cases h'; rfl
  | step h1 h2 _ ih =>
    cases h' with
    | step g1 g2 g3 =>
      rw [h1] at g1; injection g1 with g1; subst g1
      rw [h2] at g2; injection g2 with g2; subst g2
      exact ih g3

theorem at_snoc {st : St} {v w : Val} {q : List Nat} {x : Nat} :
    At st v (q ++ [x]) w ↔ ∃ o d, At st v q (.dict o) ∧ st.heap.get? o = some d ∧ d.get? x = some w := by
  induction q generalizing v with
  | nil =>
    constructor
    · intro h
      cases h with
      | step h1 h2 h3 => cases h3; exact ⟨_, _, .here, h1, h2⟩
    · rintro ⟨o, d, h, h1, h2⟩
      cases h
      exact .step h1 h2 .here
  | cons k ks ih =>
    constructor
    · intro h
      cases h with
      | step h1 h2 h3 =>
        obtain ⟨o, d, g1, g2, g3⟩ := ih.mp h3
        exact ⟨o, d, .step h1 h2 g1, g2, g3⟩
    · rintro ⟨o, d, h, g2, g3⟩
      cases h with
      | step h1 h2 h3 => exact .step h1 h2 (ih.mpr ⟨o, d, h3, g2, g3⟩)

/-- the dictionaries are trees: every one is in one place -/
structure Inv (st : St) : Prop where
  bound : ∀ o, st.heap.get? o ≠ none → o < st.next
  root : ∀ t o, st.data.get? t = some o → st.heap.get? o ≠ none
  child : ∀ o d k c, st.heap.get? o = some d → d.get? k = some (.dict c) → st.heap.get? c ≠ none
  uniq : ∀ o1 d1 k1 o2 d2 k2 c, st.heap.get? o1 = some d1 → d1.get? k1 = some (.dict c) →
    st.heap.get? o2 = some d2 → d2.get? k2 = some (.dict c) → o1 = o2 ∧ k1 = k2
  noRoot : ∀ o d k c t, st.heap.get? o = some d → d.get? k = some (.dict c) → st.data.get? t ≠ some c
  roots : ∀ t1 t2 o, st.data.get? t1 = some o → st.data.get? t2 = some o → t1 = t2

theorem at_exists {st : St} (hi : Inv st) {r : Nat} (hr : st.heap.get? r ≠ none) {q : List Nat} {x : Nat} (h : At st (.dict r) q (.dict x)) :
    st.heap.get? x ≠ none := by
  rcases List.eq_nil_or_concat q with rfl | ⟨q', k, rfl⟩
  · cases h; exact hr
  · rw [List.concat_eq_append, at_snoc] at h
    obtain ⟨o, d, _, h2, h3⟩ := h
    exact hi.child o d k x h2 h3

/-- a dictionary is in one place -/
theorem at_uniq {st : St} (hi : Inv st) {t t' : Task} {r r' : Nat} (hr : st.data.get? t = some r) (hr' : st.data.get? t' = some r')
    {q q' : List Nat} {x : Nat} (h : At st (.dict r) q (.dict x)) (h' : At st (.dict r') q' (.dict x)) : t = t' ∧ q = q' := by
  induction q using List.reverseRecOn' generalizing q' x with
  | nil =>
    cases h
    rcases List.eq_nil_or_concat q' with rfl | ⟨q'', k, rfl⟩
    · cases h'; exact ⟨hi.roots t t' _ hr hr', rfl⟩
    · rw [List.concat_eq_append, at_snoc] at h'
      obtain ⟨o, d, _, h2, h3⟩ := h'
      exact absurd hr (hi.noRoot o d k _ t h2 h3)
  | append_singleton q k ih =>
    rw [at_snoc] at h
    obtain ⟨o, d, h1, h2, h3⟩ := h
    rcases List.eq_nil_or_concat q' with rfl | ⟨q'', k', rfl⟩
    · cases h'; exact absurd hr' (hi.noRoot o d k _ t' h2 h3)
    · rw [List.concat_eq_append, at_snoc] at h'
      obtain ⟨o', d', g1, g2, g3⟩ := h'
      obtain ⟨e1, e2⟩ := hi.uniq o d k o' d' k' x h2 h3 g2 g3
      subst e1; subst e2
      obtain ⟨e3, e4⟩ := ih h1 g1
      exact ⟨e3, by rw [e4, List.concat_eq_append]⟩

/-- `st'` is `st` with `v`, a number or a new empty dictionary, at key `k` of the dictionary `o` -/
structure Write (st st' : St) (o : Nat) (k : Nat) (v : Val) : Prop where
  old : ∃ d, st.heap.get? o = some d ∧ st'.heap.get? o = some (d.set k v)
  rest : ∀ x, x ≠ o → v ≠ .dict x → st'.heap.get? x = st.heap.get? x
  fresh : ∀ c, v = .dict c → c ≠ o ∧ st'.heap.get? c = some [] ∧ st.heap.get? c = none
  data : st'.data = st.data

theorem prefix_snoc {a b : List Nat} {x : Nat} : a <+: b ++ [x] ↔ a = b ++ [x] ∨ a <+: b := by
  rw [List.prefix_concat_iff]

theorem write_at {st st' : St} {o : Nat} {k : Nat} {v : Val} (hw : Write st st' o k v) (hi : Inv st) {r : Nat} (hr : st.heap.get? r ≠ none)
    {p : List Nat} (hp : At st (.dict r) p (.dict o)) (hu : ∀ q, At st (.dict r) q (.dict o) → q = p) (q : List Nat) (w : Val) :
    At st' (.dict r) q w ↔ (q = p ++ [k] ∧ w = v) ∨ (¬ p ++ [k] <+: q ∧ At st (.dict r) q w) := by
  obtain ⟨d, ho, ho'⟩ := hw.old
  induction q using List.reverseRecOn' generalizing w with
  | nil =>
    constructor
    · intro h; cases h
      exact .inr ⟨by simp, .here⟩
    · rintro (⟨h, _⟩ | ⟨_, h⟩)
      · simp at h
      · cases h; exact .here
  | append_singleton q x ih =>
    rw [at_snoc, at_snoc, prefix_snoc]
    constructor
    · rintro ⟨o1, d1, h1, h2, h3⟩
      rcases (ih (.dict o1)).mp h1 with ⟨hq, hv⟩ | ⟨hq, ha⟩
      · have := (hw.fresh o1 hv.symm).2.1
        rw [this] at h2; injection h2 with h2; subst h2
        cases h3
      · by_cases hoo : o1 = o
        · subst hoo
          have hqp := hu q ha
          subst hqp
          rw [ho'] at h2; injection h2 with h2; subst h2
          rw [Dict.get?_set] at h3
          by_cases hx : k = x
          · rw [if_pos hx] at h3; injection h3 with h3
            exact .inl ⟨by rw [hx], h3.symm⟩
          · rw [if_neg hx] at h3
            refine .inr ⟨?_, o1, d, ha, ho, h3⟩
            rintro (he | he)
            · exact hx (by simpa using he)
            · exact hq he
        · have hne := at_exists hi hr ha
          have hv : v ≠ .dict o1 := fun hv => hne (hw.fresh o1 hv).2.2
          rw [hw.rest o1 hoo hv] at h2
          refine .inr ⟨?_, o1, d1, ha, h2, h3⟩
          rintro (he | he)
          · have he' : p = q := by
              have := congrArg List.dropLast he
              simpa using this
            subst he'
            have := at_fun hp ha
            injection this with this
            exact hoo this.symm
          · exact hq he
    · rintro (⟨he, rfl⟩ | ⟨hn, o1, d1, ha, h2, h3⟩)
      · have he' : q = p := by
          have := congrArg List.dropLast he
          simpa using this
        have hx : x = k := by rw [he'] at he; simpa using he
        subst he'; subst hx
        refine ⟨o, d.set x w, (ih _).mpr (.inr ⟨?_, hp⟩), ho', by rw [Dict.get?_set, if_pos rfl]⟩
        intro hc
        have := hc.length_le
        simp at this; omega
      · have hnq : ¬ p ++ [k] <+: q := fun hc => hn (.inr hc)
        have h1 := (ih (.dict o1)).mpr (.inr ⟨hnq, ha⟩)
        by_cases hoo : o1 = o
        · subst hoo
          have hqp := hu q ha
          subst hqp
          rw [ho] at h2; injection h2 with h2; subst h2
          refine ⟨o1, _, h1, ho', ?_⟩
          rw [Dict.get?_set, if_neg]
          · exact h3
          · intro hx; apply hn; left; rw [hx]
        · have hne := at_exists hi hr ha
          have hv : v ≠ .dict o1 := fun hv => hne (hw.fresh o1 hv).2.2
          exact ⟨o1, d1, h1, by rw [hw.rest o1 hoo hv]; exact h2, h3⟩

/-- objects that cannot be reached from a root do not matter to it -/
theorem same_at {st st' : St} (hi : Inv st) {r : Nat} (hr : st.heap.get? r ≠ none)
    (hs : ∀ q x, At st (.dict r) q (.dict x) → st'.heap.get? x = st.heap.get? x) (q : List Nat) (w : Val) :
    At st' (.dict r) q w ↔ At st (.dict r) q w := by
  induction q using List.reverseRecOn' generalizing w with
  | nil =>
    constructor <;> (intro h; cases h; exact .here)
  | append_singleton q x ih =>
    rw [at_snoc, at_snoc]
    constructor
    · rintro ⟨o1, d1, h1, h2, h3⟩
      have ha := (ih _).mp h1
      exact ⟨o1, d1, ha, by rw [← hs q o1 ha]; exact h2, h3⟩
    · rintro ⟨o1, d1, h1, h2, h3⟩
      exact ⟨o1, d1, (ih _).mpr h1, by rw [hs q o1 h1]; exact h2, h3⟩

theorem write_away {st st' : St} {o : Nat} {k : Nat} {v : Val} (hw : Write st st' o k v) (hi : Inv st) {r : Nat} (hr : st.heap.get? r ≠ none)
    (hn : ∀ q, ¬ At st (.dict r) q (.dict o)) (q : List Nat) (w : Val) : At st' (.dict r) q w ↔ At st (.dict r) q w := by
  apply same_at hi hr
  intro q x hx
  have hxo : x ≠ o := fun e => hn q (e ▸ hx)
  exact hw.rest x hxo (fun hv => at_exists hi hr hx (hw.fresh x hv).2.2)

theorem inv_write {st st' : St} {o : Nat} {k : Nat} {v : Val} (hw : Write st st' o k v) (hi : Inv st)
    (hn : (∃ n, v = .num n ∧ st'.next = st.next) ∨ (v = .dict st.next ∧ st'.next = st.next + 1)) : Inv st' := by
  obtain ⟨d, ho, ho'⟩ := hw.old
  have get : ∀ x d', st'.heap.get? x = some d' →
      (x = o ∧ d' = d.set k v) ∨ (x ≠ o ∧ v ≠ .dict x ∧ st.heap.get? x = some d') ∨ (x ≠ o ∧ v = .dict x ∧ d' = []) := by
    intro x d' hx
    by_cases hxo : x = o
    · subst hxo; rw [ho'] at hx; injection hx with hx; exact .inl ⟨rfl, hx.symm⟩
    · by_cases hv : v = .dict x
      · have := (hw.fresh x hv).2.1
        rw [this] at hx; injection hx with hx
        exact .inr (.inr ⟨hxo, hv, hx.symm⟩)
      · rw [hw.rest x hxo hv] at hx
        exact .inr (.inl ⟨hxo, hv, hx⟩)
  have keep : ∀ x, st.heap.get? x ≠ none → st'.heap.get? x ≠ none := by
    intro x hx
    by_cases hxo : x = o
    · subst hxo; rw [ho']; simp
    · by_cases hv : v = .dict x
      · rw [(hw.fresh x hv).2.1]; simp
      · rw [hw.rest x hxo hv]; exact hx
  -- an edge is old, or the new one
  have edge : ∀ x d' j c, st'.heap.get? x = some d' → d'.get? j = some (.dict c) →
      (x = o ∧ j = k ∧ v = .dict c) ∨ (∃ e, st.heap.get? x = some e ∧ e.get? j = some (.dict c)) := by
    intro x d' j c hx hj
    rcases get x d' hx with ⟨rfl, rfl⟩ | ⟨_, _, h⟩ | ⟨_, _, rfl⟩
    · rw [Dict.get?_set] at hj
      by_cases hk : k = j
      · rw [if_pos hk] at hj; injection hj with hj
        exact .inl ⟨rfl, hk.symm, hj⟩
      · rw [if_neg hk] at hj; exact .inr ⟨d, ho, hj⟩
    · exact .inr ⟨d', h, hj⟩
    · cases hj
  refine ⟨?_, ?_, ?_, ?_, ?_, ?_⟩
  · intro x hx
    have hle : st.next ≤ st'.next := by rcases hn with ⟨_, _, h⟩ | ⟨_, h⟩ <;> omega
    rcases hg : st'.heap.get? x with _ | d'
    · exact absurd hg hx
    · rcases get x d' hg with ⟨rfl, _⟩ | ⟨_, _, h⟩ | ⟨_, hv, _⟩
      · have := hi.bound x (by rw [ho]; simp); omega
      · have := hi.bound x (by rw [h]; simp); omega
      · rcases hn with ⟨n, hv', _⟩ | ⟨hv', hnx⟩
        · rw [hv] at hv'; cases hv'
        · rw [hv] at hv'; injection hv' with hv'; omega
  · intro t x ht
    rw [hw.data] at ht
    exact keep x (hi.root t x ht)
  · intro x d' j c hx hj
    rcases edge x d' j c hx hj with ⟨_, _, hv⟩ | ⟨e, h1, h2⟩
    · rw [(hw.fresh c hv).2.1]; simp
    · exact keep c (hi.child x e j c h1 h2)
  · intro o1 d1 k1 o2 d2 k2 c h1 g1 h2 g2
    rcases edge o1 d1 k1 c h1 g1 with ⟨e1, e2, hv⟩ | ⟨e, a1, a2⟩
    · rcases edge o2 d2 k2 c h2 g2 with ⟨f1, f2, _⟩ | ⟨e, a1, a2⟩
      · exact ⟨e1.trans f1.symm, e2.trans f2.symm⟩
      · exact absurd (hw.fresh c hv).2.2 (hi.child _ _ _ _ a1 a2)
    · rcases edge o2 d2 k2 c h2 g2 with ⟨_, _, hv⟩ | ⟨e', b1, b2⟩
      · exact absurd (hw.fresh c hv).2.2 (hi.child _ _ _ _ a1 a2)
      · exact hi.uniq _ _ _ _ _ _ c a1 a2 b1 b2
  · intro x d' j c t hx hj ht
    rw [hw.data] at ht
    rcases edge x d' j c hx hj with ⟨_, _, hv⟩ | ⟨e, h1, h2⟩
    · exact absurd (hw.fresh c hv).2.2 (hi.root t c ht)
    · exact hi.noRoot x e j c t h1 h2 ht
  · intro t1 t2 x h1 h2
    rw [hw.data] at h1 h2
    exact hi.roots t1 t2 x h1 h2

/-- `follow` finds what is there -/
theorem follow_iff (st : St) (v : Val) (q : List Nat) (w : Val) : follow st v q = some (.on w) ↔ At st v q w := by
  induction q generalizing v with
  | nil =>
    constructor
    · intro h; cases v <;> (simp only [follow] at h; injection h with h; injection h with h; subst h; exact .here)
    · intro h; cases h; cases w <;> rfl
  | cons k ks ih =>
    cases v with
    | num n =>
      constructor
      · intro h; simp [follow] at h
      · intro h; cases h
    | dict o =>
      simp only [follow]
      constructor
      · intro h
        rcases hg : st.heap.get? o with _ | d
        · rw [hg] at h; simp at h
        · rw [hg, Option.getD_some] at h
          rcases hk : d.get? k with _ | v
          · rw [hk] at h; simp at h
          · rw [hk] at h
            exact .step hg hk ((ih v).mp h)
      · intro h
        cases h with
        | step h1 h2 h3 =>
          rw [h1, Option.getD_some, h2]
          exact (ih _).mpr h3

theorem tree_at {st : St} {r : Nat} {tree : Tree} (hs : Shows st r tree) {p : List Nat} {o : Nat} (ha : At st (.dict r) p (.dict o)) {d : Dict Nat Val}
    (hd : st.heap.get? o = some d) (k : Nat) : tree (p ++ [k]) = (d.get? k).map leaf := by
  rcases hk : d.get? k with _ | v
  · rcases ht : tree (p ++ [k]) with _ | x
    · rfl
    · obtain ⟨w, hw, _⟩ := (hs _ _).mp ht
      rw [at_snoc] at hw
      obtain ⟨o', d', h1, h2, h3⟩ := hw
      have := at_fun ha h1
      injection this with this; subst this
      rw [hd] at h2; injection h2 with h2; subst h2
      rw [hk] at h3; cases h3
  · exact (hs _ _).mpr ⟨v, at_snoc.mpr ⟨o, d, ha, hd, hk⟩, rfl⟩

theorem contains_write {st st' : St} {o : Nat} {k : Nat} {v : Val} (hw : Write st st' o k v) (hi : Inv st) {c : Content} (hc : Contains st c)
    {t : Task} {r : Nat} (ht : st.data.get? t = some r) {p : List Nat} (hp : At st (.dict r) p (.dict o)) :
    Contains st' (fun x => if x = t then (c t).map (fun tree => tree.put (p ++ [k]) (leaf v)) else c x) := by
  intro x
  have hx := hc x
  by_cases hxt : x = t
  · subst hxt
    simp only [if_true]
    rcases hcx : c x with _ | tree
    · rw [hcx] at hx; rw [ht] at hx; cases hx
    · rw [hcx] at hx
      obtain ⟨o', h1, h2⟩ := hx
      rw [ht] at h1; injection h1 with h1; subst h1
      refine ⟨r, by rw [hw.data]; exact ht, ?_⟩
      intro q y
      have hu : ∀ q, At st (.dict r) q (.dict o) → q = p := fun q hq => (at_uniq hi ht ht hq hp).2
      have hwa := write_at hw hi (hi.root x r ht) hp hu q
      simp only [Tree.put]
      by_cases hq : q = p ++ [k]
      · rw [if_pos hq]
        constructor
        · intro h; injection h with h
          exact ⟨v, (hwa v).mpr (.inl ⟨hq, rfl⟩), h⟩
        · rintro ⟨w, hw1, hw2⟩
          rcases (hwa w).mp hw1 with ⟨_, rfl⟩ | ⟨hn, _⟩
          · rw [hw2]
          · exact absurd (hq ▸ List.prefix_refl _) hn
      · rw [if_neg hq]
        by_cases hpre : p ++ [k] <+: q
        · rw [if_pos hpre]
          constructor
          · intro h; cases h
          · rintro ⟨w, hw1, _⟩
            rcases (hwa w).mp hw1 with ⟨h, _⟩ | ⟨hn, _⟩
            · exact absurd h hq
            · exact absurd hpre hn
        · rw [if_neg hpre, h2 q y]
          constructor
          · rintro ⟨w, h, e⟩; exact ⟨w, (hwa w).mpr (.inr ⟨hpre, h⟩), e⟩
          · rintro ⟨w, h, e⟩
            rcases (hwa w).mp h with ⟨h', _⟩ | ⟨_, h'⟩
            · exact absurd h' hq
            · exact ⟨w, h', e⟩
  · simp only [if_neg hxt]
    rcases hcx : c x with _ | tree
    · rw [hcx] at hx; simpa [hw.data] using hx
    · rw [hcx] at hx
      obtain ⟨r', h1, h2⟩ := hx
      refine ⟨r', by rw [hw.data]; exact h1, ?_⟩
      intro q y
      rw [h2 q y]
      have hn : ∀ q, ¬ At st (.dict r') q (.dict o) := fun q hq => hxt (at_uniq hi h1 ht hq hp).1
      constructor
      · rintro ⟨w, h, e⟩; exact ⟨w, (write_away hw hi (hi.root x r' h1) hn q w).mpr h, e⟩
      · rintro ⟨w, h, e⟩; exact ⟨w, (write_away hw hi (hi.root x r' h1) hn q w).mp h, e⟩

/-- a write to a dictionary that is in no task's data is not seen -/
theorem contains_away {st st' : St} {o : Nat} {k : Nat} {v : Val} (hw : Write st st' o k v) (hi : Inv st) {c : Content} (hc : Contains st c)
    (hn : ∀ t r q, st.data.get? t = some r → ¬ At st (.dict r) q (.dict o)) : Contains st' c := by
  intro x
  have hx := hc x
  rcases hcx : c x with _ | tree
  · rw [hcx] at hx; simpa [hw.data] using hx
  · rw [hcx] at hx
    obtain ⟨r', h1, h2⟩ := hx
    refine ⟨r', by rw [hw.data]; exact h1, ?_⟩
    intro q y
    rw [h2 q y]
    constructor
    · rintro ⟨w, h, e⟩; exact ⟨w, (write_away hw hi (hi.root x r' h1) (fun q => hn x r' q h1) q w).mpr h, e⟩
    · rintro ⟨w, h, e⟩; exact ⟨w, (write_away hw hi (hi.root x r' h1) (fun q => hn x r' q h1) q w).mp h, e⟩

/-- what a use of a dictionary does to the heap -/
theorem use_write {st : St} (hi : Inv st) {o : Nat} {d : Dict Nat Val} (hd : st.heap.get? o = some d) (u : Use) :
    (used st (use st (.on (.dict o)) u) = st ∧
      ((∃ k v c, u = .inc k v ∧ d.get? k = some (.dict c)) ∨ (∃ k w, u = .nest k ∧ d.get? k = some w))) ∨
    ∃ k v, Write st (used st (use st (.on (.dict o)) u)) o k v ∧ Inv (used st (use st (.on (.dict o)) u)) ∧
      (u = .set k (match v with | .num n => n | _ => 0) ∧ (∃ n, v = .num n) ∨
       (∃ a old, u = .inc k a ∧ d.get? k = some (.num old) ∧ v = .num (old + a)) ∨
       (∃ a, u = .inc k a ∧ d.get? k = none ∧ v = .num a) ∨
       (u = .nest k ∧ d.get? k = none ∧ v = .dict st.next)) := by
  have wnum : ∀ k n, Write st { st with heap := st.heap.set o (d.set k (.num n)) } o k (.num n) := by
    intro k n
    refine ⟨⟨d, hd, by simp [Dict.get?_set]⟩, ?_, ?_, rfl⟩
    · intro x hx _; simp only [Dict.get?_set]; rw [if_neg (fun e => hx e.symm)]
    · intro c hc; cases hc
  have inum : ∀ k n, Inv { st with heap := st.heap.set o (d.set k (.num n)) } :=
    fun k n => inv_write (wnum k n) hi (.inl ⟨n, rfl, rfl⟩)
  cases u with
  | set k v =>
    right
    have e : used st (use st (.on (.dict o)) (.set k v)) = { st with heap := st.heap.set o (d.set k (.num v)) } := by
      simp [use, used, hd]
    rw [e]
    exact ⟨k, .num v, wnum k v, inum k v, .inl ⟨rfl, v, rfl⟩⟩
  | inc k v =>
    rcases hk : d.get? k with _ | ⟨n⟩ | ⟨c⟩
    · right
      have e : used st (use st (.on (.dict o)) (.inc k v)) = { st with heap := st.heap.set o (d.set k (.num v)) } := by
        simp [use, used, hd, hk]
      rw [e]
      exact ⟨k, .num v, wnum k v, inum k v, .inr (.inr (.inl ⟨v, rfl, hk, rfl⟩))⟩
    · right
      have e : used st (use st (.on (.dict o)) (.inc k v)) = { st with heap := st.heap.set o (d.set k (.num (n + v))) } := by
        simp [use, used, hd, hk]
      rw [e]
      exact ⟨k, .num (n + v), wnum k _, inum k _, .inr (.inl ⟨v, n, rfl, hk, rfl⟩)⟩
    · left
      exact ⟨by simp [use, used, hd, hk], .inl ⟨k, v, c, rfl, hk⟩⟩
  | nest k =>
    rcases hk : d.get? k with _ | ⟨n⟩ | ⟨c⟩
    · right
      have e : used st (use st (.on (.dict o)) (.nest k)) =
          { st with heap := (st.heap.set o (d.set k (.dict st.next))).set st.next [], next := st.next + 1 } := by
        simp [use, used, hd, hk]
      rw [e]
      have hno : st.next ≠ o := by
        have := hi.bound o (by rw [hd]; simp); omega
      have hw : Write st { st with heap := (st.heap.set o (d.set k (.dict st.next))).set st.next [], next := st.next + 1 } o k (.dict st.next) := by
        refine ⟨⟨d, hd, ?_⟩, ?_, ?_, rfl⟩
        · simp only [Dict.get?_set]; rw [if_neg hno]; simp
        · intro x hx hv
          simp only [Dict.get?_set]
          rw [if_neg (fun e => hv (by rw [e])), if_neg (fun e => hx e.symm)]
        · intro c hc
          injection hc with hc; subst hc
          refine ⟨hno, by simp [Dict.get?_set], ?_⟩
          rcases hg : st.heap.get? st.next with _ | _
          · rfl
          · have := hi.bound st.next (by rw [hg]; simp); omega
      exact ⟨k, .dict st.next, hw, inv_write hw hi (.inr ⟨rfl, rfl⟩), .inr (.inr (.inr ⟨rfl, hk, rfl⟩))⟩
    · left; exact ⟨by simp [use, used, hd, hk], .inr ⟨k, _, rfl, hk⟩⟩
    · left; exact ⟨by simp [use, used, hd, hk], .inr ⟨k, _, rfl, hk⟩⟩

end Xoscar.Prof
