import Verif.Spec.Bind
import Verif.Proof.Base

/-!
# C102: bound arguments are those the method would get
-/
namespace Xoscar.Bind
open Xoscar
variable {V : Type}

theorem named_iff (s : Sig V) (k : String) : k ∈ s.named ↔ s.ByName k := by
  unfold Sig.named Sig.ByName
  rw [List.mem_append, or_comm]
  apply or_congr Iff.rfl
  rw [List.mem_iff_getElem?]
  constructor
  · rintro ⟨i, h⟩
    rw [List.getElem?_drop] at h
    exact ⟨s.posonly + i, by omega, h⟩
  · rintro ⟨i, h1, h2⟩
    refine ⟨i - s.posonly, ?_⟩
    rw [List.getElem?_drop, Nat.add_sub_cancel' h1]; exact h2

theorem get?_append (d e : Dict String V) (k : String) :
    Dict.get? (d ++ e) k = (d.get? k).or (e.get? k) := by
  induction d with
  | nil => simp
  | cons p r ih =>
    obtain ⟨a, v⟩ := p
    rw [List.cons_append, Dict.get?_cons, Dict.get?_cons, ih]
    split <;> simp

theorem kwLoop_eq (s : Sig V) (kw : Dict String V) (hw : kw.WF) :
    ∀ slots extra : Dict String V, (∀ k ∈ kw.keys, k ∉ extra.keys) →
    kwLoop s kw (slots, extra) =
      if (∀ k ∈ kw.keys, k ∈ s.named → k ∉ slots.keys) ∧ (s.varkw = none → ∀ k ∈ kw.keys, k ∈ s.named) then
        some (slots ++ kw.filter (fun p => p.1 ∈ s.named), extra ++ kw.filter (fun p => ¬ p.1 ∈ s.named))
      else none := by
  induction kw with
  | nil => intro slots extra _; simp [kwLoop, Dict.keys]
  | cons p r ih =>
    obtain ⟨k, v⟩ := p
    intro slots extra hx
    have hk : k ∉ Dict.keys r := (List.nodup_cons.mp hw).1
    have hr : Dict.WF r := (List.nodup_cons.mp hw).2
    have hks : Dict.keys ((k, v) :: r) = k :: Dict.keys r := rfl
    simp only [kwLoop]
    by_cases hn : k ∈ s.named
    · rw [if_pos hn]
      by_cases hs : k ∈ slots.keys
      · rw [if_pos ((Dict.has_iff slots k).2 hs), if_neg]
        intro h; exact h.1 k (by simp [hks]) hn hs
      · rw [if_neg (by rw [Dict.has_iff]; exact hs), Dict.set_of_not_mem hs,
          ih hr _ _ (fun k' h' => hx k' (by rw [hks]; exact List.mem_cons_of_mem _ h'))]
        have hap : Dict.keys (slots ++ [(k, v)]) = slots.keys ++ [k] := by simp [Dict.keys]
        congr 1
        · rw [hap, hks]
          apply propext
          simp only [List.mem_cons, List.mem_append, forall_eq_or_imp, List.not_mem_nil, or_false]
          constructor
          · rintro ⟨h1, h2⟩
            exact ⟨⟨fun _ => hs, fun a ha hna hsa => h1 a ha hna (Or.inl hsa)⟩, fun hv => ⟨hn, h2 hv⟩⟩
          · rintro ⟨⟨_, h1⟩, h2⟩
            refine ⟨fun a ha hna hor => ?_, fun hv => (h2 hv).2⟩
            rcases hor with h | h
            · exact h1 a ha hna h
            · exact hk (h ▸ ha)
        · simp [hn]
    · rw [if_neg hn]
      by_cases hv : s.varkw.isSome
      · have hxk : k ∉ extra.keys := hx k (by simp [hks])
        rw [if_pos hv, Dict.set_of_not_mem hxk, ih hr]
        · have hvn : ¬ s.varkw = none := by intro h; rw [h] at hv; cases hv
          congr 1
          · rw [hks]
            apply propext
            simp only [List.mem_cons, forall_eq_or_imp]
            constructor
            · rintro ⟨h1, _⟩; exact ⟨⟨fun h => absurd h hn, h1⟩, fun h => absurd h hvn⟩
            · rintro ⟨⟨_, h1⟩, _⟩; exact ⟨h1, fun h => absurd h hvn⟩
          · simp [hn]
        · intro k' h'
          have : Dict.keys (extra ++ [(k, v)]) = extra.keys ++ [k] := by simp [Dict.keys]
          rw [this]
          simp only [List.mem_append, List.mem_singleton, not_or]
          exact ⟨hx k' (by rw [hks]; exact List.mem_cons_of_mem _ h'), fun e => hk (e ▸ h')⟩
      · rw [if_neg hv, if_neg]
        rintro ⟨_, h2⟩
        have : s.varkw = none := by simpa using hv
        exact hn (h2 this k (by simp [hks]))

theorem zip_get? {as : List String} {vs : List V} (hn : as.Nodup) {i : Nat} {a : String} (h : as[i]? = some a) :
    Dict.get? (as.zip vs) a = vs[i]? := by
  induction as generalizing i vs with
  | nil => simp at h
  | cons b r ih =>
    cases vs with
    | nil => simp
    | cons v vs =>
      rw [List.zip_cons_cons, Dict.get?_cons]
      cases i with
      | zero => simp at h; simp [h]
      | succ j =>
        simp at h
        have : b ≠ a := by
          intro e; subst e
          exact (List.nodup_cons.mp hn).1 (List.mem_of_getElem? h)
        rw [if_neg this, ih (List.nodup_cons.mp hn).2 h]; simp

theorem get?_filter (kw : Dict String V) (q : String → Prop) [DecidablePred q] (a : String) :
    Dict.get? (kw.filter fun p => q p.1) a = if q a then kw.get? a else none := by
  induction kw with
  | nil => simp
  | cons p r ih =>
    obtain ⟨k, v⟩ := p
    by_cases hk : q k
    · rw [List.filter_cons_of_pos (by simpa using hk), Dict.get?_cons, Dict.get?_cons, ih]
      by_cases e : k = a
      · subst e; simp [hk]
      · simp [e]
    · rw [List.filter_cons_of_neg (by simpa using hk), ih, Dict.get?_cons]
      by_cases e : k = a
      · subst e; simp [hk]
      · simp [e]

theorem get?_iff {kw : Dict String V} (hw : kw.WF) {a : String} {v : V} : kw.get? a = some v ↔ (a, v) ∈ kw :=
  ⟨Dict.mem_of_get?, Dict.get?_of_mem hw⟩

theorem get?_none_iff {kw : Dict String V} {a : String} : kw.get? a = none ↔ ∀ w, (a, w) ∉ kw := by
  rw [Dict.get?_eq_none_iff]
  simp [Dict.keys]

theorem mapM_some {α β : Type} (f : α → Option β) (l : List α) (r : List β) :
    l.mapM f = some r ↔ l.map f = r.map some := by
  induction l generalizing r with
  | nil =>
    cases r <;> simp
  | cons a l ih =>
    rw [List.mapM_cons]
    cases hf : f a with
    | none => cases r <;> simp [hf]
    | some b =>
      cases hl : l.mapM f with
      | none =>
        cases r with
        | nil => simp [hf]
        | cons c r =>
          simp [hf, hl]
          intro _ h
          have := (ih r).2 h
          rw [hl] at this; cases this
      | some t =>
        cases r with
        | nil => simp [hf]
        | cons c r =>
          have := ih r
          rw [hl] at this
          simp [hf] at this ⊢
          intro _; exact this

theorem mapM_isSome {α β : Type} (f : α → Option β) (l : List α) (h : ∀ a ∈ l, ∃ b, f a = some b) :
    ∃ r, l.mapM f = some r := by
  induction l with
  | nil => exact ⟨[], rfl⟩
  | cons a l ih =>
    obtain ⟨b, hb⟩ := h a (by simp)
    obtain ⟨r, hr⟩ := ih fun x hx => h x (by simp [hx])
    exact ⟨b :: r, by simp [List.mapM_cons, hb, hr]⟩

/-- the slots after positional and keyword arguments -/
def slotsOf (s : Sig V) (pos : List V) (kw : Dict String V) : Dict String V :=
  s.args.zip pos ++ kw.filter (fun p => p.1 ∈ s.named)

theorem fill_arg {s : Sig V} {pos : List V} {kw : Dict String V} (hs : s.Legal) (hw : kw.WF) {i : Nat} {a : String}
    (hi : s.args[i]? = some a) (v : V) :
    fill (slotsOf s pos kw) s.argDefaults a = some v ↔ Gets s pos kw i a v := by
  have hnd : s.args.Nodup := by
    have := hs.1; unfold Sig.params at this
    simp only [List.append_assoc] at this
    exact (List.nodup_append.mp this).1
  have hnk : a ∉ s.kwonly := by
    have := hs.1; unfold Sig.params at this
    intro hk
    rw [List.append_assoc, List.append_assoc] at this
    exact (List.nodup_append.mp this).2.2 a (List.mem_of_getElem? hi) a (by simp [hk]) rfl
  have hnamed : a ∈ s.named ↔ s.posonly ≤ i := by
    rw [named_iff]; unfold Sig.ByName
    constructor
    · rintro (h | ⟨j, hj, hja⟩)
      · exact absurd h hnk
      · have : j = i := by
          have h1 := (List.getElem?_eq_some_iff.mp hja).choose
          exact (List.getElem?_inj h1 hnd).mp (by rw [hja, hi])
        omega
    · intro h; exact Or.inr ⟨i, h, hi⟩
  have hil : i < s.args.length := (List.getElem?_eq_some_iff.mp hi).choose
  have hd : s.argDefaults.get? a = if s.args.length - s.defaults.length ≤ i then
      s.defaults[i - (s.args.length - s.defaults.length)]? else none := by
    unfold Sig.argDefaults
    split
    · rename_i hle
      apply zip_get? (hnd.sublist (List.drop_sublist _ _))
      rw [List.getElem?_drop, Nat.add_sub_cancel' hle, hi]
    · rename_i hle
      rw [Dict.get?_eq_none_iff]
      intro hmem
      have hmem : a ∈ s.args.drop (s.args.length - s.defaults.length) := by
        unfold Dict.keys at hmem
        obtain ⟨⟨x, y⟩, hx, rfl⟩ := List.mem_map.mp hmem
        exact (List.of_mem_zip hx).1
      obtain ⟨j, hj⟩ := List.mem_iff_getElem?.mp hmem
      rw [List.getElem?_drop] at hj
      have h1 := (List.getElem?_eq_some_iff.mp hj).choose
      have := (List.getElem?_inj h1 hnd).mp (hj.trans hi.symm)
      omega
  unfold fill slotsOf
  rw [get?_append, zip_get? hnd hi, get?_filter kw (fun k => k ∈ s.named), hd]
  cases hp : pos[i]? with
  | some w =>
    simp only [Option.some_or]
    constructor
    · intro e; injection e with e; subst e; exact .position hp
    · intro h
      cases h with
      | position h => rw [hp] at h; exact h
      | keyword h _ _ => rw [List.getElem?_eq_none h] at hp; cases hp
      | default h _ _ _ => rw [List.getElem?_eq_none h] at hp; cases hp
  | none =>
    have hlen : pos.length ≤ i := List.getElem?_eq_none_iff.mp hp
    simp only [Option.none_or]
    by_cases hn : a ∈ s.named
    · rw [if_pos hn]
      cases hk : kw.get? a with
      | some w =>
        simp only
        constructor
        · intro e; injection e with e; subst e
          exact .keyword hlen (hnamed.1 hn) ((get?_iff hw).1 hk)
        · intro h
          cases h with
          | position h => rw [hp] at h; cases h
          | keyword _ _ h => rw [← hk]; exact (get?_iff hw).2 h
          | default _ h _ _ =>
            rcases h with h | h
            · exact absurd (hnamed.1 hn) (by omega)
            · exact absurd ((get?_iff hw).1 hk) (h _)
      | none =>
        simp only
        constructor
        · intro e
          split at e
          · rename_i hle
            exact .default hlen (Or.inr (get?_none_iff.1 hk)) hle e
          · cases e
        · intro h
          cases h with
          | position h => rw [hp] at h; cases h
          | keyword _ _ h => exact absurd h (get?_none_iff.1 hk _)
          | default _ _ h1 h2 => rw [if_pos h1]; exact h2
    · rw [if_neg hn]
      simp only
      constructor
      · intro e
        split at e
        · rename_i hle
          exact .default hlen (Or.inl (by have := mt hnamed.2 hn; omega)) hle e
        · cases e
      · intro h
        cases h with
        | position h => rw [hp] at h; cases h
        | keyword _ h _ => exact absurd (hnamed.2 h) hn
        | default _ _ h1 h2 => rw [if_pos h1]; exact h2

theorem fill_kw {s : Sig V} {pos : List V} {kw : Dict String V} (hs : s.Legal) (hw : kw.WF) {a : String}
    (ha : a ∈ s.kwonly) (v : V) :
    fill (slotsOf s pos kw) s.kwdefaults a = some v ↔ GetsKw s kw a v := by
  have hna : a ∉ s.args := by
    have := hs.1; unfold Sig.params at this
    intro hk
    rw [List.append_assoc, List.append_assoc] at this
    exact (List.nodup_append.mp this).2.2 a hk a (by simp [ha]) rfl
  have hz : Dict.get? (s.args.zip pos) a = none := by
    rw [Dict.get?_eq_none_iff]
    intro hmem
    unfold Dict.keys at hmem
    obtain ⟨⟨x, y⟩, hx, rfl⟩ := List.mem_map.mp hmem
    exact hna (List.of_mem_zip hx).1
  unfold fill slotsOf
  rw [get?_append, hz, get?_filter kw (fun k => k ∈ s.named), if_pos (by simp [Sig.named, ha]), Option.none_or]
  cases hk : kw.get? a with
  | some w =>
    constructor
    · intro e; injection e with e; subst e; exact .keyword ((get?_iff hw).1 hk)
    · intro h
      cases h with
      | keyword h => have e := (get?_iff hw).2 h; rw [hk] at e; exact e
      | default h _ => exact absurd ((get?_iff hw).1 hk) (h _)
  | none =>
    constructor
    · intro e; exact .default (get?_none_iff.1 hk) e
    · intro h
      cases h with
      | keyword h => exact absurd h (get?_none_iff.1 hk _)
      | default _ h => exact h

theorem ext_names {l l' : List (String × Slot V)} (hn : l.map Prod.fst = l'.map Prod.fst) (hd : (l.map Prod.fst).Nodup)
    (hm : ∀ p ∈ l, p ∈ l') : l = l' := by
  induction l generalizing l' with
  | nil => simp at hn; exact hn.symm
  | cons p r ih =>
    cases l' with
    | nil => simp at hn
    | cons q r' =>
      simp only [List.map_cons, List.cons.injEq] at hn
      rw [List.map_cons, List.nodup_cons] at hd
      have hp : p = q := by
        rcases List.mem_cons.mp (hm p (by simp)) with h | h
        · exact h
        · exfalso; apply hd.1
          rw [hn.2]; exact List.mem_map_of_mem h
      subst hp
      congr 1
      apply ih hn.2 hd.2
      intro x hx
      rcases List.mem_cons.mp (hm x (by simp [hx])) with h | h
      · exfalso; apply hd.1; rw [← h]; exact List.mem_map_of_mem hx
      · exact h

theorem gets_unique {s : Sig V} {pos : List V} {kw : Dict String V} (hw : kw.WF) {i : Nat} {a : String} {v w : V}
    (h : Gets s pos kw i a v) (h' : Gets s pos kw i a w) : v = w := by
  have hnl : ∀ {x : V}, pos[i]? = some x → ¬ pos.length ≤ i := fun hx hl => by
    rw [List.getElem?_eq_none hl] at hx; cases hx
  cases h with
  | position h =>
    cases h' with
    | position h' => rw [h] at h'; injection h'
    | keyword h1 _ _ => exact absurd h1 (hnl h)
    | default h1 _ _ _ => exact absurd h1 (hnl h)
  | keyword h1 h2 h3 =>
    cases h' with
    | position h' => exact absurd h1 (hnl h')
    | keyword _ _ h4 =>
      have e1 := (get?_iff hw).2 h3
      rw [(get?_iff hw).2 h4] at e1; injection e1 with e1; exact e1.symm
    | default _ h5 _ _ =>
      rcases h5 with h5 | h5
      · omega
      · exact absurd h3 (h5 _)
  | default h1 h2 h3 h4 =>
    cases h' with
    | position h' => exact absurd h1 (hnl h')
    | keyword _ h5 h6 =>
      rcases h2 with h2 | h2
      · omega
      · exact absurd h6 (h2 _)
    | default _ _ _ h5 => rw [h4] at h5; injection h5

theorem getsKw_unique {s : Sig V} {kw : Dict String V} (hw : kw.WF) {a : String} {v w : V}
    (h : GetsKw s kw a v) (h' : GetsKw s kw a w) : v = w := by
  cases h with
  | keyword h =>
    cases h' with
    | keyword h' =>
      have e1 := (get?_iff hw).2 h
      rw [(get?_iff hw).2 h'] at e1; injection e1 with e1; exact e1.symm
    | default h1 _ => exact absurd h (h1 _)
  | default h1 h2 =>
    cases h' with
    | keyword h' => exact absurd h' (h1 _)
    | default _ h3 => rw [h2] at h3; injection h3

theorem means_unique {s : Sig V} (hs : s.Legal) {pos : List V} {kw : Dict String V} (hw : kw.WF)
    {env env' : Dict String (Slot V)} (h : Means s pos kw env) (h' : Means s pos kw env') : env = env' := by
  apply ext_names (h.names.trans h'.names.symm)
  · rw [h.names]; exact hs.1
  · rintro ⟨n, x⟩ hx
    have hnd : Dict.WF env := by
      show (env.map Prod.fst).Nodup
      rw [h.names]; exact hs.1
    have hsame : ∀ {y : Slot V}, (n, y) ∈ env → y = x := fun hy => by
      have e1 := Dict.get?_of_mem hnd hy
      rw [Dict.get?_of_mem hnd hx] at e1
      injection e1 with e1; exact e1.symm
    have hp : n ∈ s.params := by rw [← h.names]; exact List.mem_map_of_mem hx
    unfold Sig.params at hp
    simp only [List.mem_append, Option.mem_toList] at hp
    rcases hp with ((hp | hp) | hp) | hp
    · obtain ⟨i, hi⟩ := List.mem_iff_getElem?.mp hp
      obtain ⟨v, hv, hve⟩ := h.args i n hi
      obtain ⟨w, hw', hwe⟩ := h'.args i n hi
      rw [← hsame hve, gets_unique hw hv hw']; exact hwe
    · rw [← hsame (h.varargs n hp)]; exact h'.varargs n hp
    · obtain ⟨v, hv, hve⟩ := h.kwonly n hp
      obtain ⟨w, hw', hwe⟩ := h'.kwonly n hp
      rw [← hsame hve, getsKw_unique hw hv hw']; exact hwe
    · rw [← hsame (h.varkw n hp)]; exact h'.varkw n hp

theorem zip_mem {as : List String} {vs : List V} {i : Nat} {a : String} {v : V}
    (ha : as[i]? = some a) (hv : vs[i]? = some v) : (a, Slot.one v) ∈ as.zip (vs.map Slot.one) := by
  rw [List.mem_iff_getElem?]
  refine ⟨i, ?_⟩
  rw [List.getElem?_zip_eq_some]
  exact ⟨ha, by simp [hv]⟩

theorem mapM_get {α β : Type} {f : α → Option β} {l : List α} {r : List β} (h : l.mapM f = some r) :
    r.length = l.length ∧ ∀ (i : Nat) (a : α), l[i]? = some a → ∃ b, r[i]? = some b ∧ f a = some b := by
  rw [mapM_some] at h
  refine ⟨by have := congrArg List.length h; simp at this; exact this.symm, fun i a ha => ?_⟩
  have h1 : (l.map f)[i]? = some (f a) := by simp [ha]
  rw [h] at h1
  rw [List.getElem?_map] at h1
  cases hr : r[i]? with
  | none => rw [hr] at h1; cases h1
  | some b =>
    rw [hr] at h1
    simp only [Option.map_some, Option.some.injEq] at h1
    exact ⟨b, rfl, h1.symm⟩

theorem keys_zip {pos : List V} {as : List String} {k : String} :
    k ∈ Dict.keys (as.zip pos) ↔ ∃ i, as[i]? = some k ∧ i < pos.length := by
  unfold Dict.keys
  constructor
  · intro h
    obtain ⟨⟨x, y⟩, hx, rfl⟩ := List.mem_map.mp h
    obtain ⟨i, hi⟩ := List.mem_iff_getElem?.mp hx
    rw [List.getElem?_zip_eq_some] at hi
    exact ⟨i, hi.1, (List.getElem?_eq_some_iff.mp hi.2).choose⟩
  · rintro ⟨i, hi, hl⟩
    have : (as.zip pos)[i]? = some (k, pos[i]) := by
      rw [List.getElem?_zip_eq_some]
      exact ⟨hi, by simp⟩
    exact List.mem_map.mpr ⟨_, List.mem_of_getElem? this, rfl⟩

theorem locals_names (s : Sig V) (as rest ks : List V) (extra : Dict String V) (h1 : as.length = s.args.length)
    (h2 : ks.length = s.kwonly.length) : (locals s as rest ks extra).map Prod.fst = s.params := by
  unfold locals Sig.params
  have e1 : (s.args.zip (as.map Slot.one)).map Prod.fst = s.args := by
    rw [List.map_fst_zip]; simp [h1]
  have e2 : (s.kwonly.zip (ks.map Slot.one)).map Prod.fst = s.kwonly := by
    rw [List.map_fst_zip]; simp [h2]
  simp only [List.map_append, e1, e2]
  cases s.varargs <;> cases s.varkw <;> simp

theorem mem_keys_kw {kw : Dict String V} {k : String} : k ∈ kw.keys ↔ ∃ v, (k, v) ∈ kw := by
  simp [Dict.keys]

/-- (Python) **A call does what the language reference says**: it is legal exactly if every parameter gets a value by
the rules and nothing is passed twice or to nobody; the local variables are then these values. -/
theorem call_iff (s : Sig V) (hs : s.Legal) (pos : List V) (kw : Dict String V) (hw : kw.WF) (env : Dict String (Slot V)) :
    call s pos kw = some env ↔ Means s pos kw env := by
  have hloop := kwLoop_eq s kw hw (s.args.zip pos) [] (by simp [Dict.keys])
  have honce : (∀ k ∈ kw.keys, k ∈ s.named → k ∉ Dict.keys (s.args.zip pos)) ↔
      (∀ i a, s.args[i]? = some a → s.posonly ≤ i → i < pos.length → ∀ v, (a, v) ∉ kw) := by
    have hnd : s.args.Nodup := by
      have := hs.1; unfold Sig.params at this
      simp only [List.append_assoc] at this
      exact (List.nodup_append.mp this).1
    have hdis : ∀ a ∈ s.args, a ∉ s.kwonly := by
      have := hs.1; unfold Sig.params at this
      intro a ha hk
      rw [List.append_assoc, List.append_assoc] at this
      exact (List.nodup_append.mp this).2.2 a ha a (by simp [hk]) rfl
    constructor
    · intro h i a hi hp hl v hv
      exact h a (mem_keys_kw.2 ⟨v, hv⟩) ((named_iff s a).2 (Or.inr ⟨i, hp, hi⟩)) (keys_zip.2 ⟨i, hi, hl⟩)
    · intro h k hk hn hz
      obtain ⟨i, hi, hl⟩ := keys_zip.1 hz
      obtain ⟨v, hv⟩ := mem_keys_kw.1 hk
      rcases (named_iff s k).1 hn with hc | ⟨j, hj, hja⟩
      · exact hdis k (List.mem_of_getElem? hi) hc
      · have h1 := (List.getElem?_eq_some_iff.mp hja).choose
        have : j = i := (List.getElem?_inj h1 hnd).mp (hja.trans hi.symm)
        exact h i k hi (by omega) hl v hv
  have hunk : (s.varkw = none → ∀ k ∈ kw.keys, k ∈ s.named) ↔ (s.varkw = none → ∀ k v, (k, v) ∈ kw → s.ByName k) := by
    constructor
    · intro h hv k v hm; exact (named_iff s k).1 (h hv k (mem_keys_kw.2 ⟨v, hm⟩))
    · intro h hv k hm
      obtain ⟨v, hm⟩ := mem_keys_kw.1 hm
      exact (named_iff s k).2 (h hv k v hm)
  have hfw : ∀ env', call s pos kw = some env' → Means s pos kw env' := by
    intro env hc
    unfold call at hc
    rw [hloop] at hc
    split at hc
    · cases hc
    rename_i slots extra hl
    split at hl
    · rename_i hcond
      injection hl with hl
      injection hl with hl1 hl2
      subst hl1 hl2
      split at hc
      · cases hc
      rename_i hsur
      split at hc
      · rename_i as ks hA hK
        injection hc with hc
        subst hc
        obtain ⟨lA, gA⟩ := mapM_get hA
        obtain ⟨lK, gK⟩ := mapM_get hK
        refine ⟨locals_names s _ _ _ _ lA lK, ?_, ?_, ?_, ?_, hunk.1 hcond.2, ?_, honce.1 hcond.1⟩
        · intro i a hi
          obtain ⟨v, hv, hf⟩ := gA i a hi
          refine ⟨v, (fill_arg hs hw hi v).1 hf, ?_⟩
          unfold locals
          simp only [List.mem_append]
          exact Or.inl (Or.inl (Or.inl (zip_mem hi hv)))
        · intro a ha
          obtain ⟨i, hi⟩ := List.mem_iff_getElem?.mp ha
          obtain ⟨v, hv, hf⟩ := gK i a hi
          refine ⟨v, (fill_kw hs hw ha v).1 hf, ?_⟩
          unfold locals
          simp only [List.mem_append]
          exact Or.inl (Or.inr (zip_mem hi hv))
        · intro hv
          exact Nat.le_of_not_lt fun hlt => hsur ⟨hlt, hv⟩
        · intro n hn
          unfold locals
          simp only [List.mem_append]
          exact Or.inl (Or.inl (Or.inr (by simp [hn])))
        · intro n hn
          unfold locals
          simp only [List.mem_append]
          refine Or.inr ?_
          simp only [hn, Option.map_some, Option.toList_some, List.mem_singleton, Prod.mk.injEq, true_and, Slot.dict.injEq]
          simp only [List.nil_append]
          congr 1
          funext p
          simp [named_iff]
      · cases hc
    · cases hl
  constructor
  · exact hfw env
  · intro hm
    have hsome : ∃ env', call s pos kw = some env' := by
      unfold call
      rw [hloop, if_pos ⟨honce.2 hm.once, hunk.2 hm.unknown⟩]
      simp only
      rw [if_neg (by rintro ⟨h1, h2⟩; have := hm.surplus h2; omega)]
      obtain ⟨as, hA⟩ := mapM_isSome (fill (slotsOf s pos kw) s.argDefaults) s.args (fun a ha => by
        obtain ⟨i, hi⟩ := List.mem_iff_getElem?.mp ha
        obtain ⟨v, hv, _⟩ := hm.args i a hi
        exact ⟨v, (fill_arg hs hw hi v).2 hv⟩)
      obtain ⟨ks, hK⟩ := mapM_isSome (fill (slotsOf s pos kw) s.kwdefaults) s.kwonly (fun a ha => by
        obtain ⟨v, hv, _⟩ := hm.kwonly a ha
        exact ⟨v, (fill_kw hs hw ha v).2 hv⟩)
      unfold slotsOf at hA hK
      rw [hA, hK]
      exact ⟨_, rfl⟩
    obtain ⟨env', he⟩ := hsome
    rw [he, means_unique hs hw hm (hfw env' he)]

/-! ## The binder -/

theorem binder_legal {s : Sig V} (hs : s.Legal) : (binderSig s).Legal := hs

/-- no keyword argument has the name of a positional-only parameter -/
def NoClash (s : Sig V) (kw : Dict String V) : Prop := ∀ a ∈ s.args.take s.posonly, ∀ v, (a, v) ∉ kw

theorem binder_byName {s : Sig V} {kw : Dict String V} (hc : NoClash s kw) {k : String} {v : V} (hk : (k, v) ∈ kw) :
    (binderSig s).ByName k ↔ s.ByName k := by
  unfold Sig.ByName
  apply or_congr Iff.rfl
  constructor
  · rintro ⟨i, _, hi⟩
    have hi : s.args[i]? = some k := hi
    refine ⟨i, ?_, hi⟩
    apply Classical.byContradiction; intro hlt
    apply hc k _ v hk
    rw [List.mem_iff_getElem?]
    exact ⟨i, by rw [List.getElem?_take, if_pos (by omega)]; exact hi⟩
  · rintro ⟨i, _, hi⟩; exact ⟨i, Nat.zero_le _, hi⟩

open Classical in
theorem binder_means {s : Sig V} {pos : List V} {kw : Dict String V} (hc : NoClash s kw) (env : Dict String (Slot V)) :
    Means (binderSig s) pos kw env ↔ Means s pos kw env := by
  have hlow : ∀ {i : Nat} {a : String} {v : V}, s.args[i]? = some a → (a, v) ∈ kw → s.posonly ≤ i := by
    intro i a v hi hv
    apply Classical.byContradiction; intro hlt
    apply hc a _ v hv
    rw [List.mem_iff_getElem?]
    exact ⟨i, by rw [List.getElem?_take, if_pos (by omega)]; exact hi⟩
  have hgets : ∀ {i : Nat} {a : String} {v : V}, s.args[i]? = some a → (Gets (binderSig s) pos kw i a v ↔ Gets s pos kw i a v) := by
    intro i a v hi
    constructor
    · intro h
      cases h with
      | position h => exact .position h
      | keyword h1 _ h3 => exact .keyword h1 (hlow hi h3) h3
      | default h1 h2 h3 h4 =>
        refine .default h1 ?_ h3 h4
        rcases h2 with h2 | h2
        · exact absurd h2 (Nat.not_lt_zero _)
        · exact Or.inr h2
    · intro h
      cases h with
      | position h => exact .position h
      | keyword h1 _ h3 => exact .keyword h1 (Nat.zero_le _) h3
      | default h1 h2 h3 h4 =>
        refine .default h1 (Or.inr ?_) h3 h4
        rcases h2 with h2 | h2
        · intro w hw; exact absurd (hlow hi hw) (by omega)
        · exact h2
  have hkw : ∀ {a : String} {v : V}, GetsKw (binderSig s) kw a v ↔ GetsKw s kw a v := by
    intro a v
    constructor
    · intro h
      cases h with
      | keyword h => exact .keyword h
      | default h1 h2 => exact .default h1 h2
    · intro h
      cases h with
      | keyword h => exact .keyword h
      | default h1 h2 => exact .default h1 h2
  have hfil : (kw.filter fun p => ¬ (binderSig s).ByName p.1) = kw.filter fun p => ¬ s.ByName p.1 := by
    apply List.filter_congr
    rintro ⟨k, v⟩ hk
    rw [decide_eq_decide, binder_byName hc hk]
  constructor
  · intro h
    refine ⟨h.names, fun i a hi => ?_, fun a ha => ?_, h.surplus, h.varargs, fun hv k v hk => ?_, fun n hn => ?_, fun i a hi _ hl => h.once i a hi (Nat.zero_le _) hl⟩
    · obtain ⟨v, hv, hm⟩ := h.args i a hi
      exact ⟨v, (hgets hi).1 hv, hm⟩
    · obtain ⟨v, hv, hm⟩ := h.kwonly a ha
      exact ⟨v, hkw.1 hv, hm⟩
    · exact (binder_byName hc hk).1 (h.unknown hv k v hk)
    · rw [← hfil]; exact h.varkw n hn
  · intro h
    refine ⟨h.names, fun i a hi => ?_, fun a ha => ?_, h.surplus, h.varargs, fun hv k v hk => ?_, fun n hn => ?_, fun i a hi _ hl v hv => h.once i a hi (hlow hi hv) hl v hv⟩
    · obtain ⟨v, hv, hm⟩ := h.args i a hi
      exact ⟨v, (hgets hi).2 hv, hm⟩
    · obtain ⟨v, hv, hm⟩ := h.kwonly a ha
      exact ⟨v, hkw.2 hv, hm⟩
    · exact (binder_byName hc hk).2 (h.unknown hv k v hk)
    · rw [hfil]; exact h.varkw n hn

theorem mapM_env (env : Dict String (Slot V)) (hw : env.WF) (l : List (String × Slot V)) (hl : ∀ p ∈ l, p ∈ env) :
    (l.map Prod.fst).mapM (fun n => (env.get? n).map fun v => (n, v)) = some l := by
  induction l with
  | nil => rfl
  | cons p r ih =>
    obtain ⟨n, v⟩ := p
    rw [List.map_cons, List.mapM_cons, Dict.get?_of_mem hw (hl (n, v) List.mem_cons_self), ih fun q hq => hl q (by simp [hq])]
    rfl

/-- the decoration is refused exactly if a parameter other than the first begins with an underscore -/
theorem underscored_iff (n : String) : underscored n = true ↔ ∃ r, n.toList = '_' :: r := by
  unfold underscored
  cases h : n.toList with
  | nil => simp
  | cons c r => simp

theorem build_eq (s : Sig V) : build true s = none ↔ ∃ n ∈ fields true s, ∃ r, n.toList = '_' :: r := by
  unfold build
  simp only [underscored_iff, List.any_eq_true, ite_eq_left_iff, reduceCtorEq, imp_false, Classical.not_not]

/-- (C102) **Which methods can be extensible**: the decoration fails (`ValueError`, when the class is defined) exactly if
a parameter other than the instance begins with an underscore, whatever the call would have been. -/
theorem decorated_exactly (s : Sig V) (me : String) (as : List String) (hargs : s.args = me :: as) (self : V) (pos : List V) (kw : Dict String V) :
    bind s self pos kw = .valueError ↔ ∃ n ∈ s.params.tail, ∃ r, n.toList = '_' :: r := by
  have hf : fields true s = s.params.tail := by
    unfold fields Sig.params
    rw [hargs]; simp
  rw [← hf, ← build_eq]
  unfold bind
  cases build true s with
  | none => simp
  | some b => simp only [reduceCtorEq, iff_false]; split <;> simp

theorem bind_eq {s : Sig V} {me : String} {as : List String} (hargs : s.args = me :: as) (hs : s.Legal)
    (hok : ∀ n ∈ s.params.tail, ¬ ∃ r, n.toList = '_' :: r) (self : V) (pos : List V) (kw : Dict String V) (hw : kw.WF) :
    bind s self pos kw = match call (binderSig s) (self :: pos) kw with | none => .typeError | some env => .ok env.tail := by
  have hb : build true s = some (binderSig s, fields true s) := by
    have : build true s ≠ none := by
      rw [Ne, build_eq]
      rintro ⟨n, hn, hr⟩
      apply hok n _ hr
      unfold fields at hn
      unfold Sig.params
      rw [hargs] at hn ⊢
      simpa using hn
    unfold build at this ⊢
    split at this
    · exact absurd rfl this
    · rename_i hh; rw [if_neg hh]
  unfold bind
  rw [hb]
  simp only [runBinder]
  cases hc : call (binderSig s) (self :: pos) kw with
  | none => rfl
  | some env =>
    simp only
    have hm := (call_iff _ (binder_legal hs) _ _ hw _).1 hc
    have hnm : env.map Prod.fst = s.params := hm.names
    have hwf : Dict.WF env := by
      show (env.map Prod.fst).Nodup
      rw [hnm]; exact hs.1
    have hfl : fields true s = env.tail.map Prod.fst := by
      rw [List.map_tail, hnm]
      unfold fields Sig.params
      rw [hargs]; simp
    rw [hfl, mapM_env env hwf env.tail fun p hp => List.mem_of_mem_tail hp]

/-- (C102) **Bound arguments are those the method would get.**  Of a method that could be decorated, `bind` returns named
fields exactly if calling the method with these arguments would be legal, and the fields are then the parameters of the
method (but for the instance) in the order of its signature, with the values the call would give them — provided no keyword
argument has the name of a positional-only parameter. -/
theorem bind_iff_partial (s : Sig V) (hs : s.Legal) (me : String) (as : List String) (hargs : s.args = me :: as)
    (hok : ∀ n ∈ s.params.tail, ¬ ∃ r, n.toList = '_' :: r) (self : V) (pos : List V) (kw : Dict String V) (hw : kw.WF)
    (hc : ∀ a ∈ s.args.take s.posonly, ∀ v, (a, v) ∉ kw) (fs : Dict String (Slot V)) :
    bind s self pos kw = .ok fs ↔ Means s (self :: pos) kw ((me, .one self) :: fs) := by
  rw [bind_eq hargs hs hok self pos kw hw]
  have hhead : ∀ env, Means s (self :: pos) kw env → env = (me, .one self) :: env.tail := by
    intro env hm
    have hnm := hm.names
    unfold Sig.params at hnm
    rw [hargs] at hnm
    cases env with
    | nil => simp at hnm
    | cons p r =>
      obtain ⟨n, x⟩ := p
      simp only [List.map_cons, List.cons_append, List.cons.injEq] at hnm
      obtain ⟨v, hv, hve⟩ := hm.args 0 me (by rw [hargs]; rfl)
      have hwf : Dict.WF ((n, x) :: r) := by
        show (((n, x) :: r).map Prod.fst).Nodup
        rw [hm.names]; exact hs.1
      have e1 := Dict.get?_of_mem hwf hve
      rw [Dict.get?_cons, if_pos hnm.1] at e1
      injection e1 with e1
      have : v = self := by
        cases hv with
        | position h => simpa using h.symm
        | keyword h _ _ => simp at h
        | default h _ _ _ => simp at h
      rw [List.tail_cons, e1, hnm.1, this]
  cases hcall : call (binderSig s) (self :: pos) kw with
  | none =>
    simp only [reduceCtorEq, false_iff]
    intro hm
    rw [(call_iff _ (binder_legal hs) _ _ hw _).2 ((binder_means hc _).2 hm)] at hcall
    cases hcall
  | some env =>
    have hm := (binder_means hc _).1 ((call_iff _ (binder_legal hs) _ _ hw _).1 hcall)
    have he := hhead env hm
    simp only [Out.ok.injEq]
    constructor
    · intro e; rw [← e, ← he]; exact hm
    · intro h
      have := means_unique hs hw hm h
      rw [this, List.tail_cons]

/-- (C102) … and raises `TypeError` exactly if the call would be illegal. -/
theorem bind_refuses_partial (s : Sig V) (hs : s.Legal) (me : String) (as : List String) (hargs : s.args = me :: as)
    (hok : ∀ n ∈ s.params.tail, ¬ ∃ r, n.toList = '_' :: r) (self : V) (pos : List V) (kw : Dict String V) (hw : kw.WF)
    (hc : ∀ a ∈ s.args.take s.posonly, ∀ v, (a, v) ∉ kw) :
    bind s self pos kw = .typeError ↔ ¬ ∃ env, Means s (self :: pos) kw env := by
  rw [bind_eq hargs hs hok self pos kw hw]
  cases hcall : call (binderSig s) (self :: pos) kw with
  | none =>
    simp only [true_iff]
    rintro ⟨env, hm⟩
    rw [(call_iff _ (binder_legal hs) _ _ hw _).2 ((binder_means hc _).2 hm)] at hcall
    cases hcall
  | some env =>
    simp only [reduceCtorEq, false_iff, Classical.not_not]
    exact ⟨env, (binder_means hc _).1 ((call_iff _ (binder_legal hs) _ _ hw _).1 hcall)⟩

open Classical in
theorem means_move {s : Sig V} (hs : s.Legal) {pos : List V} {kw : Dict String V} {a : String} {v : V}
    (hi : s.args[pos.length]? = some a) (hp : s.posonly ≤ pos.length) (ha : ∀ w, (a, w) ∉ kw) (env : Dict String (Slot V)) :
    Means s (pos ++ [v]) kw env ↔ Means s pos (kw ++ [(a, v)]) env := by
  have hil : pos.length < s.args.length := (List.getElem?_eq_some_iff.mp hi).choose
  have hnd : s.args.Nodup := by
    have := hs.1; unfold Sig.params at this
    simp only [List.append_assoc] at this
    exact (List.nodup_append.mp this).1
  have hdis : a ∉ s.kwonly := by
    have := hs.1; unfold Sig.params at this
    intro hk
    rw [List.append_assoc, List.append_assoc] at this
    exact (List.nodup_append.mp this).2.2 a (List.mem_of_getElem? hi) a (by simp [hk]) rfl
  have hinj : ∀ {i : Nat} {b : String}, s.args[i]? = some b → b = a → i = pos.length := by
    intro i b hb e
    subst e
    have h1 := (List.getElem?_eq_some_iff.mp hb).choose
    exact (List.getElem?_inj h1 hnd).mp (hb.trans hi.symm)
  have hmem : ∀ {b : String} {w : V}, (b, w) ∈ kw ++ [(a, v)] ↔ (b, w) ∈ kw ∨ (b = a ∧ w = v) := by
    intro b w; simp
  have hgets : ∀ {i : Nat} {b : String} {w : V}, s.args[i]? = some b → (Gets s (pos ++ [v]) kw i b w ↔ Gets s pos (kw ++ [(a, v)]) i b w) := by
    intro i b w hb
    rcases Nat.lt_trichotomy i pos.length with hlt | heq | hgt
    · have e : (pos ++ [v])[i]? = pos[i]? := List.getElem?_append_left hlt
      constructor
      · intro h
        cases h with
        | position h => exact .position (e ▸ h)
        | keyword h _ _ => simp at h; omega
        | default h _ _ _ => simp at h; omega
      · intro h
        cases h with
        | position h => exact .position (e.trans h)
        | keyword h _ _ => omega
        | default h _ _ _ => omega
    · subst heq
      have hba : b = a := by rw [hi] at hb; injection hb with hb; exact hb.symm
      subst hba
      constructor
      · intro h
        cases h with
        | position h =>
          simp at h; subst h
          exact .keyword (Nat.le_refl _) hp (hmem.2 (Or.inr ⟨rfl, rfl⟩))
        | keyword h _ _ => simp at h; omega
        | default h _ _ _ => simp at h; omega
      · intro h
        cases h with
        | position h => rw [List.getElem?_eq_none (Nat.le_refl _)] at h; cases h
        | keyword _ _ h =>
          rcases hmem.1 h with h | ⟨_, rfl⟩
          · exact absurd h (ha _)
          · exact .position (by simp)
        | default _ h _ _ =>
          rcases h with h | h
          · omega
          · exact absurd (hmem.2 (Or.inr ⟨rfl, rfl⟩)) (h v)
    · have hba : b ≠ a := fun e => by have := hinj hb e; omega
      constructor
      · intro h
        cases h with
        | position h => rw [List.getElem?_eq_none (by simp; omega)] at h; cases h
        | keyword _ h2 h3 => exact .keyword (by omega) h2 (hmem.2 (Or.inl h3))
        | default _ h2 h3 h4 =>
          refine .default (by omega) ?_ h3 h4
          rcases h2 with h2 | h2
          · exact Or.inl h2
          · refine Or.inr fun x hx => ?_
            rcases hmem.1 hx with hx | ⟨hx, _⟩
            · exact h2 x hx
            · exact hba hx
      · intro h
        cases h with
        | position h => rw [List.getElem?_eq_none (by omega)] at h; cases h
        | keyword _ h2 h3 =>
          rcases hmem.1 h3 with h3 | ⟨h3, _⟩
          · exact .keyword (by simp; omega) h2 h3
          · exact absurd h3 hba
        | default _ h2 h3 h4 =>
          refine .default (by simp; omega) ?_ h3 h4
          rcases h2 with h2 | h2
          · exact Or.inl h2
          · exact Or.inr fun x hx => h2 x (hmem.2 (Or.inl hx))
  have hkw : ∀ {b : String} {w : V}, b ∈ s.kwonly → (GetsKw s kw b w ↔ GetsKw s (kw ++ [(a, v)]) b w) := by
    intro b w hb
    have hba : b ≠ a := fun e => hdis (e ▸ hb)
    constructor
    · intro h
      cases h with
      | keyword h => exact .keyword (hmem.2 (Or.inl h))
      | default h1 h2 =>
        refine .default (fun x hx => ?_) h2
        rcases hmem.1 hx with hx | ⟨hx, _⟩
        · exact h1 x hx
        · exact hba hx
    · intro h
      cases h with
      | keyword h =>
        rcases hmem.1 h with h | ⟨h, _⟩
        · exact .keyword h
        · exact absurd h hba
      | default h1 h2 => exact .default (fun x hx => h1 x (hmem.2 (Or.inl hx))) h2
  have hby : s.ByName a := Or.inr ⟨_, hp, hi⟩
  have hfil : ((kw ++ [(a, v)]).filter fun p => ¬ s.ByName p.1) = kw.filter fun p => ¬ s.ByName p.1 := by
    rw [List.filter_append]
    simp [hby]
  have hdrop : (pos ++ [v]).drop s.args.length = pos.drop s.args.length := by
    rw [List.drop_eq_nil_of_le (by simp; omega), List.drop_eq_nil_of_le (by omega)]
  constructor
  · intro h
    refine ⟨h.names, fun i b hb => ?_, fun b hb => ?_, fun hv => by omega, fun n hn => ?_, fun hv k w hk => ?_, fun n hn => ?_, fun i b hb h1 h2 w hw => ?_⟩
    · obtain ⟨w, hw, hm⟩ := h.args i b hb
      exact ⟨w, (hgets hb).1 hw, hm⟩
    · obtain ⟨w, hw, hm⟩ := h.kwonly b hb
      exact ⟨w, (hkw hb).1 hw, hm⟩
    · rw [← hdrop]; exact h.varargs n hn
    · rcases hmem.1 hk with hk | ⟨rfl, _⟩
      · exact h.unknown hv k w hk
      · exact hby
    · rw [hfil]; exact h.varkw n hn
    · rcases hmem.1 hw with hw | ⟨hw, _⟩
      · exact h.once i b hb h1 (by simp; omega) w hw
      · have := hinj hb hw; omega
  · intro h
    refine ⟨h.names, fun i b hb => ?_, fun b hb => ?_, fun hv => by simp; omega, fun n hn => ?_, fun hv k w hk => ?_, fun n hn => ?_, fun i b hb h1 h2 w hw => ?_⟩
    · obtain ⟨w, hw, hm⟩ := h.args i b hb
      exact ⟨w, (hgets hb).2 hw, hm⟩
    · obtain ⟨w, hw, hm⟩ := h.kwonly b hb
      exact ⟨w, (hkw hb).2 hw, hm⟩
    · rw [hdrop]; exact h.varargs n hn
    · exact h.unknown hv k w (hmem.2 (Or.inl hk))
    · rw [← hfil]; exact h.varkw n hn
    · simp at h2
      by_cases e : i = pos.length
      · subst e
        rw [hi] at hb; injection hb with hb; subst hb
        exact ha w hw
      · exact h.once i b hb h1 (by omega) w (hmem.2 (Or.inl hw))

/-- (C102) **It does not matter how an argument is passed**: the last positional argument of a call may as well be passed by
the name of its parameter, for `bind` this is the same call — the same fields, or the same error. -/
theorem either_way (s : Sig V) (hs : s.Legal) (me : String) (as : List String) (hargs : s.args = me :: as) (self : V)
    (pos : List V) (v : V) (kw : Dict String V) (hw : kw.WF) (a : String) (hi : as[pos.length]? = some a) (ha : a ∉ kw.keys) :
    bind s self (pos ++ [v]) kw = bind s self pos (kw.set a v) := by
  have hset := Dict.set_of_not_mem (v := v) ha
  have hcall : call (binderSig s) (self :: (pos ++ [v])) kw = call (binderSig s) (self :: pos) (kw.set a v) := by
    apply Option.ext
    intro env
    have hm := means_move (s := binderSig s) (binder_legal hs) (pos := self :: pos) (kw := kw) (a := a) (v := v)
      (by show s.args[(self :: pos).length]? = some a; rw [hargs]; simpa using hi) (Nat.zero_le _)
      (fun w hm => ha (mem_keys_kw.2 ⟨w, hm⟩)) env
    rw [call_iff _ (binder_legal hs) _ _ hw, call_iff _ (binder_legal hs) _ _ (hw.set a v), hset]
    exact hm
  unfold bind
  cases hb : build true s with
  | none => rfl
  | some b =>
    have : b.1 = binderSig s := by
      unfold build at hb
      split at hb
      · cases hb
      · injection hb with hb; rw [← hb]
    simp only [runBinder, this, hcall]

/-- (C102) **The fields are all there is to the call**: of a method without `*args`, `**kw` and positional-only parameters,
calling it with the fields as keyword arguments gives its parameters the very same values. -/
theorem replay (s : Sig V) (hs : s.Legal) (me : String) (as : List String) (hargs : s.args = me :: as) (h0 : s.posonly = 0)
    (hva : s.varargs = none) (hvk : s.varkw = none) (self : V) (pos : List V) (kw : Dict String V) (hw : kw.WF)
    (vals : Dict String V) (hb : bind s self pos kw = .ok (vals.map fun p => (p.1, .one p.2))) :
    call s [self] vals = some ((me, .one self) :: vals.map fun p => (p.1, .one p.2)) := by
  have hok : ∀ n ∈ s.params.tail, ¬ ∃ r, n.toList = '_' :: r := by
    intro n hn hr
    rw [(decorated_exactly s me as hargs self pos kw).2 ⟨n, hn, hr⟩] at hb
    cases hb
  have hm := (bind_iff_partial s hs me as hargs hok self pos kw hw (by rw [h0]; simp) _).1 hb
  have hnames : me :: vals.map Prod.fst = s.params := by
    rw [← hm.names]; simp
  have hkeys : vals.map Prod.fst = as ++ s.kwonly := by
    unfold Sig.params at hnames
    rw [hargs, hva, hvk] at hnames
    simpa using hnames
  have hpar : s.params = me :: (as ++ s.kwonly) := by rw [← hnames, hkeys]
  have hwv : Dict.WF vals := by
    show (vals.map Prod.fst).Nodup
    rw [hkeys]
    have := hs.1; rw [hpar] at this
    exact (List.nodup_cons.mp this).2
  have hme : ∀ w, (me, w) ∉ vals := by
    intro w hmw
    have := hs.1
    rw [hpar, ← hkeys] at this
    exact (List.nodup_cons.mp this).1 (List.mem_map_of_mem hmw)
  have hin : ∀ {b : String} {w : V}, b ≠ me → (b, Slot.one w) ∈ ((me, .one self) :: vals.map fun p => (p.1, Slot.one p.2)) → (b, w) ∈ vals := by
    intro b w hb h
    rcases List.mem_cons.mp h with h | h
    · injection h with h _; exact absurd h hb
    · obtain ⟨⟨x, y⟩, hx, he⟩ := List.mem_map.mp h
      simp only [Prod.mk.injEq, Slot.one.injEq] at he
      obtain ⟨rfl, rfl⟩ := he
      exact hx
  have hmeas : me ∉ as ++ s.kwonly := by
    have := hs.1; rw [hpar] at this
    exact (List.nodup_cons.mp this).1
  rw [call_iff s hs _ _ hwv]
  refine ⟨hm.names, fun i b hi => ?_, fun b hbk => ?_, fun _ => by rw [hargs]; simp, fun n hn => (by rw [hva] at hn; cases hn), fun _ k v hk => ?_, fun n hn => (by rw [hvk] at hn; cases hn), fun i b hi _ hl v hv => ?_⟩
  · cases i with
    | zero =>
      rw [hargs] at hi
      simp at hi; subst hi
      exact ⟨self, .position rfl, List.mem_cons_self⟩
    | succ j =>
      obtain ⟨w, _, hmem⟩ := hm.args (j + 1) b hi
      have hb' : b ∈ as := by
        rw [hargs] at hi
        simp at hi
        exact List.mem_of_getElem? hi
      have hne : b ≠ me := fun e => hmeas (by rw [← e]; simp [hb'])
      exact ⟨w, .keyword (by simp) (by rw [h0]; exact Nat.zero_le _) (hin hne hmem), hmem⟩
  · obtain ⟨w, _, hmem⟩ := hm.kwonly b hbk
    have hne : b ≠ me := fun e => hmeas (by rw [← e]; simp [hbk])
    exact ⟨w, .keyword (hin hne hmem), hmem⟩
  · have : k ∈ as ++ s.kwonly := by rw [← hkeys]; exact List.mem_map_of_mem hk
    rcases List.mem_append.mp this with h | h
    · obtain ⟨j, hj⟩ := List.mem_iff_getElem?.mp h
      exact Or.inr ⟨j + 1, by rw [h0]; exact Nat.zero_le _, by rw [hargs]; simpa using hj⟩
    · exact Or.inl h
  · have : i = 0 := by simp at hl; exact hl
    subst this
    rw [hargs] at hi
    simp at hi; subst hi
    exact hme v hv

/-! ## Where the full claim fails -/

/-- (C102) refuted: the `/` of a signature is forgotten.  `def f(self, a, /)` cannot be called as `f(a=7)`, but `bind(a=7)`
succeeds; `def f(self, a, /, **kw)` can be called as `f(1, a=7)`, but `bind(1, a=7)` raises TypeError. -/
theorem slash_refuted :
    (∃ (s : Sig Nat) (kw : Dict String Nat) (fs : Dict String (Slot Nat)), s.Legal ∧ kw.WF ∧
      (¬ ∃ env, Means s [0] kw env) ∧ bind s 0 [] kw = .ok fs) ∧
    (∃ (s : Sig Nat) (kw : Dict String Nat) (env : Dict String (Slot Nat)), s.Legal ∧ kw.WF ∧
      Means s [0, 1] kw env ∧ bind s 0 [1] kw = .typeError) := by
  constructor
  · refine ⟨⟨2, ["self", "a"], [], none, [], [], none⟩, [("a", 7)], [("a", .one 7)], ⟨by decide, by decide⟩, by unfold Dict.WF; decide, ?_, by decide⟩
    rintro ⟨env, hm⟩
    rw [← call_iff _ ⟨by decide, by decide⟩ _ _ (by unfold Dict.WF; decide)] at hm
    revert hm
    have : call (⟨2, ["self", "a"], [], none, [], [], none⟩ : Sig Nat) [0] [("a", 7)] = none := by decide
    rw [this]; simp
  · refine ⟨⟨2, ["self", "a"], [], none, [], [], some "kw"⟩, [("a", 7)], [("self", .one 0), ("a", .one 1), ("kw", .dict [("a", 7)])], ⟨by decide, by decide⟩, by unfold Dict.WF; decide, ?_, by decide⟩
    rw [← call_iff _ ⟨by decide, by decide⟩ _ _ (by unfold Dict.WF; decide)]
    decide

/-- (C102) refuted: a method with a parameter that begins with an underscore is as good as any other, but cannot be
extensible. -/
theorem underscore_refuted : ∃ (s : Sig Nat) (env : Dict String (Slot Nat)), s.Legal ∧ Means s [0, 1] [] env ∧
    bind s 0 [1] [] = .valueError := by
  refine ⟨⟨0, ["self", "_x"], [], none, [], [], none⟩, [("self", .one 0), ("_x", .one 1)], ⟨by decide, by decide⟩, ?_, by decide⟩
  rw [← call_iff _ ⟨by decide, by decide⟩ _ _ (by unfold Dict.WF; decide)]
  decide

/-! ## Examples: `def f(self, a, b=5, *rest, c, d=8, **kw)` -/

def exSig : Sig Nat := ⟨0, ["self", "a", "b"], [5], some "rest", ["c", "d"], [("d", 8)], some "kw"⟩

example : exSig.Legal ∧ (∀ n ∈ exSig.params.tail, ¬ underscored n = true) ∧
    bind exSig 0 [1, 2, 3] [("z", 9), ("c", 4)] =
      .ok [("a", .one 1), ("b", .one 2), ("rest", .tuple [3]), ("c", .one 4), ("d", .one 8), ("kw", .dict [("z", 9)])] ∧
    bind exSig 0 [] [("c", 4), ("a", 1)] = bind exSig 0 [1] [("c", 4)] ∧
    bind exSig 0 [1] [("c", 4), ("a", 1)] = .typeError ∧ bind exSig 0 [1] [] = .typeError := by
  refine ⟨⟨by decide, by decide⟩, by decide, by decide, by decide, by decide, by decide⟩

/-- the hypotheses of `replay`: `def g(self, a, *, c=3)` bound to `g(1)` and called with what was bound -/
example : bind (⟨0, ["self", "a"], [], none, ["c"], [("c", 3)], none⟩ : Sig Nat) 0 [1] [] = .ok (([("a", 1), ("c", 3)] : Dict String Nat).map fun p => (p.1, .one p.2)) ∧
    call (⟨0, ["self", "a"], [], none, ["c"], [("c", 3)], none⟩ : Sig Nat) [0] [("a", 1), ("c", 3)] = some [("self", .one 0), ("a", .one 1), ("c", .one 3)] := by
  decide

/-- `slash_refuted` apart, a positional-only parameter does no harm: `def h(self, a, /, b)` called as `h(1, b=2)` -/
example : bind (⟨2, ["self", "a", "b"], [], none, [], [], none⟩ : Sig Nat) 0 [1] [("b", 2)] = .ok [("a", .one 1), ("b", .one 2)] := by
  decide

end Xoscar.Bind
