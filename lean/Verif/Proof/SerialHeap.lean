import Verif.Props.SerialSpec
import Verif.Proof.Base
/-!
# Lemmas on the receiver's heap and on `_serial_iterable`/`_deserial_iterable`
-/
namespace Xoscar.Serial

/-- two lists related element by element -/
inductive All₂ {α β : Type} (R : α → β → Prop) : List α → List β → Prop
  | nil : All₂ R [] []
  | cons {a b as bs} : R a b → All₂ R as bs → All₂ R (a :: as) (b :: bs)

theorem All₂.imp {α β : Type} {R S : α → β → Prop} {as : List α} {bs : List β}
    (h : All₂ R as bs) (hi : ∀ a b, a ∈ as → R a b → S a b) : All₂ S as bs := by
  induction h with
  | nil => exact .nil
  | cons hab _ ih => exact .cons (hi _ _ (by simp) hab) (ih (fun a b ha => hi a b (List.mem_cons_of_mem _ ha)))

theorem All₂.length_eq {α β : Type} {R : α → β → Prop} {as : List α} {bs : List β}
    (h : All₂ R as bs) : as.length = bs.length := by
  induction h with
  | nil => rfl
  | cons _ _ ih => simp [ih]

theorem All₂.get {α β : Type} {R : α → β → Prop} {as : List α} {bs : List β}
    (h : All₂ R as bs) (i : Nat) (a : α) (ha : as[i]? = some a) : ∃ b, bs[i]? = some b ∧ R a b := by
  induction h generalizing i with
  | nil => simp at ha
  | cons hab _ ih =>
    cases i with
    | zero => simp only [List.getElem?_cons_zero, Option.some.injEq] at ha; subst ha; exact ⟨_, rfl, hab⟩
    | succ i => simpa using ih i (by simpa using ha)

theorem All₂.mem_right {α β : Type} {R : α → β → Prop} {as : List α} {bs : List β}
    (h : All₂ R as bs) (b : β) (hb : b ∈ bs) : ∃ a ∈ as, R a b := by
  induction h with
  | nil => cases hb
  | cons hab _ ih =>
    rcases List.mem_cons.1 hb with rfl | hb
    · exact ⟨_, by simp, hab⟩
    · obtain ⟨a, h1, h2⟩ := ih hb; exact ⟨a, List.mem_cons_of_mem _ h1, h2⟩

theorem All₂.append {α β : Type} {R : α → β → Prop} {as as' : List α} {bs bs' : List β}
    (h : All₂ R as bs) (h' : All₂ R as' bs') : All₂ R (as ++ as') (bs ++ bs') := by
  induction h with
  | nil => exact h'
  | cons hab _ ih => exact .cons hab ih

theorem All₂.take_drop {α β : Type} {R : α → β → Prop} {as as' : List α} {bs : List β}
    (h : All₂ R (as ++ as') bs) : All₂ R as (bs.take as.length) ∧ All₂ R as' (bs.drop as.length) := by
  induction as generalizing bs with
  | nil => exact ⟨by simpa using All₂.nil, by simpa using h⟩
  | cons a as ih =>
    cases h with
    | cons hab hr =>
      obtain ⟨h1, h2⟩ := ih hr
      exact ⟨by simpa using All₂.cons hab h1, by simpa using h2⟩

/-- the part of an object that callbacks never touch -/
inductive Skel where
  | tuple (ty : Option Nat) (vs : List Val)
  | list (ty : Option Nat) (n : Nat)
  | dict (ty : Option Nat) (ks : List Val)
  | other (v : Nat)
  | bare (v : Nat)

def RObj.skel : RObj → Skel
  | .tuple ty xs => .tuple ty xs
  | .list ty xs => .list ty xs.length
  | .dict ty kvs => .dict ty (kvs.map Prod.fst)
  | .other v => .other v
  | .bareDict v => .bare v

/-- the replaceable positions -/
def RObj.slots : RObj → List Val
  | .list _ xs => xs
  | .dict _ kvs => kvs.map Prod.snd
  | _ => []

def skelAt (H : List RObj) (a : Nat) : Option Skel := (H[a]?).map RObj.skel
def slotAt (H : List RObj) (a i : Nat) : Option Val := (H[a]?).bind (fun o => o.slots[i]?)

theorem setItem_skel (i : Nat) (v : Val) (o : RObj) : (o.setItem i v).skel = o.skel := by
  cases o with
  | list ty xs => simp [RObj.setItem, RObj.skel]
  | dict ty kvs =>
    simp only [RObj.setItem, RObj.skel, Skel.dict.injEq, true_and]
    apply List.ext_getElem?
    intro j
    simp only [List.getElem?_map, List.getElem?_modify]
    cases kvs[j]? with
    | none => rfl
    | some kv => by_cases h : i = j <;> simp [h]
  | _ => rfl

theorem setItem_slots (i : Nat) (v : Val) (o : RObj) (j : Nat) :
    (o.setItem i v).slots[j]? = if i = j then (o.slots[j]?).map (fun _ => v) else o.slots[j]? := by
  cases o with
  | list ty xs =>
    simp only [RObj.setItem, RObj.slots, List.getElem?_set]
    by_cases h : i = j
    · subst h
      by_cases hl : i < xs.length <;> simp [hl]
    · simp [h]
  | dict ty kvs =>
    simp only [RObj.setItem, RObj.slots, List.getElem?_map, List.getElem?_modify]
    cases kvs[j]? with
    | none => simp
    | some kv => by_cases h : i = j <;> simp [h]
  | tuple ty xs => simp [RObj.setItem, RObj.slots]
  | other w => simp [RObj.setItem, RObj.slots]
  | bareDict w => simp [RObj.setItem, RObj.slots]

theorem skelAt_modify (H : List RObj) (b i : Nat) (v : Val) (a : Nat) :
    skelAt (H.modify b (RObj.setItem i v)) a = skelAt H a := by
  simp only [skelAt, List.getElem?_modify]
  cases H[a]? with
  | none => rfl
  | some o => by_cases h : b = a <;> simp [h, setItem_skel]

theorem slotAt_modify (H : List RObj) (b i : Nat) (v : Val) (a j : Nat) :
    slotAt (H.modify b (RObj.setItem i v)) a j =
      if b = a ∧ i = j then (slotAt H a j).map (fun _ => v) else slotAt H a j := by
  simp only [slotAt, List.getElem?_modify]
  cases H[a]? with
  | none => simp
  | some o =>
    by_cases h : b = a
    · simp only [h, if_true, Option.map_eq_map, Option.map_some, Option.bind_some, true_and, setItem_slots]
    · simp [h]

theorem runCbs_length (v : Val) (cbs : List Cb) (H : List RObj) : (runCbs v cbs H).length = H.length := by
  induction cbs generalizing H with
  | nil => rfl
  | cons cb cbs ih => simp [runCbs, ih]

theorem skelAt_runCbs (v : Val) (cbs : List Cb) (H : List RObj) (a : Nat) :
    skelAt (runCbs v cbs H) a = skelAt H a := by
  induction cbs generalizing H with
  | nil => rfl
  | cons cb cbs ih => rw [runCbs, ih, skelAt_modify]

theorem slotAt_runCbs_mem (v : Val) (cbs : List Cb) (H : List RObj) (a i : Nat) (h : ⟨a, i⟩ ∈ cbs) :
    slotAt (runCbs v cbs H) a i = (slotAt H a i).map (fun _ => v) := by
  induction cbs generalizing H with
  | nil => cases h
  | cons cb cbs ih =>
    rw [runCbs]
    by_cases hc : ⟨a, i⟩ ∈ cbs
    · rw [ih _ hc, slotAt_modify]
      split
      · cases slotAt H a i <;> rfl
      · rfl
    · have hcb : (⟨a, i⟩ : Cb) = cb := by
        rcases List.mem_cons.1 h with h | h
        · exact h
        · exact absurd h hc
      subst hcb
      have : ∀ (cbs : List Cb) (H : List RObj), (⟨a, i⟩ : Cb) ∉ cbs → slotAt (runCbs v cbs H) a i = slotAt H a i := by
        intro cbs
        induction cbs with
        | nil => intros; rfl
        | cons c cs ih2 =>
          intro H hn
          simp only [List.mem_cons, not_or] at hn
          rw [runCbs, ih2 _ hn.2, slotAt_modify, if_neg]
          rintro ⟨h1, h2⟩
          exact hn.1 (by cases c; simp_all)
      rw [this _ _ hc, slotAt_modify]
      simp

theorem slotAt_runCbs_notMem (v : Val) (cbs : List Cb) (H : List RObj) (a i : Nat) (h : (⟨a, i⟩ : Cb) ∉ cbs) :
    slotAt (runCbs v cbs H) a i = slotAt H a i := by
  induction cbs generalizing H with
  | nil => rfl
  | cons c cs ih =>
    simp only [List.mem_cons, not_or] at h
    rw [runCbs, ih _ h.2, slotAt_modify, if_neg]
    rintro ⟨h1, h2⟩
    exact h.1 (by cases c; simp_all)

/-! ## callbacks of a placeholder -/

def RSt.cbsOf (s : RSt) (m : Nat) : List Cb := (s.cbs.get? m).getD []

theorem cbsOf_addCb (s : RSt) (o : Nat) (cb : Cb) (m : Nat) :
    (s.addCb o cb).cbsOf m = if o = m then s.cbsOf m ++ [cb] else s.cbsOf m := by
  simp only [RSt.cbsOf, RSt.addCb, Dict.get?_set]
  by_cases h : o = m
  · subst h; simp
  · simp [h]

theorem addCbs_ctx (a k : Nat) (vs : List Val) (s : RSt) : (addCbs a k vs s).ctx = s.ctx := by
  induction vs generalizing k s with
  | nil => rfl
  | cons v vs ih => cases v <;> simp only [addCbs, ih, RSt.addCb]

theorem addCbs_heap (a k : Nat) (vs : List Val) (s : RSt) : (addCbs a k vs s).heap = s.heap := by
  induction vs generalizing k s with
  | nil => rfl
  | cons v vs ih => cases v <;> simp only [addCbs, ih, RSt.addCb]

theorem mem_addCbs (a k : Nat) (vs : List Val) (s : RSt) (m : Nat) (cb : Cb) :
    cb ∈ (addCbs a k vs s).cbsOf m ↔
      cb ∈ s.cbsOf m ∨ ∃ i : Nat, vs[i]? = some (.ph m) ∧ cb = ⟨a, k + i⟩ := by
  induction vs generalizing k s with
  | nil => simp [addCbs]
  | cons v vs ih =>
    have shift : ∀ (P : Prop), (P ∨ (∃ i : Nat, vs[i]? = some (.ph m) ∧ cb = ⟨a, k + 1 + i⟩)) ∨
        ((v = .ph m) ∧ cb = ⟨a, k⟩) ↔ (P ∨ ∃ i : Nat, (v :: vs)[i]? = some (.ph m) ∧ cb = ⟨a, k + i⟩) := by
      intro P
      constructor
      · rintro ((h | ⟨i, h1, h2⟩) | ⟨h1, h2⟩)
        · exact .inl h
        · exact .inr ⟨i + 1, by simpa using h1, by rw [h2]; congr 1; omega⟩
        · exact .inr ⟨0, by simp [h1], by simpa using h2⟩
      · rintro (h | ⟨i, h1, h2⟩)
        · exact .inl (.inl h)
        · cases i with
          | zero => exact .inr ⟨by simpa using h1, by simpa using h2⟩
          | succ i => exact .inl (.inr ⟨i, by simpa using h1, by rw [h2]; congr 1; omega⟩)
    rw [← shift]
    cases v with
    | atom x => simp only [addCbs]; rw [ih]; simp
    | ref x => simp only [addCbs]; rw [ih]; simp
    | ph o =>
      simp only [addCbs]
      rw [ih, cbsOf_addCb]
      by_cases h : o = m
      · subst h
        simp only [if_true, List.mem_append, List.mem_singleton, true_and]
        constructor
        · rintro ((h | h) | h)
          · exact .inl (.inl h)
          · exact .inr h
          · exact .inl (.inr h)
        · rintro ((h | h) | h)
          · exact .inl (.inl h)
          · exact .inr h
          · exact .inl (.inr h)
      · have : ¬ (Val.ph o = Val.ph m) := by simpa using h
        simp [h]

/-! ## `_serial_iterable` / `_deserial_iterable` -/

/-- the elements of a container after decoding: inlined ones from the header, the others in order
from the decoded subcomponents -/
inductive Merge (h : Heap) : List Id → List Id → List Val → List Val → Prop
  | nil : Merge h [] [] [] []
  | inl {x xs ps vs rs a} : inlinable (h x) = some a → Merge h xs ps vs rs → Merge h (x :: xs) ps vs (.atom a :: rs)
  | sub {x xs ps vs rs v} : inlinable (h x) = none → Merge h xs ps vs rs → Merge h (x :: xs) (x :: ps) (v :: vs) (v :: rs)

theorem serialIterable_props (h : Heap) (xs : List Id) : ∀ k, (serialIterable h k xs).2.2 =
    xs.filter (fun x => (inlinable (h x)).isNone) := by
  induction xs with
  | nil => intro k; rfl
  | cons x xs ih =>
    intro k
    simp only [serialIterable]
    rcases hx : inlinable (h x) with _ | a <;> simp [ih (k + 1), hx]

theorem mapM_atom (h : Heap) (xs : List Id) (k : Nat) :
    (serialIterable h k xs).1.mapM PV.toAtom? =
      some (xs.map (fun x => match inlinable (h x) with | some a => .atom a | none => .atom .none)) := by
  induction xs generalizing k with
  | nil => rfl
  | cons x xs ih =>
    simp only [serialIterable]
    rcases hx : inlinable (h x) with _ | a <;> simp [ih (k + 1), PV.toAtom?, hx]

theorem mapM_nat (l : List Nat) : (l.map PV.nat).mapM PV.toNat? = some l := by
  induction l with
  | nil => rfl
  | cons x xs ih => simp [PV.toNat?, ih]

/-- filling the holes of a suffix -/
theorem fill_merge (h : Heap) (xs : List Id) : ∀ (k : Nat) (vs : List Val) (done : List Val),
    done.length = k → vs.length = (serialIterable h k xs).2.2.length →
    ∃ rs, fill (done ++ xs.map (fun x => match inlinable (h x) with | some a => Val.atom a | none => .atom .none))
        (serialIterable h k xs).2.1 vs = some (done ++ rs) ∧
      Merge h xs (serialIterable h k xs).2.2 vs rs := by
  induction xs with
  | nil =>
    intro k vs done hk hv
    have : vs = [] := List.length_eq_zero_iff.1 (by simpa [serialIterable] using hv)
    subst this
    exact ⟨[], by simp [serialIterable, fill], .nil⟩
  | cons x xs ih =>
    intro k vs done hk hv
    simp only [serialIterable] at hv ⊢
    rcases hx : inlinable (h x) with _ | a
    · simp only [hx] at hv ⊢
      cases vs with
      | nil => simp at hv
      | cons v vs =>
        obtain ⟨rs, h1, h2⟩ := ih (k + 1) vs (done ++ [v]) (by simp [hk]) (by simpa using hv)
        refine ⟨v :: rs, ?_, .sub hx h2⟩
        simp only [fill, List.map_cons, hx]
        rw [if_pos (by simp; omega)]
        have : (done ++ Val.atom Atom.none :: xs.map (fun x => match inlinable (h x) with | some a => Val.atom a | none => .atom .none)).set k v =
            done ++ [v] ++ xs.map (fun x => match inlinable (h x) with | some a => Val.atom a | none => .atom .none) := by
          rw [List.set_append_right _ _ (by omega)]
          simp [hk]
        rw [this, h1]
        simp
    · simp only [hx] at hv ⊢
      obtain ⟨rs, h1, h2⟩ := ih (k + 1) vs (done ++ [.atom a]) (by simp [hk]) (by simpa using hv)
      refine ⟨.atom a :: rs, ?_, .inl hx h2⟩
      simp only [List.map_cons, hx]
      have : done ++ Val.atom a :: xs.map (fun x => match inlinable (h x) with | some a => Val.atom a | none => .atom .none) =
            done ++ [.atom a] ++ xs.map (fun x => match inlinable (h x) with | some a => Val.atom a | none => .atom .none) := by
        simp
      rw [this, h1]
      simp

/-- decoding the body made by `_serial_iterable` -/
theorem deserialIterable_ok (h : Heap) (xs : List Id) (vs : List Val)
    (hv : vs.length = (serialIterable h 0 xs).2.2.length) :
    ∃ rs, deserialIterable (serialIterable h 0 xs).1 ((serialIterable h 0 xs).2.1.map .nat) vs = .ok rs ∧
      Merge h xs (serialIterable h 0 xs).2.2 vs rs := by
  obtain ⟨rs, h1, h2⟩ := fill_merge h xs 0 vs [] rfl hv
  refine ⟨rs, ?_, h2⟩
  simp only [deserialIterable, mapM_atom, mapM_nat]
  rw [List.nil_append] at h1
  rw [h1]
  simp

theorem tyPV_toTy (t : Option Nat) : (tyPV t).toTy = some t := by cases t <;> rfl

/-- relating the merged elements -/
theorem Merge.forall₂ {h : Heap} {xs ps : List Id} {vs rs : List Val} (m : Merge h xs ps vs rs)
    {R : Id → Val → Prop} (hin : ∀ x a, inlinable (h x) = some a → R x (.atom a))
    (hsub : All₂ R ps vs) : All₂ R xs rs := by
  induction m with
  | nil => exact .nil
  | inl hx _ ih => exact .cons (hin _ _ hx) (ih hsub)
  | sub hx _ ih =>
    cases hsub with
    | cons a b => exact .cons a (ih b)

end Xoscar.Serial
