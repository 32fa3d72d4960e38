import Verif.Spec.Link
/-!
# A pickler for headers, to show that the hypotheses of C82 can be met
-/
namespace Xoscar.Link
open Xoscar Xoscar.Serial

def U (n : Nat) : List UInt8 := List.replicate n 1 ++ [0]

theorem U_inj : ∀ {n m : Nat} {s t : List UInt8}, U n ++ s = U m ++ t → n = m ∧ s = t
  | 0, 0, _, _, h => by simpa [U] using h
  | 0, m + 1, _, _, h => by simp [U, List.replicate_succ] at h
  | n + 1, 0, _, _, h => by simp [U, List.replicate_succ] at h
  | n + 1, m + 1, s, t, h => by
    have : U n ++ s = U m ++ t := by simpa [U, List.replicate_succ] using h
    obtain ⟨rfl, rfl⟩ := U_inj this
    exact ⟨rfl, rfl⟩

/-- a list of numbers -/
def Us (l : List Nat) : List UInt8 := U l.length ++ (l.map U).flatten

theorem Us_inj {l m : List Nat} {s t : List UInt8} (h : Us l ++ s = Us m ++ t) : l = m ∧ s = t := by
  simp only [Us, List.append_assoc] at h
  obtain ⟨h1, h2⟩ := U_inj h
  clear h
  induction l generalizing m with
  | nil =>
    cases m with
    | nil => simpa using h2
    | cons => simp at h1
  | cons a l ih =>
    cases m with
    | nil => simp at h1
    | cons b m =>
      simp only [List.map_cons, List.flatten_cons, List.append_assoc] at h2
      obtain ⟨rfl, h3⟩ := U_inj h2
      obtain ⟨rfl, h4⟩ := ih (by simpa using h1) h3
      exact ⟨rfl, h4⟩

def encA : Atom → List UInt8
  | .none => [6]
  | .prim (.ofNat n) => 7 :: U n
  | .prim (.negSucc n) => 8 :: U n
  | .bytes b => 9 :: Us (b.data.toList.map UInt8.toNat)
  | .str s => 10 :: Us (s.toList.map Char.toNat)

theorem map_inj {α : Type} {f : α → Nat} (hf : ∀ a b, f a = f b → a = b) {l m : List α} (h : l.map f = m.map f) : l = m := by
  induction l generalizing m with
  | nil => cases m with
    | nil => rfl
    | cons => simp at h
  | cons a l ih => cases m with
    | nil => simp at h
    | cons b m =>
      simp only [List.map_cons, List.cons.injEq] at h
      rw [hf _ _ h.1, ih h.2]

theorem encA_inj {a b : Atom} {s t : List UInt8} (h : encA a ++ s = encA b ++ t) : a = b ∧ s = t := by
  have key : ∀ {x y : UInt8} {l m : List UInt8}, x :: l ++ s = y :: m ++ t → x = y ∧ l ++ s = m ++ t := by
    intro x y l m h
    simpa only [List.cons_append, List.cons.injEq] using h
  unfold encA at h
  split at h <;> split at h <;> (obtain ⟨h1, h2⟩ := key h; clear h key) <;>
    first
    | exact absurd h1 (by decide)
    | (obtain ⟨h3, h4⟩ := U_inj h2; exact ⟨by rw [h3], h4⟩)
    | skip
  · exact ⟨rfl, h2⟩
  · obtain ⟨h3, h4⟩ := Us_inj h2
    refine ⟨?_, h4⟩
    congr 1
    apply ByteArray.ext
    exact Array.toList_inj.mp (map_inj (fun a b => UInt8.toNat_inj.mp) h3)
  · obtain ⟨h3, h4⟩ := Us_inj h2
    refine ⟨?_, h4⟩
    congr 1
    exact String.toList_injective (map_inj (fun a b => Char.toNat_inj.mp) h3)

mutual
def enc : PV → List UInt8
  | .nat n => 0 :: U n
  | .bool b => [1, if b then 1 else 0]
  | .atom a => 2 :: encA a
  | .ty t => 3 :: U t
  | .obj v => 4 :: U v
  | .list xs => 5 :: (U xs.length ++ encs xs)
  | .tup xs => 6 :: (U xs.length ++ encs xs)
def encs : List PV → List UInt8
  | [] => []
  | x :: xs => enc x ++ encs xs
end

theorem key {x y : UInt8} {l m s t : List UInt8} (h : x :: l ++ s = y :: m ++ t) : x = y ∧ l ++ s = m ++ t := by
  simpa only [List.cons_append, List.cons.injEq] using h

mutual
theorem enc_inj : ∀ (x y : PV) (s t : List UInt8), enc x ++ s = enc y ++ t → x = y ∧ s = t
  | .nat n, y, s, t, h => by
    cases y <;> simp only [enc] at h <;> (obtain ⟨h1, h2⟩ := key h; clear h) <;> first | exact absurd h1 (by decide) | skip
    obtain ⟨h3, h4⟩ := U_inj h2; exact ⟨by rw [h3], h4⟩
  | .bool b, y, s, t, h => by
    cases y <;> simp only [enc] at h <;> (obtain ⟨h1, h2⟩ := key h; clear h) <;> first | exact absurd h1 (by decide) | skip
    rename_i b'
    cases b <;> cases b' <;> simp at h2 <;> exact ⟨rfl, h2⟩
  | .atom a, y, s, t, h => by
    cases y <;> simp only [enc] at h <;> (obtain ⟨h1, h2⟩ := key h; clear h) <;> first | exact absurd h1 (by decide) | skip
    obtain ⟨h3, h4⟩ := encA_inj h2; exact ⟨by rw [h3], h4⟩
  | .ty n, y, s, t, h => by
    cases y <;> simp only [enc] at h <;> (obtain ⟨h1, h2⟩ := key h; clear h) <;> first | exact absurd h1 (by decide) | skip
    obtain ⟨h3, h4⟩ := U_inj h2; exact ⟨by rw [h3], h4⟩
  | .obj n, y, s, t, h => by
    cases y <;> simp only [enc] at h <;> (obtain ⟨h1, h2⟩ := key h; clear h) <;> first | exact absurd h1 (by decide) | skip
    obtain ⟨h3, h4⟩ := U_inj h2; exact ⟨by rw [h3], h4⟩
  | .list xs, y, s, t, h => by
    cases y <;> simp only [enc] at h <;> (obtain ⟨h1, h2⟩ := key h; clear h) <;> first | exact absurd h1 (by decide) | skip
    rw [List.append_assoc, List.append_assoc] at h2
    obtain ⟨h3, h4⟩ := U_inj h2
    obtain ⟨h5, h6⟩ := encs_inj xs _ s t h3 h4; exact ⟨by rw [h5], h6⟩
  | .tup xs, y, s, t, h => by
    cases y <;> simp only [enc] at h <;> (obtain ⟨h1, h2⟩ := key h; clear h) <;> first | exact absurd h1 (by decide) | skip
    rw [List.append_assoc, List.append_assoc] at h2
    obtain ⟨h3, h4⟩ := U_inj h2
    obtain ⟨h5, h6⟩ := encs_inj xs _ s t h3 h4; exact ⟨by rw [h5], h6⟩
theorem encs_inj : ∀ (xs ys : List PV) (s t : List UInt8), xs.length = ys.length → encs xs ++ s = encs ys ++ t → xs = ys ∧ s = t
  | [], ys, s, t, hl, h => by
    cases ys with
    | nil => simpa [encs] using h
    | cons => simp at hl
  | x :: xs, ys, s, t, hl, h => by
    cases ys with
    | nil => simp at hl
    | cons y ys =>
      simp only [encs, List.append_assoc] at h
      obtain ⟨h1, h2⟩ := enc_inj x y _ _ h
      obtain ⟨h3, h4⟩ := encs_inj xs ys s t (by simpa using hl) h2
      exact ⟨by rw [h1, h3], h4⟩
end

def dumps (h : Wire.Header PV) : List UInt8 :=
  Us (h.isCuda.map (fun b => if b then 1 else 0)) ++ (Us h.sizes ++ (enc h.rest ++ []))

theorem dumps_inj {a b : Wire.Header PV} (h : dumps a = dumps b) : a = b := by
  unfold dumps at h
  obtain ⟨h1, h⟩ := Us_inj h
  obtain ⟨h2, h⟩ := Us_inj h
  obtain ⟨h3, _⟩ := enc_inj _ _ _ _ h
  have h1 := map_inj (f := fun b : Bool => if b then 1 else 0) (fun a b => by cases a <;> cases b <;> simp) h1
  cases a; cases b
  simp only at h1 h2 h3
  subst h1; subst h2; subst h3
  rfl

open Classical in
/-- a pickler for headers: numbers in unary, everything else tagged -/
noncomputable def codePickle : Wire.Pickle PV where
  dumps := dumps
  loads b := if h : ∃ x, dumps x = b then some h.choose else none
  round x := by
    have h : ∃ y, dumps y = dumps x := ⟨x, rfl⟩
    rw [dif_pos h]
    exact congrArg some (dumps_inj h.choose_spec)

end Xoscar.Link
