import Verif.Spec.Nd
import Verif.Proof.Base

namespace Xoscar.Nd
open Xoscar
open scoped List

/-! ## Layout -/

theorem flatMap_range_length {f : Nat → List Nat} {L : Nat} (h : ∀ i, (f i).length = L) (n : Nat) :
    ((List.range n).flatMap f).length = n * L := by
  induction n with
  | zero => simp
  | succ n ih => simp [List.range_succ, ih, h, Nat.succ_mul]

theorem flatMap_range_get {f : Nat → List Nat} {L : Nat} (h : ∀ i, (f i).length = L) (n i q : Nat)
    (hi : i < n) (hq : q < L) : ((List.range n).flatMap f)[i * L + q]? = (f i)[q]? := by
  induction n with
  | zero => omega
  | succ n ih =>
    rw [List.range_succ, List.flatMap_append]
    have hl := flatMap_range_length h n
    by_cases hin : i < n
    · rw [List.getElem?_append_left, ih hin]
      rw [hl]
      calc i * L + q < i * L + L := by omega
        _ = (i + 1) * L := by rw [Nat.succ_mul]
        _ ≤ n * L := Nat.mul_le_mul_right _ hin
    · have : i = n := by omega
      subst this
      rw [List.getElem?_append_right (by omega), hl]
      simp

theorem count_cons (n : Nat) (sh : List Nat) : count (n :: sh) = n * count sh := rfl

theorem flatten_length (mem : List Nat) (item : Nat) : ∀ (sh : List Nat) (st : List Int) (p : Int),
    st.length = sh.length → (flatten mem item sh st p).length = count sh * item
  | [], _, _, _ => by simp [flatten, count]
  | _ :: _, [], _, h => by simp at h
  | n :: sh, s :: st, p, h => by
    simp only [flatten]
    rw [flatMap_range_length (L := count sh * item), count_cons, Nat.mul_assoc]
    intro i
    exact flatten_length mem item sh st _ (by simpa using h)

/-- Position in bytes of an element in a C-ordered copy. -/
def lin (item : Nat) : List Nat → List Nat → Nat
  | i :: is, _ :: sh => i * (count sh * item) + lin item is sh
  | _, _ => 0

theorem lin_lt (item : Nat) : ∀ (idx sh : List Nat), InRange idx sh →
    lin item idx sh + item ≤ count sh * item
  | [], [], _ => by simp [lin, count]
  | [], _ :: _, h => by simp [InRange] at h
  | _ :: _, [], h => by simp [InRange] at h
  | i :: is, n :: sh, h => by
    simp only [InRange] at h
    have := lin_lt item is sh h.2
    simp only [lin, count_cons, Nat.mul_assoc]
    have : (i + 1) * (count sh * item) ≤ n * (count sh * item) := Nat.mul_le_mul_right _ h.1
    rw [Nat.succ_mul] at this
    omega

theorem flatten_get (mem : List Nat) (item : Nat) : ∀ (idx sh : List Nat) (st : List Int) (p : Int) (k : Nat),
    st.length = sh.length → InRange idx sh → k < item →
    (flatten mem item sh st p)[lin item idx sh + k]? = some (at' mem (p + dot idx st + k))
  | [], [], st, p, k, _, _, hk => by
    simp [flatten, lin, hk, dot]
  | [], _ :: _, _, _, _, _, h, _ => by simp [InRange] at h
  | _ :: _, [], _, _, _, _, h, _ => by simp [InRange] at h
  | _ :: _, _ :: _, [], _, _, h, _, _ => by simp at h
  | i :: is, n :: sh, s :: st, p, k, hl, h, hk => by
    simp only [InRange] at h
    have hl' : st.length = sh.length := by simpa using hl
    have hlt := lin_lt item is sh h.2
    simp only [flatten, lin]
    rw [Nat.add_assoc, flatMap_range_get (L := count sh * item) _ n i _ h.1 (by omega),
      flatten_get mem item is sh st _ k hl' h.2 hk]
    · simp only [dot]; congr 2; omega
    · intro i; exact flatten_length mem item sh st _ hl'

theorem dot_cStrides (item : Nat) : ∀ (idx sh : List Nat), InRange idx sh →
    dot idx (cStrides item sh) = (lin item idx sh : Int)
  | [], [], _ => by simp [cStrides, dot, lin]
  | [], _ :: _, h => by simp [InRange] at h
  | _ :: _, [], h => by simp [InRange] at h
  | i :: is, n :: sh, h => by
    simp only [InRange] at h
    simp only [cStrides, dot, lin, dot_cStrides item is sh h.2]
    have : (sh.foldr (· * ·) 1) = count sh := rfl
    rw [this, Nat.mul_comm item]
    push_cast
    rfl

theorem cStrides_length (item : Nat) (sh : List Nat) : (cStrides item sh).length = sh.length := by
  induction sh with
  | nil => rfl
  | cons n sh ih => simp [cStrides, ih]

def prodL (l : List (Nat × Int)) : Nat := l.foldr (fun x r => x.1 * r) 1

theorem contigFrom_append (l : List (Nat × Int)) (x : Nat × Int) (sd : Nat) :
    contigFrom sd (l ++ [x]) = (contigFrom sd l && (x.1 == 1 || x.2 == ((sd * prodL l : Nat) : Int))) := by
  induction l generalizing sd with
  | nil =>
    obtain ⟨n, s⟩ := x
    by_cases h : n = 1 <;> simp [contigFrom, prodL, h]
  | cons y l ih =>
    obtain ⟨n, s⟩ := y
    simp only [List.cons_append, contigFrom]
    by_cases h : n = 1
    · simp only [h, if_true, ih]
      simp [prodL]
    · simp only [h, if_false, ih, Bool.and_assoc]
      have : prodL ((n, s) :: l) = n * prodL l := rfl
      rw [this, ← Nat.mul_assoc]

theorem prodL_append (a b : List (Nat × Int)) : prodL (a ++ b) = prodL a * prodL b := by
  induction a with
  | nil => simp [prodL]
  | cons x a ih =>
    have h1 : prodL (x :: a) = x.1 * prodL a := rfl
    have h2 : prodL (x :: (a ++ b)) = x.1 * prodL (a ++ b) := rfl
    rw [List.cons_append, h2, h1, ih, Nat.mul_assoc]

theorem prodL_reverse (l : List (Nat × Int)) : prodL l.reverse = prodL l := by
  induction l with
  | nil => rfl
  | cons x l ih =>
    have h1 : prodL (x :: l) = x.1 * prodL l := rfl
    rw [List.reverse_cons, prodL_append, ih, h1, Nat.mul_comm]
    simp [prodL]

theorem prodL_zip : ∀ (sh : List Nat) (st : List Int), st.length = sh.length →
    prodL (sh.zip st) = count sh
  | [], _, _ => by simp [prodL, count]
  | _ :: _, [], h => by simp at h
  | n :: sh, s :: st, h => by
    have := prodL_zip sh st (by simpa using h)
    have h1 : prodL ((n, s) :: sh.zip st) = n * prodL (sh.zip st) := rfl
    rw [List.zip_cons_cons, h1, this, count_cons]

theorem contig_dot (item : Nat) : ∀ (idx sh : List Nat) (st : List Int), st.length = sh.length →
    contigFrom item (sh.zip st).reverse = true → InRange idx sh →
    dot idx st = (lin item idx sh : Int)
  | [], [], st, _, _, _ => by simp [dot, lin]
  | [], _ :: _, _, _, _, h => by simp [InRange] at h
  | _ :: _, [], _, _, _, h => by simp [InRange] at h
  | _ :: _, _ :: _, [], h, _, _ => by simp at h
  | i :: is, n :: sh, s :: st, hl, hc, h => by
    simp only [InRange] at h
    have hl' : st.length = sh.length := by simpa using hl
    rw [List.zip_cons_cons, List.reverse_cons, contigFrom_append, prodL_reverse, prodL_zip _ _ hl'] at hc
    simp only [Bool.and_eq_true, Bool.or_eq_true, beq_iff_eq] at hc
    simp only [dot, lin, contig_dot item is sh st hl' hc.1 h.2]
    rcases hc.2 with h1 | h1
    · have : i = 0 := by omega
      subst this
      simp
    · rw [h1, Nat.mul_comm item]
      push_cast
      rfl

/-! ### Reversal -/

theorem InRange.length : ∀ {idx sh : List Nat}, InRange idx sh → idx.length = sh.length
  | [], [], _ => rfl
  | [], _ :: _, h => by simp [InRange] at h
  | _ :: _, [], h => by simp [InRange] at h
  | _ :: _, _ :: _, h => by simp [InRange] at h; simp [h.2.length]

theorem InRange.append : ∀ {a sa b sb : List Nat}, InRange a sa → InRange b sb → InRange (a ++ b) (sa ++ sb)
  | [], [], _, _, _, h => by simpa using h
  | [], _ :: _, _, _, h, _ => by simp [InRange] at h
  | _ :: _, [], _, _, h, _ => by simp [InRange] at h
  | _ :: _, _ :: _, _, _, h, h' => by
    simp only [InRange, List.cons_append] at h ⊢
    exact ⟨h.1, h.2.append h'⟩

theorem InRange.reverse : ∀ {idx sh : List Nat}, InRange idx sh → InRange idx.reverse sh.reverse
  | [], [], _ => by simp [InRange]
  | [], _ :: _, h => by simp [InRange] at h
  | _ :: _, [], h => by simp [InRange] at h
  | i :: is, n :: ns, h => by
    simp only [InRange] at h
    rw [List.reverse_cons, List.reverse_cons]
    exact h.2.reverse.append ⟨h.1, trivial⟩

theorem dot_append : ∀ (a : List Nat) (sa : List Int) (b : List Nat) (sb : List Int),
    sa.length = a.length → dot (a ++ b) (sa ++ sb) = dot a sa + dot b sb
  | [], [], _, _, _ => by simp [dot]
  | [], _ :: _, _, _, h => by simp at h
  | _ :: _, [], _, _, h => by simp at h
  | i :: a, s :: sa, b, sb, h => by
    simp only [List.cons_append, dot, dot_append a sa b sb (by simpa using h)]
    omega

theorem dot_reverse : ∀ (a : List Nat) (sa : List Int), sa.length = a.length →
    dot a.reverse sa.reverse = dot a sa
  | [], [], _ => by simp [dot]
  | [], _ :: _, h => by simp at h
  | _ :: _, [], h => by simp at h
  | i :: a, s :: sa, h => by
    have h' : sa.length = a.length := by simpa using h
    rw [List.reverse_cons, List.reverse_cons, dot_append _ _ _ _ (by simp [h']), dot_reverse a sa h']
    simp only [dot]
    omega

theorem zip_reverse' : ∀ (sh : List Nat) (st : List Int), st.length = sh.length →
    (sh.reverse.zip st.reverse) = (sh.zip st).reverse
  | [], [], _ => by simp
  | [], _ :: _, h => by simp at h
  | _ :: _, [], h => by simp at h
  | n :: sh, s :: st, h => by
    have h' : st.length = sh.length := by simpa using h
    rw [List.reverse_cons, List.reverse_cons, List.zip_append (by simp [h']), zip_reverse' sh st h']
    simp

theorem count_append (a b : List Nat) : count (a ++ b) = count a * count b := by
  induction a with
  | nil => simp [count]
  | cons x a ih => rw [List.cons_append, count_cons, count_cons, ih, Nat.mul_assoc]

theorem count_reverse (l : List Nat) : count l.reverse = count l := by
  induction l with
  | nil => rfl
  | cons x l ih => rw [List.reverse_cons, count_append, ih, count_cons, Nat.mul_comm]; simp [count]

theorem count_pos {l : List Nat} (h : l.contains 0 = false) : 0 < count l := by
  induction l with
  | nil => simp [count]
  | cons x l ih =>
    simp only [List.contains_cons, Bool.or_eq_false_iff, beq_eq_false_iff_ne, ne_eq] at h
    rw [count_cons]
    exact Nat.mul_pos (by omega) (ih h.2)

theorem not_inRange_of_zero : ∀ {idx sh : List Nat}, sh.contains 0 = true → ¬ InRange idx sh
  | [], [], h => by simp at h
  | [], _ :: _, _ => by simp [InRange]
  | _ :: _, [], h => by simp at h
  | i :: is, n :: sh, h => by
    simp only [List.contains_cons, Bool.or_eq_true, beq_iff_eq] at h
    simp only [InRange]
    rintro ⟨h1, h2⟩
    rcases h with h | h
    · omega
    · exact not_inRange_of_zero h h2

/-! ### Bounds -/

theorem bounds_of_contig (sh : List Nat) : ∀ (st : List Int) (sd : Nat), sh.contains 0 = false →
    contigFrom sd (sh.zip st) = true →
    0 ≤ (bounds sh st).1 ∧ (bounds sh st).2 + sd ≤ ((sd * count sh : Nat) : Int) := by
  induction sh with
  | nil => intro st sd _ _; simp [bounds, count]
  | cons n sh ih =>
    intro st sd h0 hc
    simp only [List.contains_cons, Bool.or_eq_false_iff, beq_eq_false_iff_ne, ne_eq] at h0
    have hn : 0 < n := by omega
    cases st with
    | nil =>
      simp only [bounds]
      have := count_pos h0.2
      have h2 : 0 < n * count sh := Nat.mul_pos hn this
      rw [count_cons]
      refine ⟨by omega, ?_⟩
      have : sd * 1 ≤ sd * (n * count sh) := Nat.mul_le_mul_left _ h2
      omega
    | cons s st =>
      simp only [List.zip_cons_cons, contigFrom] at hc
      simp only [bounds]
      split at hc
      · rename_i h1
        subst h1
        have := ih st sd h0.2 hc
        rw [count_cons]
        simp only [Int.natCast_one, Int.sub_self, Int.mul_zero, Int.lt_irrefl, if_false, Int.add_zero, Nat.one_mul]
        exact this
      · simp only [Bool.and_eq_true, beq_iff_eq] at hc
        have := ih st _ h0.2 hc.2
        have e : ((n : Int) - 1) = ((n - 1 : Nat) : Int) := by omega
        have e2 : (s * ((n : Int) - 1)) = ((sd * (n - 1) : Nat) : Int) := by rw [hc.1, e]; push_cast; rfl
        have e3 : sd * n = sd * (n - 1) + sd := by
          conv => lhs; rw [show n = (n - 1) + 1 by omega, Nat.mul_succ]
        rw [e2, count_cons, ← Nat.mul_assoc]
        have e4 : ((sd * n : Nat) : Int) = ((sd * (n - 1) : Nat) : Int) + sd := by rw [e3]; push_cast; rfl
        rw [e4] at this
        split
        · refine ⟨this.1, ?_⟩
          have := this.2
          simp only
          omega
        · rename_i h2
          refine ⟨?_, ?_⟩
          · have := this.1; simp only; omega
          · have := this.2; simp only; omega

theorem bounds_append : ∀ (a : List Nat) (sa : List Int) (b : List Nat) (sb : List Int),
    sa.length = a.length → bounds (a ++ b) (sa ++ sb) =
      ((bounds a sa).1 + (bounds b sb).1, (bounds a sa).2 + (bounds b sb).2)
  | [], [], _, _, _ => by simp [bounds]
  | [], _ :: _, _, _, h => by simp at h
  | _ :: _, [], _, _, h => by simp at h
  | i :: a, s :: sa, b, sb, h => by
    simp only [List.cons_append, bounds, bounds_append a sa b sb (by simpa using h)]
    by_cases hs : 0 < s * ((i : Int) - 1)
    · simp only [hs, if_true, Prod.mk.injEq]; exact ⟨trivial, by omega⟩
    · simp only [hs, if_false, Prod.mk.injEq]; exact ⟨by omega, trivial⟩

theorem bounds_reverse : ∀ (a : List Nat) (sa : List Int), sa.length = a.length →
    bounds a.reverse sa.reverse = bounds a sa
  | [], [], _ => by simp [bounds]
  | [], _ :: _, h => by simp at h
  | _ :: _, [], h => by simp at h
  | i :: a, s :: sa, h => by
    have h' : sa.length = a.length := by simpa using h
    rw [List.reverse_cons, List.reverse_cons, bounds_append _ _ _ _ (by simp [h']), bounds_reverse a sa h']
    simp only [bounds]
    split <;> (simp only [Prod.mk.injEq]; exact ⟨by omega, by omega⟩)

end Xoscar.Nd
