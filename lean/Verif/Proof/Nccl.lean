import Verif.Spec.Nccl
import Verif.Proof.Base
namespace Xoscar.Nccl

theorem mapM_ok {β γ : Type} {f : β → Except Err γ} {g : β → γ} {l : List β} (h : ∀ x ∈ l, f x = .ok (g x)) : l.mapM f = .ok (l.map g) := by
  induction l with
  | nil => rfl
  | cons x l ih =>
    rw [List.mapM_cons, h x (by simp), ih (fun y hy => h y (by simp [hy]))]
    rfl

theorem mapM_err {β γ : Type} {f : β → Except Err γ} {e : Err} {l : List β} (h : ∀ x ∈ l, (∃ v, f x = .ok v) ∨ f x = .error e)
    (hx : ∃ x ∈ l, f x = .error e) : l.mapM f = .error e := by
  induction l with
  | nil => simp at hx
  | cons x l ih =>
    rw [List.mapM_cons]
    rcases h x (by simp) with ⟨v, hv⟩ | he
    · have : l.mapM f = .error e := by
        refine ih (fun y hy => h y (by simp [hy])) ?_
        obtain ⟨y, hy, hye⟩ := hx
        rcases List.mem_cons.mp hy with rfl | hy
        · rw [hv] at hye; cases hye
        · exact ⟨y, hy, hye⟩
      rw [hv, this]; rfl
    · rw [he]; rfl

theorem mapM_opt {β γ : Type} {f : β → Option γ} {g : β → γ} {l : List β} (h : ∀ x ∈ l, f x = some (g x)) : l.mapM f = some (l.map g) := by
  induction l with
  | nil => rfl
  | cons x l ih =>
    rw [List.mapM_cons, h x (by simp), ih (fun y hy => h y (by simp [hy]))]
    rfl

/-! ## Assignments -/

theorem pieces_flatten {α : Type} (n k : Nat) (d : List α) (h : d.length = n * k) : (pieces n k d).flatten = d := by
  induction n generalizing d with
  | zero => simp at h; subst h; rfl
  | succ n ih =>
    simp only [pieces, List.flatten_cons]
    rw [ih _ (by rw [List.length_drop, h, Nat.succ_mul]; omega), List.take_append_drop]

theorem pieces_length {α : Type} (n k : Nat) (d : List α) (h : d.length = n * k) : ∀ x ∈ pieces n k d, x.length = k := by
  induction n generalizing d with
  | zero => simp [pieces]
  | succ n ih =>
    intro x hx
    simp only [pieces, List.mem_cons] at hx
    rcases hx with rfl | hx
    · rw [List.length_take, h, Nat.succ_mul]; omega
    · exact ih _ (by rw [List.length_drop, h, Nat.succ_mul]; omega) x hx

theorem bcast_same {α : Type} (t : List Nat) (d : List α) (h : d.length = t.prod) : bcast t t d = some d := by
  induction t generalizing d with
  | nil => rfl
  | cons n t ih =>
    rw [List.prod_cons] at h
    simp only [bcast, if_true]
    rw [mapM_opt (g := id) (fun x hx => by rw [ih x (pieces_length n t.prod d h x hx)]; rfl)]
    simp [pieces_flatten n t.prod d h]

theorem strip_of_le (n : Nat) (v : List Nat) (h : v.length ≤ n) : strip n v = v := by
  unfold strip
  split
  · next v =>
    simp only [List.length_cons] at h
    rw [if_neg (by omega)]
  · rfl

theorem assigned_same {α : Type} (t : List Nat) (d : List α) (h : d.length = t.prod) : assigned t t d = .ok d := by
  unfold assigned
  rw [strip_of_le _ _ (Nat.le_refl _)]
  simp [pad, bcast_same t d h]

theorem row_of_lt (d : Nat) (rest : List Nat) (p : Nat) (h : p < d) : row (d :: rest) p = .ok (1 :: rest, p * rest.prod, rest.prod) := by
  have h1 : min (p + 1) d = p + 1 := by omega
  have h2 : min p d = p := by omega
  simp only [row, h1, h2]
  have : p + 1 - p = 1 := by omega
  rw [this, Nat.one_mul]

/-! ## Transfers -/

theorem sentTo_append {α : Type} (j : Nat) (a b : List (Act α)) : sentTo j (a ++ b) = sentTo j a ++ sentTo j b := by
  induction a with
  | nil => rfl
  | cons x a ih =>
    cases x with
    | send p d => simp only [List.cons_append, sentTo]; split <;> simp [ih]
    | copy o d => simpa [sentTo] using ih
    | recv p o n => simpa [sentTo] using ih

/-- sends do nothing to the sender's buffer -/
def Act.isSend {α : Type} : Act α → Bool
  | .send _ _ => true
  | _ => false

theorem exec_filter {α : Type} (acts : List (Act α)) (inbox : Nat → List (List α)) (buf : List α) :
    exec acts inbox buf = exec (acts.filter (fun a => !a.isSend)) inbox buf := by
  induction acts generalizing inbox buf with
  | nil => rfl
  | cons a acts ih =>
    cases a with
    | send p d => simp only [exec, List.filter_cons, Act.isSend]; exact ih inbox buf
    | copy o d =>
      simp only [exec, List.filter_cons, Act.isSend, Bool.not_false, if_true]
      cases put buf o d with
      | ok b => exact ih inbox b
      | error e => rfl
    | recv p o n =>
      simp only [exec, List.filter_cons, Act.isSend, Bool.not_false, if_true]
      cases inbox p with
      | nil => rfl
      | cons d ds =>
        by_cases hd : d.length = n
        · simp only [if_pos hd]
          cases put buf o d with
          | ok b => exact ih _ b
          | error e => rfl
        · simp only [if_neg hd]

theorem put_ok {α : Type} {buf d : List α} {off : Nat} (h : off + d.length ≤ buf.length) :
    put buf off d = .ok (buf.take off ++ d ++ buf.drop (off + d.length)) := by rw [put, if_pos h]

/-- filling the buffer part by part, with own elements or with received ones -/
theorem exec_fill {α : Type} (n me : Nat) (D : Nat → List α) (m : Nat) : ∀ (k : Nat) (inbox : Nat → List (List α)) (buf : List α),
    (∀ i, k ≤ i → i < k + m → (D i).length = n) → (∀ i, k ≤ i → i < k + m → i ≠ me → inbox i = [D i]) → (k + m) * n ≤ buf.length →
    exec ((List.range' k m).map fun p => if p = me then Act.copy (p * n) (D p) else Act.recv p (p * n) n) inbox buf =
      .ok (buf.take (k * n) ++ ((List.range' k m).map D).flatten ++ buf.drop ((k + m) * n),
        fun i => if k ≤ i ∧ i < k + m ∧ i ≠ me then [] else inbox i) := by
  induction m with
  | zero =>
    intro k inbox buf _ _ _
    simp only [List.range'_zero, List.map_nil, exec, List.flatten_nil, List.append_nil, Nat.add_zero, List.take_append_drop]
    congr 2
    funext i
    rw [if_neg (by omega)]
  | succ m ih =>
    intro k inbox buf hD hI hb
    have hmul : (k + (m + 1)) * n = k * n + n + m * n := by rw [Nat.add_mul, Nat.succ_mul]; omega
    have hmul2 : (k + 1 + m) * n = k * n + n + m * n := by rw [Nat.add_mul, Nat.succ_mul]
    have hmul3 : (k + 1) * n = k * n + n := Nat.succ_mul k n
    have hlen := hD k (Nat.le_refl _) (by omega)
    have hput := put_ok (buf := buf) (d := D k) (off := k * n) (by omega)
    have hb' : (buf.take (k * n) ++ D k ++ buf.drop (k * n + (D k).length)).length = buf.length := by
      simp only [List.length_append, List.length_take, List.length_drop]; omega
    have htake : (buf.take (k * n) ++ D k ++ buf.drop (k * n + (D k).length)).take ((k + 1) * n) = buf.take (k * n) ++ D k := by
      rw [List.take_append_of_le_length (by simp only [List.length_append, List.length_take]; omega)]
      rw [List.take_of_length_le (by simp only [List.length_append, List.length_take]; omega)]
    have hdrop : (buf.take (k * n) ++ D k ++ buf.drop (k * n + (D k).length)).drop ((k + 1 + m) * n) = buf.drop ((k + (m + 1)) * n) := by
      rw [List.drop_append]
      have e1 : (buf.take (k * n) ++ D k).length = k * n + n := by simp only [List.length_append, List.length_take]; omega
      rw [List.drop_eq_nil_of_le (by rw [e1]; omega), List.nil_append, e1, List.drop_drop]
      congr 1; omega
    rw [List.range'_succ, List.map_cons, List.map_cons]
    by_cases hk : k = me
    · rw [if_pos hk]
      simp only [exec, hput]
      show exec _ inbox _ = _
      rw [ih (k + 1) inbox _ (fun i h1 h2 => hD i (by omega) (by omega)) (fun i h1 h2 h3 => hI i (by omega) (by omega) h3)
        (by rw [hb']; omega), htake, hdrop]
      simp only [List.flatten_cons, List.append_assoc]
      congr 2
      funext i
      by_cases h : k + 1 ≤ i ∧ i < k + 1 + m ∧ i ≠ me
      · rw [if_pos h, if_pos (by omega)]
      · rw [if_neg h, if_neg (by omega)]
    · rw [if_neg hk]
      simp only [exec]
      rw [hI k (Nat.le_refl _) (by omega) hk]
      simp only [if_pos hlen, hput]
      show exec _ _ _ = _
      rw [ih (k + 1) _ _ (fun i h1 h2 => hD i (by omega) (by omega))
        (fun i h1 h2 h3 => by rw [if_neg (by omega)]; exact hI i (by omega) (by omega) h3)
        (by rw [hb']; omega), htake, hdrop]
      simp only [List.flatten_cons, List.append_assoc]
      congr 2
      funext i
      by_cases h : k + 1 ≤ i ∧ i < k + 1 + m ∧ i ≠ me
      · rw [if_pos h, if_pos (by omega)]
      · rw [if_neg h]
        by_cases h2 : i = k
        · rw [if_pos h2, if_pos (by omega)]
        · rw [if_neg h2, if_neg (by omega)]

/-- and the whole of it -/
theorem exec_all {α : Type} (n w me : Nat) (D : Nat → List α) (inbox : Nat → List (List α)) (buf : List α)
    (hD : ∀ i, i < w → (D i).length = n) (hI : ∀ i, i < w → i ≠ me → inbox i = [D i]) (hme : inbox me = []) (hb : buf.length = w * n) :
    ∃ left, exec ((List.range w).map fun p => if p = me then Act.copy (p * n) (D p) else Act.recv p (p * n) n) inbox buf =
      .ok (concat w D, left) ∧ ∀ i, i < w → left i = [] := by
  have := exec_fill n me D w 0 inbox buf (fun i _ h => hD i (by omega)) (fun i _ h h2 => hI i (by omega) h2) (by simp [hb])
  rw [← List.range_eq_range'] at this
  refine ⟨fun i => if 0 ≤ i ∧ i < 0 + w ∧ i ≠ me then [] else inbox i, this.trans ?_, ?_⟩
  · simp only [Nat.zero_mul, List.take_zero, List.nil_append, Nat.zero_add]
    rw [List.drop_eq_nil_of_le (by omega), List.append_nil]
    rfl
  · intro i hi
    by_cases h : i = me
    · subst h; simp [hme]
    · simp [hi, h]

theorem getD_range {β : Type} (w : Nat) (g : Nat → List β) (r : Nat) (h : r < w) : (((List.range w).map g)[r]?.getD []) = g r := by
  simp [h]

/-- the frame of all operations made of transfers -/
theorem together_ok {α : Type} {w : Nat} {prep : Nat → Except Err (List (Act α))} {prog : Nat → List (Act α)} {buf out : Nat → List α}
    (hp : ∀ r, r < w → prep r = .ok (prog r))
    (hx : ∀ r, r < w → ∀ inbox, (∀ i, i < w → inbox i = sentTo r (prog i)) →
      ∃ left, exec (prog r) inbox (buf r) = .ok (out r, left) ∧ ∀ i, i < w → left i = []) :
    together w prep buf = .ok ((List.range w).map out) := by
  unfold together
  rw [mapM_ok (g := prog) (fun r hr => hp r (by simpa using hr))]
  show exchange _ _ _ = _
  unfold exchange
  refine mapM_ok (fun r hr => ?_)
  have hr : r < w := by simpa using hr
  obtain ⟨left, h1, h2⟩ := hx r hr (fun i => sentTo r (((List.range w).map prog)[i]?.getD [])) (fun i hi => by rw [getD_range w prog i hi])
  have e := getD_range w prog r hr
  simp only [e]
  rw [h1]
  show (if _ then _ else _) = _
  rw [if_pos]
  rw [List.all_eq_true]
  intro i hi
  show (left i).isEmpty = true
  rw [h2 i (by simpa using hi)]; rfl

end Xoscar.Nccl
