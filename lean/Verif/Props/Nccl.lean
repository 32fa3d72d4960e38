import Verif.Proof.Nccl
/-!
# C85: operations of an nccl group move the right data
-/
namespace Xoscar.Nccl

/-! ## gather -/

/-- `gather` into a two-dimensional buffer -/
theorem gather_correct {α : Type} {w root n : Nat} {S R : Nat → Arr α} (hroot : root < w) (hS : ∀ r, r < w → (S r).data.length = n)
    (hR : ∀ r, r < w → (R r).data.length = w * n) (hsh : (R root).shape = [w, n]) :
    gather w root S R = .ok ((List.range w).map fun r => if r = root then concat w (fun i => (S i).data) else (R r).data) := by
  refine together_ok (prog := fun r => if r = root then (List.range w).map (fun p => if p = root then Act.copy (p * n) (S p).data else Act.recv p (p * n) n)
    else [.send root (S r).data]) ?_ ?_
  · intro r hr
    unfold gatherActs
    have hsz : (S r).size * w = (R r).size := by simp only [Arr.size, hS r hr, hR r hr, Nat.mul_comm]
    rw [if_neg (by simp [hsz])]
    by_cases h : r = root
    · subst h
      rw [if_pos rfl, if_pos rfl]
      refine mapM_ok (fun p hp => ?_)
      have hp : p < w := by simpa using hp
      rw [hsh, row_of_lt w [n] p hp]
      simp only [List.prod_cons, List.prod_nil, Nat.mul_one]
      show (if p = r then _ else _) = _
      by_cases hpr : p = r
      · subst hpr
        rw [if_pos rfl, if_pos rfl]
        have e : (S p).size = n := hS p hp
        rw [e, assigned_same [1, n] (S p).data (by simp [hS p hp])]
        rfl
      · rw [if_neg hpr, if_neg hpr]
    · rw [if_neg h, if_neg h]
  · intro r hr inbox hin
    by_cases h : r = root
    · subst h
      simp only [if_true] at hin ⊢
      refine exec_all n w r (fun i => (S i).data) inbox (R r).data hS ?_ ?_ (hR r hr)
      · intro i hi hne
        rw [hin i hi, if_neg hne]; simp [sentTo]
      · rw [hin r hr, if_pos rfl]
        have : ∀ l : List Nat, sentTo r (l.map (fun p => if p = r then Act.copy (p * n) (S p).data else Act.recv p (p * n) n)) = [] := by
          intro l
          induction l with
          | nil => rfl
          | cons p l ih =>
            rw [List.map_cons]
            by_cases hp : p = r
            · rw [if_pos hp]; simpa [sentTo] using ih
            · rw [if_neg hp]; simpa [sentTo] using ih
        exact this _
    · simp only [if_neg h, exec]
      refine ⟨inbox, rfl, fun i hi => ?_⟩
      rw [hin i hi]
      by_cases hi' : i = root
      · subst hi'
        rw [if_pos rfl]
        have : ∀ l : List Nat, sentTo r (l.map (fun p => if p = i then Act.copy (p * n) (S p).data else Act.recv p (p * n) n)) = [] := by
          intro l
          induction l with
          | nil => rfl
          | cons p l ih =>
            rw [List.map_cons]
            by_cases hp : p = i
            · rw [if_pos hp]; simpa [sentTo] using ih
            · rw [if_neg hp]; simpa [sentTo] using ih
        exact this _
      · rw [if_neg hi']; simp [sentTo, Ne.symm h]

theorem strip_one (k : Nat) (n : Nat) (h : k ≠ 1) : strip (k + 1) [1, n] = if k = 0 then (if n = 1 then [1] else [n]) else [1, n] := by
  cases k with
  | zero =>
    by_cases hn : n = 1
    · subst hn; rfl
    · have : strip 1 [n] = [n] := strip_of_le 1 [n] (by simp)
      simp [strip, hn, this]
  | succ k =>
    have : strip (k + 1 + 1) [1, n] = [1, n] := strip_of_le _ _ (by simp)
    simp [this]

/-- when the own part of a gather can be assigned: the receive buffer without its first axis looks like a row of the sent elements -/
theorem own_part_flat {α : Type} (n : Nat) (d : List α) (hn : n ≠ 1) : assigned [1] [1, n] d = .error .valueError := by
  have h1 : strip 1 [1, n] = [n] := by
    have : strip 1 [n] = [n] := strip_of_le 1 [n] (by simp)
    simp [strip, this]
  unfold assigned
  rw [show ([1] : List Nat).length = 1 from rfl, h1]
  simp [pad, bcast, hn]

theorem own_part_cube {α : Type} (a b : Nat) (d : List α) (hd : d.length = a * b) (ha : a ≠ 1) (h1 : a * b ≠ 1) (hb : 0 < b) :
    assigned [1, a, b] [1, a * b] d = .error .valueError := by
  have hs : strip 3 [1, a * b] = [1, a * b] := strip_of_le _ _ (by simp)
  have hab : a * b ≠ b := by
    intro h
    have : a * b = 1 * b := by omega
    exact ha (Nat.eq_of_mul_eq_mul_right hb this)
  unfold assigned
  rw [show ([1, a, b] : List Nat).length = 3 from rfl, hs]
  simp [pad, bcast, pieces, h1, hab, Ne.symm ha]

theorem gather_raises {α : Type} {w root n d : Nat} {rest : List Nat} {S R : Nat → Arr α} (hroot : root < w) (hS : ∀ r, r < w → (S r).data.length = n)
    (hR : ∀ r, r < w → (R r).data.length = w * n) (hsh : (R root).shape = d :: rest) (hd : w ≤ d)
    (hbad : assigned (1 :: rest) [1, n] (S root).data = .error .valueError) : gather w root S R = .error .valueError := by
  have key : gatherActs w root root (S root) (R root) = .error .valueError := by
    have hsz : (S root).size * w = (R root).size := by simp only [Arr.size, hS root hroot, hR root hroot, Nat.mul_comm]
    have e : (S root).size = n := hS root hroot
    unfold gatherActs
    rw [if_neg (by simp [hsz]), if_pos rfl]
    refine mapM_err (fun p hp => ?_) ⟨root, by simpa using hroot, ?_⟩
    · have hp : p < w := by simpa using hp
      rw [hsh, row_of_lt d rest p (by omega)]
      by_cases h : p = root
      · right
        show (if _ then _ else _) = _
        rw [if_pos h, e, hbad]; rfl
      · left
        show ∃ v, (if p = root then _ else _) = _
        rw [if_neg h]; exact ⟨_, rfl⟩
    · rw [hsh, row_of_lt d rest root (by omega)]
      show (if _ then _ else _) = _
      rw [if_pos rfl, e, hbad]; rfl
  have : (List.range w).mapM (fun r => gatherActs w r root (S r) (R r)) = .error .valueError := by
    refine mapM_err (fun r hr => ?_) ⟨root, by simpa using hroot, key⟩
    have hr : r < w := by simpa using hr
    by_cases h : r = root
    · right; rw [h]; exact key
    · left
      have hsz : (S r).size * w = (R r).size := by simp only [Arr.size, hS r hr, hR r hr, Nat.mul_comm]
      unfold gatherActs
      rw [if_neg (by simp [hsz]), if_neg h]; exact ⟨_, rfl⟩
  unfold gather together
  rw [this]; rfl

/-- **refuted**: the check of `gather` is about the number of elements only; a flat receive buffer of the right size is not accepted -/
theorem gather_flat_refuted {α : Type} {w root n : Nat} {S R : Nat → Arr α} (hroot : root < w) (hn : 2 ≤ n) (hS : ∀ r, r < w → (S r).data.length = n)
    (hR : ∀ r, r < w → (R r).data.length = w * n) (hsh : (R root).shape = [w * n]) : gather w root S R = .error .valueError :=
  gather_raises hroot hS hR hsh (Nat.le_mul_of_pos_right w (by omega)) (own_part_flat n _ (by omega))

/-- **refuted**: matrices cannot be gathered -/
theorem gather_matrices_refuted {α : Type} {w root a b : Nat} {S R : Nat → Arr α} (hroot : root < w) (ha : 2 ≤ a) (hb : 1 ≤ b)
    (hS : ∀ r, r < w → (S r).data.length = a * b) (hR : ∀ r, r < w → (R r).data.length = w * (a * b)) (hsh : (R root).shape = [w, a, b]) :
    gather w root S R = .error .valueError :=
  gather_raises hroot hS hR hsh (Nat.le_refl _) (own_part_cube a b _ (hS root hroot) (by omega)
    (by have : 2 * 1 ≤ a * b := Nat.mul_le_mul ha hb; omega) hb)

/-- **refuted**: a rank that is not the root must have a receive buffer, too -/
theorem gather_buffer_everywhere_refuted {α : Type} {w root r : Nat} {S R : Arr α} (hr : S.data.length * w ≠ R.data.length) :
    gatherActs w r root S R = .error .assertion := by
  unfold gatherActs
  rw [if_pos (by simpa [Arr.size] using hr)]

example : gather 2 1 (fun r => ⟨[2], [10 * r, 10 * r + 1]⟩) (fun _ => ⟨[2, 2], [7, 7, 7, 7]⟩) = .ok [[7, 7, 7, 7], [0, 1, 10, 11]] := by rfl
example : gather 2 1 (fun r => ⟨[2], [10 * r, 10 * r + 1]⟩) (fun _ => ⟨[4], [7, 7, 7, 7]⟩) = .error .valueError := by rfl

/-! ## scatter -/

/-- `scatter`: rank `r` gets the `r`-th array of the root -/
theorem scatter_correct {α : Type} {w root : Nat} {S : Nat → Option (List (Arr α))} {R : Nat → Arr α} {xs : List (Arr α)} (hroot : root < w)
    (hS : S root = some xs) (hall : ∀ r, r < w → S r ≠ none) (hlen : xs.length = w)
    (hx : ∀ (r : Nat) (x : Arr α), xs[r]? = some x → x.data.length = (R r).data.length)
    (hown : ∀ x : Arr α, xs[root]? = some x → x.shape = (R root).shape ∧ x.WF) :
    ∃ out : Nat → List α, scatter w root S R = .ok ((List.range w).map out) ∧ ∀ r, r < w → ∃ x : Arr α, xs[r]? = some x ∧ out r = x.data := by
  have hget : ∀ r, r < w → ∃ x : Arr α, xs[r]? = some x := fun r hr => ⟨xs[r]'(by omega), by simp [hlen, hr]⟩
  let out : Nat → List α := fun r => ((xs[r]?).map Arr.data).getD []
  have hout : ∀ (r : Nat) (x : Arr α), xs[r]? = some x → out r = x.data := by intro r x h; simp [out, h]
  refine ⟨out, ?_, fun r hr => ?_⟩
  · refine together_ok (prog := fun r => if r = root then (List.range w).map (fun p => if p = root then Act.copy 0 (out p) else Act.send p (out p))
      else [.recv root 0 (R r).data.length]) ?_ ?_
    · intro r hr
      cases hs : S r with
      | none => exact absurd hs (hall r hr)
      | some ys =>
        simp only [scatterActs]
        by_cases h : r = root
        · subst h
          rw [hS] at hs; cases hs
          rw [if_pos rfl, if_pos rfl, if_neg (by simp [hlen])]
          refine mapM_ok (fun p hp => ?_)
          have hp : p < w := by simpa using hp
          obtain ⟨x, hxp⟩ := hget p hp
          rw [hxp]
          by_cases hpr : p = r
          · subst hpr
            rw [if_pos rfl]
            simp only [if_true]
            obtain ⟨h1, h2⟩ := hown x hxp
            rw [← h1, assigned_same _ _ h2, hout _ _ hxp]; rfl
          · simp only [if_neg hpr, hout _ _ hxp]
        · rw [if_neg h, if_neg h]; rfl
    · intro r hr inbox hin
      have hroot' : ∀ (j : Nat) (l : List Nat), l.Nodup → sentTo j (l.map (fun p => if p = root then Act.copy 0 (out p) else Act.send p (out p))) =
          if j ∈ l ∧ j ≠ root then [out j] else [] := by
        intro j l hl
        induction l with
        | nil => rfl
        | cons p l ih =>
          obtain ⟨h1, h2⟩ := List.nodup_cons.mp hl
          rw [List.map_cons]
          by_cases hp : p = root
          · rw [if_pos hp]
            simp only [sentTo, ih h2, List.mem_cons]
            by_cases hj : j ∈ l ∧ j ≠ root
            · rw [if_pos hj, if_pos ⟨Or.inr hj.1, hj.2⟩]
            · rw [if_neg hj, if_neg]
              rintro ⟨h3 | h3, h4⟩
              · exact h4 (h3.trans hp)
              · exact hj ⟨h3, h4⟩
          · rw [if_neg hp]
            simp only [sentTo, ih h2, List.mem_cons]
            by_cases hpj : p = j
            · subst hpj
              rw [if_pos rfl, if_neg (fun h => h1 h.1), if_pos ⟨Or.inl rfl, hp⟩]
            · rw [if_neg hpj]
              by_cases hj : j ∈ l ∧ j ≠ root
              · rw [if_pos hj, if_pos ⟨Or.inr hj.1, hj.2⟩]
              · rw [if_neg hj, if_neg]
                rintro ⟨h3 | h3, h4⟩
                · exact hpj h3.symm
                · exact hj ⟨h3, h4⟩
      obtain ⟨x, hxr⟩ := hget r hr
      have hlr := hx r x hxr
      rw [← hout r x hxr] at hlr
      have hput : put (R r).data 0 (out r) = .ok (out r) := by
        rw [put_ok (by omega)]
        simp [List.drop_eq_nil_of_le (Nat.le_of_eq hlr.symm)]
      by_cases h : r = root
      · subst h
        simp only [if_true] at hin ⊢
        refine ⟨inbox, ?_, fun i hi => ?_⟩
        · rw [exec_filter]
          have : ((List.range w).map (fun p => if p = r then Act.copy 0 (out p) else Act.send p (out p))).filter (fun a => !a.isSend) = [Act.copy 0 (out r)] := by
            have hf : ∀ l : List Nat, l.Nodup → (l.map (fun p => if p = r then Act.copy 0 (out p) else Act.send p (out p))).filter (fun a => !a.isSend) =
                if r ∈ l then [Act.copy 0 (out r)] else [] := by
              intro l hl
              induction l with
              | nil => rfl
              | cons p l ih =>
                obtain ⟨h1, h2⟩ := List.nodup_cons.mp hl
                rw [List.map_cons]
                by_cases hp : p = r
                · subst hp
                  rw [if_pos rfl, List.filter_cons, ih h2, if_neg h1]
                  simp [Act.isSend]
                · rw [if_neg hp, List.filter_cons, ih h2]
                  simp [Act.isSend, Ne.symm hp]
            rw [hf _ List.nodup_range, if_pos (by simpa using hr)]
          rw [this]
          simp only [exec, hput]; rfl
        · rw [hin i hi]
          by_cases hi' : i = r
          · subst hi'
            rw [if_pos rfl, hroot' _ _ List.nodup_range, if_neg (fun h => h.2 rfl)]
          · rw [if_neg hi']; rfl
      · simp only [if_neg h, exec]
        have hin' := hin root hroot
        rw [if_pos rfl, hroot' _ _ List.nodup_range, if_pos ⟨by simpa using hr, h⟩] at hin'
        rw [hin']
        simp only [if_pos hlr, hput]
        refine ⟨_, rfl, fun i hi => ?_⟩
        by_cases hi' : i = root
        · rw [if_pos hi']
        · rw [if_neg hi', hin i hi, if_neg hi']; rfl
  · obtain ⟨x, h⟩ := hget r hr
    exact ⟨x, h, hout r x h⟩

/-- **refuted**: a rank that is not the root cannot leave its list out -/
theorem scatter_list_everywhere_refuted {α : Type} {w root r : Nat} {R : Arr α} : scatterActs w r root none R = .error .badArgument := rfl

example : scatter 2 0 (fun r => if r = 0 then some [⟨[2], [1, 2]⟩, ⟨[2], [3, 4]⟩] else some []) (fun _ => ⟨[2], [7, 7]⟩) = .ok [[1, 2], [3, 4]] := by rfl

/-! ## alltoall -/

/-- what one rank does for one peer -/
def peerActs {α : Type} (k r : Nat) (send : List α) (p : Nat) : List (Act α) :=
  if p = r then [.copy (p * k) (block k p send)]
  else if r > p then [.recv p (p * k) k, .send p (block k p send)]
  else [.send p (block k p send), .recv p (p * k) k]

theorem peerActs_filter {α : Type} (k r : Nat) (send : List α) (p : Nat) : (peerActs k r send p).filter (fun a => !a.isSend) =
    [if p = r then .copy (p * k) (block k p send) else .recv p (p * k) k] := by
  unfold peerActs
  split
  · rfl
  · split <;> rfl

theorem peerActs_sent {α : Type} (k r j : Nat) (send : List α) (p : Nat) : sentTo j (peerActs k r send p) =
    if p ≠ r ∧ p = j then [block k j send] else [] := by
  unfold peerActs
  by_cases h : p = r
  · simp [h, sentTo]
  · rw [if_neg h]
    by_cases hj : p = j
    · subst hj; simp [h, sentTo]; split <;> simp [sentTo]
    · simp [h, hj, sentTo]; split <;> simp [sentTo, hj]

theorem block_length {α : Type} {w k j : Nat} {l : List α} (hl : l.length = w * k) (hj : j < w) : (block k j l).length = k := by
  unfold block
  rw [List.length_take, List.length_drop, hl]
  have : (j + 1) * k ≤ w * k := Nat.mul_le_mul_right k hj
  rw [Nat.succ_mul] at this
  omega

/-- `alltoall` of arrays of the same shape: rank `r` gets the `r`-th part of every rank, in rank order -/
theorem alltoall_correct {α : Type} {w k : Nat} {S R : Nat → Arr α} {rest : Nat → List Nat}
    (hS : ∀ r, r < w → (S r).shape = w :: rest r ∧ (S r).data.length = w * k) (hR : ∀ r, r < w → (R r).shape = w :: rest r ∧ (R r).data.length = w * k)
    (hk : ∀ r, r < w → (rest r).prod = k) :
    alltoall w S R = .ok ((List.range w).map fun r => concat w (fun i => block k r (S i).data)) := by
  refine together_ok (prog := fun r => ((List.range w).map (peerActs k r (S r).data)).flatten) ?_ ?_
  · intro r hr
    unfold alltoallActs
    rw [(hS r hr).1]
    simp only [ne_eq, not_true, if_false]
    rw [if_neg (by simp [Arr.size, (hS r hr).2, (hR r hr).2])]
    rw [mapM_ok (g := peerActs k r (S r).data) (fun p hp => ?_)]
    · rfl
    · have hp : p < w := by simpa using hp
      unfold alltoallPeer rowData
      rw [(hS r hr).1, (hR r hr).1, row_of_lt w (rest r) p hp, hk r hr]
      show (if p = r then _ else _) = _
      unfold peerActs
      by_cases h : p = r
      · rw [if_pos h, if_pos h]
        show (assigned (1 :: rest r) (1 :: rest r) (block k p (S r).data) >>= _) = _
        rw [assigned_same _ _ (by rw [block_length (hS r hr).2 hp, List.prod_cons, hk r hr, Nat.one_mul])]
        rfl
      · rw [if_neg h, if_neg h]
        by_cases hgt : r > p
        · rw [if_pos hgt, if_pos hgt]; rfl
        · rw [if_neg hgt, if_neg hgt]; rfl
  · intro r hr inbox hin
    have hsent : ∀ (i : Nat) (l : List Nat), l.Nodup → sentTo r ((l.map (peerActs k i (S i).data)).flatten) = if r ∈ l ∧ r ≠ i then [block k r (S i).data] else [] := by
      intro i l hl
      induction l with
      | nil => rfl
      | cons p l ih =>
        obtain ⟨h1, h2⟩ := List.nodup_cons.mp hl
        rw [List.map_cons, List.flatten_cons, sentTo_append, ih h2, peerActs_sent]
        by_cases hpr : p = r
        · subst hpr
          by_cases hpi : p = i
          · simp [hpi]
          · simp [hpi, h1]
        · simp [hpr, Ne.symm hpr]
    have hfilter : ∀ l : List Nat, (((l.map (peerActs k r (S r).data)).flatten).filter (fun a => !a.isSend)) =
        l.map (fun p => if p = r then Act.copy (p * k) (block k r (S p).data) else Act.recv p (p * k) k) := by
      intro l
      induction l with
      | nil => rfl
      | cons p l ih =>
        rw [List.map_cons, List.flatten_cons, List.filter_append, ih, peerActs_filter, List.map_cons]
        by_cases h : p = r
        · subst h; rfl
        · simp [h]
    rw [exec_filter, hfilter]
    refine exec_all k w r (fun i => block k r (S i).data) inbox (R r).data (fun i hi => block_length (hS i hi).2 hr) ?_ ?_ (hR r hr).2
    · intro i hi hne
      rw [hin i hi, hsent i _ List.nodup_range, if_pos ⟨by simpa using hr, Ne.symm hne⟩]
    · rw [hin r hr, hsent r _ List.nodup_range, if_neg (fun h => h.2 rfl)]

/-- **refuted**: `alltoall` checks the number of elements only; a flat receive buffer of the right size is not accepted -/
theorem alltoall_flat_refuted {α : Type} {w r k : Nat} {send recv : Arr α} (hr : r < w) (hk : 2 ≤ k) (hs : send.shape = [w, k]) (hsl : send.data.length = w * k)
    (hsh : recv.shape = [w * k]) (hrl : recv.data.length = w * k) : alltoallActs w r send recv = .error .valueError := by
  have hlt : ∀ p, p < w → p < w * k := fun p hp => Nat.lt_of_lt_of_le hp (Nat.le_mul_of_pos_right w (by omega))
  unfold alltoallActs
  rw [hs]
  simp only [ne_eq, not_true, if_false]
  rw [if_neg (by simp [Arr.size, hsl, hrl])]
  have key : ∀ p, p < w → alltoallPeer r send recv p = if p = r then .error .valueError
      else if r > p then .ok [.recv p (p * 1) 1, .send p (block k p send.data)] else .ok [.send p (block k p send.data), .recv p (p * 1) 1] := by
    intro p hp
    unfold alltoallPeer rowData
    rw [hs, hsh, row_of_lt _ [] p (hlt p hp), row_of_lt w [k] p hp]
    show (if p = r then _ else _) = _
    by_cases h : p = r
    · rw [if_pos h, if_pos h]
      show (assigned [1] [1, k] _ >>= _) = _
      rw [own_part_flat k _ (by omega)]; rfl
    · rw [if_neg h, if_neg h]
      simp only [List.prod_cons, List.prod_nil, Nat.mul_one]
      rfl
  have : (List.range w).mapM (alltoallPeer r send recv) = .error .valueError := by
    refine mapM_err (fun p hp => ?_) ⟨r, by simpa using hr, by rw [key r hr, if_pos rfl]⟩
    rw [key p (by simpa using hp)]
    split
    · right; rfl
    · left; split <;> exact ⟨_, rfl⟩
  rw [this]; rfl

/-- the check of `alltoall` -/
theorem alltoall_checked {α : Type} {w r d : Nat} {rest : List Nat} {send recv : Arr α} (hs : send.shape = d :: rest)
    (h : w ≠ d ∨ recv.data.length ≠ send.data.length) : alltoallActs w r send recv = .error .assertion := by
  unfold alltoallActs
  rw [hs]
  simp only
  by_cases h1 : w = d
  · rw [if_neg (by simpa using h1), if_pos (by rcases h with h | h; exact absurd h1 h; exact h)]
  · rw [if_pos h1]

example : alltoall 2 (fun r => ⟨[2, 2], [10 * r, 10 * r + 1, 10 * r + 2, 10 * r + 3]⟩) (fun _ => ⟨[2, 2], [7, 7, 7, 7]⟩) =
    .ok [[0, 1, 10, 11], [2, 3, 12, 13]] := by rfl

/-! ## The collectives of NCCL -/

theorem collective_ok {α : Type} {w n : Nat} {c : Nat → Call α} {result : Nat → List (List α) → Option (List α)} {need : Nat → Nat}
    (hc : ∀ r, r < w → (c r).count = n) (hin : ∀ r, r < w → need n ≤ (c r).input.length)
    (hput : ∀ r, r < w → ∀ o, result r ((List.range w).map fun i => (c i).input.take (need n)) = some o → o.length ≤ (c r).buf.length) :
    collective w ((List.range w).map c) result need = .ok ((List.range w).map fun r =>
      match result r ((List.range w).map fun i => (c i).input.take (need n)) with
      | some o => o ++ (c r).buf.drop o.length
      | none => (c r).buf) := by
  cases w with
  | zero => rfl
  | succ w =>
    have e : (List.range (w + 1)).map c = c 0 :: (List.range w).map (fun i => c (i + 1)) := by
      rw [List.range_succ_eq_map]; simp
    have h0 : (c 0).count = n := hc 0 (by omega)
    have e2 : collective (w + 1) ((List.range (w + 1)).map c) result need =
        if ((List.range (w + 1)).map c).all (fun x => x.count = n) then
          if ((List.range (w + 1)).map c).all (fun x => need n ≤ x.input.length) then
            (List.range (w + 1)).mapM fun r => match ((List.range (w + 1)).map c)[r]?, result r (((List.range (w + 1)).map c).map (fun x => x.input.take (need n))) with
              | some x, some out => put x.buf 0 out
              | some x, none => .ok x.buf
              | none, _ => .error .nccl
          else .error .overflow
        else .error .nccl := by
      rw [e]; simp only [collective, h0]; rfl
    rw [e2, if_pos (by simpa using hc), if_pos (by simpa using hin)]
    refine mapM_ok (fun r hr => ?_)
    have hr : r < w + 1 := by simpa using hr
    have e3 : ((List.range (w + 1)).map c)[r]? = some (c r) := by simp [hr]
    rw [e3, List.map_map]
    have e4 : ((fun x : Call α => x.input.take (need n)) ∘ c) = fun i => (c i).input.take (need n) := rfl
    rw [e4]
    cases hres : result r ((List.range (w + 1)).map fun i => (c i).input.take (need n)) with
    | none => rfl
    | some o =>
      simp only
      rw [put_ok (by have := hput r hr o hres; omega)]
      simp

theorem filterMap_get {α : Type} (i : Nat) (xss : List (List α)) (h : ∀ x ∈ xss, i < x.length) :
    (xss.filterMap (·[i]?)).length = xss.length ∧ ∀ r : Nat, (xss.filterMap (·[i]?))[r]? = (xss[r]?).bind (·[i]?) := by
  induction xss with
  | nil => simp
  | cons x xss ih =>
    obtain ⟨h1, h2⟩ := ih (fun y hy => h y (by simp [hy]))
    have hx : x[i]? = some (x[i]'(h x (by simp))) := List.getElem?_eq_getElem _
    rw [List.filterMap_cons, hx]
    refine ⟨by simp [h1], fun r => ?_⟩
    cases r with
    | zero => simp
    | succ r => simpa using h2 r

theorem reduceAll_spec {α : Type} {red : List α → α} {w n : Nat} {S : Nat → List α} (hw : 0 < w) (hS : ∀ r, r < w → (S r).length = n) :
    IsReduction red w n S (reduceAll red ((List.range w).map S)) := by
  obtain ⟨w, rfl⟩ : ∃ v, w = v + 1 := ⟨w - 1, by omega⟩
  have e : (List.range (w + 1)).map S = S 0 :: (List.range w).map (fun i => S (i + 1)) := by
    rw [List.range_succ_eq_map]; simp
  have e2 : reduceAll red ((List.range (w + 1)).map S) = (List.range n).map fun i => red (((List.range (w + 1)).map S).filterMap (·[i]?)) := by
    rw [e]; simp only [reduceAll, hS 0 (by omega)]
  rw [e2]
  refine ⟨by simp, fun i hi => ?_⟩
  obtain ⟨h1, h2⟩ := filterMap_get i ((List.range (w + 1)).map S) (by
    intro x hx
    obtain ⟨r, hr, rfl⟩ := List.mem_map.mp hx
    rw [hS r (by simpa using hr)]; exact hi)
  refine ⟨_, by rw [h1]; simp, fun r hr => ?_, by simp [hi]⟩
  rw [h2 r]; simp [hr]

theorem take_full {α : Type} {w n : Nat} {S : Nat → Arr α} (hS : ∀ r, r < w → (S r).data.length = n) :
    ((List.range w).map fun i => (S i).data.take (id n)) = (List.range w).map (fun i => (S i).data) := by
  apply List.map_congr_left
  intro i hi
  rw [List.take_of_length_le (by rw [hS i (by simpa using hi)]; exact Nat.le_refl _)]

theorem bind_ok {β γ : Type} (a : β) (f : β → Except Err γ) : (Except.ok a >>= f) = f a := rfl

theorem op_of_meaning {op : ROp} {f : Fn} (h : Meaning op f) : op.nccl = .ok f := by
  cases op <;> cases f <;> first | exact absurd h id | rfl

/-- `reduce`: the root gets the reduction, nobody else gets anything -/
theorem reduce_correct {α : Type} {red : Fn → List α → α} {w root n : Nat} {op : ROp} {f : Fn} {S R : Nat → Arr α} (hw : 0 < w) (hop : Meaning op f)
    (hS : ∀ r, r < w → (S r).data.length = n) (hR : n ≤ (R root).data.length) :
    ∃ out, IsReduction (red f) w n (fun r => (S r).data) out ∧
      reduce red w root op S R = .ok ((List.range w).map fun r => if r = root then out ++ (R r).data.drop n else (R r).data) := by
  have hspec := reduceAll_spec (red := red f) (S := fun r => (S r).data) hw hS
  refine ⟨_, hspec, ?_⟩
  unfold reduce
  rw [op_of_meaning hop]
  rw [bind_ok]
  rw [collective_ok (n := n) (c := fun r => ⟨(S r).data, (S r).size, (R r).data⟩) hS (fun r hr => by simp [hS r hr])]
  · simp only [take_full hS]
    congr 1
    apply List.map_congr_left
    intro r _
    by_cases h : r = root
    · simp [h, hspec.1]
    · simp [h]
  · intro r hr o ho
    simp only [take_full hS] at ho
    by_cases h : r = root
    · rw [if_pos h] at ho; cases ho
      rw [hspec.1, h]; exact hR
    · rw [if_neg h] at ho; cases ho

/-- `allreduce`: every rank gets the reduction -/
theorem allreduce_correct {α : Type} {red : Fn → List α → α} {w n : Nat} {op : ROp} {f : Fn} {S R : Nat → Arr α} (hw : 0 < w) (hop : Meaning op f)
    (hS : ∀ r, r < w → (S r).data.length = n) (hR : ∀ r, r < w → n ≤ (R r).data.length) :
    ∃ out, IsReduction (red f) w n (fun r => (S r).data) out ∧
      allreduce red w op S R = .ok ((List.range w).map fun r => out ++ (R r).data.drop n) := by
  have hspec := reduceAll_spec (red := red f) (S := fun r => (S r).data) hw hS
  refine ⟨_, hspec, ?_⟩
  unfold allreduce
  rw [op_of_meaning hop]
  rw [bind_ok]
  rw [collective_ok (n := n) (c := fun r => ⟨(S r).data, (S r).size, (R r).data⟩) hS (fun r hr => by simp [hS r hr])]
  · simp only [take_full hS, hspec.1]
  · intro r hr o ho
    simp only [take_full hS] at ho
    cases ho
    rw [hspec.1]; exact hR r hr

theorem concat_length {α : Type} {w n : Nat} {f : Nat → List α} (h : ∀ r, r < w → (f r).length = n) : (concat w f).length = w * n := by
  induction w with
  | zero => simp [concat]
  | succ w ih =>
    have := ih (fun r hr => h r (by omega))
    unfold concat at this ⊢
    rw [List.range_succ, List.map_append, List.flatten_append, List.length_append, this]
    simp [h w (by omega), Nat.succ_mul]

/-- `allgather`: every rank gets the elements of all -/
theorem allgather_correct {α : Type} {w n : Nat} {S R : Nat → Arr α} (hS : ∀ r, r < w → (S r).data.length = n) (hR : ∀ r, r < w → w * n ≤ (R r).data.length) :
    allgather w S R = .ok ((List.range w).map fun r => concat w (fun i => (S i).data) ++ (R r).data.drop (w * n)) := by
  have hlen := concat_length (f := fun i => (S i).data) hS
  unfold allgather
  rw [collective_ok (n := n) (c := fun r => ⟨(S r).data, (S r).size, (R r).data⟩) hS (fun r hr => by simp [hS r hr])]
  · simp only [take_full hS]
    congr 1
    apply List.map_congr_left
    intro r _
    rw [← hlen]; rfl
  · intro r hr o ho
    simp only [take_full hS] at ho
    cases ho
    exact Nat.le_trans (Nat.le_of_eq hlen) (hR r hr)

/-- `broadcast`: every rank gets the root's elements.  Every rank passes an array of the same size as what it sends -/
theorem broadcast_correct {α : Type} {w root n : Nat} {S R : Nat → Arr α} (hroot : root < w) (hS : ∀ r, r < w → (S r).data.length = n)
    (hR : ∀ r, r < w → n ≤ (R r).data.length) :
    broadcast w root (fun r => some (S r)) R = .ok ((List.range w).map fun r => (S root).data ++ (R r).data.drop n) := by
  unfold broadcast
  rw [mapM_ok (g := S) (fun r _ => rfl)]
  rw [bind_ok]
  have e : ((List.range w).map fun r => (⟨((((List.range w).map S)[r]?).map Arr.data).getD [], ((((List.range w).map S)[r]?).map Arr.size).getD 0, (R r).data⟩ : Call α)) =
      (List.range w).map (fun r => ⟨(S r).data, (S r).size, (R r).data⟩) := by
    apply List.map_congr_left
    intro r hr
    have hr : r < w := by simpa using hr
    simp [hr]
  rw [e, collective_ok (n := n) (c := fun r => ⟨(S r).data, (S r).size, (R r).data⟩) hS (fun r hr => by simp [hS r hr])]
  · simp only [take_full hS]
    congr 1
    apply List.map_congr_left
    intro r _
    simp [hroot, hS root hroot]
  · intro r hr o ho
    simp only [take_full hS] at ho
    simp [hroot] at ho
    subst ho
    rw [hS root hroot]; exact hR r hr

/-- **refuted**: a rank that only receives cannot leave out `send_data` (it can with gloo) -/
theorem broadcast_none_refuted {α : Type} {w root r : Nat} {S : Nat → Option (Arr α)} {R : Nat → Arr α} (hr : r < w) (h : S r = none) :
    broadcast w root S R = .error .badArgument := by
  unfold broadcast
  rw [mapM_err (e := .badArgument) (fun x _ => ?_) ⟨r, by simpa using hr, by rw [h]⟩]
  · rfl
  · cases S x with
    | none => right; rfl
    | some a => left; exact ⟨a, rfl⟩

/-- `reduce_scatter` with equal parts: rank `r` gets part `r` of the reduction -/
theorem reduce_scatter_correct {α : Type} {red : Fn → List α → α} {w n : Nat} {op : ROp} {f : Fn} {S R : Nat → Arr α} {elems : Nat → List Nat}
    (hw : 0 < w) (hop : Meaning op f) (he : ∀ r, r < w → (elems r)[r]? = some n) (hS : ∀ r, r < w → (S r).data.length = w * n)
    (hR : ∀ r, r < w → n ≤ (R r).data.length) :
    ∃ out, IsReduction (red f) w (w * n) (fun r => (S r).data) out ∧
      reduceScatter red w op elems S R = .ok ((List.range w).map fun r => block n r out ++ (R r).data.drop n) := by
  have hspec := reduceAll_spec (red := red f) (S := fun r => (S r).data) hw hS
  refine ⟨_, hspec, ?_⟩
  unfold reduceScatter
  rw [op_of_meaning hop]
  rw [bind_ok]
  rw [mapM_ok (g := fun _ => n) (fun r hr => by rw [he r (by simpa using hr)])]
  rw [bind_ok]
  have hhead : ((List.range w).map (fun _ => n)).headD 0 = n := by
    cases w with
    | zero => omega
    | succ w => simp [List.range_succ_eq_map]
  have htake : ((List.range w).map fun i => (S i).data.take (w * n)) = (List.range w).map (fun i => (S i).data) := by
    apply List.map_congr_left
    intro i hi
    rw [List.take_of_length_le (by rw [hS i (by simpa using hi)]; exact Nat.le_refl _)]
  have hblock : ∀ r, r < w → (block n r (reduceAll (red f) ((List.range w).map fun i => (S i).data))).length = n := fun r hr => block_length hspec.1 hr
  rw [collective_ok (n := n) (c := fun r => ⟨(S r).data, (((List.range w).map (fun _ => n))[r]?).getD 0, (R r).data⟩) (fun r hr => by simp [hr])
    (fun r hr => by simp [hS r hr])]
  · simp only [hhead, htake]
    congr 1
    apply List.map_congr_left
    intro r hr
    have hr : r < w := by simpa using hr
    have := hblock r hr
    unfold block at this ⊢
    rw [this]
  · intro r hr o ho
    simp only [hhead, htake] at ho
    cases ho
    exact Nat.le_trans (Nat.le_of_eq (hblock r hr)) (hR r hr)

/-- **refuted**: `recv_elems` with different numbers (fine with gloo) -/
theorem reduce_scatter_uneven_refuted {α : Type} {red : Fn → List α → α} {w r1 r2 : Nat} {op : ROp} {f : Fn} {S R : Nat → Arr α} {elems : List Nat}
    (hop : Meaning op f) (hl : elems.length = w) (h1 : r1 < w) (h2 : r2 < w) (hne : elems[r1]? ≠ elems[r2]?) :
    reduceScatter red w op (fun _ => elems) S R = .error .nccl := by
  unfold reduceScatter
  rw [op_of_meaning hop]
  rw [bind_ok]
  rw [mapM_ok (g := fun r => elems[r]?.getD 0) (fun r hr => by
    have hr : r < elems.length := by rw [hl]; simpa using hr
    simp [List.getElem?_eq_getElem hr])]
  rw [bind_ok]
  obtain ⟨w, rfl⟩ : ∃ v, w = v + 1 := ⟨w - 1, by omega⟩
  let c : Nat → Call α := fun r => ⟨(S r).data, (((List.range (w + 1)).map (fun r => elems[r]?.getD 0))[r]?).getD 0, (R r).data⟩
  have hcount : ∀ r, r < w + 1 → (c r).count = elems[r]?.getD 0 := by intro r hr; simp [c, hr]
  show collective _ ((List.range (w + 1)).map c) _ _ = _
  have e : (List.range (w + 1)).map c = c 0 :: (List.range w).map (fun i => c (i + 1)) := by
    rw [List.range_succ_eq_map]; simp
  have hbad : ((List.range (w + 1)).map c).all (fun x => x.count = (c 0).count) = false := by
    rw [Bool.eq_false_iff]
    intro hall
    simp only [List.all_map, List.all_eq_true, List.mem_range, Function.comp, decide_eq_true_eq] at hall
    have a1 := hall r1 h1
    have a2 := hall r2 h2
    rw [hcount r1 h1] at a1
    rw [hcount r2 h2] at a2
    apply hne
    have g1 : elems[r1]? = some (elems[r1]'(by omega)) := List.getElem?_eq_getElem _
    have g2 : elems[r2]? = some (elems[r2]'(by omega)) := List.getElem?_eq_getElem _
    rw [g1] at a1 ⊢
    rw [g2] at a2 ⊢
    simp only [Option.getD_some] at a1 a2
    rw [a1, a2]
  rw [e] at hbad ⊢
  simp only [collective]
  rw [hbad]; rfl

/-- **refuted**: the bitwise operations are offered but not known to NCCL -/
theorem bitwise_refused {α : Type} (red : Fn → List α → α) (w root : Nat) (op : ROp) (S R : Nat → Arr α) (h : op = .band ∨ op = .bor ∨ op = .bxor) :
    reduce red w root op S R = .error .badArgument ∧ allreduce red w op S R = .error .badArgument := by
  rcases h with rfl | rfl | rfl <;> exact ⟨rfl, rfl⟩

/-- **refuted**: nothing checks the size of the receive buffer of the collectives -/
theorem allgather_short_refuted {α : Type} {w n r : Nat} {S R : Nat → Arr α} (hr : r < w) (hS : ∀ r, r < w → (S r).data.length = n)
    (hR : (R r).data.length < w * n) : allgather w S R = .error .overflow := by
  have hlen := concat_length (f := fun i => (S i).data) hS
  obtain ⟨w, rfl⟩ : ∃ v, w = v + 1 := ⟨w - 1, by omega⟩
  let c : Nat → Call α := fun r => ⟨(S r).data, (S r).size, (R r).data⟩
  have hc : ∀ r, r < w + 1 → (c r).count = n := hS
  have e : (List.range (w + 1)).map c = c 0 :: (List.range w).map (fun i => c (i + 1)) := by
    rw [List.range_succ_eq_map]; simp
  show collective (w + 1) ((List.range (w + 1)).map c) (fun _ xs => some xs.flatten) id = _
  have e2 : collective (w + 1) ((List.range (w + 1)).map c) (fun _ xs => some xs.flatten) id =
      if ((List.range (w + 1)).map c).all (fun x => x.count = n) then
        if ((List.range (w + 1)).map c).all (fun x => id n ≤ x.input.length) then
          (List.range (w + 1)).mapM fun r => match ((List.range (w + 1)).map c)[r]?, some (((List.range (w + 1)).map c).map (fun x => x.input.take (id n))).flatten with
            | some x, some out => put x.buf 0 out
            | some x, none => .ok x.buf
            | none, _ => .error .nccl
        else .error .overflow
      else .error .nccl := by
    rw [e]; simp only [collective, hc 0 (by omega)]; rfl
  rw [e2, if_pos (by simpa using hc), if_pos (by simp only [List.all_map, List.all_eq_true, List.mem_range, Function.comp, decide_eq_true_eq]; intro i hi; exact Nat.le_of_eq (hS i hi).symm)]
  have e5 : (((List.range (w + 1)).map c).map (fun x => x.input.take (id n))).flatten = concat (w + 1) (fun i => (S i).data) := by
    rw [List.map_map]
    show ((List.range (w + 1)).map fun i => (S i).data.take (id n)).flatten = _
    rw [take_full hS]; rfl
  have hone : ∀ x, x < w + 1 → (match ((List.range (w + 1)).map c)[x]?, some (((List.range (w + 1)).map c).map (fun x => x.input.take (id n))).flatten with
            | some x, some out => put x.buf 0 out
            | some x, none => .ok x.buf
            | none, _ => .error .nccl) = put (R x).data 0 (concat (w + 1) (fun i => (S i).data)) := by
    intro x hx
    have e3 : ((List.range (w + 1)).map c)[x]? = some (c x) := by simp [hx]
    rw [e3, e5]
  refine mapM_err (fun x hx => ?_) ⟨r, by simpa using hr, ?_⟩
  · rw [hone x (by simpa using hx)]
    unfold put
    split
    · left; exact ⟨_, rfl⟩
    · right; rfl
  · rw [hone r hr, put, if_neg (by rw [hlen]; omega)]

example : allgather 2 (fun r => ⟨[2], [10 * r, 10 * r + 1]⟩) (fun _ => ⟨[4], [7, 7, 7, 7]⟩) = .ok [[0, 1, 10, 11], [0, 1, 10, 11]] := by rfl
example : reduceScatter (fun _ l => l.foldl (· + ·) 0) 2 .sum (fun _ => [1, 1]) (fun r => ⟨[2], [10 * r, 10 * r + 1]⟩) (fun _ => ⟨[1], [7]⟩) = .ok [[10], [12]] := by rfl
example : broadcast 2 1 (fun r => some ⟨[2], [10 * r, 10 * r + 1]⟩) (fun _ => ⟨[2], [7, 7]⟩) = .ok [[10, 11], [10, 11]] := by rfl

/-! ## The unique id of the default group -/

/-- the id survives the store exactly if it is made of signed bytes -/
theorem id_roundtrip (id : List Int) (h : ∀ b ∈ id, -128 ≤ b ∧ b < 128) : ∃ bs, shiftId id = .ok bs ∧ bs.length = id.length ∧ unshiftId bs = id := by
  refine ⟨id.map (fun b => UInt8.ofNat (b + 128).toNat), mapM_ok (fun b hb => ?_), by simp, ?_⟩
  · have := h b hb
    rw [if_pos (by omega)]
  · unfold unshiftId
    rw [List.map_map]
    conv => rhs; rw [← List.map_id id]
    apply List.map_congr_left
    intro b hb
    have := h b hb
    have e : (UInt8.ofNat (b + 128).toNat).toNat = (b + 128).toNat := by
      have : (b + 128).toNat < 256 := by omega
      simp; omega
    simp only [Function.comp, e, id_eq]
    omega

theorem id_refused (id : List Int) (b : Int) (hb : b ∈ id) (h : b < -128 ∨ 128 ≤ b) : shiftId id = .error .valueError := by
  refine mapM_err (fun x _ => ?_) ⟨b, hb, by rw [if_neg (by omega)]⟩
  split
  · left; exact ⟨_, rfl⟩
  · right; rfl

example : shiftId [-128, 0, 127] = .ok [0, 128, 255] := by rfl

/-- a request that arrives in one piece is served; **refuted**: one that is cut is not, although all of it arrives -/
theorem request_served (size : Nat) (h : 0 < size) (more : List Nat) : served size (size :: more) = true := by simp [served, h]

theorem split_request_refuted (size k : Nat) (h1 : 0 < k) (h2 : k < size) : [k, size - k].sum = size ∧ (∀ x ∈ [k, size - k], 0 < x) ∧ served size [k, size - k] = false := by
  refine ⟨by simp; omega, by simp; omega, ?_⟩
  simp [served]; omega

end Xoscar.Nccl
