import Verif.Model.Calls
import Verif.Proof.Base
/-!
# C36 (references), C18/C19 (batch), C17 (tuple results), C41 (errors)
-/
namespace Xoscar.Calls

/-! ## C36 -/

/-- Two references are equal iff address and uid coincide. -/
theorem refEq_iff (a b : Ref) : refEq a b = true ↔ a.address = b.address ∧ a.uid = b.uid := by
  have : a.uid = b.uid ↔ a.uid.data = b.uid.data := by
    cases a.uid; cases b.uid; simp
  simp [refEq, this]

theorem refEq_refl (a : Ref) : refEq a a = true := (refEq_iff a a).mpr ⟨rfl, rfl⟩
theorem refEq_symm (a b : Ref) (h : refEq a b = true) : refEq b a = true := by
  rw [refEq_iff] at *; exact ⟨h.1.symm, h.2.symm⟩
theorem refEq_trans (a b c : Ref) (h : refEq a b = true) (h' : refEq b c = true) :
    refEq a c = true := by
  rw [refEq_iff] at *; exact ⟨h.1.trans h'.1, h.2.trans h'.2⟩

/-- Equal references hash equally, whatever the underlying hash. -/
theorem refEq_hash (h : String × ByteArray → Nat) (a b : Ref) (e : refEq a b = true) :
    refHash h a = refHash h b := by
  rw [refEq_iff] at e; simp [refHash, e.1, e.2]

/-- References made with text uids are equal iff the texts are. -/
theorem refEq_str (addr addr' uid uid' : String) (p p') :
    refEq (mkRefStr addr uid p) (mkRefStr addr' uid' p') = true ↔ addr = addr' ∧ uid = uid' := by
  rw [refEq_iff]; simp [mkRefStr, String.toByteArray_inj]

/-- A str uid and its encoded form denote the same actor. -/
theorem refEq_str_bytes (addr uid : String) (p p') (b : ByteArray)
    (hb : toBinary (.str uid) = .ok (some b)) :
    refEq (mkRefStr addr uid p) (mkRefBytes addr b p') = true := by
  rw [refEq_iff]; simp [toBinary] at hb; simp [mkRefStr, mkRefBytes, hb]

/-- A reference stays equal to itself when sent to another process, also to the one in which
the actor lives. -/
theorem unpickle_equal (l : Bool) (a : Ref) : refEq (unpickleRef l a) a = true := by
  rw [refEq_iff]; unfold unpickleRef; split <;> exact ⟨rfl, rfl⟩

/-- It becomes a local reference exactly in the process in which the actor lives; elsewhere it keeps its proxies. -/
theorem unpickle_local (l : Bool) (a : Ref) :
    ((unpickleRef l a).isLocal = true ↔ l = true) ∧ (l = false → (unpickleRef l a).proxies = a.proxies) := by
  cases l <;> simp [unpickleRef]

/-- A reference a user makes is not a local one, and has the proxies given. -/
theorem made_remote (addr uid : String) (b : ByteArray) (p : List String) :
    (mkRefStr addr uid p).isLocal = false ∧ (mkRefBytes addr b p).isLocal = false ∧ (mkRefStr addr uid p).proxies = p ∧
    (mkRefBytes addr b p).proxies = p := ⟨rfl, rfl, rfl, rfl⟩

/-- `to_str` gives text for text and for what is UTF-8, None for None, and refuses everything else. -/
theorem toStr_total (t : Text) : toStr t = match t with
    | .str s => .ok (some s)
    | .bytes b => if h : b.IsValidUTF8 then .ok (some (String.ofByteArray b h)) else .error ()
    | .none => .ok Option.none
    | .other => .error () := by
  cases t with
  | bytes b =>
    simp only [toStr]
    by_cases h : b.IsValidUTF8
    · rw [dif_pos h]
      have : String.fromUTF8? b = some (String.ofByteArray b h) := by
        unfold String.fromUTF8?
        rw [dif_pos h]; rfl
      rw [this]
    · rw [dif_neg h]
      have : String.fromUTF8? b = Option.none := by
        unfold String.fromUTF8?
        rw [dif_neg h]
      rw [this]
  | _ => rfl

/-- `to_binary` gives bytes for bytes and for text, None for None, and refuses everything else. -/
theorem toBinary_total (t : Text) : (∃ b, toBinary t = .ok (some b)) ∧ ((∃ b, t = .bytes b) ∨ ∃ s, t = .str s) ∨
    toBinary t = .ok none ∧ t = .none ∨ toBinary t = .error () ∧ t = .other := by
  cases t with
  | str s => exact .inl ⟨⟨_, rfl⟩, .inr ⟨s, rfl⟩⟩
  | bytes b => exact .inl ⟨⟨_, rfl⟩, .inl ⟨b, rfl⟩⟩
  | none => exact .inr (.inl ⟨rfl, rfl⟩)
  | other => exact .inr (.inr ⟨rfl, rfl⟩)

/-- `to_str` inverts `to_binary` on every text, and back on valid UTF-8. -/
theorem toStr_toBinary (s : String) (b : ByteArray) (h : toBinary (.str s) = .ok (some b)) :
    toStr (.bytes b) = .ok (some s) := by
  simp only [toBinary, Except.ok.injEq, Option.some.injEq, String.toUTF8_eq_toByteArray] at h
  subst h
  have : String.fromUTF8? s.toByteArray = some s := by
    unfold String.fromUTF8?
    rw [dif_pos s.isValidUTF8]; rfl
  simp [toStr, this]

theorem toBinary_toStr (b : ByteArray) (s : String) (h : toStr (.bytes b) = .ok (some s)) :
    toBinary (.str s) = .ok (some b) := by
  simp only [toStr] at h
  split at h
  · next s' hs =>
    simp only [Except.ok.injEq, Option.some.injEq] at h
    subst h
    unfold String.fromUTF8? at hs
    split at hs
    · simp only [Option.some.injEq] at hs
      subst hs; simp [toBinary]; rfl
    · cases hs
  · cases h

example : toBinary (.str "ab") = .ok (some "ab".toUTF8) := rfl

/-! ## C19 -/

/-- All delays name one method: accepted; otherwise rejected with ValueError. -/
theorem batch_accepts_iff (m : Nat) (ds : List Delay) :
    (buildBatch m ds).isSome ↔ ∀ d ∈ ds, ∀ d' ∈ ds, d.method = d'.method := by
  have gen : ∀ (ds : List Delay) (last : Option Nat), (checkMethods last ds).isSome ↔
      (∀ m ∈ last, ∀ d ∈ ds, d.method = m) ∧ ∀ d ∈ ds, ∀ d' ∈ ds, d.method = d'.method := by
    intro ds
    induction ds with
    | nil => intro last; simp [checkMethods]
    | cons d ds ih =>
      intro last
      cases last with
      | none => simp only [checkMethods]; rw [ih]; simp; grind
      | some l =>
        simp only [checkMethods]
        split
        · simp; intro h; contradiction
        · rw [ih]; simp; grind
  unfold buildBatch
  have hg := gen ds none
  split
  · next h => rw [h] at hg; simpa using hg
  · next h => rw [h] at hg; simpa using hg

/-- The accepted message names that method (the method of the reference for an empty batch) and
carries every argument list; after the receiver's default for missing keyword lists the calls
are exactly the delayed ones, in order. -/
theorem batch_message (m : Nat) (ds : List Delay) (meth : Nat) (al : List Args)
    (kl : Option (List Kwargs)) (h : buildBatch m ds = some (meth, al, kl)) :
    al = ds.map Delay.args ∧ kl.getD (List.replicate al.length []) = ds.map Delay.kwargs ∧
    (∀ d ∈ ds, d.method = meth) ∧ (ds = [] → meth = m) := by
  have hacc := (batch_accepts_iff m ds).mp (by rw [h]; rfl)
  have hlast : ∀ (ds : List Delay) (last r : Option Nat), checkMethods last ds = some r →
      (ds = [] → r = last) ∧ (∀ d, ds.getLast? = some d → r = some d.method) := by
    intro ds
    induction ds with
    | nil => intro last r h; simp [checkMethods] at h; simp [h]
    | cons d ds ih =>
      intro last r h
      have : checkMethods (some d.method) ds = some r := by
        simp only [checkMethods] at h
        split at h
        · split at h
          · cases h
          · exact h
        · exact h
      obtain ⟨h1, h2⟩ := ih _ _ this
      refine ⟨by simp, ?_⟩
      intro d' hd'
      cases ds with
      | nil => simp at hd'; subst hd'; exact h1 rfl
      | cons x xs => exact h2 d' (by simpa using hd')
  unfold buildBatch at h
  split at h
  · cases h
  · next last hl =>
    simp only [Option.some.injEq, Prod.mk.injEq] at h
    obtain ⟨hm, rfl, rfl⟩ := h
    obtain ⟨h1, h2⟩ := hlast ds none last hl
    refine ⟨rfl, ?_, ?_, ?_⟩
    · split
      · rfl
      · next hk =>
        simp only [List.any_eq_true, not_exists, not_and, Bool.not_eq_true'] at hk
        simp only [Option.getD_none, List.length_map]
        symm
        rw [List.eq_replicate_iff]
        refine ⟨by simp, ?_⟩
        intro b hb
        obtain ⟨d, hd, rfl⟩ := List.mem_map.mp hb
        have := hk d hd
        simpa using this
    · intro d hd
      cases hds : ds.getLast? with
      | none => rw [List.getLast?_eq_none_iff] at hds; subst hds; simp at hd
      | some d' =>
        have := h2 d' hds
        subst this
        rw [← hm]
        exact hacc d hd d' (List.mem_of_getLast? hds)
    · intro e; subst e; rw [h1 rfl] at hm; simpa using hm.symm

example : buildBatch 9 [⟨1, [5], []⟩, ⟨1, [], [(2, 3)]⟩] =
    some (1, [[5], []], some [[], [(2, 3)]]) ∧ buildBatch 9 [⟨1, [5], []⟩, ⟨2, [5], []⟩] = none :=
  ⟨rfl, rfl⟩

/-! ## C18

`oneByOne` is the specification: the results of calling the method separately for every delay. -/

/-- the call returned: a value or None -/
def Returned (r : CallRes) : Prop := (∃ v, r = .value v) ∨ r = .noneValue

theorem isRaise_iff (r : CallRes) : r.isRaise = true ↔ ¬ Returned r := by
  cases r <;> simp [CallRes.isRaise, Returned]

theorem isRaise_false_iff (r : CallRes) : r.isRaise = false ↔ Returned r := by
  cases r <;> simp [CallRes.isRaise, Returned]

/-- a call of a method with a batch implementation only gives the first of the results of that for the one call; its errors are the
caller's -/
theorem single_via_batch (i : Impl) (f : List Args → List Kwargs → Many) (hb : i.batch = some f) (a : Args) (k : Kwargs)
    (hs : i.single a k = .notImplemented) :
    (∀ v vs, f [a] [k] = .list (v :: vs) → call i a k = .value v) ∧ (f [a] [k] = .list [] → call i a k = .indexError) ∧
    (∀ e, f [a] [k] = .err e → call i a k = .err e) := by
  refine ⟨fun v vs h => ?_, fun h => ?_, fun e h => ?_⟩ <;> simp [call, hs, hb, h, firstOf]

/-- a call of a method with a single-call implementation gives what that gives -/
theorem single_direct (i : Impl) (a : Args) (k : Kwargs) : (∀ v, i.single a k = .ok v → call i a k = .value v) ∧
    (∀ e, i.single a k = .err e → call i a k = .err e) ∧
    (i.single a k = .notImplemented → i.batch = none → call i a k = .notImplementedError) := by
  refine ⟨fun v h => ?_, fun e h => ?_, fun h hb => ?_⟩
  · simp [call, h]
  · simp [call, h]
  · simp [call, h, hb]

def oneByOne (i : Impl) (ds : List Delay) : List CallRes := ds.map (fun d => call i d.args d.kwargs)

/-- What the remote side computes for `ref.method.batch(*delays)`. -/
def batchCall (i : Impl) (ff : List CallRes → CallRes) (m : Nat) (ds : List Delay) :
    Option BatchRes :=
  (buildBatch m ds).map (fun (_, al, kl) => onReceiveBatch i ff al kl)

theorem batchCall_eq (i : Impl) (ff) (m : Nat) (ds : List Delay) (r : BatchRes)
    (h : batchCall i ff m ds = some r) :
    r = callWithLists i ff (ds.map Delay.args) (ds.map Delay.kwargs) := by
  unfold batchCall at h
  rw [Option.map_eq_some_iff] at h
  obtain ⟨⟨meth, al, kl⟩, hb, rfl⟩ := h
  obtain ⟨h1, h2, -, -⟩ := batch_message m ds meth al kl hb
  subst h1; simp only [onReceiveBatch, h2]

theorem collectSeq_ok (rs : List CallRes) (h : ∀ r ∈ rs, r.isRaise = false) :
    collectSeq rs = .values rs := by
  induction rs with
  | nil => rfl
  | cons r rs ih =>
    simp only [collectSeq]
    rw [h r List.mem_cons_self, ih (fun r hr => h r (List.mem_cons_of_mem _ hr))]; rfl

theorem collectSeq_fail (rs : List CallRes) (i : Nat) (r : CallRes) (hi : rs[i]? = some r)
    (hr : r.isRaise = true) (hb : ∀ j < i, ∀ r', rs[j]? = some r' → r'.isRaise = false) :
    collectSeq rs = .raised r := by
  induction rs generalizing i with
  | nil => simp at hi
  | cons x xs ih =>
    cases i with
    | zero => simp at hi; subst hi; simp [collectSeq, hr]
    | succ i =>
      have hx := hb 0 (by omega) x (by simp)
      simp only [collectSeq, hx]
      rw [ih i (by simpa using hi) (fun j hj r' h' => hb (j + 1) (by omega) r' (by simpa using h'))]
      rfl

theorem zip_delays (ds : List Delay) (f : Args → Kwargs → CallRes) :
    ((ds.map Delay.args).zip (ds.map Delay.kwargs)).map (fun (a, k) => f a k)
      = ds.map (fun d => f d.args d.kwargs) := by
  induction ds with
  | nil => rfl
  | cons d ds ih => simp [ih]

/-- Method with only a single-call implementation: the batch returns the list of the separate
results, in order, for sync and async methods and any number of calls. -/
theorem batch_single_impl (i : Impl) (ff) (m : Nat) (ds : List Delay) (hb : i.batch = none)
    (hok : ∀ r ∈ oneByOne i ds, Returned r)
    (r : BatchRes) (h : batchCall i ff m ds = some r) : r = .values (oneByOne i ds) := by
  replace hok : ∀ r ∈ oneByOne i ds, r.isRaise = false := fun r hr => (isRaise_false_iff r).mpr (hok r hr)
  have hcall : ∀ d : Delay, call i d.args d.kwargs = singleRes (i.single d.args d.kwargs) := by
    intro d; unfold call; rw [hb]; cases i.single d.args d.kwargs <;> rfl
  have hone : oneByOne i ds = ds.map (fun d => singleRes (i.single d.args d.kwargs)) := by
    simp [oneByOne, hcall]
  rw [batchCall_eq i ff m ds r h]
  unfold callWithLists
  simp only [List.length_map, hb]
  split
  · next h0 => have : ds = [] := by simpa using h0
               subst this; rfl
  · split
    · split
      · next h1 =>
        obtain ⟨d, rfl⟩ := List.length_eq_one_iff.mp h1
        simp only [List.map_cons, List.map_nil]
        rw [collectSeq_ok]
        · rfl
        · intro r hr; exact hok r (by simpa [oneByOne] using hr)
      · rw [zip_delays ds (fun a k => singleRes (i.single a k)), ← hone]
        rw [if_neg]
        simp only [List.any_eq_true, not_exists, not_and]
        intro r hr; simp [hok r hr]
    · rw [zip_delays ds (fun a k => singleRes (i.single a k)), ← hone]
      exact collectSeq_ok _ hok

/-- A synchronous method with only a single-call implementation fails with the failure of the
first failing call. -/
theorem batch_single_impl_fail (i : Impl) (ff) (m : Nat) (ds : List Delay) (hb : i.batch = none)
    (hs : i.isAsync = false) (n : Nat) (x : CallRes) (hx : (oneByOne i ds)[n]? = some x)
    (hr : ¬ Returned x) (hbefore : ∀ j < n, ∀ y, (oneByOne i ds)[j]? = some y → Returned y)
    (r : BatchRes) (h : batchCall i ff m ds = some r) : r = .raised x := by
  replace hr := (isRaise_iff x).mpr hr
  replace hbefore : ∀ j < n, ∀ y, (oneByOne i ds)[j]? = some y → y.isRaise = false := fun j hj y hy => (isRaise_false_iff y).mpr (hbefore j hj y hy)
  have hcall : ∀ d : Delay, call i d.args d.kwargs = singleRes (i.single d.args d.kwargs) := by
    intro d; unfold call; rw [hb]; cases i.single d.args d.kwargs <;> rfl
  have hone : oneByOne i ds = ds.map (fun d => singleRes (i.single d.args d.kwargs)) := by
    simp [oneByOne, hcall]
  rw [batchCall_eq i ff m ds r h]
  unfold callWithLists
  simp only [List.length_map, hb, hs]
  split
  · next h0 => have : ds = [] := by simpa using h0
               subst this; simp [oneByOne] at hx
  · simp only [Bool.false_eq_true, if_false]
    rw [zip_delays ds (fun a k => singleRes (i.single a k)), ← hone]
    exact collectSeq_fail _ n x hx hr hbefore

/-- An asynchronous method with only a single-call implementation fails iff some call fails, and
then with the failure of one of the calls. -/
theorem batch_single_impl_fail_async (i : Impl) (ff) (m : Nat) (ds : List Delay)
    (hb : i.batch = none) (hs : i.isAsync = true) (hff : ∀ l, l ≠ [] → ff l ∈ l)
    (hfail : ∃ x ∈ oneByOne i ds, ¬ Returned x)
    (r : BatchRes) (h : batchCall i ff m ds = some r) :
    ∃ x ∈ oneByOne i ds, ¬ Returned x ∧ r = .raised x := by
  simp only [← isRaise_iff] at hfail ⊢
  have hcall : ∀ d : Delay, call i d.args d.kwargs = singleRes (i.single d.args d.kwargs) := by
    intro d; unfold call; rw [hb]; cases i.single d.args d.kwargs <;> rfl
  have hone : oneByOne i ds = ds.map (fun d => singleRes (i.single d.args d.kwargs)) := by
    simp [oneByOne, hcall]
  rw [batchCall_eq i ff m ds r h]
  unfold callWithLists
  simp only [List.length_map, hb, hs]
  obtain ⟨x, hx, hxr⟩ := hfail
  split
  · next h0 => have : ds = [] := by simpa using h0
               subst this; simp [oneByOne] at hx
  · simp only [if_true]
    split
    · next h1 =>
      obtain ⟨d, rfl⟩ := List.length_eq_one_iff.mp h1
      simp only [oneByOne, List.map_cons, List.map_nil, List.mem_singleton] at hx
      subst hx
      refine ⟨_, by simp [oneByOne], hxr, ?_⟩
      simp [collectSeq, hxr]
    · rw [zip_delays ds (fun a k => singleRes (i.single a k)), ← hone]
      rw [if_pos (List.any_eq_true.mpr ⟨x, hx, hxr⟩)]
      have hne : (oneByOne i ds).filter CallRes.isRaise ≠ [] := by
        intro e
        have : x ∈ (oneByOne i ds).filter CallRes.isRaise := List.mem_filter.mpr ⟨hx, hxr⟩
        rw [e] at this; simp at this
      have := hff _ hne
      obtain ⟨h1, h2⟩ := List.mem_filter.mp this
      exact ⟨_, h1, h2, rfl⟩

/-- Method with a batch implementation `f` that computes `g` elementwise (and, if it has a
single implementation too, that one also computes `g`): the batch agrees with one-by-one calls
and equals the list of `g`'s values. -/
theorem batch_batch_impl (i : Impl) (ff) (m : Nat) (ds : List Delay)
    (f : List Args → List Kwargs → Many) (g : Args → Kwargs → Nat) (hb : i.batch = some f)
    (hf : ∀ ds : List Delay, f (ds.map Delay.args) (ds.map Delay.kwargs)
      = .list (ds.map (fun d => g d.args d.kwargs)))
    (hsingle : ∀ a k, i.single a k = .ok (g a k) ∨ i.single a k = .notImplemented)
    (r : BatchRes) (h : batchCall i ff m ds = some r) :
    r = .values (oneByOne i ds) ∧
      oneByOne i ds = ds.map (fun d => .value (g d.args d.kwargs)) := by
  have hcall : ∀ d : Delay, call i d.args d.kwargs = .value (g d.args d.kwargs) := by
    intro d; unfold call
    rcases hsingle d.args d.kwargs with e | e
    · rw [e]
    · have := hf [d]
      simp only [List.map_cons, List.map_nil] at this
      rw [e, hb]; simp only; rw [this]; rfl
  have hone : oneByOne i ds = ds.map (fun d => .value (g d.args d.kwargs)) := by
    simp [oneByOne, hcall]
  refine ⟨?_, hone⟩
  rw [batchCall_eq i ff m ds r h, hone]
  unfold callWithLists
  simp only [List.length_map, hb, hf, manyRes, List.map_map, Function.comp_def]
  split
  · next h0 => have : ds = [] := by simpa using h0
               subst this; rfl
  · split
    · split
      · next h1 =>
        obtain ⟨d, rfl⟩ := List.length_eq_one_iff.mp h1
        simp only [List.map_cons, List.map_nil, hcall]
        rfl
      · rfl
    · rfl

/-- In general a batch implementation is given the whole list at once (two or more calls); what it returns or raises is the result. -/
theorem batch_whole_list (i : Impl) (ff) (m : Nat) (ds : List Delay)
    (f : List Args → List Kwargs → Many) (hb : i.batch = some f) (h2 : 2 ≤ ds.length)
    (r : BatchRes) (h : batchCall i ff m ds = some r) :
    (∀ vs, f (ds.map Delay.args) (ds.map Delay.kwargs) = .list vs → r = .values (vs.map .value)) ∧
    (f (ds.map Delay.args) (ds.map Delay.kwargs) = .noneValue → r = .noneValue) ∧
    (∀ e, f (ds.map Delay.args) (ds.map Delay.kwargs) = .err e → r = .raised (.err e)) := by
  have : r = manyRes (f (ds.map Delay.args) (ds.map Delay.kwargs)) := by
    rw [batchCall_eq i ff m ds r h]
    unfold callWithLists
    simp only [List.length_map, hb]
    rw [if_neg (by omega)]
    split
    · rw [if_neg (by omega)]
    · rfl
  refine ⟨fun vs hv => ?_, fun hv => ?_, fun e hv => ?_⟩ <;> rw [this, hv] <;> rfl

/-- No delays: empty list, nothing evaluated. -/
theorem batch_empty (i : Impl) (ff) (m : Nat) : batchCall i ff m [] = some (.values []) := rfl

/-- Sync and async methods do not agree in one corner: a batch implementation returning None,
called through the single-call form. -/
theorem single_via_batch_none (f : List Args → List Kwargs → Many) (hf : ∀ a k, f a k = .noneValue)
    (a : Args) (k : Kwargs) :
    call ⟨fun _ _ => .notImplemented, some f, true⟩ a k = .noneValue ∧
    call ⟨fun _ _ => .notImplemented, some f, false⟩ a k = .typeError := by
  simp [call, hf, firstOf]

example : batchCall ⟨fun a _ => .ok a.sum, none, true⟩ (fun l => l.headD .noneValue) 0
    [⟨1, [2, 3], []⟩, ⟨1, [4], [(0, 1)]⟩] = some (.values [.value 5, .value 4]) := by decide

/-! ## C17

Specification: await every awaitable; if all succeed put each result in its own place. -/

def Item.result : Item → Except Nat Nat
  | .val v => .ok v
  | .aw _ (.ok v) => .ok v
  | .aw _ (.exc e) => .error e

/-- All results in place, or the first failure. -/
def awaitAll : List Item → Except Nat (List Nat)
  | [] => .ok []
  | i :: is =>
    match i.result, awaitAll is with
    | .error e, _ => .error e
    | .ok _, .error e => .error e
    | .ok v, .ok vs => .ok (v :: vs)

/-- The tuple a caller is promised. -/
def specTuple (items : List Item) : TupleRes :=
  match awaitAll items with
  | .ok vs => .ok vs
  | .error e => .exc e

/-- The shape in which the code is right for several awaitables: they come first. -/
def AwaitablesFirst (items : List Item) : Prop :=
  ∃ (aws : List Outcome) (vals : List Nat),
    items = aws.map (Item.aw true) ++ vals.map Item.val

theorem coros_append (a b : List Item) : coros (a ++ b) = coros a ++ coros b := by
  induction a with
  | nil => rfl
  | cons x xs ih => cases x <;> simp [coros, ih]

theorem coros_vals (vs : List Nat) : coros (vs.map Item.val) = [] := by
  induction vs with
  | nil => rfl
  | cons x xs ih => simpa [coros] using ih

theorem values_vals (vs : List Nat) : values (vs.map Item.val) = vs := by
  induction vs with
  | nil => rfl
  | cons x xs ih => simpa [values] using ih

theorem awaitAll_vals (vs : List Nat) : awaitAll (vs.map Item.val) = .ok vs := by
  induction vs with
  | nil => rfl
  | cons x xs ih => simp only [List.map_cons, awaitAll, Item.result, ih]

theorem awaitAll_pre (pre : List Nat) (l : List Item) :
    awaitAll (pre.map Item.val ++ l) = match awaitAll l with
      | .ok vs => .ok (pre ++ vs)
      | .error e => .error e := by
  induction pre with
  | nil => simp; cases awaitAll l <;> rfl
  | cons x xs ih =>
    simp only [List.map_cons, List.cons_append, awaitAll, Item.result, ih]
    cases awaitAll l <;> rfl

/-- No awaitable: the tuple is returned as it is. -/
theorem tuple_none (items : List Item) (h : coros items = []) (c : Bool) :
    handleTuple items c = specTuple items := by
  have : ∃ vs : List Nat, items = vs.map Item.val := by
    induction items with
    | nil => exact ⟨[], rfl⟩
    | cons x xs ih =>
      cases x with
      | val v => obtain ⟨vs, rfl⟩ := ih (by simpa [coros] using h); exact ⟨v :: vs, rfl⟩
      | aw b o => simp [coros] at h
  obtain ⟨vs, rfl⟩ := this
  unfold handleTuple specTuple
  rw [coros_vals, awaitAll_vals, values_vals]

/-- Exactly one awaitable, at any position. -/
theorem tuple_one (pre post : List Nat) (b : Bool) (o : Outcome) (c : Bool) :
    handleTuple (pre.map Item.val ++ Item.aw b o :: post.map Item.val) c
      = specTuple (pre.map Item.val ++ Item.aw b o :: post.map Item.val) := by
  have hc : coros (pre.map Item.val ++ Item.aw b o :: post.map Item.val) = [(b, o)] := by
    rw [coros_append, coros_vals]; simp [coros, coros_vals]
  unfold handleTuple specTuple
  rw [hc]
  have hrep : ∀ v, replaceOne v (pre.map Item.val ++ Item.aw b o :: post.map Item.val)
      = pre ++ v :: post := by
    intro v
    induction pre with
    | nil =>
      simp only [List.map_nil, List.nil_append, replaceOne]
      congr 1
      induction post with
      | nil => rfl
      | cons x xs ih => simpa [replaceOne] using ih (by simp [coros, coros_vals])
    | cons x xs ih =>
      simp only [List.map_cons, List.cons_append, replaceOne]
      rw [ih]; simpa [coros] using hc
  cases o with
  | ok v =>
    simp only [hrep]
    rw [awaitAll_pre]
    simp only [awaitAll, Item.result, awaitAll_vals]
  | exc e =>
    simp only
    rw [awaitAll_pre]
    simp only [awaitAll, Item.result]

theorem poses_prefix (aws : List Outcome) (vals : List Nat) (s : Nat) :
    coroPoses s (aws.map (Item.aw true) ++ vals.map Item.val) = List.range' s aws.length := by
  induction aws generalizing s with
  | nil =>
    simp only [List.map_nil, List.nil_append, List.length_nil, List.range'_zero]
    induction vals generalizing s with
    | nil => rfl
    | cons x xs ih => simpa [coroPoses] using ih (s + 1)
  | cons o os ih => simp [coroPoses, ih, List.range'_succ]

theorem coros_prefix (aws : List Outcome) (vals : List Nat) :
    coros (aws.map (Item.aw true) ++ vals.map Item.val) = aws.map (fun o => (true, o)) := by
  rw [coros_append, coros_vals]
  induction aws with
  | nil => rfl
  | cons o os ih => simpa [coros] using ih

theorem values_prefix (aws : List Outcome) (vals : List Nat) :
    values (aws.map (Item.aw true) ++ vals.map Item.val) = List.replicate aws.length 0 ++ vals := by
  induction aws with
  | nil => simpa using values_vals vals
  | cons o os ih => simpa [values, List.replicate_succ] using ih

theorem fill_prefix (done : List Nat) (aws : List Outcome) (vals : List Nat) :
    fillLoop (done.map Outcome.ok ++ aws) (List.range' done.length aws.length)
      (done ++ (List.replicate aws.length 0 ++ vals)) =
    (match awaitAll (aws.map (Item.aw true) ++ vals.map Item.val) with
      | .ok vs => .ok (done ++ vs)
      | .error e => .exc e) := by
  induction aws generalizing done with
  | nil => simp [fillLoop, awaitAll_vals]
  | cons o os ih =>
    simp only [List.length_cons, List.range'_succ, fillLoop]
    have hget : (done.map Outcome.ok ++ o :: os)[done.length]? = some o := by
      rw [List.getElem?_append_right (by simp)]; simp
    rw [hget]
    cases o with
    | exc e => simp [Item.result, awaitAll]
    | ok v =>
      simp only [List.replicate_succ, List.cons_append]
      have hset : (done ++ 0 :: (List.replicate os.length 0 ++ vals)).set done.length v =
          (done ++ [v]) ++ (List.replicate os.length 0 ++ vals) := by
        rw [List.set_append_right (h := by simp)]; simp
      rw [hset]
      have := ih (done ++ [v])
      simp only [List.map_append, List.map_cons, List.map_nil, List.append_assoc, List.cons_append,
        List.nil_append, List.length_append, List.length_cons, List.length_nil] at this
      simp only [List.append_assoc, List.cons_append, List.nil_append]
      rw [this]
      simp only [List.map_cons, List.cons_append, awaitAll, Item.result]
      cases awaitAll (os.map (Item.aw true) ++ vals.map Item.val) <;> rfl

/-- Several awaitables, all coroutines and all in front of the plain values: each gets its own
result, or the first failing one's error is raised. -/
theorem tuple_prefix_partial (items : List Item) (h : AwaitablesFirst items) :
    handleTuple items false = specTuple items := by
  obtain ⟨aws, vals, rfl⟩ := h
  match aws with
  | [] => simpa using tuple_none (vals.map Item.val) (coros_vals vals) false
  | [o] => simpa using tuple_one [] vals true o false
  | o :: o' :: os =>
    have hc := coros_prefix (o :: o' :: os) vals
    have hp := poses_prefix (o :: o' :: os) vals 0
    have hv := values_prefix (o :: o' :: os) vals
    have hfill := fill_prefix [] (o :: o' :: os) vals
    simp only [List.length_nil, List.nil_append, List.map_nil] at hfill
    unfold handleTuple specTuple
    rw [hp, hv, hc]
    have h1 : (List.map (fun o => (true, o)) (o :: o' :: os)).map Prod.snd = o :: o' :: os := by
      simp [Function.comp_def]
    have h2 : ¬ ((List.map (fun o => (true, o)) (o :: o' :: os)).any fun c => !c.1) = true := by simp
    have h3 : ∀ x y z : TupleRes, (match List.map (fun o => (true, o)) (o :: o' :: os) with
        | [] => x
        | [(_, _)] => y
        | _ => z) = z := by intros; rfl
    show (if ((List.map (fun o => (true, o)) (o :: o' :: os)).any fun c => !c.1) = true then _ else _) = _
    rw [if_neg h2, h1, hfill]
    cases awaitAll (List.map (Item.aw true) (o :: o' :: os) ++ vals.map Item.val) <;> rfl

/-- A cancelled call with several awaitables never returns a value: it ends with CancelledError where it would have returned, and with the
same error where it would have failed. -/
theorem tuple_cancelled (items : List Item) (h2 : 2 ≤ (coros items).length) :
    (∀ vs, handleTuple items true ≠ .ok vs) ∧ (∀ vs, handleTuple items false = .ok vs → handleTuple items true = .cancelled) ∧
    ((∀ vs, handleTuple items false ≠ .ok vs) → handleTuple items true = handleTuple items false) := by
  unfold handleTuple
  match hcs : coros items, h2 with
  | a :: b :: rest, _ =>
    simp only [if_true, Bool.false_eq_true, if_false]
    by_cases hany : (List.any (a :: b :: rest) fun c => !c.1) = true
    · simp [hany]
    · simp only [if_neg hany]
      cases fillLoop (List.map Prod.snd (a :: b :: rest)) (coroPoses 0 items) (values items) <;> simp

example : handleTuple [.aw true (.ok 4), .aw true (.ok 5), .val 6] true = .cancelled := by decide

/-- The property in full is false: with a plain value in front of two awaitables the call fails
although both awaitables succeed. -/
theorem tuple_order_refuted :
    ¬ ∀ items : List Item, handleTuple items false = specTuple items := by
  intro h
  have := h [.val 7, .aw true (.ok 1), .aw true (.ok 2)]
  revert this; decide

/-- ... and likewise when one of several awaitables is a Future rather than a coroutine. -/
theorem tuple_future_refuted :
    handleTuple [.aw true (.ok 1), .aw false (.ok 2)] false = .typeError ∧
    specTuple [.aw true (.ok 1), .aw false (.ok 2)] = .ok [1, 2] := by decide

/-- The defect never delivers a wrong tuple silently: with two or more awaitables, if any plain
value precedes an awaitable, the call does not return a tuple at all. -/
theorem tuple_not_silently_wrong (items : List Item) (vs : List Nat)
    (h2 : 2 ≤ (coros items).length) (h : handleTuple items false = .ok vs) :
    AwaitablesFirst items := by
  -- success needs every position to be a valid task index
  have hfill : ∀ (poses vals vs : List Nat) (tasks : List Outcome),
      fillLoop tasks poses vals = .ok vs → ∀ p ∈ poses, p < tasks.length := by
    intro poses
    induction poses with
    | nil => simp
    | cons p ps ih =>
      intro vals vs tasks hf q hq
      simp only [fillLoop] at hf
      split at hf
      · cases hf
      · cases hf
      · next v hv =>
        rcases List.mem_cons.mp hq with rfl | hq
        · exact (List.getElem?_eq_some_iff.mp hv).1
        · exact ih _ _ _ hf q hq
  have hcond : (∀ c ∈ coros items, c.1 = true) ∧
      ∀ p ∈ coroPoses 0 items, p < (coros items).length := by
    unfold handleTuple at h
    match hcs : coros items, h2 with
    | a :: b :: rest, _ =>
      rw [hcs] at h
      simp only at h
      split at h
      · cases h
      · next hany =>
        refine ⟨?_, ?_⟩
        · intro c hc
          simp only [List.any_eq_true, not_exists, not_and, Bool.not_eq_true'] at hany
          have := hany c hc
          simpa using this
        · split at h
          · next vs' hf =>
            have := hfill _ _ _ _ hf
            simpa using this
          · next hf => exact absurd h (hf vs)
  obtain ⟨hcoro, hpos⟩ := hcond
  -- walk to the first plain value
  have walk : ∀ (items : List Item) (s k : Nat), (∀ c ∈ coros items, c.1 = true) →
      (∀ p ∈ coroPoses s items, p < k) → s + (coros items).length = k →
      ∃ (aws : List Outcome) (vals : List Nat), items = aws.map (Item.aw true) ++ vals.map Item.val := by
    intro items
    induction items with
    | nil => intros; exact ⟨[], [], rfl⟩
    | cons x xs ih =>
      intro s k hc hp hk
      cases x with
      | aw b o =>
        have hb : b = true := hc (b, o) (by simp [coros])
        subst hb
        obtain ⟨aws, vals, rfl⟩ := ih (s + 1) k (fun c hc' => hc c (by simp [coros, hc']))
          (fun p hp' => hp p (by simp [coroPoses, hp'])) (by simp [coros] at hk; omega)
        exact ⟨o :: aws, vals, rfl⟩
      | val v =>
        -- no awaitable can follow
        have hnil : coros xs = [] := by
          have count : ∀ (ys : List Item) (t : Nat), coros ys ≠ [] →
              ∃ p ∈ coroPoses t ys, t + (coros ys).length ≤ p + 1 := by
            intro ys
            induction ys with
            | nil => intro t h; simp [coros] at h
            | cons y ys ih =>
              intro t h
              cases y with
              | val w =>
                obtain ⟨p, hp1, hp2⟩ := ih (t + 1) (by simpa [coros] using h)
                exact ⟨p, by simpa [coroPoses] using hp1, by simp [coros]; omega⟩
              | aw b o =>
                by_cases hys : coros ys = []
                · exact ⟨t, by simp [coroPoses], by simp [coros, hys]⟩
                · obtain ⟨p, hp1, hp2⟩ := ih (t + 1) hys
                  exact ⟨p, by simp [coroPoses, hp1], by simp [coros]; omega⟩
          by_cases hne : coros xs = []
          · exact hne
          · obtain ⟨p, hp1, hp2⟩ := count xs (s + 1) hne
            have := hp p (by simpa [coroPoses] using hp1)
            simp [coros] at hk; omega
        have hall : ∀ ys : List Item, coros ys = [] → ∃ vals : List Nat, ys = vals.map Item.val := by
          intro ys
          induction ys with
          | nil => intro; exact ⟨[], rfl⟩
          | cons y ys ih =>
            intro h
            cases y with
            | val w => obtain ⟨vals, rfl⟩ := ih (by simpa [coros] using h); exact ⟨w :: vals, rfl⟩
            | aw b o => simp [coros] at h
        obtain ⟨vals, rfl⟩ := hall xs hnil
        exact ⟨[], v :: vals, rfl⟩
  exact walk items 0 _ hcoro hpos (by omega)

example : AwaitablesFirst [.aw true (.ok 4), .aw true (.ok 5), .val 6] ∧
    handleTuple [.aw true (.ok 4), .aw true (.ok 5), .val 6] false = .ok [4, 5, 6] :=
  ⟨⟨[.ok 4, .ok 5], [6], rfl⟩, by decide⟩

/-! ## C41 -/

/-- An ordinary error, after any number of hops: same class, original text preceded once by the
address and pid of the process that raised it. -/
theorem error_identity (c : Nat) (t : String) (a : String) (p : Nat) (rest : List (String × Nat)) :
    (hops (.plain c t) ((a, p) :: rest)).cls = some c ∧
    (hops (.plain c t) ((a, p) :: rest)).str = "[address=" ++ a ++ ", pid=" ++ toString p ++ "]" ++ " " ++ t := by
  have : ∀ rest : List (String × Nat), hops (.wrapped a p c t) rest = .wrapped a p c t := by
    intro rest
    induction rest with
    | nil => rfl
    | cons x xs ih => simpa [hops, asInstanceofCause] using ih
  have : hops (.plain c t) ((a, p) :: rest) = .wrapped a p c t := this rest
  rw [this]; exact ⟨rfl, rfl⟩

/-- Within its own process an error is what it was: same class, same text. -/
theorem error_at_home (c : Nat) (t : String) : (hops (.plain c t) []).cls = some c ∧ (hops (.plain c t) []).str = t := ⟨rfl, rfl⟩

/-- A cancellation stays a cancellation, tagged with exactly one process (the last hop). -/
theorem cancel_identity (t : String) (rest : List (String × Nat)) (a : String) (p : Nat) :
    hops (.cancelled t) (rest ++ [(a, p)]) = .cancelled ("[address=" ++ a ++ ", pid=" ++ toString p ++ "]") := by
  have : ∀ rest : List (String × Nat), ∃ t', hops (.cancelled t) rest = .cancelled t' := by
    intro rest
    induction rest using List.reverseRecOn' with
    | nil => exact ⟨t, rfl⟩
    | append_singleton l x ih =>
      obtain ⟨t', h⟩ := ih
      exact ⟨tag x.1 x.2, by
        simp only [hops, List.foldl_append, List.foldl_cons, List.foldl_nil] at *
        rw [h]; rfl⟩
  obtain ⟨t', h⟩ := this rest
  simp only [hops, List.foldl_append, List.foldl_cons, List.foldl_nil] at *
  rw [h]; rfl

/-- ... but, unlike other errors, its own text is lost already on the first hop. -/
theorem cancel_text_refuted :
    ¬ ∀ (t : String) (a : String) (p : Nat), (hops (.cancelled t) [(a, p)]).str = "[address=" ++ a ++ ", pid=" ++ toString p ++ "]" ++ " " ++ t := by
  intro h
  have := h "x" "" 0
  revert this; decide

example : (hops (.plain 3 "boom") [("h:1", 7), ("h:2", 8)]).str = "[address=h:1, pid=7] boom" := by
  decide

end Xoscar.Calls
