import Verif.Spec.Dispatch
import Verif.Proof.Base
/-!
# C37 (type dispatch) and C38 (serializer registry)
-/
namespace Xoscar.Dispatch

/-! ## Specification

The registrations in force are a plain finite map from keys to handlers; the right handler is
the one of the first class of the MRO that has one. -/

def specReg : List Op → Key → Option Nat
  | [], _ => none
  | op :: earlier, k =>            -- newest first
    match op with
    | .register k' h => if k' = k then some h else specReg earlier k
    | .unregister k' => if k' = k then none else specReg earlier k
    | .get _ => specReg earlier k

/-- First class of the MRO with a registration. -/
def specHandler (reg : Key → Option Nat) : List Key → Option Nat
  | [] => none
  | k :: ks => (reg k).or (specHandler reg ks)

/-- No registration follows a lookup, unless an unregistration lies between (newest first):
`quiet` is the state "a lookup happened since the last unregister". -/
def RegistrationsFirst : List Op → Prop
  | [] => True
  | .register _ _ :: earlier => NoLookup earlier ∧ RegistrationsFirst earlier
  | _ :: earlier => RegistrationsFirst earlier
where
  /-- no lookup since the last unregister -/
  NoLookup : List Op → Prop
    | [] => True
    | .get _ :: _ => False
    | .unregister _ :: _ => True
    | .register _ _ :: earlier => NoLookup earlier

/-! ## Proofs -/

theorem firstHandler_eq (hs : Dict Key Nat) (reg : Key → Option Nat)
    (h : ∀ k, hs.get? k = reg k) (ks : List Key) : firstHandler hs ks = specHandler reg ks := by
  induction ks with
  | nil => rfl
  | cons k ks ih => simp only [firstHandler, specHandler, h, ih]; cases reg k <;> rfl

structure Inv (mro : Nat → List Nat) (d : Disp) (hist : List Op) : Prop where
  lazyNil : d.lazyH = []
  reg : ∀ k, d.handlers.get? k = specReg hist k
  cache : ∀ k h, d.inherit.get? k = some h → specHandler (specReg hist) (chain mro k) = some h
  quiet : RegistrationsFirst.NoLookup hist → d.inherit = []

theorem step_inv (mro) (d : Disp) (hist : List Op) (op : Op) (hi : Inv mro d hist)
    (hq : RegistrationsFirst (op :: hist)) : Inv mro (step mro d op) (op :: hist) := by
  obtain ⟨hl, hr, hc, hn⟩ := hi
  cases op with
  | register k h =>
    have hnl : d.inherit = [] := hn hq.1
    refine ⟨hl, ?_, ?_, ?_⟩
    · intro k'; simp only [step, Disp.register, Dict.get?_set, specReg, hr]
    · intro k' h' hk'; simp [step, Disp.register, hnl] at hk'
    · intro _; exact hnl
  | unregister k =>
    refine ⟨hl, ?_, ?_, ?_⟩
    · intro k'; simp only [step, Disp.unregister, Dict.get?_erase, specReg, hr]
    · intro k' h' hk'; simp [step, Disp.unregister] at hk'
    · intro _; rfl
  | get k =>
    have hspec : specReg (.get k :: hist) = specReg hist := by funext k'; rfl
    simp only [step]
    unfold Disp.get
    split
    · exact ⟨hl, by simpa [hspec] using hr, by simpa [hspec] using hc, fun h => h.elim⟩
    · split
      · exact ⟨hl, by simpa [hspec] using hr, by simpa [hspec] using hc, fun h => h.elim⟩
      · simp only [Disp.reload, hl, List.foldl_nil]
        split
        · next h hf =>
          refine ⟨rfl, by simpa [hspec] using hr, ?_, fun h => h.elim⟩
          intro k' h' hk'
          simp only [Dict.get?_set] at hk'
          rw [hspec]
          split at hk'
          · next e =>
            subst e; cases hk'
            rw [← firstHandler_eq _ _ hr]; exact hf
          · exact hc k' h' hk'
        · exact ⟨rfl, by simpa [hspec] using hr, by simpa [hspec] using hc, fun h => h.elim⟩

theorem run_inv (mro) (ops : List Op) (hq : RegistrationsFirst ops.reverse) :
    Inv mro (run mro .empty ops) ops.reverse := by
  induction ops using List.reverseRecOn' with
  | nil => exact ⟨rfl, fun _ => rfl, by intro k h hk; simp [run, Disp.empty] at hk, fun _ => rfl⟩
  | append_singleton l op ih =>
    rw [List.reverse_append] at *
    simp only [List.reverse_cons, List.reverse_nil, List.nil_append, List.cons_append] at *
    have hq' : RegistrationsFirst l.reverse := by
      cases op with
      | register => exact hq.2
      | unregister => exact hq
      | get => exact hq
    have := step_inv mro _ _ op (ih hq') hq
    simpa [run] using this

/-- C37 for all histories in which registrations precede lookups (lookups, unregistrations and
re-registrations after an unregistration in any order): the handler returned is the one
registered for the first class of the MRO, and KeyError iff there is none.  The MRO starts with
the class itself. -/
theorem dispatch_most_specific_partial (mro : Nat → List Nat) (ops : List Op) (k : Key)
    (hmro : ∀ t, ∃ rest, mro t = t :: rest) (hq : RegistrationsFirst ops.reverse) :
    ((run mro .empty ops).get mro id k).2 = specHandler (specReg ops.reverse) (chain mro k) := by
  obtain ⟨hl, hr, hc, -⟩ := run_inv mro ops hq
  have hhead : ∃ rest, chain mro k = k :: rest := by
    cases k with
    | cls t => obtain ⟨r, hr⟩ := hmro t; exact ⟨r.map .cls, by simp [chain, hr]⟩
    | named n t => obtain ⟨r, hr⟩ := hmro t; exact ⟨_, by simp [chain, hr]; rfl⟩
  unfold Disp.get
  split
  · next h hh =>
    obtain ⟨rest, hrest⟩ := hhead
    rw [hrest]; simp only [specHandler]; rw [← hr k, hh]; rfl
  · split
    · next h hh => exact (hc k h hh).symm
    · simp only [Disp.reload, hl, List.foldl_nil]
      rw [← firstHandler_eq _ _ hr]
      split
      · next h hf => exact hf.symm
      · next hf => exact hf.symm

/-- The first class in the list that has a handler, under the name or plainly, the name coming first for each class. -/
def firstNamed (reg : Key → Option Nat) (n : Nat) : List Nat → Option Nat
  | [] => none
  | c :: cs => match reg (.named n c), reg (.cls c) with
    | some h, _ => some h
    | none, some h => some h
    | none, none => firstNamed reg n cs

/-- The first class in the list that has a handler. -/
def firstClass (reg : Key → Option Nat) : List Nat → Option Nat
  | [] => none
  | c :: cs => match reg (.cls c) with
    | some h => some h
    | none => firstClass reg cs

/-- C37, the same said outright for plain and for named types: the first class of the MRO with a handler decides; for a named type a class's
handler under the name comes before its plain one, and both before those of the classes above it. -/
theorem dispatch_plain_named_partial (mro : Nat → List Nat) (ops : List Op) (n t : Nat)
    (hmro : ∀ t, ∃ rest, mro t = t :: rest) (hq : RegistrationsFirst ops.reverse) :
    ((run mro .empty ops).get mro id (.cls t)).2 = firstClass (specReg ops.reverse) (mro t) ∧
    ((run mro .empty ops).get mro id (.named n t)).2 = firstNamed (specReg ops.reverse) n (mro t) := by
  rw [dispatch_most_specific_partial mro ops _ hmro hq, dispatch_most_specific_partial mro ops _ hmro hq]
  generalize specReg ops.reverse = reg
  simp only [chain]
  generalize mro t = l
  constructor
  · induction l with
    | nil => rfl
    | cons c cs ih => simp only [List.map_cons, specHandler, firstClass, ih]; cases reg (.cls c) <;> rfl
  · induction l with
    | nil => rfl
    | cons c cs ih =>
      simp only [List.flatMap_cons, List.cons_append, List.nil_append, specHandler, firstNamed, ih]
      cases reg (.named n c) <;> cases reg (.cls c) <;> rfl

/-- a named registration of a base class comes before a plain one of a class above it, and after a plain one of the class itself -/
example : firstNamed (specReg [.register (.named 7 1) 71, .register (.cls 0) 100]) 7 [2, 1, 0] = some 71 ∧
    firstNamed (specReg [.register (.named 7 1) 71, .register (.cls 2) 102]) 7 [2, 1, 0] = some 102 := by decide

/-- Whatever the history, an explicit registration of the very class always wins. -/
theorem dispatch_exact (mro : Nat → List Nat) (ops : List Op) (k : Key) (h : Nat)
    (hreg : specReg ops.reverse k = some h) :
    ((run mro .empty ops).get mro id k).2 = some h := by
  have : ∀ ops : List Op, (run mro .empty ops).lazyH = [] ∧
      ∀ k, (run mro .empty ops).handlers.get? k = specReg ops.reverse k := by
    intro ops
    induction ops using List.reverseRecOn' with
    | nil => exact ⟨rfl, fun _ => rfl⟩
    | append_singleton l op ih =>
      obtain ⟨hl, hr⟩ := ih
      have e : run mro .empty (l ++ [op]) = step mro (run mro .empty l) op := by simp [run]
      rw [e, List.reverse_append]
      simp only [List.reverse_cons, List.reverse_nil, List.nil_append, List.cons_append]
      cases op with
      | register k h => exact ⟨hl, fun k' => by simp only [step, Disp.register, Dict.get?_set, specReg, hr]⟩
      | unregister k => exact ⟨hl, fun k' => by simp only [step, Disp.unregister, Dict.get?_erase, specReg, hr]⟩
      | get k =>
        simp only [step, specReg]
        unfold Disp.get
        split
        · exact ⟨hl, hr⟩
        · split
          · exact ⟨hl, hr⟩
          · simp only [Disp.reload, hl, List.foldl_nil]
            split <;> exact ⟨rfl, hr⟩
  have := (this ops).2 k
  unfold Disp.get
  rw [this, hreg]

theorem reg_of_run (mro : Nat → List Nat) (ops : List Op) : (run mro .empty ops).lazyH = [] ∧
    ∀ k, (run mro .empty ops).handlers.get? k = specReg ops.reverse k := by
  induction ops using List.reverseRecOn' with
  | nil => exact ⟨rfl, fun _ => rfl⟩
  | append_singleton l op ih =>
    obtain ⟨hl, hr⟩ := ih
    have e : run mro .empty (l ++ [op]) = step mro (run mro .empty l) op := by simp [run]
    rw [e, List.reverse_append]
    simp only [List.reverse_cons, List.reverse_nil, List.nil_append, List.cons_append]
    cases op with
    | register k h => exact ⟨hl, fun k' => by simp only [step, Disp.register, Dict.get?_set, specReg, hr]⟩
    | unregister k => exact ⟨hl, fun k' => by simp only [step, Disp.unregister, Dict.get?_erase, specReg, hr]⟩
    | get k =>
      simp only [step, specReg]
      unfold Disp.get
      split
      · exact ⟨hl, hr⟩
      · split
        · exact ⟨hl, hr⟩
        · simp only [Disp.reload, hl, List.foldl_nil]
          split <;> exact ⟨rfl, hr⟩

/-- what is remembered was right when it was looked up, and no class was un-registered since -/
theorem remembered (mro : Nat → List Nat) (ops : List Op) (k : Key) (h : Nat) (hk : (run mro .empty ops).inherit.get? k = some h) :
    ∃ a b, ops = a ++ .get k :: b ∧ (∀ k', .unregister k' ∉ b) ∧ specHandler (specReg a.reverse) (chain mro k) = some h := by
  induction ops using List.reverseRecOn' with
  | nil => simp [run, Disp.empty] at hk
  | append_singleton l op ih =>
    obtain ⟨hl, hr⟩ := reg_of_run mro l
    have e : run mro .empty (l ++ [op]) = step mro (run mro .empty l) op := by simp [run]
    have old : (run mro .empty l).inherit.get? k = some h → (∀ k', op ≠ .unregister k') →
        ∃ a b, l ++ [op] = a ++ .get k :: b ∧ (∀ k', .unregister k' ∉ b) ∧ specHandler (specReg a.reverse) (chain mro k) = some h := by
      intro h1 h2
      obtain ⟨a, b, e1, e2, e3⟩ := ih h1
      refine ⟨a, b ++ [op], by rw [e1]; simp, ?_, e3⟩
      intro k'
      simp only [List.mem_append, List.mem_singleton, not_or]
      exact ⟨e2 k', fun x => h2 k' x.symm⟩
    rw [e] at hk
    cases op with
    | register k1 h1 => exact old hk (by simp)
    | unregister k1 => simp [step, Disp.unregister] at hk
    | get k1 =>
      simp only [step] at hk
      unfold Disp.get at hk
      split at hk
      · exact old hk (by simp)
      · split at hk
        · exact old hk (by simp)
        · simp only [Disp.reload, hl, List.foldl_nil] at hk
          split at hk
          · next h1 hf =>
            simp only [Dict.get?_set] at hk
            split at hk
            · next ek =>
              subst ek
              injection hk with hk
              subst hk
              exact ⟨l, [], rfl, by simp, by rw [← firstHandler_eq _ _ hr]; exact hf⟩
            · exact old hk (by simp)
          · exact old hk (by simp)

theorem specReg_append_same (b a : List Op) (k : Key) (h1 : ∀ k', .unregister k' ∉ b) (h2 : ∀ h, .register k h ∉ b) :
    specReg (b ++ a) k = specReg a k := by
  induction b with
  | nil => rfl
  | cons op b ih =>
    have := ih (fun k' hm => h1 k' (List.mem_cons_of_mem _ hm)) (fun h hm => h2 h (List.mem_cons_of_mem _ hm))
    cases op with
    | register k1 h =>
      have : k1 ≠ k := by rintro rfl; exact h2 h (by simp)
      simp [specReg, this, *]
    | unregister k1 => exact absurd (List.mem_cons_self) (h1 k1)
    | get k1 => simpa [specReg] using this

theorem specReg_some (b a : List Op) (k : Key) (h1 : ∀ k', .unregister k' ∉ b) {h : Nat} (h2 : .register k h ∈ b) :
    specReg (b ++ a) k ≠ none := by
  induction b with
  | nil => cases h2
  | cons op b ih =>
    have hu : ∀ k', .unregister k' ∉ b := fun k' hm => h1 k' (List.mem_cons_of_mem _ hm)
    cases op with
    | register k1 h' =>
      by_cases e : k1 = k
      · simp [specReg, e]
      · have : .register k h ∈ b := by
          rcases List.mem_cons.mp h2 with x | x
          · injection x with x _; exact absurd x.symm e
          · exact x
        simpa [specReg, e] using ih hu this
    | unregister k1 => exact absurd (List.mem_cons_self) (h1 k1)
    | get k1 =>
      have : .register k h ∈ b := by
        rcases List.mem_cons.mp h2 with x | x
        · cases x
        · exact x
      simpa [specReg] using ih hu this

theorem specHandler_same (r1 r2 : Key → Option Nat) (ks : List Key) (h : ∀ k ∈ ks, r1 k = r2 k) : specHandler r1 ks = specHandler r2 ks := by
  induction ks with
  | nil => rfl
  | cons k ks ih => simp only [specHandler]; rw [h k (by simp), ih (fun k' hk => h k' (by simp [hk]))]

/-- **C37** (whatever the history): if the handler is not the one registered for the first class of the MRO, then this type was looked up
before, no class was un-registered since, and a handler for one of its base classes was registered since; the handler is the one that was
right at that lookup. -/
theorem dispatch_wrong_only_partial (mro : Nat → List Nat) (ops : List Op) (k : Key) (hmro : ∀ t, ∃ rest, mro t = t :: rest)
    (hw : ((run mro .empty ops).get mro id k).2 ≠ specHandler (specReg ops.reverse) (chain mro k)) :
    ∃ a b, ops = a ++ .get k :: b ∧ (∀ k', .unregister k' ∉ b) ∧ (∃ k' h, k' ∈ chain mro k ∧ k' ≠ k ∧ .register k' h ∈ b) ∧
      ((run mro .empty ops).get mro id k).2 = specHandler (specReg a.reverse) (chain mro k) := by
  obtain ⟨hl, hr⟩ := reg_of_run mro ops
  have hhead : ∃ rest, chain mro k = k :: rest := by
    cases k with
    | cls t => obtain ⟨r, hr⟩ := hmro t; exact ⟨r.map .cls, by simp [chain, hr]⟩
    | named n t => obtain ⟨r, hr⟩ := hmro t; exact ⟨_, by simp [chain, hr]; rfl⟩
  cases hx : (run mro .empty ops).handlers.get? k with
  | some h =>
    exfalso
    apply hw
    obtain ⟨rest, hrest⟩ := hhead
    unfold Disp.get
    rw [hx, hrest]
    simp only [specHandler]
    rw [← hr k, hx]; rfl
  | none =>
    cases hy : (run mro .empty ops).inherit.get? k with
    | none =>
      exfalso
      apply hw
      unfold Disp.get
      rw [hx, hy]
      simp only [Disp.reload, hl, List.foldl_nil]
      rw [← firstHandler_eq _ _ hr]
      split
      · next h hf => exact hf.symm
      · next hf => exact hf.symm
    | some h =>
      have hg : ((run mro .empty ops).get mro id k).2 = some h := by unfold Disp.get; rw [hx, hy]
      obtain ⟨a, b, e1, e2, e3⟩ := remembered mro ops k h hy
      refine ⟨a, b, e1, e2, ?_, by rw [hg, e3]⟩
      apply Classical.byContradiction
      intro hno
      apply hw
      rw [hg, ← e3]
      apply specHandler_same
      intro k' hk'
      have hu : ∀ k', .unregister k' ∉ b.reverse ++ [Op.get k] := by
        intro k'; simp only [List.mem_append, List.mem_reverse, List.mem_singleton, not_or]; exact ⟨e2 k', by simp⟩
      have hrev : ops.reverse = (b.reverse ++ [.get k]) ++ a.reverse := by rw [e1]; simp
      have hnr : ∀ h', .register k' h' ∉ b.reverse ++ [Op.get k] := by
        intro h' hm
        simp only [List.mem_append, List.mem_reverse, List.mem_singleton, reduceCtorEq, or_false] at hm
        by_cases ek : k' = k
        · subst ek
          have := specReg_some (b.reverse ++ [.get k']) a.reverse k' hu (h := h') (by simp [hm])
          rw [← hrev, ← hr, hx] at this
          exact this rfl
        · exact hno ⟨k', h', hk', ek, hm⟩
      rw [hrev, specReg_append_same _ _ _ hu hnr]

/-- … and this does happen: in `dispatch_stale_refuted`'s history, class 2 was looked up before its base class 1 got a handler -/
example : ((run (fun t => if t = 2 then [2, 1, 0] else [t]) .empty [.register (.cls 0) 100, .get (.cls 2), .register (.cls 1) 101]).get
      (fun t => if t = 2 then [2, 1, 0] else [t]) id (.cls 2)).2 = some 100 ∧
    specHandler (specReg [.register (.cls 1) 101, .get (.cls 2), .register (.cls 0) 100]) (chain (fun t => if t = 2 then [2, 1, 0] else [t]) (.cls 2)) = some 101 := by
  decide

/-- C37 in full is false: a handler registered for a base class after a lookup is ignored, the
stale cached handler of a more general class is used (classes: 2 < 1 < 0). -/
theorem dispatch_stale_refuted :
    ¬ ∀ (mro : Nat → List Nat) (ops : List Op) (k : Key),
      (∀ t, ∃ rest, mro t = t :: rest) →
      ((run mro .empty ops).get mro id k).2 = specHandler (specReg ops.reverse) (chain mro k) := by
  intro h
  have := h (fun t => match t with | 2 => [2, 1, 0] | 1 => [1, 0] | t => [t])
    [.register (.cls 0) 100, .get (.cls 2), .register (.cls 1) 101] (.cls 2)
    (by intro t; split <;> exact ⟨_, rfl⟩)
  revert this; decide

/-- the handler a pending dotted-name registration gives to a class: the latest one whose name denotes it -/
def pendingFor (imp : Nat → Nat) (pending : List (Nat × Nat)) (k : Key) : Option Nat :=
  (pending.reverse.find? (fun e => decide (k = .cls (imp e.1)))).map Prod.snd

theorem reload_get (imp : Nat → Nat) (l : List (Nat × Nat)) (hs : Dict Key Nat) (k : Key) :
    Dict.get? (l.foldl (fun hs nh => Dict.set hs (.cls (imp nh.1)) nh.2) hs) k = (pendingFor imp l k).or (hs.get? k) := by
  induction l using List.reverseRecOn' with
  | nil => simp [pendingFor]
  | append_singleton l e ih =>
    simp only [List.foldl_append, List.foldl_cons, List.foldl_nil, Dict.get?_set, pendingFor, List.reverse_append, List.reverse_cons,
      List.reverse_nil, List.nil_append, List.cons_append, List.find?_cons]
    by_cases hk : k = .cls (imp e.1)
    · simp [hk]
    · have hk' : ¬ Key.cls (imp e.1) = k := fun h => hk h.symm
      rw [if_neg hk', ih]; simp [hk, pendingFor]

theorem specHandler_congr {f g : Key → Option Nat} (h : ∀ k, f k = g k) (l : List Key) : specHandler f l = specHandler g l := by
  induction l with
  | nil => rfl
  | cons k ks ih => simp only [specHandler, h, ih]

/-- A handler registered under a dotted name is found for objects of the class that name denotes, as long as nothing else is
registered or cached for that class. -/
theorem registerLazy_used (mro : Nat → List Nat) (imp : Nat → Nat) (d : Disp) (name h : Nat)
    (hmro : ∃ rest, mro (imp name) = imp name :: rest)
    (hd : ∀ n' h', d.lazyH.get? n' = some h' → imp n' = imp name → n' = name) (hw : Dict.WF d.lazyH)
    (h1 : d.handlers.get? (.cls (imp name)) = none) (h2 : d.inherit.get? (.cls (imp name)) = none) :
    ((d.registerLazy name h).get mro imp (.cls (imp name))).2 = some h := by
  obtain ⟨rest, hm⟩ := hmro
  have key : Dict.get? (((d.registerLazy name h).reload imp).handlers) (.cls (imp name)) = some h := by
    simp only [Disp.reload, Disp.registerLazy]
    have gen : ∀ (l : List (Nat × Nat)) (hs : Dict Key Nat), (∀ e ∈ l, imp e.1 = imp name → e = (name, h)) →
        ((name, h) ∈ l ∨ Dict.get? hs (.cls (imp name)) = some h) →
        Dict.get? (l.foldl (fun hs nh => Dict.set hs (.cls (imp nh.1)) nh.2) hs) (.cls (imp name)) = some h := by
      intro l
      induction l with
      | nil => intro hs _ h; simpa using h
      | cons e l ih =>
        intro hs hl hor
        simp only [List.foldl_cons]
        refine ih _ (fun e' he' => hl e' (List.mem_cons_of_mem _ he')) ?_
        by_cases he : imp e.1 = imp name
        · right
          have := hl e (List.mem_cons_self) he
          subst this
          simp
        · rcases hor with hor | hor
          · rcases List.mem_cons.mp hor with rfl | hor
            · exact absurd rfl he
            · exact .inl hor
          · right
            rw [Dict.get?_set, if_neg (by simpa using he)]; exact hor
    refine gen _ _ ?_ (.inl ?_)
    · intro e he hi
      have hg := Dict.get?_of_mem (hw.set name h) (show (e.1, e.2) ∈ _ from he)
      rw [Dict.get?_set] at hg
      split at hg
      · next hn => simp at hg; rw [hn, hg]
      · next hn => exact absurd (hd _ _ hg hi).symm hn
    · exact Dict.mem_of_get? (by simp)
  unfold Disp.get
  rw [show (d.registerLazy name h).handlers = d.handlers from rfl, show (d.registerLazy name h).inherit = d.inherit from rfl, h1]
  simp only
  rw [h2]
  simp only [chain, hm, List.map_cons, firstHandler, key]

/-- Pending dotted-name registrations are seen by every lookup that is not answered from an exact or cached entry: the
answer is the handler of the first class in the order of resolution that has one, pending registrations (the latest one
for the class) coming before earlier registrations of the class itself. -/
theorem dispatch_lazy (mro : Nat → List Nat) (imp : Nat → Nat) (d : Disp) (k : Key)
    (h1 : d.handlers.get? k = none) (h2 : d.inherit.get? k = none) :
    (d.get mro imp k).2 = specHandler (fun k' => (pendingFor imp d.lazyH k').or (d.handlers.get? k')) (chain mro k) := by
  have hr := firstHandler_eq (d.reload imp).handlers _ (fun k' => reload_get imp d.lazyH d.handlers k') (chain mro k)
  rw [← hr]
  unfold Disp.get; rw [h1]; simp only; rw [h2]; simp only
  split <;> simp_all

/-- … and they are then ordinary registrations, loaded once: un-registering a class afterwards leaves it with what the
other classes have, the dotted name does not bring its handler back. -/
theorem dispatch_lazy_once (mro : Nat → List Nat) (imp : Nat → Nat) (d : Disp) (k k2 k3 : Key)
    (hhead : ∃ rest, chain mro k3 = k3 :: rest)
    (h1 : d.handlers.get? k = none) (h2 : d.inherit.get? k = none) :
    (((d.get mro imp k).1.unregister k2).get mro imp k3).2 =
      specHandler (fun k' => if k' = k2 then none else (pendingFor imp d.lazyH k').or (d.handlers.get? k')) (chain mro k3) := by
  have hg : ∃ inh, (d.get mro imp k).1 = ⟨(d.reload imp).handlers, [], inh⟩ := by
    unfold Disp.get; rw [h1]; simp only; rw [h2]; simp only
    split <;> exact ⟨_, rfl⟩
  obtain ⟨inh, hg⟩ := hg
  rw [hg]
  have hr : ∀ k', ((d.reload imp).handlers.erase k2).get? k' =
      if k' = k2 then none else (pendingFor imp d.lazyH k').or (d.handlers.get? k') := by
    intro k'
    rw [Dict.get?_erase]
    by_cases hk : k' = k2
    · simp [hk]
    · have hk' : ¬ k2 = k' := fun e => hk e.symm
      simp only [hk, hk', if_false]
      exact reload_get imp d.lazyH d.handlers k'
  rw [← firstHandler_eq ((d.reload imp).handlers.erase k2) _ hr]
  simp only [Disp.unregister, Disp.get]
  obtain ⟨rest, hrest⟩ := hhead
  rcases hh : Dict.get? ((d.reload imp).handlers.erase k2) k3 with _ | h
  · simp only [Dict.get?, Disp.reload, List.foldl_nil]
    simp only [Disp.reload] at hh
    split <;> simp_all
  · simp only [hrest, firstHandler, hh]

/-- class 7 is registered by name only; a subclass 8 of it finds it, and after un-registering finds the base handler -/
example : ((⟨[(.cls 0, 1)], [(70, 2)], []⟩ : Disp).get (fun t => if t = 8 then [8, 7, 0] else [t, 0]) (fun n => n / 10) (.cls 8)).2 = some 2 ∧
    ((((⟨[(.cls 0, 1)], [(70, 2)], []⟩ : Disp).get (fun t => if t = 8 then [8, 7, 0] else [t, 0]) (fun n => n / 10) (.cls 8)).1.unregister (.cls 7)).get
      (fun t => if t = 8 then [8, 7, 0] else [t, 0]) (fun n => n / 10) (.cls 8)).2 = some 1 := by decide

example : RegistrationsFirst [Op.get (.cls 2), .get (.cls 1), .register (.cls 0) 5,
    .unregister (.cls 0), .get (.cls 2), .register (.cls 0) 4] ∧
    ((run (fun t => [t, 0]) .empty [.register (.cls 0) 4, .get (.cls 2), .unregister (.cls 0),
      .register (.cls 0) 5]).get (fun t => [t, 0]) id (.cls 2)).2 = some 5 := by
  refine ⟨?_, by decide⟩
  simp [RegistrationsFirst, RegistrationsFirst.NoLookup]

/-! ## C38 -/

/-- Values of type `k` can make the round trip: the dispatcher finds a serializer and the
decoder table maps its id back to it. -/
def Decodable (mro : Nat → List Nat) (sid : Nat → Nat) (r : Registry) (k : Key) : Prop :=
  ∃ c, (r.disp.get mro id k).2 = some c ∧ r.deser.get? (sid c) = some c

theorem snoc_split {α : Type} {ops a b : List α} {op x : α} : ops ++ [op] = a ++ x :: b ↔
    (b = [] ∧ a = ops ∧ x = op) ∨ ∃ b', b = b' ++ [op] ∧ ops = a ++ x :: b' := by
  constructor
  · intro h
    induction b using List.reverseRecOn' with
    | nil =>
      left
      have := List.append_inj' h (by simp)
      exact ⟨rfl, this.1.symm, by simpa using this.2.symm⟩
    | append_singleton b' y _ =>
      right
      have h' : ops ++ [op] = (a ++ x :: b') ++ [y] := by simpa using h
      have := List.append_inj' h' (by simp)
      have e : op = y := by simpa using this.2
      exact ⟨b', by rw [e], this.1⟩
  · rintro (⟨rfl, rfl, rfl⟩ | ⟨b', rfl, rfl⟩)
    · rfl
    · simp

theorem rrun_snoc (mro sid) (ops : List ROp) (op : ROp) : rrun mro sid (ops ++ [op]) = rstep mro sid (rrun mro sid ops) op := by
  simp [rrun, List.foldl_append]

theorem rrun_lazy (mro sid) (ops : List ROp) : (rrun mro sid ops).disp.lazyH = [] := by
  induction ops using List.reverseRecOn' with
  | nil => rfl
  | append_singleton ops op ih =>
    rw [rrun_snoc]
    cases op with
    | register c k => simp only [rstep, Registry.register]; split <;> simpa [Disp.register] using ih
    | unregister c k => simpa [rstep, Registry.unregister, Disp.unregister] using ih
    | find k => simp only [rstep, Disp.get]; repeat' split
                all_goals first | exact ih | rfl

/-- looking a handler up changes no registration -/
theorem get_handlers (mro) (d : Disp) (k : Key) (h : d.lazyH = []) : (d.get mro id k).1.handlers = d.handlers := by
  simp only [Disp.get, Disp.reload, h, List.foldl_nil]
  repeat' split
  all_goals rfl

theorem Using_snoc (ops : List ROp) (op : ROp) (k : Key) (c : Nat) : Using (ops ++ [op]) k c ↔
    op = .register c k ∨ ((∀ c', op ≠ .register c' k) ∧ (∀ c', op ≠ .unregister c' k) ∧ Using ops k c) := by
  unfold Using
  simp only [snoc_split]
  constructor
  · rintro ⟨a, b, ⟨rfl, rfl, rfl⟩ | ⟨b', rfl, e⟩, h1, h2⟩
    · left; rfl
    · right
      simp only [List.mem_append, List.mem_singleton, not_or] at h1 h2
      exact ⟨fun c' e => (h1 c').2 e.symm, fun c' e => (h2 c').2 e.symm, a, b', e, fun c' => (h1 c').1, fun c' => (h2 c').1⟩
  · rintro (rfl | ⟨h1, h2, a, b, e, h3, h4⟩)
    · exact ⟨ops, [], Or.inl ⟨rfl, rfl, rfl⟩, by simp, by simp⟩
    · refine ⟨a, b ++ [op], Or.inr ⟨b, rfl, e⟩, ?_, ?_⟩
      · intro c'; simp only [List.mem_append, List.mem_singleton, not_or]; exact ⟨h3 c', fun e => h1 c' e.symm⟩
      · intro c'; simp only [List.mem_append, List.mem_singleton, not_or]; exact ⟨h4 c', fun e => h2 c' e.symm⟩

theorem handlers_iff (mro sid) (ops : List ROp) (k : Key) (c : Nat) :
    (rrun mro sid ops).disp.handlers.get? k = some c ↔ Using ops k c := by
  induction ops using List.reverseRecOn' with
  | nil => simp [rrun, Disp.empty, Using]
  | append_singleton ops op ih =>
    rw [rrun_snoc, Using_snoc, ← ih]
    cases op with
    | register c1 k1 =>
      have e : (rstep mro sid (rrun mro sid ops) (.register c1 k1)).disp.handlers = (rrun mro sid ops).disp.handlers.set k1 c1 := by
        simp only [rstep, Registry.register]; split <;> rfl
      rw [e, Dict.get?_set]
      by_cases hk : k1 = k
      · subst hk; simp
      · simp [hk]
    | unregister c1 k1 =>
      simp only [rstep, Registry.unregister, Disp.unregister, Dict.get?_erase]
      by_cases hk : k1 = k
      · subst hk; simp
      · simp [hk]
    | find k1 =>
      simp only [rstep]
      rw [get_handlers _ _ _ (rrun_lazy mro sid ops)]
      simp

theorem GivenBack_snoc (sid : Nat → Nat) (i : Nat) (ops : List ROp) (op : ROp) :
    GivenBack sid i (ops ++ [op]) ↔ GivenBack sid i ops ∨ ∃ c k, op = .unregister c k ∧ sid c = i := by
  unfold GivenBack
  simp only [List.mem_append, List.mem_singleton]
  constructor
  · rintro ⟨c, k, h | h, e⟩
    · exact Or.inl ⟨c, k, h, e⟩
    · exact Or.inr ⟨c, k, h.symm, e⟩
  · rintro (⟨c, k, h, e⟩ | ⟨c, k, h, e⟩)
    · exact ⟨c, k, Or.inl h, e⟩
    · exact ⟨c, k, Or.inr h.symm, e⟩

theorem Free_snoc (sid : Nat → Nat) (ops : List ROp) (op : ROp) (i : Nat) : Free sid (ops ++ [op]) i ↔
    (∃ c k, op = .unregister c k ∧ sid c = i) ∨ ((∀ c k, op = .register c k → sid c ≠ i) ∧ Free sid ops i) := by
  constructor
  · intro h
    by_cases hu : ∃ c k, op = .unregister c k ∧ sid c = i
    · exact Or.inl hu
    · right
      constructor
      · intro c k e hs
        obtain ⟨_, _, hm, _⟩ := h ops c k [] (by rw [e]) hs
        cases hm
      · intro a c k b e hs
        have := h a c k (b ++ [op]) (by rw [e]; simp) hs
        rw [GivenBack_snoc] at this
        exact this.resolve_right hu
  · rintro h a c k b e hs
    rcases snoc_split.1 e with ⟨rfl, rfl, e1⟩ | ⟨b', rfl, e1⟩
    · rcases h with ⟨c', k', e', _⟩ | ⟨h, _⟩
      · rw [e'] at e1; cases e1
      · exact absurd hs (h c k e1.symm)
    · rw [GivenBack_snoc]
      rcases h with h | ⟨_, h⟩
      · exact Or.inr h
      · exact Or.inl (h a c k b' e1 hs)

theorem Owns_snoc (sid : Nat → Nat) (ops : List ROp) (op : ROp) (i c : Nat) : Owns sid (ops ++ [op]) i c ↔
    ((∃ k, op = .register c k) ∧ sid c = i ∧ Free sid ops i) ∨ ((¬ ∃ c k, op = .unregister c k ∧ sid c = i) ∧ Owns sid ops i c) := by
  unfold Owns
  simp only [snoc_split]
  constructor
  · rintro ⟨a, k, b, ⟨rfl, rfl, rfl⟩ | ⟨b', rfl, e⟩, h1, h2, h3⟩
    · exact Or.inl ⟨⟨k, rfl⟩, h1, h2⟩
    · rw [GivenBack_snoc, not_or] at h3
      exact Or.inr ⟨h3.2, a, k, b', e, h1, h2, h3.1⟩
  · rintro (⟨⟨k, rfl⟩, h1, h2⟩ | ⟨h0, a, k, b, e, h1, h2, h3⟩)
    · exact ⟨ops, k, [], Or.inl ⟨rfl, rfl, rfl⟩, h1, h2, by rintro ⟨_, _, h, _⟩; cases h⟩
    · exact ⟨a, k, b ++ [op], Or.inr ⟨b, rfl, e⟩, h1, h2, by rw [GivenBack_snoc, not_or]; exact ⟨h3, h0⟩⟩

theorem deser_iff (mro sid) (ops : List ROp) (i : Nat) :
    ((rrun mro sid ops).deser.get? i = none ↔ Free sid ops i) ∧
    ∀ c, (rrun mro sid ops).deser.get? i = some c ↔ Owns sid ops i c := by
  induction ops using List.reverseRecOn' with
  | nil => simp [rrun, Free, Owns]
  | append_singleton ops op ih =>
    obtain ⟨ih1, ih2⟩ := ih
    rw [rrun_snoc, Free_snoc]
    simp only [Owns_snoc, ← ih1, ← ih2]
    cases op with
    | find k => simp [rstep]
    | unregister c1 k1 =>
      simp only [rstep, Registry.unregister, Dict.get?_erase]
      by_cases hi : sid c1 = i
      · simp [hi]
      · simp [hi]
    | register c1 k1 =>
      simp only [rstep]
      by_cases hi : sid c1 = i
      · subst hi
        unfold Registry.register
        cases hg : (rrun mro sid ops).deser.get? (sid c1) with
        | some c2 =>
          simp [hg]
        | none =>
          simp only [Dict.get?_set]
          simp
      · have : (Registry.register sid (rrun mro sid ops) c1 k1).1.deser.get? i = (rrun mro sid ops).deser.get? i := by
          unfold Registry.register
          cases (rrun mro sid ops).deser.get? (sid c1) with
          | some _ => rfl
          | none => simp [Dict.get?_set, hi]
        rw [this]
        simp [hi]

/-- **C38** for every history of registrations, un-registrations and uses: values of a type with a serializer of its own make the
round trip exactly if this serializer has its id: it was the first one with this id since the id was last given back. -/
theorem roundtrip_iff (mro sid) (ops : List ROp) (k : Key) (c : Nat) (hu : Using ops k c) :
    Decodable mro sid (rrun mro sid ops) k ↔ Owns sid ops (sid c) c := by
  have hh := (handlers_iff mro sid ops k c).2 hu
  have hg : ((rrun mro sid ops).disp.get mro id k).2 = some c := by unfold Disp.get; rw [hh]
  rw [← (deser_iff mro sid ops (sid c)).2]
  constructor
  · rintro ⟨c', h1, h2⟩
    rw [hg] at h1; injection h1 with h1; subst h1; exact h2
  · intro h; exact ⟨c, hg, h⟩

/-- … so if no two serializers have the same id: exactly if no type was un-registered from this serializer since it was last
registered for any type. -/
theorem roundtrip_distinct (mro) (sid : Nat → Nat) (hinj : ∀ c c', sid c = sid c' → c = c') (ops : List ROp) (k : Key) (c : Nat) (hu : Using ops k c) :
    Decodable mro sid (rrun mro sid ops) k ↔ ∃ a k' b, ops = a ++ .register c k' :: b ∧ ∀ k2, .unregister c k2 ∉ b := by
  rw [roundtrip_iff mro sid ops k c hu]
  have hgb : ∀ l, GivenBack sid (sid c) l ↔ ∃ k2, .unregister c k2 ∈ l := by
    intro l
    constructor
    · rintro ⟨c', k2, h, e⟩; rw [hinj _ _ e] at h; exact ⟨k2, h⟩
    · rintro ⟨k2, h⟩; exact ⟨c, k2, h, rfl⟩
  constructor
  · rintro ⟨a, k', b, e, _, _, h⟩
    exact ⟨a, k', b, e, fun k2 hm => h ((hgb b).2 ⟨k2, hm⟩)⟩
  · rintro ⟨a, k', b, e, hb⟩
    rw [← (deser_iff mro sid ops (sid c)).2]
    have hn : ¬ Free sid ops (sid c) := fun hf => by
      obtain ⟨k2, h⟩ := (hgb b).1 (hf a c k' b e rfl)
      exact hb k2 h
    cases hg : (rrun mro sid ops).deser.get? (sid c) with
    | none => exact absurd ((deser_iff mro sid ops _).1.1 hg) hn
    | some c' =>
      obtain ⟨_, _, _, _, e', _, _⟩ := ((deser_iff mro sid ops _).2 c').1 hg
      rw [hinj _ _ e']

/-- the hypotheses are met: serializer 2 for two types, un-registered from one, used for the other, then registered for a third one: the
values of the second type make the round trip again -/
example : Using [.register 2 (.cls 10), .register 2 (.cls 11), .unregister 2 (.cls 10), .find (.cls 11), .register 2 (.cls 12)] (.cls 11) 2 ∧
    Decodable (fun t => [t]) id (rrun (fun t => [t]) id [.register 2 (.cls 10), .register 2 (.cls 11), .unregister 2 (.cls 10), .find (.cls 11), .register 2 (.cls 12)]) (.cls 11) :=
  ⟨⟨[.register 2 (.cls 10)], _, rfl, by simp, by simp⟩, 2, by decide, by decide⟩

/-- Registering raises exactly if another serializer has the id. -/
theorem register_ok_iff (mro sid) (ops : List ROp) (c : Nat) (k : Key) :
    ((rrun mro sid ops).register sid c k).2 = true ↔ Free sid ops (sid c) ∨ Owns sid ops (sid c) c := by
  rw [← (deser_iff mro sid ops (sid c)).1, ← (deser_iff mro sid ops (sid c)).2]
  unfold Registry.register
  cases (rrun mro sid ops).deser.get? (sid c) <;> simp

/-- Registering makes the type decodable, if it does not raise. -/
theorem register_decodable (mro) (sid) (r : Registry) (c : Nat) (k : Key)
    (h : (r.register sid c k).2 = true) : Decodable mro sid (r.register sid c k).1 k := by
  have hget : ∀ d : Disp, ((d.register k c).get mro id k).2 = some c := by
    intro d; unfold Disp.get; simp [Disp.register]
  unfold Registry.register at h ⊢
  cases hd : r.deser.get? (sid c) with
  | some c' =>
    rw [hd] at h
    have e : c' = c := by simpa using h
    subst e
    exact ⟨c', hget _, hd⟩
  | none => exact ⟨c, hget _, by simp⟩

/-- Refuted: a registration that raises (another serializer has the id) has nevertheless replaced the serializer of the type, whose
values made the round trip before and do not any more: the one writes what the other reads. -/
theorem failed_register_refuted : ∃ (r : Registry) (sid : Nat → Nat), r = rrun (fun t => [t]) sid [.register 2 (.cls 10)] ∧
    Decodable (fun t => [t]) sid r (.cls 10) ∧ (r.register sid 3 (.cls 10)).2 = false ∧
    ¬ Decodable (fun t => [t]) sid (r.register sid 3 (.cls 10)).1 (.cls 10) := by
  refine ⟨_, fun _ => 0, rfl, ⟨2, by decide, by decide⟩, by decide, ?_⟩
  rintro ⟨c, h1, h2⟩
  have e : (((rrun (fun t => [t]) (fun _ => 0) [.register 2 (.cls 10)]).register (fun _ => 0) 3 (.cls 10)).1.disp.get (fun t => [t]) id (.cls 10)).2 = some 3 := by decide
  rw [e] at h1
  injection h1 with h1
  subst h1
  revert h2; decide

/-- Unregistering the serializer `c` of type `k` leaves every other type with an exact
registration decodable, provided its serializer class has a different id. -/
theorem unregister_keeps_others_partial (mro) (sid) (r : Registry) (c : Nat) (k k' : Key) (c' : Nat)
    (hk : k' ≠ k) (hreg : r.disp.handlers.get? k' = some c') (hd : r.deser.get? (sid c') = some c')
    (hsid : sid c' ≠ sid c) : Decodable mro sid (r.unregister sid c k) k' := by
  have hk' : ¬ k = k' := fun e => hk e.symm
  have hs' : ¬ sid c = sid c' := fun e => hsid e.symm
  refine ⟨c', ?_, ?_⟩
  · unfold Disp.get
    simp [Registry.unregister, Disp.unregister, hk', hreg]
  · simp [Registry.unregister, hd, hs']

/-- C38 in full is false: one serializer class registered for two types (as BytesSerializer is
for `bytes` and `memoryview`); unregistering one makes the other undecodable. -/
theorem unregister_shared_refuted :
    ∃ (r₁ r₂ : Registry) (sid : Nat → Nat), (⟨.empty, []⟩ : Registry).register sid 2 (.cls 10) = (r₁, true) ∧
      r₁.register sid 2 (.cls 11) = (r₂, true) ∧ Decodable (fun t => [t]) sid r₂ (.cls 10) ∧
      ¬ Decodable (fun t => [t]) sid (r₂.unregister sid 2 (.cls 11)) (.cls 10) := by
  refine ⟨_, _, id, rfl, rfl, ⟨2, by decide, by decide⟩, ?_⟩
  rintro ⟨c, h1, h2⟩
  have : c = 2 := by
    have e : ((Registry.unregister id ⟨((Disp.empty.register (.cls 10) 2).register (.cls 11) 2),
      [(2, 2)]⟩ 2 (.cls 11)).disp.get (fun t => [t]) id (.cls 10)).2 = some 2 := by decide
    have := h1.symm.trans e
    simpa using this
  subst this
  revert h2; decide

example : Decodable (fun t => [t]) id
    (Registry.unregister id ⟨((Disp.empty.register (.cls 10) 2).register (.cls 11) 3),
      [(2, 2), (3, 3)]⟩ 2 (.cls 10)) (.cls 11) := ⟨3, by decide, by decide⟩

end Xoscar.Dispatch
