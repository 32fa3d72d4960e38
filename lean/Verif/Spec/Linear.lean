import Verif.Model.Linear
/-!
# What C83 says: linearizability

An actor with its lock is like an object whose methods are called one after the other.
-/
namespace Xoscar.Linear
variable {S A L I R : Type}

/-- a suspended coroutine, given `is` by its awaits one after the other, with nobody else touching the state, ends -/
inductive Ends (code : Code S A L I R) : L → S → List I → S → R → Prop
  | last {l i s s' r} : code.resume l i s = (s', .inr r) → Ends code l s [i] s' r
  | more {l i s s1 l1 is s' r} : code.resume l i s = (s1, .inl l1) → Ends code l1 s1 is s' r → Ends code l s (i :: is) s' r

/-- the method called with `a`, alone on the state `s`, leaves `s'` and ends with `r` -/
inductive Exec (code : Code S A L I R) : A → S → List I → S → R → Prop
  | plain {a s s' r} : code.start a s = (s', .inr r) → Exec code a s [] s' r
  | async {a s s1 l is s' r} : code.start a s = (s1, .inl l) → Ends code l s1 is s' r → Exec code a s is s' r

/-- … or it is under way: at an await, at `l` -/
inductive Under (code : Code S A L I R) : A → S → S → L → Prop
  | start {a s s1 l} : code.start a s = (s1, .inl l) → Under code a s s1 l
  | more {a s s1 l i s2 l2} : Under code a s s1 l → code.resume l i s1 = (s2, .inl l2) → Under code a s s2 l2

/-- one call in a history without concurrency -/
structure Done (A R : Type) where
  id : Nat
  arg : A
  res : R

/-- the calls of `h`, one after the other, each alone: from `s` to `s'` -/
inductive Serial (code : Code S A L I R) : S → List (Done A R) → S → Prop
  | nil {s} : Serial code s [] s
  | snoc {s h s1 d is s'} : Serial code s h s1 → Exec code d.arg s1 is s' d.res → Serial code s (h ++ [d]) s'

/-- in the history `ls`, call `c` returned before call `d` was made -/
def ReturnedBefore (ls : List (Label A I)) (c d : Nat) : Prop :=
  ∃ x y z a lk, ls = x ++ [.ret c] ++ y ++ [.call d a lk] ++ z

/-- `h` explains the history `ls` that led to `st`: the calls of `h` are calls that were made, each at most once, with the arguments they
were made with; made one after the other they lead to the state the actor has — or would have, were not one more call under way, alone;
a call whose method ended with `r` is among them and ends with `r` there, and so is one that returned `r`; one whose method was not
called is not; and a call that returned before another was made is not behind it -/
structure Explains (code : Code S A L I R) (s : S) (ls : List (Label A I)) (st : St S A L R) (h : List (Done A R)) : Prop where
  serial : ∃ s', Serial code s h s' ∧
    (st.actor = s' ∧ (∀ c k, st.calls.get? c = some k → k.phase ≠ .running) ∨
      ∃ c k l, st.calls.get? c = some k ∧ k.phase = .running ∧ Under code k.arg s' st.actor l ∧ (∀ d ∈ h, d.id ≠ c) ∧
        ∀ c' k', st.calls.get? c' = some k' → k'.phase = .running → c' = c)
  once : (h.map (·.id)).Nodup
  made : ∀ d ∈ h, ∃ lk, .call d.id d.arg lk ∈ ls
  ran : ∀ c k r, st.calls.get? c = some k → k.phase = .replied (some r) → ∃ d ∈ h, d.id = c ∧ d.res = r
  notRun : ∀ c k, st.calls.get? c = some k → (k.phase = .sent ∨ k.phase = .arrived ∨ k.phase = .replied none) → ∀ d ∈ h, d.id ≠ c
  got : ∀ c k r, st.calls.get? c = some k → k.seen = .got r → ∃ d ∈ h, d.id = c ∧ d.res = r
  order : ∀ x d y, h = x ++ d :: y → ∀ d' ∈ y, ¬ ReturnedBefore ls d'.id d.id

/-- every method called takes the lock -/
def AllLocked (ls : List (Label A I)) : Prop := ∀ c a lk, Label.call c a lk ∈ ls → lk = true

end Xoscar.Linear
