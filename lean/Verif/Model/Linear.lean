import Verif.Model.Base
/-!
# Calls of one actor, from caller to caller

`python/xoscar/backends/context.py` 114-125, 232-264, `python/xoscar/backends/core.py` 90-170, `python/xoscar/backends/pool.py` 386-445,
573-598, 617-666, 685-733, `python/xoscar/core.pyx` 284-294, 510-560.

The user's code is a parameter: what a method does to the actor between two awaits.  Serialization and the connection are C82's, the
order in which tasks get the lock is C15's (here: any order), the matching of replies is C20's; what these leave open is allowed here:
messages may be lost at any time, tasks cancelled at any time, callers may give up at any time.
-/
namespace Xoscar.Linear

/-- The methods of an actor: coroutines that work on the actor's state (`S`).  `A`: method and arguments; `L`: where a coroutine is
suspended; `I`: what an await gives it (a value, or an exception thrown into it); `R`: how it ends (a value, or an exception). -/
structure Code (S A L I R : Type) where
  /-- from the call to the first await or the end -/
  start : A → S → S × (L ⊕ R)
  /-- from an await to the next or the end -/
  resume : L → I → S → S × (L ⊕ R)
  /-- the await is cancelled -/
  cancelled : I

/-- what is known of a call at the pool -/
inductive Phase (R : Type) where
  /-- the message is under way -/
  | sent
  /-- the pool has a task for it, which waits for the lock (or to be run at all) -/
  | arrived
  /-- its method has begun and not ended -/
  | running
  /-- the reply is under way: `some r` if the method ended with `r`, `none` if it was not called (no such actor, cancelled before) -/
  | replied (r : Option R)
  /-- message or reply were lost -/
  | lost
  deriving DecidableEq

/-- what the caller knows -/
inductive Seen (R : Type) where
  | waiting
  /-- the call returned (or raised) what the method did -/
  | got (r : R)
  /-- the call raised an error of its own: no such actor, cancelled, connection lost -/
  | failed
  deriving DecidableEq

structure Call (A R : Type) where
  arg : A
  /-- the method takes the actor's lock -/
  locked : Bool
  phase : Phase R
  seen : Seen R

structure St (S A L R : Type) where
  actor : S
  /-- `_lock`: the call that holds it -/
  holder : Option Nat
  /-- coroutines suspended at an await -/
  coros : Dict Nat L
  calls : Dict Nat (Call A R)

def init {S A L R : Type} (s : S) : St S A L R := ⟨s, none, [], []⟩

inductive Label (A I : Type) where
  /-- a caller makes a call (its message id is new) -/
  | call (c : Nat) (a : A) (locked : Bool)
  /-- the pool receives it and makes a task -/
  | arrive (c : Nat)
  /-- the task gets the lock (if the method takes it) and calls the method -/
  | start (c : Nat)
  /-- what the method awaits is there -/
  | resume (c : Nat) (i : I)
  /-- the task is cancelled -/
  | cancel (c : Nat)
  /-- the pool has no such actor -/
  | refuse (c : Nat)
  /-- message or reply are lost -/
  | lose (c : Nat)
  /-- the reply reaches the caller -/
  | ret (c : Nat)
  /-- the caller stops waiting: cancelled, or the connection is gone -/
  | giveUp (c : Nat)
  deriving DecidableEq

variable {S A L I R : Type}

/-- the phase of call `c` is set -/
def St.phase (st : St S A L R) (c : Nat) (k : Call A R) (p : Phase R) : St S A L R :=
  { st with calls := st.calls.set c { k with phase := p } }

/-- the method of call `c` went on and is at an await or its end: then the lock is released and the reply sent
(core.pyx:526-532, 560, pool.py:693-707, 429-445) -/
def St.went (st : St S A L R) (c : Nat) (k : Call A R) : S × (L ⊕ R) → St S A L R
  | (s, .inl l) => { st with actor := s, coros := st.coros.set c l, calls := st.calls.set c { k with phase := .running } }
  | (s, .inr r) => { st with actor := s, coros := st.coros.erase c, holder := if st.holder = some c then none else st.holder,
                             calls := st.calls.set c { k with phase := .replied (some r) } }

def step (code : Code S A L I R) (st : St S A L R) : Label A I → Option (St S A L R)
  | .call c a lk =>                                                        -- context.py:239-259, core.py:150-155
    if st.calls.has c then none else some { st with calls := st.calls.set c ⟨a, lk, .sent, .waiting⟩ }
  | .arrive c => match st.calls.get? c with                                -- pool.py:573-590
    | some k => if k.phase matches .sent then some (st.phase c k .arrived) else none
    | none => none
  | .start c => match st.calls.get? c with                                 -- core.pyx:519-532
    | some k =>
      if k.phase matches .arrived then
        if k.locked then
          if st.holder = none then some ({ st with holder := some c }.went c k (code.start k.arg st.actor)) else none
        else some (st.went c k (code.start k.arg st.actor))
      else none
    | none => none
  | .resume c i => match st.calls.get? c, st.coros.get? c with
    | some k, some l => if k.phase matches .running then some (st.went c k (code.resume l i st.actor)) else none
    | _, _ => none
  | .cancel c => match st.calls.get? c, st.coros.get? c with               -- pool.py:722-733, 386-391
    | some k, none => if k.phase matches .arrived then some (st.phase c k (.replied none)) else none
    | some k, some l => if k.phase matches .running then some (st.went c k (code.resume l code.cancelled st.actor)) else none
    | none, _ => none
  | .refuse c => match st.calls.get? c with                                -- pool.py:690-692
    | some k => if k.phase matches .arrived then some (st.phase c k (.replied none)) else none
    | none => none
  | .lose c => match st.calls.get? c with
    | some k => if k.phase matches .sent | .replied _ then some (st.phase c k .lost) else none
    | none => none
  | .ret c => match st.calls.get? c with                                   -- core.py:105-111, context.py:107-112
    | some k => match k.phase, k.seen with
      | .replied (some r), .waiting => some { st with calls := st.calls.set c { k with seen := .got r } }
      | .replied none, .waiting => some { st with calls := st.calls.set c { k with seen := .failed } }
      | _, _ => none
    | none => none
  | .giveUp c => match st.calls.get? c with                                -- context.py:114-125, core.py:116-138, 156-162
    | some k => if k.seen matches .waiting then some { st with calls := st.calls.set c { k with seen := .failed } } else none
    | none => none

/-- a history of an actor created with state `s` -/
inductive Run (code : Code S A L I R) (s : S) : List (Label A I) → St S A L R → Prop
  | init : Run code s [] (init s)
  | snoc {ls l st st'} : Run code s ls st → step code st l = some st' → Run code s (ls ++ [l]) st'

end Xoscar.Linear
