import Verif.Model.Lazy
/-!
# C93: what a user expects of handlers registered under dotted names

A name denotes a class; registering under the name is registering for the class.
-/
namespace Xoscar.Lazy
open Dispatch

/-- a registration, by class or by name -/
inductive Reg where
  | byKey (k : Key) (h : Nat)
  | byName (n h : Nat)
deriving DecidableEq

/-- the key a registration is about, `den` being the class a name denotes -/
def Reg.key (den : Nat → Nat) : Reg → Key
  | .byKey k _ => k
  | .byName n _ => .cls (den n)

def Reg.handler : Reg → Nat
  | .byKey _ h => h
  | .byName _ h => h

def Reg.op : Reg → Op
  | .byKey k h => .register k h
  | .byName n h => .registerName n h

/-- `h` is the handler of the last registration for `k` -/
def InForce (den : Nat → Nat) (regs : List Reg) (k : Key) (h : Nat) : Prop :=
  ∃ before r after, regs = before ++ r :: after ∧ r.key den = k ∧ r.handler = h ∧ ∀ r' ∈ after, r'.key den ≠ k

/-- the keys that count for an object, most specific first: its classes, each under the name first if a name is given -/
def resolution (name : Option Nat) : List Nat → List Key
  | [] => []
  | c :: cs => (match name with | some n => [.named n c, .cls c] | none => [.cls c]) ++ resolution name cs

/-- the keys that count for a key looked up -/
def candidates (mro : Nat → List Nat) : Key → List Key
  | .cls t => resolution none (mro t)
  | .named n t => resolution (some n) (mro t)

/-- The right answer of a lookup: the handler in force for the first key of the resolution order that has one. -/
def Right (den : Nat → Nat) (mro : Nat → List Nat) (regs : List Reg) (k : Key) (h : Nat) : Prop :=
  ∃ before k' after, candidates mro k = before ++ k' :: after ∧ InForce den regs k' h ∧ ∀ k'' ∈ before, ∀ h', ¬ InForce den regs k'' h'

/-- no class is registered both by a name and in another way (by itself or by another name) -/
def Apart (den : Nat → Nat) (regs : List Reg) : Prop :=
  ∀ n h, .byName n h ∈ regs → ∀ r ∈ regs, r.key den = .cls (den n) → ∃ h', r = .byName n h'

/-- every name can be resolved, and importing has no effects on the dispatcher -/
def Fine (den : Nat → Nat) (w : World) : Prop := ∀ n, w n = ⟨.ok (den n), []⟩

/-- the name waits to be resolved -/
def Pending (st : St) (n : Nat) : Prop := st.d.lazyH.get? n ≠ none

/-- resolving the name fails -/
def Broken (w : World) (n : Nat) : Prop := ∃ e, (w n).cls = .error e

end Xoscar.Lazy
