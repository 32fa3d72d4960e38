import Verif.Model.Raise

/-! What a user expects of an error that a remote method raised. -/

namespace Xoscar.Raise.Spec

/-- The names the library uses on the error for itself, which the error's own attributes
cannot have: where it was raised, and the wrapped error. -/
def Reserved (n : Name) : Prop :=
  n = .address ∨ n = .pid ∨ n = .wrapped ∨ n = .wrapname

/-- Names every exception has. -/
def Standard (n : Name) : Prop :=
  n = .args ∨ n = .cause ∨ n = .context ∨ n = .suppress ∨ n = .module ∨ n = .traceback

/-- The class that first defines the attribute in an MRO, and how. -/
inductive Defines : List Layer → Name → Attr → Prop where
  | here {l ls n a} : l.attrs.get? n = some a → Defines (l :: ls) n a
  | later {l ls n a} : l.attrs.get? n = none → Defines ls n a → Defines (l :: ls) n a

/-- No class of the MRO defines the attribute. -/
def Undefined (mro : List Layer) (n : Name) : Prop := ∀ l ∈ mro, l.attrs.get? n = none

/-- Attributes of an error that are the caller's to read: instance attributes that no
class defines (and attributes that do not exist), slots, class attributes that the
instance does not override, unset C members, and properties of such. -/
inductive Kept (e : Inst) : Name → Prop where
  | instance_ {n} : Undefined e.mro n → Kept e n
  | slot {n} : Defines e.mro n .slot → Kept e n
  | class_ {n v} : Defines e.mro n (.value v) → (e.dict.get? n = none ∨ e.dict.get? n = some v) →
      Kept e n
  | unset {n d} : Defines e.mro n (.cmember d) → (e.cs.get? n = none ∨ e.cs.get? n = some d) →
      Kept e n
  | prop {n f g} : Defines e.mro n (.prop f g) → ¬ Reserved f → ¬ Standard f → Kept e f →
      Kept e n

/-- The class cannot be called without arguments: its first `__new__` wants some. -/
def NewWantsArgs (mro : List Layer) : Prop :=
  ∃ pre l post, mro = pre ++ l :: post ∧ (∀ x ∈ pre, x.newArgs = none) ∧ l.newArgs = some true

/-- The class refuses subclasses: it is final, or its first `__init_subclass__` raises. -/
def NoSubclass (mro : List Layer) : Prop :=
  (∃ l post, mro = l :: post ∧ l.final = true) ∨
  ∃ pre l post, mro = pre ++ l :: post ∧ (∀ x ∈ pre, x.initSub = none) ∧ l.initSub = some true

/-- The error's class is (or derives from) a class. -/
def IsA (mro : List Layer) (c : Cls) : Prop := ∃ l ∈ mro, l.cls = c

/-- An error as user code raises it: no wrapper, no CancelledError, with a class that can
be derived from and called without arguments. -/
structure Ordinary (e : Inst) : Prop where
  notWrapped : ¬ IsA e.mro .asCause
  notNew : ¬ IsA e.mro .derived
  notCancelled : ¬ IsA e.mro .cancelled
  sub : ¬ NoSubclass e.mro
  new : ¬ NewWantsArgs e.mro

end Xoscar.Raise.Spec
