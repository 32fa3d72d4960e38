import Verif.Model.Bind

/-!
# What the arguments of a call mean

The rules of the Python language reference for calls, stated parameter by parameter, without the
slots and loops of the interpreter.
-/
namespace Xoscar.Bind
variable {V : Type}

/-- The names of the parameters in the order of the signature. -/
def Sig.params (s : Sig V) : List String := s.args ++ s.varargs.toList ++ s.kwonly ++ s.varkw.toList

/-- A signature Python accepts: no two parameters have one name. -/
def Sig.Legal (s : Sig V) : Prop := s.params.Nodup ∧ s.defaults.length ≤ s.args.length

/-- `k` is a parameter that may be passed by keyword: a keyword-only one, or a positional one after
the `/`. -/
def Sig.ByName (s : Sig V) (k : String) : Prop := k ∈ s.kwonly ∨ ∃ i, s.posonly ≤ i ∧ s.args[i]? = some k

/-- The value the method's parameter `a`, at position `i`, has after a call. -/
inductive Gets (s : Sig V) (pos : List V) (kw : List (String × V)) (i : Nat) (a : String) : V → Prop
  /-- the `i`-th positional argument -/
  | position {v : V} : pos[i]? = some v → Gets s pos kw i a v
  /-- there are fewer positional arguments: the keyword argument of its name -/
  | keyword {v : V} : pos.length ≤ i → s.posonly ≤ i → (a, v) ∈ kw → Gets s pos kw i a v
  /-- neither: its default -/
  | default {v : V} : pos.length ≤ i → (i < s.posonly ∨ ∀ w, (a, w) ∉ kw) → s.args.length - s.defaults.length ≤ i →
      s.defaults[i - (s.args.length - s.defaults.length)]? = some v → Gets s pos kw i a v

/-- The value of a keyword-only parameter. -/
inductive GetsKw (s : Sig V) (kw : List (String × V)) (a : String) : V → Prop
  | keyword {v : V} : (a, v) ∈ kw → GetsKw s kw a v
  | default {v : V} : (∀ w, (a, w) ∉ kw) → s.kwdefaults.get? a = some v → GetsKw s kw a v

open Classical in
/-- The call is legal and the parameters have the values `env`, in the order of the signature. -/
structure Means (s : Sig V) (pos : List V) (kw : List (String × V)) (env : List (String × Slot V)) : Prop where
  /-- every parameter has a value -/
  names : env.map Prod.fst = s.params
  args : ∀ i a, s.args[i]? = some a → ∃ v, Gets s pos kw i a v ∧ (a, .one v) ∈ env
  kwonly : ∀ a ∈ s.kwonly, ∃ v, GetsKw s kw a v ∧ (a, .one v) ∈ env
  /-- surplus positional arguments need `*args`, which has them in order -/
  surplus : s.varargs = none → pos.length ≤ s.args.length
  varargs : ∀ n, s.varargs = some n → (n, .tuple (pos.drop s.args.length)) ∈ env
  /-- keyword arguments that are no parameters need `**kw`, which has them in order -/
  unknown : s.varkw = none → ∀ k v, (k, v) ∈ kw → s.ByName k
  varkw : ∀ n, s.varkw = some n → (n, .dict (kw.filter fun p => ¬ s.ByName p.1)) ∈ env
  /-- nothing is passed twice -/
  once : ∀ i a, s.args[i]? = some a → s.posonly ≤ i → i < pos.length → ∀ v, (a, v) ∉ kw

end Xoscar.Bind
