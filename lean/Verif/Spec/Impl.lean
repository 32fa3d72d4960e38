import Verif.Model.Impl
namespace Xoscar.Impl

/-- Following the registrations from `c` ends at `d`, after the classes `via` (which include `c` but not `d`). -/
inductive Leads (r : Registry) : Cls → List Cls → Cls → Prop
  | here {c : Cls} (h : ∀ i, r.get? c ≠ some i) : Leads r c [] c
  | next {c i d : Cls} {via : List Cls} (h : r.get? c = some i) (hl : Leads r i via d) : Leads r c (c :: via) d

/-- `d` is `c` or a class that following registrations from `c` comes to -/
inductive Reach (r : Registry) : Cls → Cls → Prop
  | refl (c : Cls) : Reach r c c
  | step {c i d : Cls} (h : r.get? c = some i) (hr : Reach r i d) : Reach r c d

/-- changes of the registrations -/
inductive Change where
  | register (c impl : Cls)
  | unregister (c : Cls)
  deriving DecidableEq, Repr

def registryAfter (cs : List Change) : Registry :=
  cs.foldl (fun r ch => match ch with | .register c i => register r c i | .unregister c => unregister r c) []

/-- the implementation a history (newest first) gives a class -/
def chosen : List Change → Cls → Option Cls
  | [], _ => none
  | .register c i :: cs, x => if c = x then some i else chosen cs x
  | .unregister c :: cs, x => if c = x then none else chosen cs x

/-- the facts about Python classes used: every class is a subclass of itself -/
def Classes.Reflexive (k : Classes) : Prop := ∀ c, k.isSub c c = true

end Xoscar.Impl
