import Verif.Model.Local
/-!
# What a reference denotes

Written on histories, without the pool's tables.
-/
namespace Xoscar.Local

/-- the objects made by the creations of a history -/
def madeBy : List Event → List Obj
  | [] => []
  | .create _ o :: rest => o :: madeBy rest
  | _ :: rest => madeBy rest

/-- Which object does `(address, u)` denote after the history (NEWEST FIRST): that of the last creation not followed by a destruction;
creating an existing uid fails, and a stopped pool does nothing. -/
def denoted : List Event → Uid → Option Obj
  | [], _ => none
  | .create u' o :: rest, u => if u' = u ∧ Event.stop ∉ rest ∧ denoted rest u = none then some o else denoted rest u
  | .destroy u' :: rest, u => if u' = u ∧ Event.stop ∉ rest then none else denoted rest u
  | _ :: rest, u => denoted rest u

/-- the outcome a user expects of `ref.name(*args)` when the reference denotes `target` -/
def expected (methods : Obj → List Name) (target : Option Obj) (name : Name) (args : List Nat) : Out :=
  match target with
  | none => .actorNotExist
  | some o => if name ∈ methods o then .runs o name args else .attributeError

/-- the same for a batch of calls of one method -/
def expectedBatch (methods : Obj → List Name) (target : Option Obj) (name : Name) (args : List (List Nat)) : BatchOut :=
  match target with
  | none => .actorNotExist
  | some o => if name ∈ methods o then .runs o name args else .attributeError

/-- A local reference a program can hold after the history `es` (oldest first): made at some moment, perhaps used since. -/
inductive Obtained : List Event → LRef → Prop
  | make {es u r} : createLocalRef false (run {} es) u = some r → Obtained es r
  | later {es r} (e) : Obtained es r → Obtained (es ++ [e]) r
  | used {es r} : Obtained es r → Obtained es (resolve false (run {} es) r).2

/-- An object that is no longer the actor of any uid but still in memory: something else refers to it - a running method, a callback,
a reference cycle the collector has not reached. -/
def Lingers (es : List Event) (o : Obj) : Prop := o ∈ (run {} es).alive ∧ ∀ u, denoted es.reverse u ≠ some o

end Xoscar.Local
