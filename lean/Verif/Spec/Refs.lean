import Verif.Model.Refs
/-!
What a buffer or file object reference should lead to, in terms of the history alone (oldest event first).
-/
namespace Xoscar.Refs

/-- the ids used by the creations of a history -/
def idsUsed : List Event → List Uid
  | [] => []
  | .create _ _ _ u _ :: es => u :: idsUsed es
  | .die _ _ :: es => idsUsed es

/-- an object that is gone does not come back -/
def NoRevival (es : List Event) : Prop :=
  ∀ before after p o, es = before ++ [Event.die p o] ++ after → ∀ k a u, Event.create p k a u o ∉ after

/-- `r` was made in process `p` for the object `o`, which can be referred to and is still there -/
structure Made (weakly : Obj → Bool) (es : List Event) (p : Pid) (r : Ref) (o : Obj) : Prop where
  created : Event.create p r.kind r.addr r.uid o ∈ es
  weak : weakly o = true
  there : Event.die p o ∉ es

/-- the local part can be the source of a copy to a reference of this kind -/
def Suits : Kind → Source → Prop
  | .buffer, .buffer _ => True
  | .file, .file _ => True
  | _, _ => False

/-- the checks of the call's arguments -/
structure ArgumentsOk (locals : List Source) (refs : List Ref) (block : Option Int) : Prop where
  some : refs ≠ []
  same_length : locals.length = refs.length
  one_address : ∀ r ∈ refs, ∀ r' ∈ refs, r.addr = r'.addr
  block : ∀ b, block = .some b → 0 < b

end Xoscar.Refs
