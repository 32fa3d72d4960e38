import Verif.Model.Serial
/-!
# What serialization should achieve: specification vocabulary for C01, C02, C04

Independent of how the encoder and decoder work: object graphs, their finite unfoldings and access
paths, on the sender's side (`Heap`, `Id`) and on the receiver's (`List RObj`, `Val`).
-/
namespace Xoscar.Serial

/-- components of an object, for a dict the keys followed by the values -/
def Obj.kids : Obj → List Id
  | .tuple _ xs => xs
  | .list _ xs => xs
  | .dict _ kvs => kvs.map Prod.fst ++ kvs.map Prod.snd
  | _ => []

/-- the same on the receiver's side -/
def RObj.kids : RObj → List Val
  | .tuple _ xs => xs
  | .list _ xs => xs
  | .dict _ kvs => kvs.map Prod.fst ++ kvs.map Prod.snd
  | _ => []

/-- `y` is reachable from `x` -/
inductive Reach (h : Heap) (x : Id) : Id → Prop
  | refl : Reach h x x
  | step {y z : Id} : Reach h x y → z ∈ (h y).kids → Reach h x z

/-- `z` is reachable from `x` by at least one edge -/
def ReachPlus (h : Heap) (x z : Id) : Prop := ∃ y, Reach h x y ∧ z ∈ (h y).kids

/-- what Python accepts as dict keys, among the modelled objects: leaves and tuples of such -/
inductive Hashable (h : Heap) : Id → Prop
  | prim {x e a} : h x = .prim e a → Hashable h x
  | bytes {x ty b} : h x = .bytes ty b → Hashable h x
  | str {x ty s} : h x = .str ty s → Hashable h x
  | other {x v} : h x = .other v → Hashable h x
  | tuple {x ty xs} : h x = .tuple ty xs → (∀ y ∈ xs, Hashable h y) → Hashable h x

/-- an empty plain dict, or a dict subclass pickled as a whole: such objects have no components -/
def Obj.loose : Obj → Bool
  | .dict none [] => true
  | .bareDict _ => true
  | _ => false

/-- the object graphs considered -/
structure Supported (h : Heap) (root : Id) : Prop where
  /-- finitely many objects -/
  finite : ∃ S : List Id, root ∈ S ∧ ∀ x ∈ S, ∀ y ∈ (h x).kids, y ∈ S
  /-- no instances of proper subclasses of `str` and `bytes` -/
  plainStr : ∀ x t s, Reach h root x → h x ≠ .str (some t) s
  plainBytes : ∀ x t b, Reach h root x → h x ≠ .bytes (some t) b
  /-- dict keys are hashable -/
  keys : ∀ x ty kvs, Reach h root x → h x = .dict ty kvs → ∀ kv ∈ kvs, Hashable h kv.1
  /-- no tuple contains itself -/
  tuples : ∀ x ty xs, Reach h root x → h x = .tuple ty xs → ¬ ReachPlus h x x

/-- no object contains itself -/
def Acyclic (h : Heap) (root : Id) : Prop := ∀ x, Reach h root x → ¬ ReachPlus h x x

/-- every empty dict (and dict subclass pickled as a whole) occurs in at most one place -/
structure LooseOnce (h : Heap) (root : Id) : Prop where
  parent : ∀ e p q, Reach h root p → Reach h root q → (h e).loose = true → e ∈ (h p).kids → e ∈ (h q).kids → p = q
  once : ∀ e p, Reach h root p → (h e).loose = true → (h p).kids.count e ≤ 1

/-- unfolding of an object to a finite tree -/
inductive Tree where
  | cut
  | atom (ty : Option Nat) (a : Atom)
  | tuple (ty : Option Nat) (xs : List Tree)
  | list (ty : Option Nat) (xs : List Tree)
  | dict (ty : Option Nat) (kvs : List (Tree × Tree))
  | other (v : Nat)
  | bareDict (v : Nat)
  | placeholder
  | dangling

/-- the sender's object unfolded to depth `n` -/
def srcTree (h : Heap) : Nat → Id → Tree
  | 0, _ => .cut
  | n + 1, x => match h x with
    | .prim _ a => .atom none a
    | .bytes ty b => .atom ty (.bytes b)
    | .str ty s => .atom ty (.str s)
    | .other v => .other v
    | .tuple ty xs => .tuple ty (xs.map (srcTree h n))
    | .list ty xs => .list ty (xs.map (srcTree h n))
    | .dict ty kvs => .dict ty (kvs.map (fun kv => (srcTree h n kv.1, srcTree h n kv.2)))
    | .bareDict v => .bareDict v

/-- the receiver's value unfolded to depth `n` -/
def dstTree (H : List RObj) : Nat → Val → Tree
  | 0, _ => .cut
  | _ + 1, .atom a => .atom none a
  | _ + 1, .ph _ => .placeholder
  | n + 1, .ref a => match H[a]? with
    | none => .dangling
    | some (.other v) => .other v
    | some (.tuple ty xs) => .tuple ty (xs.map (dstTree H n))
    | some (.list ty xs) => .list ty (xs.map (dstTree H n))
    | some (.dict ty kvs) => .dict ty (kvs.map (fun kv => (dstTree H n kv.1, dstTree H n kv.2)))
    | some (.bareDict v) => .bareDict v

/-- the object at an access path (indices into the components) -/
def follow (h : Heap) : Id → List Nat → Option Id
  | x, [] => some x
  | x, i :: p => match (h x).kids[i]? with
    | some y => follow h y p
    | none => none

/-- the value at an access path, on the receiver's side -/
def followD (H : List RObj) : Val → List Nat → Option Val
  | v, [] => some v
  | .ref a, i :: p => match H[a]? with
    | some o => match o.kids[i]? with
      | some w => followD H w p
      | none => none
    | none => none
  | _, _ :: _ => none

/-- objects whose identity matters and is kept: everything allocated but the loose dicts -/
def Obj.shareable : Obj → Bool
  | .tuple _ _ => true
  | .list _ _ => true
  | .dict none [] => false
  | .dict _ _ => true
  | .other _ => true
  | _ => false

/-- `serialize(x)` returns this header and these buffers -/
def Serializes (P : Pickler) (h : Heap) (x : Id) (header : PV) (bufs : List Buf) : Prop :=
  ∃ fuel, serialize (serialSingle P h) .init x fuel = some ⟨none, header, bufs⟩

/-- `deserialize(header, bufs)` returns `v`, the receiver's memory then being `H` -/
def Deserializes (P : Pickler) (header : PV) (bufs : List Buf) (v : Val) (H : List RObj) : Prop :=
  ∃ f0 st, st.heap = H ∧ ∀ fuel, f0 ≤ fuel → deserialize (coreDeser P) .init header bufs fuel = some (.ok v st)

/-- `deserialize(header, bufs)` raises `e` -/
def DeserializeRaises (P : Pickler) (header : PV) (bufs : List Buf) (e : Exc) : Prop :=
  ∃ f0, ∀ fuel, f0 ≤ fuel → deserialize (coreDeser P) .init header bufs fuel = some (.raised e)

/-- what is assumed of the pickle backend -/
def Pickler.Law (P : Pickler) : Prop := ∀ v, P.load (P.dump v) = some v

end Xoscar.Serial
