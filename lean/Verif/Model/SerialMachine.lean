import Verif.Model.Base
/-!
# The serialization loops: python/xoscar/serialization/core.pyx:583-944

`_serialize_with_stack`, `serialize`, `serialize_with_spawn` and `deserialize` are explicit stack
machines, independent of the registered serializers.  They are modelled here over a parameter
giving the effect of `_serial_single` / `_deserial_single` on one object; the parameter is
instantiated in `Verif/Model/Serial.lean` (core serializers) and `Verif/Model/Message.lean`.
-/
namespace Xoscar.Serial

/-- a buffer in the buffer list next to the header -/
abbrev Buf := ByteArray

/-- immutable leaf values: `None`, a value of one of the `_primitive_types` (core.pyx:281-294,
coded by an integer), `bytes`, `str`.  `str` is a sequence of Unicode scalar values (Python strings
with lone surrogates are not modelled). -/
inductive Atom where
  | none
  | prim (n : Int)
  | bytes (b : Buf)
  | str (s : String)
  deriving DecidableEq

/-- what headers are made of (everything in a header is pickled in one go) -/
inductive PV where
  | nat (n : Nat)
  | bool (b : Bool)
  | atom (a : Atom)      -- includes `None`
  | ty (t : Nat)         -- a class
  | obj (v : Nat)        -- an arbitrary object pickled together with the header
  | list (xs : List PV)
  | tup (xs : List PV)

/-- second component of what `serial()` returns (core.pyx:80-91): buffers when the flag `final` is
set, else objects to be serialized in turn. -/
inductive Subs (X : Type) where
  | bufs (bs : List Buf)
  | objs (xs : List X)

/-- `len(subs)` -/
def Subs.length {X : Type} : Subs X → Nat
  | .bufs bs => bs.length
  | .objs xs => xs.length

/-- `final` -/
def Subs.final {X : Type} : Subs X → Bool
  | .bufs _ => true
  | .objs _ => false

/-- result of `_serial_single` (core.pyx:605-639): header fields, subs, new context -/
structure Ser (σ X : Type) where
  head : List PV
  subs : Subs X
  st : σ

/-- `_serial_single` as a parameter -/
abbrev Single (σ X : Type) := σ → X → Ser σ X

/-- `_SerialStackItem` (core.pyx:588-596) -/
structure Frame (X : Type) where
  head : List PV
  subs : List X
  done : List PV

/-- the variables of `_serialize_with_stack` -/
structure EncSt (σ X : Type) where
  stack : List (Frame X)
  serialized : Option PV
  st : σ
  bufs : List Buf
  n : Nat

variable {σ X : Type}

/-- "have previously-serialized results, record first" (core.pyx:666-668) -/
def Frame.record (fr : Frame X) : Option PV → Frame X
  | some s => { fr with done := fr.done ++ [s] }
  | none => fr

/-- the `else` branch (core.pyx:678-696): serialize the next subcomponent -/
def stepChild (single : Single σ X) (fr : Frame X) (rest : List (Frame X)) (s : EncSt σ X) (x : X) : EncSt σ X :=
  let r := single s.st x
  match r.subs with
  | .bufs bs => ⟨fr :: rest, some (.tup r.head), r.st, s.bufs ++ bs, s.n + 1⟩
  | .objs [] => ⟨fr :: rest, some (.tup r.head), r.st, s.bufs, s.n + 1⟩
  | .objs (y :: ys) => ⟨⟨r.head, y :: ys, []⟩ :: fr :: rest, none, r.st, s.bufs, s.n + 1⟩

/-- one iteration of `while serial_stack` (core.pyx:664-696) -/
def step (single : Single σ X) (s : EncSt σ X) : EncSt σ X :=
  match s.stack with
  | [] => s
  | fr0 :: rest =>
    let fr := fr0.record s.serialized
    if fr.subs.length = fr.done.length then
      ⟨rest, some (.tup (fr.head ++ fr.done)), s.st, s.bufs, s.n + 1⟩
    else match fr.subs[fr.done.length]? with
      | none => s    -- IndexError; not reached
      | some x => stepChild single fr rest s x

/-- how `_serialize_with_stack` ends -/
inductive Loop (σ X : Type) where
  | finished (s : EncSt σ X)
  | overflow (s : EncSt σ X)    -- `raise _SerializeObjectOverflow(serialized, num_total_serialized)`

/-- `_serialize_with_stack` (core.pyx:649-697); `fuel` bounds the number of iterations, `none` when
it does not suffice. -/
def loop (single : Single σ X) (overflow : Int) : Nat → EncSt σ X → Option (Loop σ X)
  | 0, _ => none
  | f + 1, s =>
    match s.stack with
    | [] => some (.finished s)
    | _ :: _ =>
      let s' := step single s
      if 0 < overflow ∧ overflow < (s'.n : Int) then some (.overflow s')
      else loop single overflow f s'

/-- result of `serialize`: extra meta (`{}` or `{"_N": n}`), header, buffers -/
structure Out where
  extra : Option Nat
  header : PV
  bufs : List Buf

/-- core.pyx:699-706; `serialized` is never `None` here -/
def finish (resume : Bool) (s : EncSt σ X) : Out :=
  ⟨if resume then some s.n else none, s.serialized.getD (.atom .none), s.bufs⟩

/-- `serialize(obj)` (core.pyx:708-742) -/
def serialize (single : Single σ X) (init : σ) (x : X) (fuel : Nat) : Option Out :=
  let r := single init x
  match r.subs with
  | .bufs bs => some ⟨none, .tup r.head, bs⟩
  | .objs [] => some ⟨none, .tup r.head, []⟩
  | .objs (y :: ys) =>
    match loop single 0 fuel ⟨[⟨r.head, y :: ys, []⟩], none, r.st, [], 0⟩ with
    | some (.finished s) => some (finish false s)
    | _ => none

/-- `serialize_with_spawn(obj, spawn_threshold=threshold)` (core.pyx:745-801): the second run, in
the executor, gets the saved stack, context and counters. -/
def serializeWithSpawn (single : Single σ X) (init : σ) (x : X) (threshold : Int) (fuel : Nat) : Option Out :=
  let r := single init x
  match r.subs with
  | .bufs bs => some ⟨none, .tup r.head, bs⟩
  | .objs [] => some ⟨none, .tup r.head, []⟩
  | .objs (y :: ys) =>
    match loop single threshold fuel ⟨[⟨r.head, y :: ys, []⟩], none, r.st, [], 0⟩ with
    | some (.finished s) => some (finish false s)
    | some (.overflow s) =>
      match loop single 0 fuel s with
      | some (.finished s') => some (finish (decide (0 < s.n)) s')   -- `is_resume` (core.pyx:662)
      | _ => none
    | none => none

/-! ## deserialize -/

/-- the registered deserializers, as a parameter -/
structure Deser (δ V E : Type) where
  /-- `_deserial_single` (core.pyx:814-836) -/
  single : δ → List PV → List V → Except E (V × δ)
  /-- a buffer as seen by a deserializer -/
  buf : Buf → V
  /-- `on_deserial_error` of the serializer of a header (core.pyx:126-158, 888-901): the exception to
  go on with (`new_exc_value if new_exc_value is not None else exc_value`); `none` when the lookup
  `_deserializers[serializer_id]` raises KeyError, which leaves `deserialize` at once -/
  onError : List PV → List PV → Nat → E → Option E

/-- `_DeserialStackItem` (core.pyx:803-811) -/
structure DFrame (V : Type) where
  head : List PV
  subs : List PV
  done : List V

/-- `has_deserialized`/`deserialized`, `exc_value`, and an exception raised outside of the `try`
blocks (a malformed header, or an unknown serializer while handling an exception), which leaves `deserialize` at once -/
inductive Sig (V E : Type) where
  | idle
  | has (v : V)
  | exc (e : E)
  | malformed

structure DecSt (δ V E : Type) where
  stack : List (DFrame V)
  sig : Sig V E
  st : δ
  pos : Nat

/-- `serializer_id, obj_id, num_subs, final = serialized[:4]` -/
def hdr4 : PV → Option (List PV × Nat × Bool)
  | .tup (s :: o :: .nat n :: .bool f :: rest) => some (s :: o :: .nat n :: .bool f :: rest, n, f)
  | _ => none

variable {δ V E : Type}

/-- "have previously-deserialized results, record first" (core.pyx:885-887) -/
def DFrame.record (fr : DFrame V) : Sig V E → DFrame V
  | .has v => { fr with done := fr.done ++ [v] }
  | _ => fr

/-- core.pyx:906-916: all subcomponents are there -/
def dstepFinish (D : Deser δ V E) (fr : DFrame V) (rest : List (DFrame V)) (s : DecSt δ V E) : DecSt δ V E :=
  match D.single s.st fr.head fr.done with
  | .ok (v, st') => ⟨rest, .has v, st', s.pos⟩
  | .error e => ⟨rest, .exc e, s.st, s.pos⟩

/-- core.pyx:917-941: the next subcomponent -/
def dstepChild (D : Deser δ V E) (bufs : List Buf) (fr : DFrame V) (rest : List (DFrame V)) (s : DecSt δ V E)
    (c : PV) : DecSt δ V E :=
  match hdr4 c with
  | none => ⟨[], .malformed, s.st, s.pos⟩
  | some (fs, n, final) =>
    if final || n == 0 then
      match D.single s.st fs (((bufs.drop s.pos).take n).map D.buf) with
      | .ok (v, st') => ⟨fr :: rest, .has v, st', s.pos + n⟩
      | .error e => ⟨fr :: rest, .exc e, s.st, s.pos⟩
    else ⟨⟨fs.take (fs.length - n), fs.drop (fs.length - n), []⟩ :: fr :: rest, .idle, s.st, s.pos⟩

/-- one iteration of `while deserial_stack` (core.pyx:881-941) -/
def dstep (D : Deser δ V E) (bufs : List Buf) (s : DecSt δ V E) : DecSt δ V E :=
  match s.stack with
  | [] => s
  | fr0 :: rest =>
    match s.sig with
    | .exc e => match D.onError fr0.head fr0.subs fr0.done.length e with
      | some e' => ⟨rest, .exc e', s.st, s.pos⟩
      | none => ⟨[], .malformed, s.st, s.pos⟩
    | sig =>
      let fr := fr0.record sig
      if fr.subs.length = fr.done.length then dstepFinish D fr rest s
      else match fr.subs[fr.done.length]? with
        | none => ⟨[], .malformed, s.st, s.pos⟩   -- IndexError; not reached
        | some c => dstepChild D bufs fr rest s c

/-- `while deserial_stack`, at most `fuel` iterations -/
def dloop (D : Deser δ V E) (bufs : List Buf) : Nat → DecSt δ V E → Option (DecSt δ V E)
  | 0, _ => none
  | f + 1, s => match s.stack with
    | [] => some s
    | _ :: _ => dloop D bufs f (dstep D bufs s)

/-- outcome of `deserialize` -/
inductive DOut (δ V E : Type) where
  | ok (v : V) (st : δ)
  | raised (e : E)
  | malformed

def DecSt.out (s : DecSt δ V E) : DOut δ V E :=
  match s.sig with
  | .has v => .ok v s.st
  | .exc e => .raised e
  | _ => .malformed

/-- `deserialize(serialized, buffers)` (core.pyx:839-944); `header` is `serialized[-1]` -/
def deserialize (D : Deser δ V E) (init : δ) (header : PV) (bufs : List Buf) (fuel : Nat) : Option (DOut δ V E) :=
  match hdr4 header with
  | none => some .malformed
  | some (fs, n, final) =>
    if final || n == 0 then
      match D.single init fs (bufs.map D.buf) with
      | .ok (v, st') => some (.ok v st')
      | .error e => some (.raised e)
    else
      (dloop D bufs fuel ⟨[⟨fs.take (fs.length - n), fs.drop (fs.length - n), []⟩], .idle, init, 0⟩).map DecSt.out

end Xoscar.Serial
