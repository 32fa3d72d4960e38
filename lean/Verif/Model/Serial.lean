import Verif.Model.SerialMachine
/-!
# The core serializers: python/xoscar/serialization/core.pyx:265-639, 814-836

The sender's objects form a heap graph: identities (`id(obj)`) pointing to objects.  The receiver
allocates its own objects in a second heap.  The `pickle`/`fury` backends are a parameter with a
round-trip law.
-/
namespace Xoscar.Serial

/-- `id(obj)` of an object of the sender -/
abbrev Id := Nat

/-- an object of the sender.  `ty`: the class, when it is not exactly the builtin one. -/
inductive Obj where
  /-- handled by PrimitiveSerializer; `exact` when `type(obj) in _primitive_types` (core.pyx:281-294),
  not so e.g. for `np.int64`, which reaches it as a subclass -/
  | prim (exact : Bool) (a : Atom)
  | bytes (ty : Option Nat) (b : Buf)
  | str (ty : Option Nat) (s : String)
  /-- anything handled by PickleSerializer, as an opaque value -/
  | other (v : Nat)
  | tuple (ty : Option Nat) (xs : List Id)
  | list (ty : Option Nat) (xs : List Id)
  /-- items in insertion order -/
  | dict (ty : Option Nat) (kvs : List (Id × Id))
  /-- a dict subclass whose `__init__` takes only `self` (core.pyx:474-488), pickled as a whole -/
  | bareDict (v : Nat)

/-- the sender's memory -/
abbrev Heap := Id → Obj

/-- pickling of opaque objects into buffers (core.pyx:217-262), a parameter of the model -/
structure Pickler where
  dump : Nat → List Buf
  load : List Buf → Option Nat

/-- `_MAX_STR_PRIMITIVE_LEN` (core.pyx:62) -/
def maxStrPrimitiveLen : Nat := 1024

/-- the tests in `_serial_iterable` for items left in the header (core.pyx:362-369) -/
def inlinable : Obj → Option Atom
  | .bytes none b => if b.size < maxStrPrimitiveLen then some (.bytes b) else none
  | .str none s => if s.length < maxStrPrimitiveLen then some (.str s) else none
  | .prim true a => some a
  | _ => none

/-- `_serial_iterable` (core.pyx:352-382) from index `idx` on: `obj_list`, `idx_to_propagate`,
`obj_to_propagate` -/
def serialIterable (h : Heap) (idx : Nat) : List Id → List PV × List Nat × List Id
  | [] => ([], [], [])
  | x :: xs =>
    let r := serialIterable h (idx + 1) xs
    match inlinable (h x) with
    | some a => (.atom a :: r.1, r.2.1, r.2.2)
    | none => (.atom .none :: r.1, idx :: r.2.1, x :: r.2.2)

/-- a class or `None` in a header -/
def tyPV : Option Nat → PV
  | some t => .ty t
  | none => .atom .none

/-- the mutable part of `context` and `_IdContextHolder.d` -/
structure EncCtx where
  /-- ids in `context` -/
  ctx : List Id
  /-- `_IdContextHolder.d` -/
  d : Dict Id Nat

/-- an empty context -/
def EncCtx.init : EncCtx := ⟨[], []⟩

/-- result of `Serializer.serial` -/
inductive SerialRet where
  /-- `Placeholder(obj_id)` -/
  | placeholder
  /-- serializer id, header, subs, whether the object was entered into `context` -/
  | done (sid : Nat) (body : List PV) (subs : Subs Id) (registered : Bool)

/-- `buffered` and its inlined copies (core.pyx:201-214, 268-272, …): a placeholder if the object
is already in `context`, else register it -/
def buffered (c : EncCtx) (x : Id) (sid : Nat) (body : List PV) (subs : Subs Id) : SerialRet :=
  if x ∈ c.ctx then .placeholder else .done sid body subs true

/-- `serializer.serial(obj, context)` for the serializer of the object's type: Pickle 265-278,
Primitive 297-305, Bytes 308-321, Str 324-341, Collection 352-391, Dict 456-499 -/
def serial (P : Pickler) (h : Heap) (c : EncCtx) (x : Id) : SerialRet :=
  match h x with
  | .prim _ a => buffered c x 1 [.atom a] (.bufs [])
  | .bytes _ b => buffered c x 2 [] (.bufs [b])
  | .str _ s => buffered c x 3 [] (.bufs [s.toUTF8])
  | .other v => buffered c x 0 [] (.bufs (P.dump v))
  | .tuple ty xs =>
    let r := serialIterable h 0 xs
    buffered c x 4 [.list r.1, .list (r.2.1.map .nat), tyPV ty] (.objs r.2.2)
  | .list ty xs =>
    let r := serialIterable h 0 xs
    buffered c x 5 [.list r.1, .list (r.2.1.map .nat), tyPV ty] (.objs r.2.2)
  | .dict none [] => .done 6 [] (.bufs []) false       -- "if type(obj) is dict and len(obj) == 0"
  | .dict ty kvs =>
    let k := serialIterable h 0 (kvs.map Prod.fst)
    let v := serialIterable h 0 (kvs.map Prod.snd)
    buffered c x 6 [.tup [.list k.1, .list (k.2.1.map .nat)], .tup [.list v.1, .list (v.2.1.map .nat)],
      .nat k.2.2.length, tyPV ty] (.objs (k.2.2 ++ v.2.2))
  | .bareDict v => if x ∈ c.ctx then .placeholder else .done 6 [.obj v] (.bufs []) false

/-- `_serial_single` (core.pyx:605-639).  A placeholder is serialized by PlaceholderSerializer
(core.pyx:570-577), its ordered id looked up in `d` (`unordered_map::operator[]`, 0 if missing); any
other object gets `d.size()`. -/
def serialSingle (P : Pickler) (h : Heap) : Single EncCtx Id := fun c x =>
  match serial P h c x with
  | .placeholder => ⟨[.nat 7, .nat ((c.d.get? x).getD 0), .nat 0, .bool true], .bufs [], c⟩
  | .done sid body subs registered =>
    ⟨.nat sid :: .nat c.d.length :: .nat subs.length :: .bool subs.final :: body, subs,
      ⟨if registered then c.ctx ++ [x] else c.ctx, c.d.set x c.d.length⟩⟩

/-! ## the receiver -/

/-- a value of the receiver -/
inductive Val where
  | atom (a : Atom)
  /-- an allocated object -/
  | ref (a : Nat)
  /-- a `Placeholder` (core.pyx:543-567) not yet replaced.  All placeholders with one id are one
  object: only the first is created while `context` has no entry for the id, later ones are taken
  from `context` (core.pyx:823-827). -/
  | ph (oid : Nat)
  deriving DecidableEq

/-- an object of the receiver -/
inductive RObj where
  | tuple (ty : Option Nat) (xs : List Val)
  | list (ty : Option Nat) (xs : List Val)
  | dict (ty : Option Nat) (kvs : List (Val × Val))
  | other (v : Nat)
  | bareDict (v : Nat)

/-- a callback of a placeholder: `result.__setitem__(idx, ·)` (core.pyx:440-442) or
`_dict_value_replacer(context, ret, key, ·)` (core.pyx:450-453), the key being identified by its
position among the items -/
structure Cb where
  addr : Nat
  idx : Nat

structure RSt where
  /-- `context` of `deserialize` -/
  ctx : Dict Nat Val
  heap : List RObj
  /-- callbacks of the placeholder with a given id -/
  cbs : Dict Nat (List Cb)

def RSt.init : RSt := ⟨[], [], []⟩

/-- exceptions of the deserializers -/
inductive Exc where
  | assertion                   -- "assert type(v) is not Placeholder"
  | indexError
  | unpickle                    -- the pickle backend failed
  | decode                      -- UnicodeDecodeError
  | unknownSerializer           -- KeyError in `_deserializers`
  | badHeader                   -- header fields do not unpack
  | unmodelled                  -- a placeholder as dict key
  deriving DecidableEq

/-- a class or `None` -/
def PV.toTy : PV → Option (Option Nat)
  | .ty t => some (some t)
  | .atom .none => some none
  | _ => none

def PV.toNat? : PV → Option Nat
  | .nat n => some n
  | _ => none

def PV.toAtom? : PV → Option Val
  | .atom a => some (.atom a)
  | _ => none

/-- the loop of `_deserial_iterable` (core.pyx:399-400) -/
def fill : List Val → List Nat → List Val → Option (List Val)
  | res, [], _ => some res
  | res, i :: is, v :: vs => if i < res.length then fill (res.set i v) is vs else none
  | _, _ :: _, [] => none

/-- `_deserial_iterable` (core.pyx:393-401) -/
def deserialIterable (items idxs : List PV) (subs : List Val) : Except Exc (List Val) :=
  match items.mapM PV.toAtom?, idxs.mapM PV.toNat? with
  | some res, some is => match fill res is subs with
    | some r => .ok r
    | none => .error .indexError
  | _, _ => .error .badHeader

/-- a buffer among the subcomponents -/
def Val.toBuf? : Val → Option Buf
  | .atom (.bytes b) => some b
  | _ => none

def Val.isPh : Val → Bool
  | .ph _ => true
  | _ => false

/-- allocate an object -/
def RSt.alloc (s : RSt) (o : RObj) : Val × RSt := (.ref s.heap.length, { s with heap := s.heap ++ [o] })

/-- append a callback to a placeholder -/
def RSt.addCb (s : RSt) (oid : Nat) (cb : Cb) : RSt :=
  { s with cbs := s.cbs.set oid ((s.cbs.get? oid).getD [] ++ [cb]) }

/-- register a callback for every placeholder among the elements (core.pyx:439-442, 530-539),
positions counted from `idx` -/
def addCbs (addr : Nat) : Nat → List Val → RSt → RSt
  | _, [], s => s
  | idx, .ph o :: vs, s => addCbs addr (idx + 1) vs (s.addCb o ⟨addr, idx⟩)
  | idx, _ :: vs, s => addCbs addr (idx + 1) vs s

/-- `serializer.deserial(serialized, context, subs)` by serializer id: Pickle 280-281, Primitive
304-305, Bytes 320-321, Str 337-341, Tuple 408-419, List 426-443, Dict 501-540, Placeholder 576-577
(the id of the new placeholder is set by `_deserial_single`: the model gives it at once) -/
def deserial (P : Pickler) (s : RSt) (sid oid : Nat) (body : List PV) (subs : List Val) : Except Exc (Val × RSt) :=
  match sid, body with
  | 0, _ =>
    match P.load (subs.filterMap Val.toBuf?) with
    | some v => .ok (s.alloc (.other v))
    | none => .error .unpickle
  | 1, [.atom a] => .ok (.atom a, s)
  | 2, _ => match subs with
    | v :: _ => .ok (v, s)
    | [] => .error .indexError
  | 3, _ => match subs with
    | .atom (.bytes b) :: _ => match String.fromUTF8? b with
      | some str => .ok (.atom (.str str), s)
      | none => .error .decode
    | _ => .error .indexError
  | 4, [.list items, .list idxs, t] =>
    match deserialIterable items idxs subs, t.toTy with
    | .ok res, some ty =>
      if res.any Val.isPh then .error .assertion else .ok (s.alloc (.tuple ty res))
    | .error e, _ => .error e
    | _, none => .error .badHeader
  | 5, [.list items, .list idxs, t] =>
    match deserialIterable items idxs subs, t.toTy with
    | .ok res, some ty =>
      let r := s.alloc (.list ty res)
      .ok (r.1, addCbs s.heap.length 0 res r.2)
    | .error e, _ => .error e
    | _, none => .error .badHeader
  | 6, [] => .ok (s.alloc (.dict none []))
  | 6, [.obj v] => .ok (s.alloc (.bareDict v))
  | 6, [.tup [.list kitems, .list kidxs], .tup [.list vitems, .list vidxs], .nat numKeyBufs, t] =>
    match deserialIterable kitems kidxs (subs.take numKeyBufs),
          deserialIterable vitems vidxs (subs.drop numKeyBufs), t.toTy with
    | .ok keys, .ok values, some ty =>
      -- replacing a key is not modelled; keys of the sender are pairwise different, so `dict(zip(…))`
      -- has all the items
      if keys.any Val.isPh then .error .unmodelled
      else
        let r := s.alloc (.dict ty (keys.zip values))
        .ok (r.1, addCbs s.heap.length 0 values r.2)
    | .error e, _, _ => .error e
    | _, .error e, _ => .error e
    | _, _, none => .error .badHeader
  | 7, _ => .ok (.ph oid, s)
  | _, _ => if sid < 8 then .error .badHeader else .error .unknownSerializer

/-- run one callback with the real object -/
def RObj.setItem (i : Nat) (v : Val) : RObj → RObj
  | .list ty xs => .list ty (xs.set i v)
  | .dict ty kvs => .dict ty (kvs.modify i (fun kv => (kv.1, v)))
  | o => o

def runCbs (v : Val) : List Cb → List RObj → List RObj
  | [], h => h
  | cb :: cbs, h => runCbs v cbs (h.modify cb.addr (RObj.setItem cb.idx v))

/-- the rest of `_deserial_single` after `deserial` (core.pyx:823-836) -/
def settle (oid : Nat) (res : Val) (s : RSt) : Val × RSt :=
  let res := if res.isPh then (s.ctx.get? oid).getD (.ph oid) else res
  match s.ctx.get? oid with
  | some (.ph p) => (res, { s with ctx := s.ctx.set oid res, heap := runCbs res ((s.cbs.get? p).getD []) s.heap })
  | _ => (res, { s with ctx := s.ctx.set oid res })

/-- `_deserial_single` (core.pyx:814-836) -/
def deserialSingle (P : Pickler) (s : RSt) (serialized : List PV) (subs : List Val) : Except Exc (Val × RSt) :=
  match serialized with
  | .nat sid :: .nat oid :: _ :: _ :: body => match deserial P s sid oid body subs with
    | .ok (v, s') => .ok (settle oid v s')
    | .error e => .error e
  | _ => .error .badHeader

/-- `on_deserial_error` of the core deserializers, none of which overrides it -/
def coreOnError (head : List PV) (e : Exc) : Option Exc :=
  match head with
  | .nat sid :: _ => if sid < 8 then some e else none
  | _ => none

/-- the core deserializers -/
def coreDeser (P : Pickler) : Deser RSt Val Exc where
  single := deserialSingle P
  buf b := .atom (.bytes b)
  onError head _ _ e := coreOnError head e

end Xoscar.Serial
