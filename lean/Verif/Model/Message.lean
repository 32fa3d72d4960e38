import Verif.Model.Serial
/-!
# Messages: python/xoscar/backends/message.pyx

Header fields (ids, addresses, traces, actor references, …) go into the pickled header and are kept as
opaque header values.  Payload fields (`X`) are serialized as subcomponents.
-/
namespace Xoscar.Serial

/-- `_MessageBase` fields (message.pyx:74-102) -/
structure Base where
  id : PV
  protocol : PV
  trace : PV
  profiling : PV

/-- what is sent of an `ActorRef` -/
structure ARef where
  address : PV
  uid : PV
  proxies : PV

/-- the 13 message classes (message.pyx:134-579) -/
inductive Msg (X : Type) where
  | control (b : Base) (address ctype : PV) (content : X)                       -- 134-171
  | result (b : Base) (result : X)                                              -- 174-204
  | error (b : Base) (address pid : PV) (errorType error traceback : X)         -- 212-276
  | createActor (b : Base) (actorId strategy fromMain : PV) (cls args kwargs : X) -- 279-327
  | destroyActor (b : Base) (r : ARef) (fromMain : PV)                          -- 330-362
  | hasActor (b : Base) (r : ARef)                                              -- 365-392
  | actorRef (b : Base) (r : ARef)                                              -- 395-422
  | send (b : Base) (r : ARef) (content : X)                                    -- 425-462
  | tell (b : Base) (r : ARef) (content : X)                                    -- 465-466
  | cancel (b : Base) (address cancelId : PV)                                   -- 469-500
  | copyBuffers (b : Base) (content : X)                                        -- 503-531
  | copyFiles (b : Base) (content : X)                                          -- 534-535
  | forward (b : Base) (address : PV) (raw : Msg X)                             -- 538-579

variable {X V : Type}

def Msg.base : Msg X → Base
  | control b .. => b | result b .. => b | error b .. => b | createActor b .. => b | destroyActor b .. => b
  | hasActor b .. => b | actorRef b .. => b | send b .. => b | tell b .. => b | cancel b .. => b
  | copyBuffers b .. => b | copyFiles b .. => b | forward b .. => b

/-- `MessageType` (message.pyx:37-50) -/
def Msg.type : Msg X → Nat
  | control .. => 0 | result .. => 1 | error .. => 2 | createActor .. => 3 | destroyActor .. => 4
  | hasActor .. => 5 | actorRef .. => 6 | send .. => 7 | tell .. => 8 | cancel .. => 9
  | copyBuffers .. => 10 | copyFiles .. => 11 | forward .. => 12

/-- `_MessageBase.serial` (message.pyx:103-113) -/
def Base.serial (t : Nat) (b : Base) : List PV := [.nat t, b.id, b.protocol, b.trace, b.profiling]

/-- `serial` of each class: the header tuple and the payload -/
def Msg.serial : Msg X → List PV × List X
  | .control b a c x => (b.serial 0 ++ [a, c], [x])
  | .result b x => (b.serial 1, [x])
  | .error b a p x y z => (b.serial 2 ++ [a, p], [x, y, z])
  | .createActor b i s f x y z => (b.serial 3 ++ [i, s, f], [x, y, z])
  | .destroyActor b r f => (b.serial 4 ++ [r.address, r.uid, r.proxies, f], [])
  | .hasActor b r => (b.serial 5 ++ [r.address, r.uid, r.proxies], [])
  | .actorRef b r => (b.serial 6 ++ [r.address, r.uid, r.proxies], [])
  | .send b r x => (b.serial 7 ++ [r.address, r.uid, r.proxies], [x])
  | .tell b r x => (b.serial 8 ++ [r.address, r.uid, r.proxies], [x])
  | .cancel b a c => (b.serial 9 ++ [a, c], [])
  | .copyBuffers b x => (b.serial 10, [x])
  | .copyFiles b x => (b.serial 11, [x])
  | .forward b a raw => (b.serial 12 ++ [a] ++ raw.serial.1, raw.serial.2)

/-- Python's `l[-k]` for `k > 0` -/
def neg? {α : Type} (l : List α) (k : Nat) : Option α := if k ≤ l.length then l[l.length - k]? else none

/-- `_MessageBase.deserial_members` (message.pyx:115-119) -/
def baseMembers (s : List PV) : Option Base := do
  return ⟨← s[1]?, ← s[2]?, ← s[3]?, ← s[4]?⟩

/-- `ActorRef(serialized[-k], serialized[-k+1], serialized[-k+2])` -/
def refMembers (s : List PV) (k : Nat) : Option ARef := do
  return ⟨← neg? s k, ← neg? s (k - 1), ← neg? s (k - 2)⟩

/-- `deserial_members` of the class with a given message type; `none` for IndexError, or KeyError for
an unknown type of a forwarded message.  `n` bounds the nesting of forward messages (each of them
drops 6 fields, so that the number of fields is enough). -/
def members (n : Nat) (t : Nat) (s : List PV) (subs : List V) : Option (Msg V) :=
  match n with
  | 0 => none
  | n + 1 => do
    let b ← baseMembers s
    match t with
    | 0 => return .control b (← neg? s 2) (← neg? s 1) (← subs[0]?)
    | 1 => return .result b (← subs[0]?)
    | 2 => return .error b (← neg? s 2) (← neg? s 1) (← subs[0]?) (← subs[1]?) (← subs[2]?)
    | 3 => return .createActor b (← neg? s 3) (← neg? s 2) (← neg? s 1) (← subs[0]?) (← subs[1]?) (← subs[2]?)
    | 4 => return .destroyActor b (← refMembers s 4) (← neg? s 1)
    | 5 => return .hasActor b (← refMembers s 3)
    | 6 => return .actorRef b (← refMembers s 3)
    | 7 => return .send b (← refMembers s 3) (← subs[0]?)
    | 8 => return .tell b (← refMembers s 3) (← subs[0]?)
    | 9 => return .cancel b (← neg? s 2) (← neg? s 1)
    | 10 => return .copyBuffers b (← subs[0]?)
    | 11 => return .copyFiles b (← subs[0]?)
    | 12 =>
      -- base fields from `serialized[:5]`, then the raw message
      return .forward (← baseMembers (s.take 5)) (← s[5]?) (← members n (← (← s[6]?).toNat?) (s.drop 6) subs)
    | _ => none

/-- `MessageSerializer.serializer_id` (message.pyx:608) -/
def msgSid : Nat := 32105

/-- `_serial_single` with MessageSerializer registered (message.pyx:610-616): the object with identity
`mid` is the message `m`; every other one is left to the core serializers.  A message is not entered
into `context`. -/
def msgSingle (P : Pickler) (h : Heap) (mid : Id) (m : Msg Id) : Single EncCtx Id := fun c x =>
  if x = mid then
    ⟨.nat msgSid :: .nat c.d.length :: .nat m.serial.2.length :: .bool false :: m.serial.1, .objs m.serial.2,
      ⟨c.ctx, c.d.set x c.d.length⟩⟩
  else serialSingle P h c x

/-- outcome of serializing a message -/
inductive SerOut where
  | assertionError          -- "only support protocol 0 for now"
  | ok (header : PV) (bufs : List Buf)

/-- `serialize(message)` -/
def serializeMsg (P : Pickler) (h : Heap) (mid : Id) (m : Msg Id) (fuel : Nat) : Option SerOut :=
  match m.base.protocol with
  | .nat 0 => (serialize (msgSingle P h mid m) .init mid fuel).map (fun o => .ok o.header o.bufs)
  | _ => some .assertionError

/-! ## the receiver -/

/-- what `deserialize` may return: a value or a message -/
inductive MVal where
  | val (v : Val)
  | msg (m : Msg MVal)

/-- exceptions -/
inductive MExc where
  | core (e : Exc)
  | badMessage                  -- KeyError / IndexError in `deserial` of MessageSerializer
  | failed (messageId : PV)     -- `DeserializeMessageFailed(message_id)`

/-- values for the core deserializers.  Simplification: a message inside a container, or as a dict key,
is not supported by the model. -/
def MVal.toVal? : MVal → Option Val
  | .val v => some v
  | .msg _ => none

/-- `_deserial_single` with MessageSerializer registered (message.pyx:618-624).  Simplification: the
entry of a message in the receiver's `context` is dropped, since nothing in a payload refers to the
message itself. -/
def msgDeserialSingle (P : Pickler) (s : RSt) (serialized : List PV) (subs : List MVal) : Except MExc (MVal × RSt) :=
  match serialized with
  | .nat sid :: _ :: _ :: _ :: body =>
    if sid = msgSid then
      match body with
      | .nat t :: _ => match members (body.length + 1) t body subs with
        | some m => .ok (.msg m, s)
        | none => .error .badMessage
      | _ => .error .badMessage
    else match subs.mapM MVal.toVal? with
      | some vs => match deserialSingle P s serialized vs with
        | .ok (v, s') => .ok (.val v, s')
        | .error e => .error (.core e)
      | none => .error (.core .unmodelled)
  | _ => .error (.core .badHeader)

/-- `on_deserial_error` (message.pyx:626-638): message serializers replace the exception -/
def msgOnError (head : List PV) (e : MExc) : Option MExc :=
  match head with
  | .nat sid :: rest =>
    if sid = msgSid then
      match rest with
      | _ :: _ :: _ :: _ :: id :: _ => some (.failed id)
      | _ => none
    else if sid < 8 then some e else none
  | _ => none

def msgDeser (P : Pickler) : Deser RSt MVal MExc where
  single := msgDeserialSingle P
  buf b := .val (.atom (.bytes b))
  onError head _ _ e := msgOnError head e

end Xoscar.Serial
