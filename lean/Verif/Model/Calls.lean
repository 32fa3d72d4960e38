import Verif.Model.Base
/-!
# Actor references, batch calls, tuple results, error wrapping

Models `python/xoscar/core.pyx` (ActorRef, ActorRefMethod.batch, `_handle_actor_result`,
batch branch of `__on_receive__`), `python/xoscar/_utils.pyx` 113-136,
`python/xoscar/batch.py`, `python/xoscar/backends/message.pyx` 206-262, `python/xoscar/utils.py` 82-119.
-/
namespace Xoscar.Calls

/-! ## References and text conversion -/

/-- A Python object passed where text is expected. -/
inductive Text where
  | str (s : String)
  | bytes (b : ByteArray)
  | none
  | other                    -- any other type

/-- `_utils.pyx:113-123 to_str` (`.error ()` = UnicodeDecodeError or TypeError). -/
def toStr : Text → Except Unit (Option String)
  | .str s => .ok (some s)
  | .bytes b => match String.fromUTF8? b with
    | some s => .ok (some s)
    | none => .error ()
  | .none => .ok none
  | .other => .error ()

/-- `_utils.pyx:126-136 to_binary`. -/
def toBinary : Text → Except Unit (Option ByteArray)
  | .bytes b => .ok (some b)
  | .str s => .ok (some s.toUTF8)
  | .none => .ok none
  | .other => .error ()

/-- core.pyx:110-122 `ActorRef.__init__`; the uid is always held as bytes.
`isLocal` distinguishes `LocalActorRef` (core.pyx:245-249), which has the same address/uid. -/
structure Ref where
  address : String
  uid : ByteArray
  proxies : List String
  isLocal : Bool

/-- core.pyx:114-120: `if isinstance(uid, str): uid = uid.encode()`. -/
def mkRefStr (address uid : String) (proxies : List String) : Ref := ⟨address, uid.toUTF8, proxies, false⟩
def mkRefBytes (address : String) (uid : ByteArray) (proxies : List String) : Ref :=
  ⟨address, uid, proxies, false⟩

/-- core.pyx:144-148 `__eq__` on two references. -/
def refEq (a b : Ref) : Bool := a.address == b.address && a.uid.data == b.uid.data

/-- core.pyx:141-142 `__hash__`, for the interpreter's hash of a (str, bytes) pair. -/
def refHash (h : String × ByteArray → Nat) (a : Ref) : Nat := h (a.address, a.uid)

/-- core.pyx:127-128 `__reduce__` + core.pyx:96-106 `create_actor_ref`: what a pickled
reference becomes in another process; `localHere` = an actor with that address and uid lives
there, in which case a `LocalActorRef` is built (and the proxies are dropped). -/
def unpickleRef (localHere : Bool) (a : Ref) : Ref :=
  if localHere then ⟨a.address, a.uid, [], true⟩ else ⟨a.address, a.uid, a.proxies, false⟩

/-! ## Batch calls -/

abbrev Args := List Nat
abbrev Kwargs := List (Nat × Nat)

/-- core.pyx:159-163, 187-189: a delayed call `(method, CALL_METHOD_DEFAULT, args, kwargs)`. -/
structure Delay where
  method : Nat
  args : Args
  kwargs : Kwargs
deriving DecidableEq, Repr

/-- core.pyx:206-213, loop of `ActorRefMethod.batch`: `none` = ValueError, otherwise the last
method seen. -/
def checkMethods : Option Nat → List Delay → Option (Option Nat)
  | last, [] => some last
  | last, d :: ds =>
    match last with
    | some m => if d.method ≠ m then none else checkMethods (some d.method) ds
    | none => checkMethods (some d.method) ds

/-- core.pyx:191-226 `ActorRefMethod.batch`: the message `(method, BATCH, (args_list,
kwargs_list), None)`; `none` = ValueError. -/
def buildBatch (selfMethod : Nat) (delays : List Delay) :
    Option (Nat × List Args × Option (List Kwargs)) :=
  match checkMethods none delays with
  | none => none
  | some last =>
    let argsList := delays.map Delay.args
    let kwargsList := delays.map Delay.kwargs
    let hasKw := delays.any (fun d => !d.kwargs.isEmpty)
    some (last.getD selfMethod, argsList, if hasKw then some kwargsList else none)

/-- What one evaluation of the user's single-call function gives. -/
inductive Single where
  | ok (v : Nat)
  | notImplemented            -- raises NotImplementedError
  | err (e : Nat)             -- raises another exception
deriving DecidableEq, Repr

/-- What one evaluation of the user's batch function gives. -/
inductive Many where
  | list (vs : List Nat)
  | noneValue                 -- returns None
  | err (e : Nat)
deriving DecidableEq, Repr

/-- An `@extensible` method (batch.py:180-214): the single function, the optional batch
function, and whether it is a coroutine function. -/
structure Impl where
  single : Args → Kwargs → Single
  batch : Option (List Args → List Kwargs → Many)
  isAsync : Bool

inductive CallRes where
  | value (v : Nat)
  | noneValue
  | notImplementedError
  | err (e : Nat)
  | typeError                 -- None[0]
  | indexError                -- [][0]
deriving DecidableEq, Repr

inductive BatchRes where
  | values (vs : List CallRes)  -- the list returned; entries are values (or None)
  | noneValue
  | raised (r : CallRes)
deriving DecidableEq, Repr

/-- batch.py:98-101 resp. 113: take element 0 of the batch result. -/
def firstOf (isAsync : Bool) : Many → CallRes
  | .list (v :: _) => .value v
  | .list [] => .indexError
  | .noneValue => if isAsync then .noneValue else .typeError
  | .err e => .err e

/-- batch.py:91-116 `_async_call` / `_sync_call`, with `has_single_func` initially true (a new
wrapper is created at each attribute access, batch.py:200). -/
def call (i : Impl) (a : Args) (k : Kwargs) : CallRes :=
  match i.single a k with
  | .ok v => .value v
  | .err e => .err e
  | .notImplemented =>
    match i.batch with
    | some f => firstOf i.isAsync (f [a] [k])
    | none => .notImplementedError

def singleRes : Single → CallRes
  | .ok v => .value v
  | .notImplemented => .notImplementedError
  | .err e => .err e

/-- Is this result a raised exception? -/
def CallRes.isRaise : CallRes → Bool
  | .value _ | .noneValue => false
  | _ => true

/-- batch.py:172-176 list comprehension: stops at the first exception. -/
def collectSeq : List CallRes → BatchRes
  | [] => .values []
  | r :: rs =>
    if r.isRaise then .raised r
    else match collectSeq rs with
      | .values vs => .values (r :: vs)
      | other => other

def manyRes : Many → BatchRes
  | .list vs => .values (vs.map .value)
  | .noneValue => .noneValue
  | .err e => .raised (.err e)

/-- batch.py:143-176 `_async_batch`/`_sync_batch` through `call_with_lists`.  For the
asynchronous version without a batch function the calls run concurrently (`asyncio.gather`);
the list of results is in argument order and the exception raised is the one of the first task
to fail: `firstFail` picks it among the failures (the scheduler's choice). -/
def callWithLists (i : Impl) (firstFail : List CallRes → CallRes) (al : List Args)
    (kl : List Kwargs) : BatchRes :=
  if al.length = 0 then .values []
  else if i.isAsync then
    if al.length = 1 then
      match al, kl with
      | a :: _, k :: _ => collectSeq [call i a k]
      | _, _ => .raised .indexError
    else match i.batch with
      | some f => manyRes (f al kl)
      | none =>
        let rs := (al.zip kl).map (fun (a, k) => singleRes (i.single a k))
        if rs.any CallRes.isRaise then .raised (firstFail (rs.filter CallRes.isRaise))
        else .values rs
  else match i.batch with
    | some f => manyRes (f al kl)
    | none => collectSeq ((al.zip kl).map (fun (a, k) => singleRes (i.single a k)))

/-- core.pyx:537-552, batch branch of `__on_receive__`: missing kwargs list becomes
`[{}] * len(args_list)`. -/
def onReceiveBatch (i : Impl) (firstFail : List CallRes → CallRes) (al : List Args) (kl : Option (List Kwargs)) : BatchRes :=
  callWithLists i firstFail al (kl.getD (List.replicate al.length []))

/-! ## Tuple results -/

/-- Outcome of an awaitable. -/
inductive Outcome where
  | ok (v : Nat)
  | exc (e : Nat)
deriving DecidableEq, Repr

/-- An element of the tuple returned by an actor method.  `isCoro` = a coroutine (or async
generator, which the code turns into a coroutine), false = another awaitable such as a Future. -/
inductive Item where
  | val (v : Nat)
  | aw (isCoro : Bool) (o : Outcome)
deriving DecidableEq, Repr

inductive TupleRes where
  | ok (vs : List Nat)
  | exc (e : Nat)
  | typeError        -- asyncio.create_task on a non coroutine
  | indexError       -- tasks[pos] out of range
  | cancelled
deriving DecidableEq, Repr

/-- core.pyx:413-425: the awaitables and their positions (`enumerate`). -/
def coros : List Item → List (Bool × Outcome)
  | [] => []
  | .val _ :: rest => coros rest
  | .aw c o :: rest => (c, o) :: coros rest

def coroPoses (start : Nat) : List Item → List Nat
  | [] => []
  | .val _ :: rest => coroPoses (start + 1) rest
  | .aw _ _ :: rest => start :: coroPoses (start + 1) rest

/-- Values list; a pending awaitable is represented by 0 until replaced (it is always
overwritten or an exception is raised). -/
def values : List Item → List Nat
  | [] => []
  | .val v :: rest => v :: values rest
  | .aw _ _ :: rest => 0 :: values rest

/-- core.pyx:429-434: the single-awaitable path, `task_result if t is coros[0] else t`. -/
def replaceOne (r : Nat) : List Item → List Nat
  | [] => []
  | .val v :: rest => v :: replaceOne r rest
  | .aw _ _ :: rest => r :: replaceOne r rest

/-- core.pyx:446-449: `for pos in coro_poses: task = tasks[pos]; values[pos] = task.result()`.
NOTE: `tasks` is indexed with the position in the tuple. -/
def fillLoop (tasks : List Outcome) : List Nat → List Nat → TupleRes
  | [], vals => .ok vals
  | pos :: rest, vals =>
    match tasks[pos]? with
    | none => .indexError
    | some (.exc e) => .exc e
    | some (.ok v) => fillLoop tasks rest (vals.set pos v)

/-- core.pyx:404-456 `_handle_actor_result` on a tuple (the `extract_tuple` case, a bare async
generator, is the one element tuple whose only element is unpacked). `cancelled`: the
handler was cancelled while waiting (all tasks then are cancelled: their outcomes are given by
the environment). -/
def handleTuple (items : List Item) (cancelled : Bool) : TupleRes :=
  let cs := coros items
  match cs with
  | [] => .ok (values items)
  | [(_, o)] => match o with
    | .ok v => .ok (replaceOne v items)
    | .exc e => .exc e
  | _ =>
    if cs.any (fun c => !c.1) then .typeError
    else
      match fillLoop (cs.map Prod.snd) (coroPoses 0 items) (values items) with
      | .ok vs => if cancelled then .cancelled else .ok vs
      | r => r

/-! ## Error wrapping -/

/-- Exceptions as the caller can observe them: class, text, and whether it is an
`_AsCauseBase` wrapper (message.pyx:206-208) carrying address and pid of the raising process. -/
inductive Exc where
  | plain (cls : Nat) (text : String)
  | wrapped (address : String) (pid : Nat) (cls : Nat) (text : String)
  | cancelled (text : String)              -- asyncio.CancelledError
deriving DecidableEq, Repr

/-- `isinstance(e, C)`: the wrapper class derives from the class of the wrapped error
(utils.py:118 `bases + (type(exc),)`). -/
def Exc.cls : Exc → Option Nat
  | .plain c _ => some c
  | .wrapped _ _ c _ => some c
  | .cancelled _ => none

def tag (address : String) (pid : Nat) : String :=
  "[address=" ++ address ++ ", pid=" ++ toString pid ++ "]"

/-- `str(e)` (message.pyx:207-208 for wrappers). -/
def Exc.str : Exc → String
  | .plain _ t => t
  | .wrapped a p _ t => tag a p ++ " " ++ t
  | .cancelled t => t

/-- message.pyx:242-262 `ErrorMessage.as_instanceof_cause` for the error `e` reported by the
process `pid` at `address`. -/
def asInstanceofCause (address : String) (pid : Nat) : Exc → Exc
  | e@(.wrapped ..) => e
  | .cancelled _ => .cancelled (tag address pid)
  | .plain c t => .wrapped address pid c t

/-- An error travelling through several processes, the raising one first. -/
def hops (e : Exc) (ps : List (String × Nat)) : Exc :=
  ps.foldl (fun e p => asInstanceofCause p.1 p.2 e) e

end Xoscar.Calls
