import Verif.Model.Base
/-!
# The life of the wrappers of one generator: python/xoscar/api.py:330-365, 475-485; core.pyx:287-299, 526-532

A generator of an actor is handed out as an `IteratorWrapper`; copies of it travel between processes.  The collection of a wrapper that is
responsible (`_gc_destroy`) asks the actor to destroy the generator, in a new thread, and the collecting thread waits for it.
Left out: iteration itself (Model/Gen); collection at interpreter exit (here `crash`: the note at 351 says it may hang).
-/
namespace Xoscar.Wrap

abbrev Proc := Nat
abbrev Wid := Nat

/-- where a wrapper is: in a process, or serialised in a message -/
inductive Place where
  | at (p : Proc)
  | transit
  deriving DecidableEq, Repr

/-- an `IteratorWrapper` (334-339); `gcDestroy` is `_gc_destroy` -/
structure W where
  gcDestroy : Bool
  place : Place
  deriving DecidableEq, Repr

structure St where
  /-- is the generator in the actor's table -/
  gen : Bool
  wraps : Dict Wid W
  next : Wid
  deriving DecidableEq, Repr

/-- `generator`, 488-505: the generator is put into the table and wrapped, in the actor's process -/
def start (home : Proc) : St := ⟨true, [(0, ⟨true, .at home⟩)], 1⟩

inductive Label where
  /-- wrapper `i` is serialised (also by `copy.copy`): `__getstate__`, 360-365 -/
  | send (i : Wid)
  /-- a serialised wrapper is decoded in process `p` -/
  | arrive (i : Wid) (p : Proc)
  /-- a message with a wrapper is lost: the connection broke, or sending or decoding failed -/
  | lose (i : Wid)
  /-- a wrapper is collected (349-358); `ok`: if it asks for the destruction, this succeeds -/
  | drop (i : Wid) (ok : Bool)
  /-- the process ends without collecting its objects -/
  | crash (p : Proc)
  /-- `await wrapper.destroy()`, 341-347 -/
  | destroy (i : Wid)
  /-- iteration came to the end or failed, or the actor was destroyed -/
  | over
  deriving DecidableEq, Repr

/-- `IteratorWrapper.__del__`, 349-358 -/
def del (s : St) (w : W) (ok : Bool) : Bool := if w.gcDestroy && ok then false else s.gen

def isAt (w : W) : Bool := match w.place with | .at _ => true | .transit => false

def step (s : St) : Label → Option St
  | .send i => match s.wraps.get? i with
    | none => none
    | some w =>
      if isAt w then
        some { s with wraps := (s.wraps.set i { w with gcDestroy := false }).set s.next ⟨true, .transit⟩, next := s.next + 1 }
      else none
  | .arrive i p => match s.wraps.get? i with
    | none => none
    | some w => if isAt w then none else some { s with wraps := s.wraps.set i { w with place := .at p } }
  | .lose i => match s.wraps.get? i with
    | none => none
    | some w => if isAt w then none else some { s with wraps := s.wraps.erase i }
  | .drop i ok => match s.wraps.get? i with
    | none => none
    | some w => if isAt w then some { s with gen := del s w ok, wraps := s.wraps.erase i } else none
  | .crash p => some { s with wraps := s.wraps.filter (fun x => x.2.place ≠ .at p) }
  | .destroy i => match s.wraps.get? i with
    | none => none
    | some w => if isAt w then some { s with gen := false } else none
  | .over => some { s with gen := false }

inductive Run (home : Proc) : List Label → St → Prop
  | start : Run home [] (start home)
  | snoc {ls : List Label} {l : Label} {s s' : St} : Run home ls s → step s l = some s' → Run home (ls ++ [l]) s'

/-! ## What the collection waits for -/

/-- The method that holds the actor's lock (core.pyx:526-532) still needs the event loops of these processes, in this order, before it ends:
those its nested calls run in and, at the end, the actor's own. -/
structure World where
  /-- `none`: the lock is free -/
  holder : Option (List Proc)
  /-- the process whose event loop is blocked by the collection of a wrapper (`thread.join()`, 358) -/
  blocked : Option Proc
  /-- the generator is still there -/
  gen : Bool
  deriving DecidableEq, Repr

/-- the thread of the collection (355-357): it waits for the lock (core.pyx:526; for an actor of the same process 293), removes the generator,
and the collecting process goes on.  If the actor is in another process, that one must run to serve the request. -/
def destroyStep (w : World) : World :=
  match w.blocked, w.holder with
  | some _, none => { w with blocked := none, gen := false }
  | _, _ => w

/-- the holder of the lock goes on if the process it needs is not blocked -/
def holderStep (w : World) : World :=
  match w.holder with
  | none => w
  | some [] => { w with holder := none }
  | some (q :: rest) => if w.blocked = some q then w else { w with holder := some rest }

/-- who goes on next -/
inductive Turn where
  | holder | collection
  deriving DecidableEq, Repr

def turn (w : World) : Turn → World
  | .holder => holderStep w
  | .collection => destroyStep w

def after (w : World) (ts : List Turn) : World := ts.foldl turn w

/-- process `p` collects a responsible wrapper while a method of the actor in process `home` holds its lock, with `calls` still to be served -/
def collect (p home : Proc) (calls : List Proc) : World := ⟨some (calls ++ [home]), some p, true⟩

/-- … while the lock is free, or the actor is a `StatelessActor` (core.pyx:571-587) -/
def collectFree (p : Proc) : World := ⟨none, some p, true⟩

end Xoscar.Wrap
