import Verif.Model.Base
/-!
# Generators returned by actors: python/xoscar/api.py:330-379 (`IteratorWrapper`), 420-485
(`__xoscar_next__`, `__xoscar_destroy_generator__`), 488-505 (`generator`)

One actor with its generators.  Requests of consumers arrive as messages.  An `Actor` handles them under its lock, which is
held while the generator computes its next item (core.pyx:526-532); a `StatelessActor` has no lock.  Waiting for the lock is
not modelled (Model/ActorLock): a request is a label here when its handler starts.
Left out: the transport of requests and answers (Model/Caller, Model/Pool).
-/
namespace Xoscar.Gen

/-- hexadecimal id of a generator; `uuid1` gives a new one each time -/
scoped notation "Gid" => Nat
abbrev Item := Nat
/-- an exception: its type and its text -/
structure Exc where
  type : String
  text : String
  deriving DecidableEq, Repr

/-- how a producer ends -/
inductive End where
  | done
  | raises (e : Exc)
  deriving DecidableEq, Repr

/-- a generator object: the items still to come.  `busy`: it is computing an item -/
structure Producer where
  items : List Item
  fin : End
  busy : Bool
  /-- an async generator (else a plain one, run in a thread) -/
  isAsync : Bool
  deriving DecidableEq, Repr

/-- what the consumer's `__anext__` gives (api.py:367-379) -/
inductive Out where
  | item (i : Item)
  /-- StopAsyncIteration: the loop of the consumer ends -/
  | stop
  | raised (e : Exc)
  /-- the consumer's wait was cancelled by itself -/
  | cancelled
  deriving DecidableEq, Repr

structure St where
  /-- the generator objects -/
  objs : Dict Gid Producer
  /-- `_generators` -/
  table : List Gid
  next : Gid
  /-- `__xoscar_next__` handlers waiting for their item -/
  waiting : List Gid
  /-- what the consumers of each generator got, in order -/
  log : List (Gid × Out)
  deriving Repr

def init : St := ⟨[], [], 0, [], []⟩

/-- does `s` occur in `t` (`"StopIteration" in str(e)`, 376) -/
def occurs (s : List Char) : List Char → Bool
  | [] => s.isPrefixOf []
  | c :: t => s.isPrefixOf (c :: t) || occurs s t

/-- `IteratorWrapper.__anext__`, error case (375-379).  The text of a remote error is the original text with the
address and process id of the actor in front of it (C18); simplified: that prefix is left out. -/
def consume (e : Exc) : Out := if occurs "StopIteration".toList e.text.toList then .stop else .raised e

inductive Label where
  /-- a generator method is called (488-505) -/
  | create (items : List Item) (fin : End) (isAsync : Bool)
  /-- the handler of `__xoscar_next__` starts (420-450) -/
  | next (g : Gid)
  /-- the item being computed is ready (450-466) -/
  | ready (g : Gid)
  /-- the handler is cancelled while it waits (the consumer cancelled its call: C46) -/
  | cancel (g : Gid)
  /-- `__xoscar_destroy_generator__` (475-485): by the consumer, or by the collection of its wrapper (349-358) -/
  | destroy (g : Gid)
  deriving DecidableEq, Repr

/-- 473; simplified: the id is written in decimal -/
def noIterator (g : Gid) : Exc := ⟨"RuntimeError", "No iterator with id: " ++ toString g⟩

/-- what Python says to a second `next` while the generator is running -/
def running (isAsync : Bool) : Exc :=
  if isAsync then ⟨"RuntimeError", "anext(): asynchronous generator is already running"⟩
  else ⟨"ValueError", "generator already executing"⟩

/-- the end of the body of `__xoscar_next__` (450-466): what the generator object does -/
def advance : Producer → Producer × Out
  | ⟨i :: rest, fin, _, a⟩ => (⟨rest, fin, false, a⟩, .item i)
  | ⟨[], .done, _, a⟩ => (⟨[], .done, false, a⟩, consume ⟨"Exception", "StopIteration"⟩)   -- 463-466
  | ⟨[], .raises e, _, a⟩ => (⟨[], .done, false, a⟩, consume e)                            -- 456-462

/-- is the item the last thing this generator does: it is then taken out of `_generators` (460, 464) -/
def over (p : Producer) : Bool := p.items.isEmpty

/-- what a cancellation does to the generator: a plain one goes on in its thread; an async one gets a `CancelledError` thrown
into it and is finished by it (assumption: it does not catch it) -/
def interrupted (p : Producer) : Producer := if p.isAsync then ⟨[], .done, false, true⟩ else p

/-- may a handler start now: `stateless` actors have no lock (core.pyx:571, 587) -/
def free (stateless : Bool) (s : St) : Bool := stateless || s.waiting.isEmpty

def step (stateless : Bool) (s : St) : Label → Option St
  | .create items fin a =>
    if free stateless s then
      some { s with objs := s.objs.set s.next ⟨items, fin, false, a⟩, table := s.table ++ [s.next], next := s.next + 1 }
    else none
  | .next g =>
    if free stateless s && decide (g < s.next) then      -- nobody knows an id before it is made
      if g ∈ s.table then match s.objs.get? g with
        | none => none
        | some p =>
          if p.busy then some { s with table := s.table.filter (· ≠ g), log := s.log ++ [(g, consume (running p.isAsync))] }  -- 456-462
          else some { s with objs := s.objs.set g { p with busy := true }, waiting := s.waiting ++ [g] }
      else some { s with log := s.log ++ [(g, consume (noIterator g))] }                           -- 472-473
    else none
  | .ready g => match s.objs.get? g with
    | none => none
    | some p =>
      if p.busy then
        if g ∈ s.waiting then
          some { s with objs := s.objs.set g (advance p).1, waiting := s.waiting.filter (· ≠ g),
                        table := if over p then s.table.filter (· ≠ g) else s.table, log := s.log ++ [(g, (advance p).2)] }
        else some { s with objs := s.objs.set g (advance p).1 }       -- nobody waits any more: the item is lost
      else none
  | .cancel g => match s.objs.get? g with
    | none => none
    | some p =>
      if g ∈ s.waiting then
        some { s with objs := s.objs.set g (interrupted p), waiting := s.waiting.filter (· ≠ g), log := s.log ++ [(g, .cancelled)] }
      else none
  | .destroy g => if free stateless s then some { s with table := s.table.filter (· ≠ g) } else none

inductive Run (stateless : Bool) : List Label → St → Prop
  | init : Run stateless [] init
  | snoc {ls l s s'} : Run stateless ls s → step stateless s l = some s' → Run stateless (ls ++ [l]) s'

/-! ## The wrapper handed to the consumer (330-365) -/

/-- the wrappers of one generator, in all processes; true: `_gc_destroy` -/
abbrev Wraps := List Bool

inductive WLabel where
  /-- wrapper number `i` is pickled and unpickled elsewhere (`__getstate__`, 360-365) -/
  | send (i : Nat)
  deriving DecidableEq, Repr

def wstep (w : Wraps) : WLabel → Option Wraps
  | .send i => if i < w.length then some (w.set i false ++ [true]) else none

/-- collecting wrapper `i` destroys the generator (349-358) -/
def destroysOnGc (w : Wraps) (i : Nat) : Bool := w[i]?.getD false

inductive WRun : List WLabel → Wraps → Prop
  | init : WRun [] [true]
  | snoc {ls l s s'} : WRun ls s → wstep s l = some s' → WRun (ls ++ [l]) s'

end Xoscar.Gen
