import Verif.Model.CopyTo
/-!
# Buffer and file object references: core.pyx:591-664, context.pyx:182-213, 324-352, backends/context.py:353-437, backends/pool.py:526-536

Uids and processes are numbers.  An object is a number too; two objects that exist at different times have different numbers.
-/
namespace Xoscar.Refs
open Xoscar.CopyTo (Bytes Entry)

abbrev Addr := String
abbrev Uid := Nat
abbrev Obj := Nat
abbrev Pid := Nat

/-- the two reference classes, `BufferRef` and `FileObjectRef` -/
inductive Kind where
  | buffer | file
  deriving DecidableEq, Repr

/-- A reference: core.pyx:597-599, 636-638.  It consists of these parts wherever it is sent (`__getstate__`, `__setstate__`:
core.pyx:611-615, 650-654), and is compared by them (core.pyx:617-623, 656-662). -/
structure Ref where
  kind : Kind
  addr : Addr
  uid : Uid
  deriving DecidableEq, Repr

/-- The two `WeakValueDictionary`s of a process (class attributes), core.pyx:595, 634. -/
structure Registry where
  buffers : Dict (Addr × Uid) Obj := []
  files : Dict (Addr × Uid) Obj := []
  deriving Repr

/-- the registries of all processes -/
abbrev State := Pid → Registry

inductive Created where
  | ref (r : Ref)
  | typeError
  deriving DecidableEq, Repr

/-- `BufferRef.create` core.pyx:601-605 (called by `buffer_ref`, context.pyx:197 with a new random uid) and `FileObjectRef.create`
core.pyx:640-644 (context.pyx:214).  Objects whose type has no weak references (bytes, bytearray, list ...) are refused by the
`WeakValueDictionary`. -/
def create (weakly : Obj → Bool) (s : State) (p : Pid) (k : Kind) (a : Addr) (u : Uid) (o : Obj) : State × Created :=
  if weakly o then
    (fun q => if q = p then
        match k with
        | .buffer => { s p with buffers := (s p).buffers.set (a, u) o }
        | .file => { s p with files := (s p).files.set (a, u) o }
      else s q, .ref ⟨k, a, u⟩)
  else (s, .typeError)

/-- The last strong reference to an object of process `p` goes away: its entries leave both dictionaries (CPython,
`WeakValueDictionary`'s `remove` callback). -/
def die (s : State) (p : Pid) (o : Obj) : State := fun q =>
  if q = p then
    { buffers := (s p).buffers.filter (fun e => e.2 != o), files := (s p).files.filter (fun e => e.2 != o) }
  else s q

inductive Event where
  /-- `buffer_ref(a, o)` or `file_object_ref(a, o)` in process `p`, with `u` as the new id -/
  | create (p : Pid) (k : Kind) (a : Addr) (u : Uid) (o : Obj)
  | die (p : Pid) (o : Obj)
  deriving DecidableEq, Repr

def step (weakly : Obj → Bool) (s : State) : Event → State
  | .create p k a u o => (create weakly s p k a u o).1
  | .die p o => die s p o

def run (weakly : Obj → Bool) (s : State) (es : List Event) : State := es.foldl (step weakly) s

def empty : State := fun _ => {}

/-- `BufferRef.get_buffer` core.pyx:607-609, `FileObjectRef.get_local_file_object` core.pyx:646-648; `none` is KeyError -/
def lookup (s : State) (p : Pid) (r : Ref) : Option Obj :=
  match r.kind with
  | .buffer => (s p).buffers.get? (r.addr, r.uid)
  | .file => (s p).files.get? (r.addr, r.uid)

/-- the contents of all buffers and files -/
abbrev Heap := Obj → Bytes

def Heap.put (h : Heap) (o : Obj) (b : Bytes) : Heap := fun o' => if o' = o then b else h o'

/-- `handle_copy_to_buffers_message`, pool.py:526-530, in process `p`; each entry's address is `a` (see `Entry`).  KeyError when the
reference leads nowhere, ValueError when slice and data differ in length; either ends the handler, with an error reply. -/
def handleBuffers (s : State) (p : Pid) (a : Addr) (h : Heap) : List Entry → Heap × Bool
  | [] => (h, true)
  | e :: es => match lookup s p ⟨.buffer, a, e.uid⟩ with
    | none => (h, false)
    | some o =>
      if (min (e.start + e.len) (h o).length) - (min e.start (h o).length) = e.data.length then
        handleBuffers s p a (h.put o ((h o).take e.start ++ e.data ++ (h o).drop (e.start + e.len))) es
      else (h, false)

/-- `handle_copy_to_fileobjs_message`, pool.py:532-536 -/
def handleFiles (s : State) (p : Pid) (a : Addr) (h : Heap) : List (Uid × Bytes) → Heap × Bool
  | [] => (h, true)
  | e :: es => match lookup s p ⟨.file, a, e.1⟩ with
    | none => (h, false)
    | some o => handleFiles s p a (h.put o (h o ++ e.2)) es

/-- an element of `local_buffers_or_fileobjs`: a buffer, or a file given by the results of `read(block_size)` until it returns nothing -/
inductive Source where
  | buffer (b : Bytes)
  | file (reads : List Bytes)
  deriving DecidableEq, Repr

inductive Result where
  | returned
  | valueError
  | assertError
  /-- a file object has no `len()`: context.py:376 -/
  | typeError
  /-- a buffer has no `read`: context.py:420 -/
  | attributeError
  /-- nobody listens at the address -/
  | noConnection
  deriving DecidableEq, Repr

/-- the leading pairs whose local part is a buffer, with the uid of the remote part -/
def leadingBuffers : List (Source × Ref) → List (Uid × Bytes)
  | (.buffer b, r) :: xs => (r.uid, b) :: leadingBuffers xs
  | _ => []

def leadingFiles : List (Source × Ref) → List (Uid × List Bytes)
  | (.file ds, r) :: xs => (r.uid, ds) :: leadingFiles xs
  | _ => []

/-- `copy_to_buffers` without UCX, context.py:353-405: an element without `len()` ends the loop with TypeError; full blocks have been
sent by then, the last one has not.  Replies are not looked at. -/
def copyBuffers (s : State) (p : Pid) (a : Addr) (bs : Nat) (xs : List (Source × Ref)) (h : Heap) : Heap × Result :=
  let good := leadingBuffers xs
  if good.length = xs.length then
    ((CopyTo.blocks bs good).foldl (fun h b => (handleBuffers s p a h b).1) h, .returned)
  else
    ((good.foldl (CopyTo.addBuf bs) ⟨0, [], []⟩).sent.foldl (fun h b => (handleBuffers s p a h b).1) h, .typeError)

/-- `copy_to_fileobjs`, context.py:407-437: an element without `read` ends the loop with AttributeError. -/
def copyFiles (s : State) (p : Pid) (a : Addr) (bs : Nat) (xs : List (Source × Ref)) (h : Heap) : Heap × Result :=
  let good := leadingFiles xs
  if good.length = xs.length then
    ((CopyTo.fileBlocks bs good).foldl (fun h b => (handleFiles s p a h b).1) h, .returned)
  else
    ((good.foldl (CopyTo.addFile bs) ⟨[], 0, []⟩).sent.foldl (fun h b => (handleFiles s p a h b).1) h, .attributeError)

/-- `ClientActorContext.copy_to`, context.pyx:332-352: the checks, then one of the two functions by the kind of the first reference.
`pools a` is the process that listens at address `a`.  The connection does not break meanwhile (that case is C12). -/
def copyTo (pools : Addr → Option Pid) (s : State) (locals : List Source) (refs : List Ref) (block : Option Int) (h : Heap) :
    Heap × Result :=
  match CopyTo.check locals.length (refs.map (·.addr)) block, refs with
  | .valueError, _ => (h, .valueError)
  | .assertError, _ => (h, .assertError)
  | .ok, [] => (h, .valueError)
  | .ok, r :: _ =>
    match pools r.addr with
    | none => (h, .noConnection)
    | some p =>
      let bs := CopyTo.effBlock (block.map Int.toNat)
      match r.kind with
      | .buffer => copyBuffers s p r.addr bs (locals.zip refs) h
      | .file => copyFiles s p r.addr bs (locals.zip refs) h

end Xoscar.Refs
