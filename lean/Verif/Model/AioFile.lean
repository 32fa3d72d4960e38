import Verif.Model.Base
/-!
# Asynchronous file objects: aio/file.py, aio/base.py

The file is a byte file with a position, as Python's (buffered) binary files; its operations are atomic (they hold the file's lock).
The operations run in an executor with any number of threads.
Simplified: of the operations of a file those that read, write and move the position are modelled (`read1`, `readinto` are `read`; `readlines`,
`writelines` are sequences); `isatty`, `seekable`, `writable`, `flush` are left out.
-/
namespace Xoscar.AioFile

abbrev Byte := Nat
def newline : Byte := 10

structure File where
  data : List Byte
  pos : Nat
  closed : Bool
  deriving DecidableEq, Repr

inductive Op where
  /-- `none`: to the end -/
  | read (n : Option Nat)
  | readline
  | write (bs : List Byte)
  | seek (p : Nat)
  | tell
  | truncate (n : Nat)
  | close
  deriving DecidableEq, Repr

inductive Res where
  | bytes (bs : List Byte)
  | num (n : Nat)
  | none
  /-- ValueError: I/O operation on closed file -/
  | closedFile
  /-- AttributeError: 'NoneType' object has no attribute … -/
  | noFile
  deriving DecidableEq, Repr

/-- the first line, with its newline if there is one (Python's `readline`) -/
def line : List Byte → List Byte
  | [] => []
  | b :: bs => if b = newline then [b] else b :: line bs

/-- the operations on a closed file: closing it again is allowed -/
def onClosed : Op → Res
  | .close => .none
  | _ => .closedFile

/-- Python's file operations -/
def apply (f : File) (op : Op) : File × Res :=
  if f.closed then (f, onClosed op)
  else match op with
    | .read n =>
      let bs := match n with | some n => (f.data.drop f.pos).take n | Option.none => f.data.drop f.pos
      ({ f with pos := f.pos + bs.length }, .bytes bs)
    | .readline => ({ f with pos := f.pos + (line (f.data.drop f.pos)).length }, .bytes (line (f.data.drop f.pos)))
    | .write bs =>
      if bs = [] then (f, .num 0)
      else ({ f with data := f.data.take f.pos ++ List.replicate (f.pos - f.data.length) 0 ++ bs ++ f.data.drop (f.pos + bs.length),
                     pos := f.pos + bs.length }, .num bs.length)
    | .seek p => ({ f with pos := p }, .num p)
    | .tell => (f, .num f.pos)
    | .truncate n => ({ f with data := f.data.take n ++ List.replicate (n - f.data.length) 0 }, .num n)
    | .close => ({ f with closed := true }, .none)

abbrev Task := Nat

inductive Phase where
  /-- in the executor's queue -/
  | queued
  /-- a thread of the executor is about to do it -/
  | running
  | done (r : Res)
  deriving DecidableEq, Repr

structure Job where
  op : Op
  phase : Phase
  deriving DecidableEq, Repr

structure St where
  file : File
  /-- `_file` is not None -/
  hasFile : Bool
  /-- the call each task waits for -/
  jobs : Dict Task Job
  /-- operations of cancelled tasks still running -/
  lost : List Op
  /-- what the tasks were given -/
  results : List (Task × Op × Res)
  /-- ghost: the operations done, in order -/
  log : List (Op × Res)
  deriving Repr

def init (f : File) : St := ⟨f, true, [], [], [], []⟩

inductive Label where
  /-- a task calls a method (base.py:23-28) -/
  | call (t : Task) (op : Op)
  /-- a thread of the executor takes the call -/
  | start (t : Task)
  /-- … and does it -/
  | exec (t : Task)
  /-- the task goes on with the result -/
  | deliver (t : Task)
  /-- the task is cancelled -/
  | cancel (t : Task)
  /-- an operation nobody waits for is done -/
  | execLost
  /-- the end of `__aexit__`, file.py:57-59, after its `close` -/
  | forget
  deriving DecidableEq, Repr

def step (s : St) : Label → Option St
  | .call t op => match s.jobs.get? t with
    | some _ => none
    | none =>
      if s.hasFile then some { s with jobs := s.jobs.set t ⟨op, .queued⟩ }
      else some { s with results := s.results ++ [(t, op, .noFile)] }        -- getattr(None, attr), base.py:25
  | .start t => match s.jobs.get? t with
    | some ⟨op, .queued⟩ => some { s with jobs := s.jobs.set t ⟨op, .running⟩ }
    | _ => none
  | .exec t => match s.jobs.get? t with
    | some ⟨op, .running⟩ => some { s with file := (apply s.file op).1, jobs := s.jobs.set t ⟨op, .done (apply s.file op).2⟩,
                                           log := s.log ++ [(op, (apply s.file op).2)] }
    | _ => none
  | .deliver t => match s.jobs.get? t with
    | some ⟨op, .done r⟩ => some { s with jobs := s.jobs.erase t, results := s.results ++ [(t, op, r)] }
    | _ => none
  | .cancel t => match s.jobs.get? t with
    | some ⟨_, .queued⟩ => some { s with jobs := s.jobs.erase t }            -- the executor never does it
    | some ⟨op, .running⟩ => some { s with jobs := s.jobs.erase t, lost := s.lost ++ [op] }
    | some ⟨_, .done _⟩ => some { s with jobs := s.jobs.erase t }
    | _ => none
  | .execLost => match s.lost with
    | [] => none
    | op :: rest => some { s with file := (apply s.file op).1, lost := rest, log := s.log ++ [(op, (apply s.file op).2)] }
  | .forget => some { s with hasFile := false }

inductive Run (f : File) : List Label → St → Prop
  | init : Run f [] (init f)
  | snoc {ls : List Label} {l : Label} {s s' : St} : Run f ls s → step s l = some s' → Run f (ls ++ [l]) s'

/-- a task alone: call, wait for the executor, go on -/
def alone (t : Task) (op : Op) : List Label := [.call t op, .start t, .exec t, .deliver t]

/-- `__anext__`, file.py:46-52: `none` is StopAsyncIteration -/
def anext : Res → Option (List Byte)
  | .bytes [] => Option.none
  | .bytes bs => some bs
  | _ => Option.none

end Xoscar.AioFile
