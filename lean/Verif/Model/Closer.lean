import Verif.Model.Base
/-!
# Closing the connections of ended threads: backends/core.py:224-237, 239-353

Any number of threads that called actors end, in any interleaving.  When a thread ends, the finalizer of its `_RefHolder` runs in it
(core.py:341-351), one step per statement.  A caller stands for the `ActorCallerThreadLocal` of an ended thread.
Simplified: `actor_caller.stop()` closes all connections of the caller in one step (C76 has the connections).
Left out: the end of the process (`_cleanup`, atexit), tasks cancelled by `_cancel_all_tasks`.
-/
namespace Xoscar.Closer

abbrev Caller := Nat
abbrev Loop := Nat
abbrev Thr := Nat

/-- where the finalizer of a caller stands -/
inductive Pc where
  /-- `if not cls._initialized` (core.py:309) -/
  | check
  /-- `cls._close_loop = asyncio.new_event_loop()` (310) -/
  | mkLoop
  /-- `cls._close_thread = threading.Thread(..., args=(cls._close_loop,))` (311-313) -/
  | mkThread
  /-- `cls._close_thread.start()` (314) -/
  | start
  /-- `cls._initialized = True` (316) -/
  | setInit
  /-- `asyncio.run_coroutine_threadsafe(actor_caller.stop(), self._close_loop)` (345) -/
  | submit
  | done
  /-- the finalizer ended with an exception -/
  | failed
  deriving DecidableEq, Repr

inductive Phase where
  | created | started | running | ended
  deriving DecidableEq, Repr

/-- a close thread and the loop it is to run -/
structure Th where
  loop : Loop
  phase : Phase
  deriving DecidableEq, Repr

/-- an event loop -/
structure Lp where
  running : Bool
  /-- `loop.stop()` was called -/
  stopping : Bool
  jobs : List Caller
  deriving DecidableEq, Repr

structure St where
  initialized : Bool
  closeLoop : Option Loop
  closeThread : Option Thr
  loops : Dict Loop Lp
  threads : Dict Thr Th
  pcs : Dict Caller Pc
  nextLoop : Loop
  nextThr : Thr
  /-- the callers whose connections have been closed -/
  closed : List Caller
  deriving Repr

def init : St := ⟨false, none, none, [], [], [], 0, 0, []⟩

inductive Label where
  /-- a thread that called actors ends -/
  | threadEnds (c : Caller)
  /-- the next statement of the finalizer -/
  | adv (c : Caller)
  /-- a close thread gets to `loop.run_forever()` -/
  | run (t : Thr)
  /-- a loop runs its next job -/
  | job (l : Loop)
  /-- a loop that was told to stop stops; `_safe_run_forever` ends -/
  | stops (t : Thr)
  deriving DecidableEq, Repr

def setPc (s : St) (c : Caller) (p : Pc) : St := { s with pcs := s.pcs.set c p }

/-- one statement of the finalizer -/
def adv (s : St) (c : Caller) : Pc → Option St
  | .check => some (setPc s c (if s.initialized then .submit else .mkLoop))
  | .mkLoop => some { setPc s c .mkThread with loops := s.loops.set s.nextLoop ⟨false, false, []⟩, closeLoop := some s.nextLoop,
                                               nextLoop := s.nextLoop + 1 }
  | .mkThread => match s.closeLoop with
    | none => none
    | some l => some { setPc s c .start with threads := s.threads.set s.nextThr ⟨l, .created⟩, closeThread := some s.nextThr,
                                             nextThr := s.nextThr + 1 }
  | .start => match s.closeThread with
    | none => none
    | some t => match s.threads.get? t with
      | none => none
      | some x => if x.phase = .created then some { setPc s c .setInit with threads := s.threads.set t { x with phase := .started } }
        else some (setPc s c .failed)                                        -- RuntimeError: threads can only be started once
  | .setInit => some { setPc s c .submit with initialized := true }
  | .submit => match s.closeLoop with
    | none => none
    | some l => match s.loops.get? l with
      | none => none
      | some x => some { setPc s c .done with loops := s.loops.set l { x with jobs := x.jobs ++ [c] } }
  | .done => none
  | .failed => none

def step (s : St) : Label → Option St
  | .threadEnds c => match s.pcs.get? c with
    | none => some (setPc s c .check)
    | some _ => none
  | .adv c => match s.pcs.get? c with
    | none => none
    | some p => adv s c p
  | .run t => match s.threads.get? t with
    | none => none
    | some x => match s.loops.get? x.loop with
      | none => none
      | some l =>
        if x.phase = .started then
          if l.running then                                                  -- RuntimeError: already running; 286-292
            some { s with threads := s.threads.set t { x with phase := .ended }, loops := s.loops.set x.loop { l with stopping := true } }
          else some { s with threads := s.threads.set t { x with phase := .running }, loops := s.loops.set x.loop { l with running := true } }
        else none
  | .job l => match s.loops.get? l with
    | none => none
    | some x =>
      if x.running then match x.jobs with
        | [] => none
        | c :: rest => some { s with loops := s.loops.set l { x with jobs := rest }, closed := s.closed ++ [c] }
      else none
  | .stops t => match s.threads.get? t with
    | none => none
    | some x => match s.loops.get? x.loop with
      | none => none
      | some l =>
        if x.phase = .running ∧ l.stopping = true then
          some { s with threads := s.threads.set t { x with phase := .ended }, loops := s.loops.set x.loop { l with running := false } }
        else none

inductive Run : List Label → St → Prop
  | init : Run [] init
  | snoc {ls : List Label} {l : Label} {s s' : St} : Run ls s → step s l = some s' → Run (ls ++ [l]) s'

end Xoscar.Closer
