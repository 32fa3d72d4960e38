import Verif.Model.Base
/-!
# Starting a sub pool's process

`python/xoscar/backends/indigen/pool.py` 62-77, 165-339 (`_create_sub_pool_from_parent`, `_start_sub_pool_in_child`,
`_create_sub_pool`) and `backends/indigen/fate_sharing.py` 146-160, 185-221 (`preexec_fn`, `create_subprocess_exec`), on POSIX: the two
processes, the shared memory segment between them and what the operating system does, as a transition system.  The bytes in the segment
are the business of `Model/Shm` (C09): here it holds nothing, the parameters, or the result.

Left out: Windows, pid reuse (C71), failures of the operating system other than those named.
-/
namespace Xoscar.Spawn

/-- the parameters of a sub pool (configuration, index, pid of the main pool), by name -/
abbrev Conf := Nat
/-- the sub pool's addresses, by name -/
abbrev Addr := Nat

/-- what does not change: the platform and the length of pickled parameters -/
structure Sys where
  linux : Bool
  size : Conf → Nat

/-- what the segment holds -/
inductive Content where
  | empty
  | params (c : Conf)
  | result (a : Addr)
  deriving DecidableEq, Repr

/-- how `_create_sub_pool_from_parent` ended: with the addresses; OSError "Start sub pool failed" (pool.py:337-338); CancelledError;
AssertionError "too long" (pool.py:64-66); SubprocessError because preexec_fn failed -/
inductive Outcome where
  | ok (a : Addr)
  | osError
  | cancelled
  | tooLong
  | preexecFailed
  deriving DecidableEq, Repr

/-- where the starting coroutine is: before anything; parameters put (pool.py:276-285); in `create_subprocess_exec` (307); in
`asyncio.wait` (325-331); past it (332-336); ended; the main process dead -/
inductive Parent where
  | fresh | put | forking | waiting | closing | done | dead
  deriving DecidableEq, Repr

/-- the child: not there; forked, before `preexec_fn`; running Python; parameters read (pool.py:174); servers started (260); result put
(261); ended -/
inductive Child where
  | none
  | forked
  | started
  | attached (c : Conf)
  | up (c : Conf) (a : Addr)
  | reported (c : Conf) (a : Addr)
  | ended
  deriving DecidableEq, Repr

/-- there is a process -/
def Child.runs : Child → Bool
  | .none => false
  | .ended => false
  | _ => true

/-- the state of one start -/
structure St where
  parent : Parent := .fresh
  given : Option Conf := none
  outcome : Option Outcome := none
  /-- the thread that forked -/
  thread : Bool := true
  linked : Bool := false
  content : Content := .empty
  /-- `external_addresses` of pool.py:272, written by the polling thread -/
  read : Option Addr := none
  child : Child := .none
  /-- PR_SET_PDEATHSIG in force -/
  armed : Bool := false
  /-- SIGINT blocked in the child -/
  blocked : Bool := false
  deriving DecidableEq, Repr

/-- what happens -/
inductive Label where
  | put (c : Conf) | fork | preexec | preexecFails | execed
  | attach | listen (a : Addr) | report | exit | watch
  | poll | wake | decide | cancel
  | die | threadEnds | sigint
  deriving DecidableEq, Repr

/-- SIGKILL to the child -/
def St.kill (s : St) : St := { s with child := if s.child.runs then .ended else s.child }

/-- pool.py:337-339 -/
def verdict : Option Addr → Outcome
  | some a => .ok a
  | none => .osError

/-- one step; `none` when it cannot happen -/
def step (sys : Sys) (s : St) : Label → Option St
  -- pool.py:273-285 with 62-69: the segment is made; what does not fit raises, and the segment goes (334-336)
  | .put c => if s.parent = .fresh then
      if sys.size c < 10240 - 8 then some { s with parent := .put, given := some c, linked := true, content := .params c }
      else some { s with parent := .done, given := some c, outcome := some .tooLong, linked := false }
    else none
  -- pool.py:307: the child begins
  | .fork => if s.parent = .put then some { s with parent := .forking, child := .forked } else none
  -- fate_sharing.py:185-190: in the child, before exec; the signal is for the death of the parent thread, if it still lives
  | .preexec => if s.child = .forked then
      some { s with child := .started, blocked := true, armed := sys.linux && s.thread } else none
  -- fate_sharing.py:151-160 raising
  | .preexecFails => if s.child = .forked ∧ s.parent = .forking ∧ sys.linux then
      some { s with child := .ended, parent := .done, outcome := some .preexecFailed, linked := false } else none
  | .execed => if s.parent = .forking ∧ s.child ≠ .forked then some { s with parent := .waiting } else none
  -- pool.py:172-174: by name; anything but parameters there makes `config.pop` raise
  | .attach => if s.child = .started then
      if s.linked then
        match s.content with
        | .params c => some { s with child := .attached c }
        | _ => some { s with child := .ended }
      else some { s with child := .ended }
    else none
  -- pool.py:253-260
  | .listen a => match s.child with
    | .attached c => some { s with child := .up c a }
    | _ => none
  -- pool.py:261
  | .report => match s.child with
    | .up c a => some { s with child := .reported c a, content := .result a }
    | _ => none
  -- the child fails or is killed
  | .exit => if s.child.runs && s.child ≠ .forked then some { s with child := .ended } else none
  -- pool.py:188-203 `_check_ppid`
  | .watch => match s.child with
    | .attached _ | .up _ _ | .reported _ _ => if s.parent = .dead then some { s with child := .ended } else none
    | _ => none
  -- pool.py:309-323, in its thread
  | .poll => if s.parent = .waiting ∨ s.parent = .closing then
      match s.content with
      | .result a => some { s with read := some a }
      | _ => some s
    else none
  -- pool.py:325-336: the first of the two is done; the segment is closed and unlinked
  | .wake => if s.parent = .waiting ∧ (s.child = .ended ∨ s.read ≠ none) then
      some { s with parent := .closing, linked := false } else none
  -- pool.py:337-339
  | .decide => if s.parent = .closing then
      some { s with parent := .done, outcome := some (verdict s.read) } else none
  -- the starting task is cancelled: `finally` only
  | .cancel => if s.parent = .waiting then
      some { s with parent := .done, outcome := some .cancelled, linked := false } else none
  -- the main process dies, with all its threads
  | .die => if s.parent = .dead then none
    else
      let s := { s with parent := .dead, thread := false }
      some (if s.armed then s.kill else s)
  -- the thread whose event loop started the child ends; the main process goes on
  | .threadEnds => if s.thread = true ∧ s.parent = .done then
      let s := { s with thread := false }
      some (if s.armed then s.kill else s)
    else none
  -- Ctrl-C, or SIGINT sent to the sub pool
  | .sigint => if s.child.runs && !s.blocked then some { s with child := .ended } else some s

/-- a history of one start -/
inductive Run (sys : Sys) : List Label → St → Prop where
  | nil : Run sys [] {}
  | snoc {ls s l s'} : Run sys ls s → step sys s l = some s' → Run sys (ls ++ [l]) s'

end Xoscar.Spawn
