import Verif.Model.Base
/-!
# Cancelling an installation

`python/xoscar/virtualenv/uv.py` 43-46, 238-319 (`install_packages` from the first command on, `cancel_install`): any number of threads that
install and any number that cancel, on one manager, and the processes they start, as a transition system whose steps are the reads and
writes of `self._install_process` and the calls of `subprocess`.  What is installed is the business of `Model/Plan` (C65).

Left out: KeyboardInterrupt and other asynchronous exceptions; a process that cannot be signalled.
-/
namespace Xoscar.Uv

/-- a process -/
abbrev Pid := Nat
/-- a call of `install_packages` or `cancel_install` -/
abbrev Call := Nat

/-- where a call of `install_packages` is: not begun; in the dry run of `skip_installed` (uv.py:266, with 137); before `Popen`; process
started, not yet in `self._install_process` (306 or 310); waiting for it (307 or the end of the `with`); past that, 312; returned;
raised CalledProcessError (314); ended without a process of its own (nothing to install, dry run failed, uv not found) -/
inductive Install where
  | fresh | resolving | ready
  | started (p : Pid)
  | waiting (p : Pid)
  | waited (p : Pid) (rc : Int)
  | returned
  | raised (rc : Int)
  | nothing
  deriving DecidableEq, Repr

/-- where a call of `cancel_install` is: not begun; past the truth test (317); past `poll` (317); past `terminate` (318); in `wait` (319);
returned because there was no installation; because its process had ended; after waiting; raised AttributeError ('NoneType' object
has no attribute) -/
inductive Cancel where
  | fresh | checked | polled | termed
  | waiting (p : Pid)
  | idle | finished | stopped | failed
  deriving DecidableEq, Repr

/-- the state of one manager and its processes -/
structure St where
  /-- `self._install_process` (uv.py:46) -/
  slot : Option Pid := none
  inst : Call → Install := fun _ => .fresh
  canc : Call → Cancel := fun _ => .fresh
  /-- number of processes started so far -/
  procs : Nat := 0
  /-- exit status -/
  code : Pid → Option Int := fun _ => none

/-- what happens -/
inductive Label where
  /-- `install_packages` begins, with or without `skip_installed` -/
  | begin (i : Call) (skip : Bool)
  /-- the dry run is over, with something to install or not -/
  | resolve (i : Call) (more : Bool)
  | spawn (i : Call) (p : Pid)
  | spawnFails (i : Call)
  | record (i : Call) (p : Pid)
  | waited (i : Call)
  /-- uv.py:312-314 -/
  | leave (i : Call)
  | check (c : Call) | poll (c : Call)
  /-- SIGTERM to a process -/
  | term (c : Call) (p : Pid)
  | termFails (c : Call)
  | wait (c : Call) | over (c : Call)
  | exit (p : Pid) (rc : Int)
  deriving DecidableEq, Repr

/-- replace one value of a function -/
def upd {β : Type} (f : Nat → β) (k : Nat) (v : β) : Nat → β := fun x => if x = k then v else f x

/-- uv.py:313-314 -/
def result (rc : Int) : Install := if rc ≠ 0 then .raised rc else .returned

/-- one step; `none` when it cannot happen -/
def step (s : St) : Label → Option St
  -- uv.py:262-266
  | .begin i skip => if s.inst i = .fresh then
      some { s with inst := upd s.inst i (if skip then .resolving else .ready) } else none
  -- uv.py:266-269: `subprocess.run`, which nobody else can see
  | .resolve i more => if s.inst i = .resolving then
      some { s with inst := upd s.inst i (if more then .ready else .nothing) } else none
  -- `subprocess.Popen` (uv.py:306; utils.py:61): a new process
  | .spawn i p => if s.inst i = .ready ∧ p = s.procs then
      some { s with inst := upd s.inst i (.started p), procs := s.procs + 1 } else none
  | .spawnFails i => if s.inst i = .ready then some { s with inst := upd s.inst i .nothing } else none
  -- uv.py:306, 310
  | .record i p => if s.inst i = .started p then
      some { s with inst := upd s.inst i (.waiting p), slot := some p } else none
  -- uv.py:307; utils.py:86
  | .waited i => match s.inst i with
    | .waiting p =>
      match s.code p with
      | some rc => some { s with inst := upd s.inst i (.waited p rc) }
      | none => none
    | _ => none
  -- uv.py:312-314
  | .leave i => match s.inst i with
    | .waited _ rc => some { s with inst := upd s.inst i (result rc), slot := none }
    | _ => none
  -- uv.py:317, `if self._install_process`
  | .check c => if s.canc c = .fresh then
      match s.slot with
      | none => some { s with canc := upd s.canc c .idle }
      | some _ => some { s with canc := upd s.canc c .checked }
    else none
  -- uv.py:317, `self._install_process.poll() is None`
  | .poll c => if s.canc c = .checked then
      match s.slot with
      | none => some { s with canc := upd s.canc c .failed }
      | some p =>
        match s.code p with
        | some _ => some { s with canc := upd s.canc c .finished }
        | none => some { s with canc := upd s.canc c .polled }
    else none
  -- uv.py:318
  | .term c p => if s.canc c = .polled ∧ s.slot = some p then
      some { s with canc := upd s.canc c .termed } else none
  | .termFails c => if s.canc c = .polled ∧ s.slot = none then
      some { s with canc := upd s.canc c .failed } else none
  -- uv.py:319
  | .wait c => if s.canc c = .termed then
      match s.slot with
      | none => some { s with canc := upd s.canc c .failed }
      | some p => some { s with canc := upd s.canc c (.waiting p) }
    else none
  | .over c => match s.canc c with
    | .waiting p =>
      match s.code p with
      | some _ => some { s with canc := upd s.canc c .stopped }
      | none => none
    | _ => none
  -- the process ends, by itself or because of a signal
  | .exit p rc => if p < s.procs ∧ s.code p = none then
      some { s with code := upd s.code p (some rc) } else none

/-- the histories of a manager -/
inductive Run : List Label → St → Prop where
  | nil : Run [] {}
  | snoc {ls : List Label} {s : St} {l : Label} {s' : St} : Run ls s → step s l = some s' → Run (ls ++ [l]) s'

end Xoscar.Uv
